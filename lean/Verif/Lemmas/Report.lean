import Verif.Spec.Report
import Verif.Lemmas.Semantics
import Mathlib.Tactic.Linarith
import Mathlib.Tactic.FieldSimp
import Mathlib.Tactic.Ring
import Mathlib.Tactic.Positivity
import Mathlib.Tactic.NormNum
/-!
# Lemmas on printed summaries
-/

namespace Pynare

set_option linter.unusedSectionVars false

/-! ### texts -/

theorem lineWords_append_blank (a b : Txt) : lineWords (a ++ ' ' :: b) = lineWords a ++ lineWords b := by
  unfold lineWords
  rw [List.splitOn_append_cons_self, List.filter_append]

theorem lineWords_nil : lineWords [] = [] := by simp [lineWords]

theorem lineWords_blank (b : Txt) : lineWords (' ' :: b) = lineWords b := by
  have := lineWords_append_blank [] b
  simpa [lineWords_nil] using this

theorem lineWords_blanks (k : ℕ) (b : Txt) : lineWords (List.replicate k ' ' ++ b) = lineWords b := by
  induction k with
  | zero => rfl
  | succ k ih => rw [List.replicate_succ, List.cons_append, lineWords_blank, ih]

theorem lineWords_word {t : Txt} (h0 : t ≠ []) (h : ' ' ∉ t) : lineWords t = [t] := by
  unfold lineWords
  rw [List.splitOn_eq_singleton h]
  simp [h0]

theorem lineWords_blanks_right (a : Txt) (k : ℕ) : lineWords (a ++ List.replicate k ' ') = lineWords a := by
  induction k generalizing a with
  | zero => simp
  | succ k ih =>
    rw [List.replicate_succ, lineWords_append_blank]
    have := lineWords_blanks k []
    rw [List.append_nil] at this
    rw [this, lineWords_nil, List.append_nil]

theorem lineWords_rjust (w : ℕ) (t : Txt) : lineWords (rjust w t) = lineWords t := lineWords_blanks _ _

theorem lineWords_ljust (w : ℕ) (t : Txt) : lineWords (ljust w t) = lineWords t := lineWords_blanks_right _ _

/-- a line that begins with a padded name -/
theorem lineWords_ljust_append {w : ℕ} {t : Txt} (h : t.length < w) (b : Txt) :
    lineWords (ljust w t ++ b) = lineWords t ++ lineWords b := by
  unfold ljust
  obtain ⟨k, hk⟩ : ∃ k, w - t.length = k + 1 := ⟨w - t.length - 1, by omega⟩
  rw [hk, List.replicate_succ, List.append_assoc, List.cons_append, lineWords_append_blank, lineWords_blanks]

theorem joinTxt_nil (sep : Txt) : joinTxt sep [] = [] := rfl

theorem joinTxt_one (sep a : Txt) : joinTxt sep [a] = a := by simp [joinTxt, List.intercalate]

theorem joinTxt_cons (sep a b : Txt) (l : List Txt) : joinTxt sep (a :: b :: l) = a ++ sep ++ joinTxt sep (b :: l) := by
  simp [joinTxt, List.intercalate]

theorem lineWords_join (ts : List Txt) : lineWords (joinTxt [' '] ts) = ts.flatMap lineWords := by
  induction ts with
  | nil => rw [joinTxt_nil, lineWords_nil]; rfl
  | cons a ts ih =>
    cases ts with
    | nil => rw [joinTxt_one]; simp
    | cons b ts =>
      rw [joinTxt_cons, List.append_assoc, List.singleton_append, lineWords_append_blank, ih]
      rfl

theorem linesOf_join {sep : Txt} (hs : '\n' ∉ sep) : ∀ (a : Txt) (ts : List Txt), (∀ t ∈ a :: ts, '\n' ∉ t) →
    linesOf (joinTxt ('\n' :: sep) (a :: ts)) = a :: ts.map (sep ++ ·)
  | a, [], h => by
    rw [joinTxt_one]
    exact List.splitOn_eq_singleton (h a (by simp))
  | a, b :: ts, h => by
    rw [joinTxt_cons, List.append_assoc]
    have : joinTxt ('\n' :: sep) (b :: ts) = joinTxt ('\n' :: sep) (b :: ts) := rfl
    have ih := linesOf_join hs (sep ++ b) ts (by
      intro t ht
      rcases List.mem_cons.1 ht with rfl | ht
      · intro hm
        rcases List.mem_append.1 hm with hm | hm
        · exact hs hm
        · exact h b (by simp) hm
      · exact h t (by simp [ht]))
    have e : sep ++ joinTxt ('\n' :: sep) (b :: ts) = joinTxt ('\n' :: sep) ((sep ++ b) :: ts) := by
      cases ts with
      | nil => rw [joinTxt_one, joinTxt_one]
      | cons c ts => rw [joinTxt_cons, joinTxt_cons]; simp
    unfold linesOf
    rw [List.cons_append, List.splitOn_append_cons_self_of_not_mem (h a (by simp)), e]
    rw [show List.splitOn '\n' (joinTxt ('\n' :: sep) ((sep ++ b) :: ts)) = _ from ih]
    rfl

theorem not_mem_replicate_blank (k : ℕ) : '\n' ∉ List.replicate k ' ' := by
  intro h
  have := List.eq_of_mem_replicate h
  revert this
  decide

theorem newline_rjust {w : ℕ} {t : Txt} (h : '\n' ∉ t) : '\n' ∉ rjust w t := by
  unfold rjust
  intro hm
  rcases List.mem_append.1 hm with hm | hm
  · exact not_mem_replicate_blank _ hm
  · exact h hm

theorem newline_ljust {w : ℕ} {t : Txt} (h : '\n' ∉ t) : '\n' ∉ ljust w t := by
  unfold ljust
  intro hm
  rcases List.mem_append.1 hm with hm | hm
  · exact h hm
  · exact not_mem_replicate_blank _ hm

theorem newline_join {ts : List Txt} (h : ∀ t ∈ ts, '\n' ∉ t) : '\n' ∉ joinTxt [' '] ts := by
  induction ts with
  | nil => rw [joinTxt_nil]; simp
  | cons a ts ih =>
    cases ts with
    | nil => rw [joinTxt_one]; exact h a (by simp)
    | cons b ts =>
      rw [joinTxt_cons]
      intro hm
      rcases List.mem_append.1 hm with hm | hm
      · rcases List.mem_append.1 hm with hm | hm
        · exact h a (by simp) hm
        · revert hm; decide
      · exact ih (fun t ht => h t (by simp [ht])) hm

/-! ### numbers -/

theorem digitChar_facts {n : ℕ} (h : n < 10) : (Nat.digitChar n).isDigit = true ∧ (Nat.digitChar n).toNat - 48 = n := by
  have : ∀ n < 10, (Nat.digitChar n).isDigit = true ∧ (Nat.digitChar n).toNat - 48 = n := by decide
  exact this n h

theorem lastDigits_length (d m : ℕ) : (lastDigits d m).length = d := by
  induction d generalizing m with
  | zero => rfl
  | succ d ih => simp [lastDigits, ih]

theorem lastDigits_digit (d m : ℕ) : ∀ c ∈ lastDigits d m, c.isDigit = true := by
  induction d generalizing m with
  | zero => intro c h; cases h
  | succ d ih =>
    intro c h
    rcases List.mem_append.1 h with h | h
    · exact ih _ c h
    · rw [List.mem_singleton] at h
      rw [h]
      exact (digitChar_facts (Nat.mod_lt _ (by decide))).1

theorem lastDigits_value (d m : ℕ) : (lastDigits d m).foldl (fun n c => 10 * n + (c.toNat - 48)) 0 = m % 10 ^ d := by
  induction d generalizing m with
  | zero => simp [lastDigits, Nat.mod_one]
  | succ d ih =>
    simp only [lastDigits, List.foldl_append, List.foldl_cons, List.foldl_nil, ih]
    rw [(digitChar_facts (Nat.mod_lt m (by decide : 0 < 10))).2, pow_succ, Nat.mul_comm (10 ^ d) 10, Nat.mod_mul]
    omega

theorem toDigits_value (m : ℕ) : (Nat.toDigits 10 m).foldl (fun n c => 10 * n + (c.toNat - 48)) 0 = m := by
  have := Nat.ofDigitChars_ten_toDigits (n := m)
  rw [Nat.ofDigitChars_eq_foldl] at this
  simpa using this

theorem toDigits_digit {m : ℕ} : ∀ c ∈ Nat.toDigits 10 m, c.isDigit = true := fun _ h =>
  Nat.isDigit_of_mem_toDigits (by decide) (by decide) h

theorem not_mem_of_digits {t : Txt} (h : ∀ c ∈ t, c.isDigit = true) {c : Char} (hc : c.isDigit = false) : c ∉ t := by
  intro hm
  rw [h c hm] at hc
  cases hc

section
variable {V : Type} [Field V] [LinearOrder V] [IsStrictOrderedRing V] [FloorRing V]

theorem roundEven_close {x : V} (h : 0 ≤ x) : |(roundEven x : V) - x| ≤ 1 / 2 := by
  have h1 := Nat.floor_le h
  have h2 := Nat.lt_floor_add_one x
  unfold roundEven
  split_ifs with a b c
  · rw [abs_le]; constructor <;> linarith
  · push_cast; rw [abs_le]; constructor <;> linarith
  · rw [abs_le]; constructor <;> linarith
  · push_cast; rw [abs_le]; constructor <;> linarith

/-- what is read from the text of a number -/
theorem readUnsigned_text (d n : ℕ) :
    readUnsigned V (Nat.toDigits 10 (n / 10 ^ d) ++ (if d = 0 then [] else '.' :: lastDigits d (n % 10 ^ d))) =
      some ((n : V) / 10 ^ d) := by
  have hdot : '.' ∉ Nat.toDigits 10 (n / 10 ^ d) := not_mem_of_digits toDigits_digit (by decide)
  have hr : readNat (Nat.toDigits 10 (n / 10 ^ d)) = some (n / 10 ^ d) := by
    unfold readNat
    rw [if_pos ⟨Nat.toDigits_ne_nil, by rw [List.all_eq_true]; exact toDigits_digit⟩, toDigits_value]
  by_cases hd : d = 0
  · subst hd
    unfold readUnsigned
    rw [if_pos rfl, List.append_nil, List.splitOn_eq_singleton hdot]
    simp only [hr]
    simp
  · unfold readUnsigned
    rw [if_neg hd, List.splitOn_append_cons_self_of_not_mem hdot,
      List.splitOn_eq_singleton (not_mem_of_digits (lastDigits_digit d _) (by decide))]
    have hr2 : readNat (lastDigits d (n % 10 ^ d)) = some (n % 10 ^ d) := by
      unfold readNat
      rw [if_pos ⟨by intro h; have := congrArg List.length h; rw [lastDigits_length] at this; exact hd (by simpa using this),
        by rw [List.all_eq_true]; exact lastDigits_digit d _⟩, lastDigits_value, Nat.mod_mod]
    simp only [hr, hr2, lastDigits_length]
    have hp : (10 : V) ^ d ≠ 0 := pow_ne_zero _ (by norm_num)
    have := Nat.div_add_mod n (10 ^ d)
    congr 1
    rw [eq_div_iff hp, add_mul, div_mul_cancel₀ _ hp]
    conv_rhs => rw [← this]
    push_cast
    ring

theorem readNumber_fixed (d : ℕ) (x : V) : ∃ y, readNumber V (fixedText d x) = some y ∧ |y - x| ≤ 1 / 2 / 10 ^ d := by
  have hp : (0 : V) < 10 ^ d := by positivity
  have hc := roundEven_close (x := |x| * 10 ^ d) (by positivity)
  have hb : |((roundEven (|x| * 10 ^ d) : V) / 10 ^ d - |x|)| ≤ 1 / 2 / 10 ^ d := by
    rw [le_div_iff₀ hp, ← abs_of_pos hp, ← abs_mul, abs_of_pos hp, sub_mul, div_mul_cancel₀ _ hp.ne']
    exact hc
  by_cases hx : x < 0
  · refine ⟨-((roundEven (|x| * 10 ^ d) : V) / 10 ^ d), ?_, ?_⟩
    · unfold fixedText
      rw [if_pos hx]
      simp only [List.cons_append, List.nil_append, readNumber]
      rw [readUnsigned_text]
      rfl
    · rw [abs_of_neg hx] at hb ⊢
      rw [← abs_neg]
      simpa [sub_eq_add_neg, add_comm] using hb
  · refine ⟨(roundEven (|x| * 10 ^ d) : V) / 10 ^ d, ?_, ?_⟩
    · unfold fixedText
      rw [if_neg hx, List.nil_append]
      have h0 := readUnsigned_text (V := V) d (roundEven (|x| * 10 ^ d))
      have hne : ∀ t, Nat.toDigits 10 (roundEven (|x| * 10 ^ d) / 10 ^ d) ++
          (if d = 0 then [] else '.' :: lastDigits d (roundEven (|x| * 10 ^ d) % 10 ^ d)) ≠ '-' :: t := by
        intro t ht
        cases hD : Nat.toDigits 10 (roundEven (|x| * 10 ^ d) / 10 ^ d) with
        | nil => exact Nat.toDigits_ne_nil hD
        | cons c cs =>
          rw [hD, List.cons_append] at ht
          have : c.isDigit = true := toDigits_digit (m := roundEven (|x| * 10 ^ d) / 10 ^ d) c (by rw [hD]; simp)
          rw [(List.cons.inj ht).1] at this
          revert this; decide
      rw [← h0]
      generalize Nat.toDigits 10 (roundEven (|x| * 10 ^ d) / 10 ^ d) ++
          (if d = 0 then [] else '.' :: lastDigits d (roundEven (|x| * 10 ^ d) % 10 ^ d)) = t at hne
      unfold readNumber
      split
      · exact absurd rfl (hne _)
      · rfl
    · rw [abs_of_nonneg (not_lt.1 hx)] at hb ⊢
      exact hb

theorem fixedText_plain (d : ℕ) (x : V) : Plain (fixedText d x) := by
  have key : ∀ c : Char, c.isDigit = false → c ≠ '-' → c ≠ '.' → c ∉ fixedText d x := by
    intro c h1 h2 h3 hm
    unfold fixedText at hm
    rcases List.mem_append.1 hm with hm | hm
    · rcases List.mem_append.1 hm with hm | hm
      · split at hm
        · exact h2 (List.mem_singleton.1 hm)
        · cases hm
      · exact not_mem_of_digits toDigits_digit h1 hm
    · split at hm
      · cases hm
      · rcases List.mem_cons.1 hm with hm | hm
        · exact h3 hm
        · exact not_mem_of_digits (lastDigits_digit d _) h1 hm
  refine ⟨?_, key ' ' (by decide) (by decide) (by decide), key '\n' (by decide) (by decide) (by decide)⟩
  unfold fixedText
  intro h
  simp only [List.append_eq_nil_iff] at h
  exact Nat.toDigits_ne_nil h.1.2

theorem cellText_plain (d : ℕ) (x : Option V) : Plain (cellText d x) := by
  cases x with
  | some x => exact fixedText_plain d x
  | none => exact ⟨by simp [cellText], by simp [cellText], by simp [cellText]⟩

theorem cellText_shows (d : ℕ) (x : Option V) : Shows d (cellText d x) x := by
  cases x with
  | some x => exact readNumber_fixed d x
  | none => rfl

theorem cells_forall (d : ℕ) (row : List (Option V)) : List.Forall₂ (Shows d) (row.map (cellText d)) row := by
  induction row with
  | nil => exact .nil
  | cons x row ih => exact .cons (cellText_shows d x) ih

theorem lineWords_cells (w : ℤ) (d : ℕ) (row : List (Option V)) :
    lineWords (joinTxt [' '] (row.map (widthText w d))) = row.map (cellText d) := by
  rw [lineWords_join]
  induction row with
  | nil => rfl
  | cons x row ih =>
    obtain ⟨h1, h2, -⟩ := cellText_plain d x
    rw [List.map_cons, List.flatMap_cons, ih]
    unfold widthText
    rw [lineWords_rjust, lineWords_word h1 h2]
    rfl

theorem newline_cells (w : ℤ) (d : ℕ) (row : List (Option V)) : '\n' ∉ joinTxt [' '] (row.map (widthText w d)) := by
  apply newline_join
  intro t ht
  obtain ⟨x, -, rfl⟩ := List.mem_map.1 ht
  exact newline_rjust (cellText_plain d x).2.2

/-! ### tables -/

theorem maxLen_le {ts : List Txt} {m : ℕ} (h : maxLen ts = .ok m) : ∀ t ∈ ts, t.length ≤ m := by
  cases ts with
  | nil => cases h
  | cons a ts =>
    simp only [maxLen, Except.ok.injEq] at h
    have key : ∀ (ts : List Txt) (k : ℕ), k ≤ ts.foldl (fun m s => max m s.length) k ∧
        ∀ t ∈ ts, t.length ≤ ts.foldl (fun m s => max m s.length) k := by
      intro ts
      induction ts with
      | nil => intro k; simp
      | cons b ts ih =>
        intro k
        obtain ⟨i1, i2⟩ := ih (max k b.length)
        rw [List.foldl_cons]
        refine ⟨le_trans (le_max_left _ _) i1, ?_⟩
        intro t ht
        rcases List.mem_cons.1 ht with rfl | ht
        · exact le_trans (le_max_right _ _) i1
        · exact i2 t ht
    obtain ⟨k1, k2⟩ := key ts a.length
    rw [h] at k1 k2
    intro t ht
    rcases List.mem_cons.1 ht with rfl | ht
    · exact k1
    · exact k2 t ht

theorem maxLen_ok {ts : List Txt} (h : ts ≠ []) : ∃ m, maxLen ts = .ok m := by
  cases ts with
  | nil => exact absurd rfl h
  | cons a ts => exact ⟨_, rfl⟩

/-- the text of a table: title, headings, rows behind names -/
def tableText (title : Txt) (pad lp : ℕ) (w : ℤ) (sig : ℕ) (headings names : List Txt) (rows : List (List (Option V))) :
    Txt :=
  joinTxt ('\n' :: List.replicate pad ' ')
    (title :: List.zipWith (· ++ ·) (([] :: names).map (ljust (lp + 1)))
      (joinTxt [' '] (headings.map (rjust w.toNat)) :: rows.map fun row => joinTxt [' '] (row.map (widthText w sig))))

theorem zipWith_rows_newline {lp : ℕ} {w : ℤ} {sig : ℕ} {names : List Txt} {rows : List (List (Option V))}
    (hn : ∀ n ∈ names, '\n' ∉ n) : ∀ t ∈ List.zipWith (· ++ ·) (names.map (ljust (lp + 1)))
      (rows.map fun row => joinTxt [' '] (row.map (widthText w sig))), '\n' ∉ t := by
  induction names generalizing rows with
  | nil => intro t ht; simp at ht
  | cons n names ih =>
    cases rows with
    | nil => intro t ht; simp at ht
    | cons r rows =>
      intro t ht
      simp only [List.map_cons, List.zipWith_cons_cons, List.mem_cons] at ht
      rcases ht with rfl | ht
      · intro hm
        rcases List.mem_append.1 hm with hm | hm
        · exact newline_ljust (hn n (by simp)) hm
        · exact newline_cells w sig r hm
      · exact ih (fun n hn' => hn n (by simp [hn'])) t ht

theorem zipWith_rows_show {pad lp : ℕ} {w : ℤ} {sig : ℕ} {names : List Txt} {rows : List (List (Option V))}
    (hn : ∀ n ∈ names, Plain n) (hl : ∀ n ∈ names, n.length ≤ lp) :
    List.Forall₂ (RowShows sig) ((List.zipWith (· ++ ·) (names.map (ljust (lp + 1)))
      (rows.map fun row => joinTxt [' '] (row.map (widthText w sig)))).map (List.replicate pad ' ' ++ ·))
      (names.zip rows) := by
  induction names generalizing rows with
  | nil => simp
  | cons n names ih =>
    cases rows with
    | nil => simp
    | cons r rows =>
      simp only [List.map_cons, List.zipWith_cons_cons, List.zip_cons_cons]
      refine .cons ⟨r.map (cellText sig), ?_, cells_forall sig r⟩
        (ih (fun n hn' => hn n (by simp [hn'])) fun n hn' => hl n (by simp [hn']))
      obtain ⟨p1, p2, -⟩ := hn n (by simp)
      rw [lineWords_blanks, lineWords_ljust_append (by have := hl n (by simp); omega), lineWords_word p1 p2, lineWords_cells]
      rfl

theorem tableText_shows {title : Txt} {pad lp : ℕ} {w : ℤ} {sig : ℕ} {headings names : List Txt}
    {rows : List (List (Option V))} (ht : '\n' ∉ title) (hh : ∀ h ∈ headings, '\n' ∉ h) (hn : ∀ n ∈ names, Plain n)
    (hl : ∀ n ∈ names, n.length ≤ lp) :
    TableShows sig title headings (names.zip rows) (tableText title pad lp w sig headings names rows) := by
  refine ⟨List.replicate pad ' ' ++ (ljust (lp + 1) [] ++ joinTxt [' '] (headings.map (rjust w.toNat))),
    (List.zipWith (· ++ ·) (names.map (ljust (lp + 1)))
      (rows.map fun row => joinTxt [' '] (row.map (widthText w sig)))).map (List.replicate pad ' ' ++ ·), ?_, ?_,
    zipWith_rows_show hn hl⟩
  · unfold tableText
    rw [linesOf_join (not_mem_replicate_blank _)]
    · rfl
    · intro t h
      simp only [List.map_cons, List.zipWith_cons_cons, List.mem_cons] at h
      rcases h with rfl | rfl | h
      · exact ht
      · intro hm
        rcases List.mem_append.1 hm with hm | hm
        · exact newline_ljust (by simp) hm
        · refine newline_join ?_ hm
          intro t ht
          obtain ⟨h, h', rfl⟩ := List.mem_map.1 ht
          exact newline_rjust (hh h h')
      · exact zipWith_rows_newline (fun n h => (hn n h).2.2) t h
  · rw [lineWords_blanks, lineWords_ljust_append (by simp), lineWords_nil, List.nil_append, lineWords_join]
    induction headings with
    | nil => rfl
    | cons h hs ih =>
      rw [List.map_cons, List.flatMap_cons, List.flatMap_cons, lineWords_rjust, ih fun h' hm => hh h' (by simp [hm])]

theorem arrayLines_ok {sig width : ℕ} {labels : List Txt} {rows : List (List (Option V))} {ls : List Txt}
    (h : arrayLines sig width labels rows = .ok ls) : labels.length = width ∧ ∃ l, leftDigits fixLog10 rows.flatten = .ok l ∧
      ls = joinTxt [' '] (labels.map (rjust (colWidth l sig labels).toNat)) ::
        rows.map fun row => joinTxt [' '] (row.map (widthText (colWidth l sig labels) sig)) := by
  unfold arrayLines at h
  split at h
  · cases h
  · rename_i hw
    split at h
    · cases h
    · rename_i l hl
      exact ⟨not_not.1 hw, l, hl, (Except.ok.inj h).symm⟩

theorem namedTable_ok {title : Txt} {pad sig width : ℕ} {headings names : List Txt} {rows : List (List (Option V))} {t : Txt}
    (h : namedTable title pad sig width headings names rows = .ok t) : headings.length = width ∧
      ∃ l lp, leftDigits fixLog10 rows.flatten = .ok l ∧ (∀ n ∈ names, n.length ≤ lp) ∧
        t = tableText title pad lp (colWidth l sig headings) sig headings names rows := by
  unfold namedTable at h
  obtain ⟨ls, h1, h⟩ := Except.bind_ok_iff.1 h
  obtain ⟨lp, h2, h⟩ := Except.bind_ok_iff.1 h
  obtain ⟨a1, l, a2, rfl⟩ := arrayLines_ok h1
  refine ⟨a1, l, lp, a2, fun n hn => maxLen_le h2 n (by simp [hn]), ?_⟩
  exact (Except.ok.inj h).symm

theorem corrText_ok {S : Statistics V} {sig pad : ℕ} {endog : List Txt} {t : Txt} (h : corrText S sig pad endog = .ok t) :
    ∃ a l lp, S.corr = .ok a ∧ endog.length = a.c ∧ leftDigits fixLog10 a.rowList.flatten = .ok l ∧
      (∀ n ∈ endog, n.length ≤ lp) ∧
      t = tableText "correlation:".toList pad lp (colWidth l sig endog) sig endog endog a.rowList := by
  unfold corrText at h
  obtain ⟨a, h0, h⟩ := Except.bind_ok_iff.1 h
  obtain ⟨ls, h1, h⟩ := Except.bind_ok_iff.1 h
  obtain ⟨lp, h2, h⟩ := Except.bind_ok_iff.1 h
  obtain ⟨a1, l, a2, rfl⟩ := arrayLines_ok h1
  exact ⟨a, l, lp, h0, a1, a2, maxLen_le h2, (Except.ok.inj h).symm⟩

/-! ### alignment -/

theorem columnOf_join {w : ℕ} : ∀ {blocks : List Txt} (pre : Txt) {j : ℕ} {b : Txt}, (∀ b ∈ blocks, b.length = w) →
    blocks[j]? = some b → columnOf pre.length w j (pre ++ joinTxt [' '] blocks) = b
  | [], _, _, _, _, hj => by simp at hj
  | [c], pre, j, b, h, hj => by
    have : j = 0 := by
      by_contra hne
      obtain ⟨k, rfl⟩ : ∃ k, j = k + 1 := ⟨j - 1, by omega⟩
      simp at hj
    subst this
    simp only [List.getElem?_cons_zero, Option.some.injEq] at hj
    subst hj
    rw [joinTxt_one, columnOf, Nat.zero_mul, Nat.add_zero, List.drop_left, ← h c (by simp), List.take_length]
  | c :: d :: blocks, pre, 0, b, h, hj => by
    simp only [List.getElem?_cons_zero, Option.some.injEq] at hj
    subst hj
    rw [joinTxt_cons, columnOf, Nat.zero_mul, Nat.add_zero, List.drop_left, List.append_assoc, ← h c (by simp),
      List.take_left]
  | c :: d :: blocks, pre, j + 1, b, h, hj => by
    rw [List.getElem?_cons_succ] at hj
    have ih := columnOf_join (pre ++ c ++ [' ']) (fun b hb => h b (by simp [hb])) hj
    rw [joinTxt_cons]
    have e : (pre ++ c ++ [' ']).length = pre.length + (w + 1) := by
      simp [h c (by simp)]
    rw [e] at ih
    rw [← List.append_assoc, ← List.append_assoc]
    unfold columnOf at ih ⊢
    rw [show pre.length + (j + 1) * (w + 1) = pre.length + (w + 1) + j * (w + 1) by ring]
    exact ih

theorem join_length {w : ℕ} : ∀ {blocks : List Txt}, (∀ b ∈ blocks, b.length = w) → blocks ≠ [] →
    (joinTxt [' '] blocks).length + 1 = blocks.length * (w + 1)
  | [], _, h => absurd rfl h
  | [c], h, _ => by rw [joinTxt_one, h c (by simp)]; simp
  | c :: d :: blocks, h, _ => by
    have ih := join_length (fun b hb => h b (List.mem_cons_of_mem _ hb)) (List.cons_ne_nil d blocks)
    rw [joinTxt_cons]
    simp only [List.length_append, List.length_cons, List.length_nil, h c (by simp)] at ih ⊢
    have e : (blocks.length + 1 + 1) * (w + 1) = (blocks.length + 1) * (w + 1) + (w + 1) := by ring
    rw [e, ← ih]
    ring

theorem trimmed_rjust {w : ℕ} {t : Txt} (h : ∀ c, t.head? = some c → c ≠ ' ') : trimmed (rjust w t) = t := by
  unfold trimmed rjust
  induction w - t.length with
  | zero =>
    cases t with
    | nil => rfl
    | cons c t =>
      have := h c rfl
      simp [this]
  | succ k ih => rw [List.replicate_succ, List.cons_append, List.dropWhile_cons_of_pos (by simp), ih]

theorem roundEven_le {y : V} {k : ℕ} (h0 : 0 ≤ y) (h : y < k) : roundEven y ≤ k := by
  have h1 : ⌊y⌋₊ < k := (Nat.floor_lt h0).2 h
  unfold roundEven
  split_ifs <;> omega

/-- the length of the text of a number below a power of ten -/
theorem fixedText_length {d e : ℕ} {x : V} (h : |x| < 10 ^ e) :
    (fixedText d x).length ≤ e + 3 + d ∧ (e = 0 → (fixedText d x).length ≤ 3 + d) := by
  have hy : |x| * 10 ^ d < ((10 ^ (e + d) : ℕ) : V) := by
    push_cast
    rw [pow_add]
    exact mul_lt_mul_of_pos_right h (by positivity)
  have hr := roundEven_le (by positivity) hy
  have hq : roundEven (|x| * 10 ^ d) / 10 ^ d ≤ 10 ^ e := by
    rw [pow_add] at hr
    exact Nat.div_le_of_le_mul (by rw [Nat.mul_comm]; exact hr)
  have hlen : (Nat.toDigits 10 (roundEven (|x| * 10 ^ d) / 10 ^ d)).length ≤ e + 1 := by
    rw [Nat.length_toDigits_le_iff (by decide) (by omega)]
    have : 10 ^ e < 10 ^ (e + 1) := Nat.pow_lt_pow_right (by decide) (by omega)
    omega
  have hs : (if x < 0 then ['-'] else ([] : Txt)).length ≤ 1 := by split <;> simp
  have hf : (if d = 0 then [] else '.' :: lastDigits d (roundEven (|x| * 10 ^ d) % 10 ^ d)).length ≤ 1 + d := by
    split
    · simp
    · simp [lastDigits_length]; omega
  have ht : (fixedText d x).length ≤ 1 + (e + 1) + (1 + d) := by
    unfold fixedText
    rw [List.length_append, List.length_append]
    omega
  exact ⟨by omega, fun he => by omega⟩

theorem maxAbs_ge {xs : List V} : ∀ x ∈ xs, |x| ≤ maxAbs xs := by
  induction xs with
  | nil => intro x h; cases h
  | cons a xs ih =>
    intro x h
    unfold maxAbs
    rw [List.foldr_cons]
    rcases List.mem_cons.1 h with rfl | h
    · exact le_max_left _ _
    · exact le_trans (ih x h) (le_max_right _ _)

theorem maxAbs_nonneg (xs : List V) : 0 ≤ maxAbs xs := by
  induction xs with
  | nil => exact le_refl _
  | cons a xs ih => exact le_trans ih (le_max_right _ _)

theorem maxAbs_zero {xs : List V} : maxAbs xs = 0 ↔ ∀ x ∈ xs, x = 0 := by
  constructor
  · intro h x hx
    have := maxAbs_ge x hx
    rw [h] at this
    exact abs_eq_zero.1 (le_antisymm this (abs_nonneg _))
  · intro h
    induction xs with
    | nil => rfl
    | cons a xs ih =>
      have e : maxAbs (a :: xs) = max |a| (maxAbs xs) := rfl
      rw [e, ih fun x hx => h x (by simp [hx]), h a (by simp)]
      simp

/-- when a number of digits can be found -/
theorem leftDigits_ok_iff {log : V → ℤ} {xs : List (Option V)} :
    (∃ l, leftDigits log xs = .ok l) ↔ ∃ x, some x ∈ xs ∧ x ≠ 0 := by
  unfold leftDigits
  constructor
  · rintro ⟨l, h⟩
    split at h
    · cases h
    · split at h
      · cases h
      · rename_i h1 h2
        rw [maxAbs_zero] at h2
        push Not at h2
        obtain ⟨x, hx, h0⟩ := h2
        exact ⟨x, by simpa using hx, h0⟩
  · rintro ⟨x, hx, h0⟩
    have hm : x ∈ xs.filterMap id := by simpa using hx
    rw [if_neg (by intro h; rw [h] at hm; cases hm), if_neg (by rw [maxAbs_zero]; intro h; exact h0 (h x hm))]
    exact ⟨_, rfl⟩

theorem leftDigits_value {log : V → ℤ} {xs : List (Option V)} {l : ℤ} (h : leftDigits log xs = .ok l) :
    l = log (maxAbs (xs.filterMap id)) + 3 ∧ 0 < maxAbs (xs.filterMap id) := by
  unfold leftDigits at h
  split at h
  · cases h
  · split at h
    · cases h
    · rename_i h2
      exact ⟨(Except.ok.inj h).symm, lt_of_le_of_ne (maxAbs_nonneg _) (Ne.symm h2)⟩

/-- numbers are not longer than the columns are wide, unless all are small -/
theorem fits {d : ℕ} {m x : V} (hm : 1 / 100 < m) (hx : |x| ≤ m) :
    ((fixedText d x).length : ℤ) ≤ fixLog10 m + 3 + d + 1 ∧ 3 ≤ fixLog10 m + 3 + d + 1 := by
  have hm0 : 0 < m := lt_trans (by norm_num) hm
  unfold fixLog10
  by_cases h1 : 1 ≤ m
  · rw [if_pos h1]
    have h2 : m < 10 ^ (Nat.log 10 ⌊m⌋₊ + 1) := by
      have := Nat.lt_pow_succ_log_self (by decide : 1 < 10) ⌊m⌋₊
      have h3 := (Nat.floor_lt hm0.le).1 this
      exact_mod_cast h3
    have := (fixedText_length (d := d) (lt_of_le_of_lt hx h2)).1
    omega
  · rw [if_neg h1]
    have h3 : Nat.log 10 ⌊1 / m⌋₊ ≤ 1 := by
      have : ⌊1 / m⌋₊ < 10 ^ 2 := by
        rw [Nat.floor_lt (by positivity)]
        push_cast
        rw [div_lt_iff₀ hm0]
        linarith
      have := Nat.log_lt_of_lt_pow' (by decide : 2 ≠ 0) this
      omega
    have h4 : |x| < 10 ^ 0 := by
      rw [pow_zero]
      exact lt_of_le_of_lt hx (not_le.1 h1)
    have := (fixedText_length (d := d) h4).2 rfl
    omega

theorem colWidth_ge (l : ℤ) (sig : ℕ) (labels : List Txt) : l + sig + 1 ≤ colWidth l sig labels ∧
    ∀ t ∈ labels, (t.length : ℤ) + 1 ≤ colWidth l sig labels := by
  unfold colWidth
  have key : ∀ (ts : List Txt) (k : ℤ), k ≤ ts.foldl (fun m s => max m (s.length : ℤ)) k ∧
      ∀ t ∈ ts, (t.length : ℤ) ≤ ts.foldl (fun m s => max m (s.length : ℤ)) k := by
    intro ts
    induction ts with
    | nil => intro k; simp
    | cons b ts ih =>
      intro k
      obtain ⟨i1, i2⟩ := ih (max k b.length)
      rw [List.foldl_cons]
      refine ⟨le_trans (le_max_left _ _) i1, ?_⟩
      intro t ht
      rcases List.mem_cons.1 ht with rfl | ht
      · exact le_trans (le_max_right _ _) i1
      · exact i2 t ht
  obtain ⟨k1, k2⟩ := key labels (l + sig)
  exact ⟨by omega, fun t ht => by have := k2 t ht; omega⟩

/-! ### columns -/

omit V [Field V] [LinearOrder V] [IsStrictOrderedRing V] [FloorRing V] in
theorem rjust_length {w : ℕ} {t : Txt} (h : t.length ≤ w) : (rjust w t).length = w := by
  unfold rjust
  rw [List.length_append, List.length_replicate]
  omega

omit V [Field V] [LinearOrder V] [IsStrictOrderedRing V] [FloorRing V] in
theorem inColumns_join {w : ℕ} {cells : List Txt} (pre : Txt) (h0 : cells ≠ [])
    (h : ∀ c ∈ cells, c.length ≤ w ∧ ∀ a, c.head? = some a → a ≠ ' ') :
    InColumns pre.length w (pre ++ joinTxt [' '] (cells.map (rjust w))) cells := by
  have hb : ∀ b ∈ cells.map (rjust w), b.length = w := by
    intro b hb
    obtain ⟨c, hc, rfl⟩ := List.mem_map.1 hb
    exact rjust_length (h c hc).1
  constructor
  · have := join_length hb (by simpa using h0)
    rw [List.length_map] at this
    rw [List.length_append]
    omega
  · intro j c hj
    have hc := List.mem_of_getElem? hj
    rw [columnOf_join pre hb (b := rjust w c) (by rw [List.getElem?_map, hj]; rfl)]
    exact ⟨rjust_length (h c hc).1, trimmed_rjust (h c hc).2⟩

omit V [Field V] [LinearOrder V] [IsStrictOrderedRing V] [FloorRing V] in
theorem Plain.head {t : Txt} (h : Plain t) : ∀ a, t.head? = some a → a ≠ ' ' := by
  rintro a ha rfl
  exact h.2.1 (List.mem_of_mem_head? ha)

theorem zipWith_rows_mem {lp : ℕ} {w : ℤ} {sig : ℕ} {names : List Txt} {rows : List (List (Option V))} {t : Txt}
    (h : t ∈ List.zipWith (· ++ ·) (names.map (ljust (lp + 1))) (rows.map fun row => joinTxt [' '] (row.map (widthText w sig)))) :
    ∃ n ∈ names, ∃ row ∈ rows, t = ljust (lp + 1) n ++ joinTxt [' '] (row.map (widthText w sig)) := by
  induction names generalizing rows with
  | nil => simp at h
  | cons n names ih =>
    cases rows with
    | nil => simp at h
    | cons r rows =>
      simp only [List.map_cons, List.zipWith_cons_cons, List.mem_cons] at h
      rcases h with rfl | h
      · exact ⟨n, by simp, r, by simp, rfl⟩
      · obtain ⟨n', h1, r', h2, h3⟩ := ih h
        exact ⟨n', by simp [h1], r', by simp [h2], h3⟩

theorem tableText_lines {title : Txt} {pad lp : ℕ} {w : ℤ} {sig : ℕ} {headings names : List Txt}
    {rows : List (List (Option V))} (ht : '\n' ∉ title) (hh : ∀ h ∈ headings, '\n' ∉ h) (hn : ∀ n ∈ names, Plain n) :
    linesOf (tableText title pad lp w sig headings names rows) = title ::
      (List.replicate pad ' ' ++ (ljust (lp + 1) [] ++ joinTxt [' '] (headings.map (rjust w.toNat)))) ::
      (List.zipWith (· ++ ·) (names.map (ljust (lp + 1)))
        (rows.map fun row => joinTxt [' '] (row.map (widthText w sig)))).map (List.replicate pad ' ' ++ ·) := by
  unfold tableText
  rw [linesOf_join (not_mem_replicate_blank _)]
  · rfl
  · intro t h
    simp only [List.map_cons, List.zipWith_cons_cons, List.mem_cons] at h
    rcases h with rfl | rfl | h
    · exact ht
    · intro hm
      rcases List.mem_append.1 hm with hm | hm
      · exact newline_ljust (by simp) hm
      · refine newline_join ?_ hm
        intro t ht
        obtain ⟨h, h', rfl⟩ := List.mem_map.1 ht
        exact newline_rjust (hh h h')
    · exact zipWith_rows_newline (fun n h => (hn n h).2.2) t h

theorem tableText_aligned {title : Txt} {pad lp : ℕ} {w : ℤ} {sig : ℕ} {headings names : List Txt}
    {rows : List (List (Option V))} (ht : '\n' ∉ title) (hh : ∀ h ∈ headings, '\n' ∉ h) (hn : ∀ n ∈ names, Plain n)
    (hl : ∀ n ∈ names, n.length ≤ lp) (h0 : headings ≠ [])
    (hhw : ∀ h ∈ headings, h.length ≤ w.toNat ∧ ∀ a, h.head? = some a → a ≠ ' ')
    (hr : ∀ row ∈ rows, row.length = headings.length) (hw : 0 ≤ w)
    (hc : ∀ row ∈ rows, ∀ x ∈ row, (cellText sig x).length ≤ w.toNat) :
    AlignedTable headings (tableText title pad lp w sig headings names rows) := by
  refine ⟨_, _, _, pad + (lp + 1), w.toNat, tableText_lines ht hh hn, ?_, ?_⟩
  · have := inColumns_join (List.replicate pad ' ' ++ ljust (lp + 1) []) h0 hhw
    rw [← List.append_assoc]
    have e : (List.replicate pad ' ' ++ ljust (lp + 1) []).length = pad + (lp + 1) := by
      simp [ljust]
    rw [e] at this
    exact this
  · intro line hline
    obtain ⟨t, ht, rfl⟩ := List.mem_map.1 hline
    obtain ⟨n, n1, row, r1, rfl⟩ := zipWith_rows_mem ht
    obtain ⟨p1, p2, -⟩ := hn n n1
    have e1 : lineWords (List.replicate pad ' ' ++ (ljust (lp + 1) n ++ joinTxt [' '] (row.map (widthText w sig)))) =
        n :: row.map (cellText sig) := by
      rw [lineWords_blanks, lineWords_ljust_append (by have := hl n n1; omega), lineWords_word p1 p2, lineWords_cells]
      rfl
    rw [e1, List.tail_cons]
    have hrow : row.map (cellText sig) ≠ [] := by
      intro he
      have := hr row r1
      rw [List.map_eq_nil_iff.1 he] at this
      exact h0 (List.length_eq_zero_iff.1 this.symm)
    have := inColumns_join (w := w.toNat) (List.replicate pad ' ' ++ ljust (lp + 1) n) hrow (by
      intro c hcm
      obtain ⟨x, hx, rfl⟩ := List.mem_map.1 hcm
      exact ⟨hc row r1 x hx, (cellText_plain sig x).head⟩)
    have e : (List.replicate pad ' ' ++ ljust (lp + 1) n).length = pad + (lp + 1) := by
      have := hl n n1
      simp [ljust]
      omega
    have e2 : (row.map (cellText sig)).map (rjust w.toNat) = row.map (widthText w sig) := by
      rw [List.map_map]
      apply List.map_congr_left
      intro x _
      simp only [widthText, Function.comp_apply]
      congr 1
      omega
    rw [e, e2, List.append_assoc] at this
    exact this

omit V [Field V] [LinearOrder V] [IsStrictOrderedRing V] [FloorRing V] in
/-- lines with as many words as there are headings are as long as the line of the headings -/
theorem AlignedTable.lengths {headings : List Txt} {t : Txt} (h : AlignedTable headings t) {k : ℕ} {head line : Txt}
    (hh : (linesOf t)[1]? = some head) (hl : (linesOf t)[k + 2]? = some line)
    (hw : (lineWords line).length = headings.length + 1) : line.length = head.length := by
  obtain ⟨title, head', lines, off, w, h1, ⟨h2, -⟩, h3⟩ := h
  rw [h1] at hh hl
  have e1 : head' = head := by simpa using hh
  have e2 : lines[k]? = some line := by simpa using hl
  subst e1
  have := (h3 line (List.mem_of_getElem? e2)).1
  rw [List.length_tail, hw, Nat.add_sub_cancel] at this
  omega

/-! ### which summaries can be printed -/

theorem namedTable_ok_iff {title : Txt} {pad sig width : ℕ} {headings names : List Txt} {rows : List (List (Option V))} :
    (∃ t, namedTable title pad sig width headings names rows = .ok t) ↔
      headings.length = width ∧ ∃ row ∈ rows, ∃ x, some x ∈ row ∧ x ≠ 0 := by
  constructor
  · rintro ⟨t, h⟩
    obtain ⟨h1, l, lp, h2, -⟩ := namedTable_ok h
    obtain ⟨x, hx, hx0⟩ := leftDigits_ok_iff.1 ⟨l, h2⟩
    obtain ⟨row, hr, hxr⟩ := List.mem_flatten.1 hx
    exact ⟨h1, row, hr, x, hxr, hx0⟩
  · rintro ⟨h1, row, hr, x, hxr, hx0⟩
    obtain ⟨l, hl⟩ := leftDigits_ok_iff (log := fixLog10).2 ⟨x, List.mem_flatten.2 ⟨row, hr, hxr⟩, hx0⟩
    obtain ⟨lp, hlp⟩ := maxLen_ok (ts := [] :: names) (by simp)
    unfold namedTable arrayLines
    rw [if_neg (by simpa using h1), hl, hlp]
    exact ⟨_, rfl⟩

theorem paramLines_ok_iff {sig pad : ℕ} {display : Dict V} :
    (∃ ls, paramLines sig pad display = .ok ls) ↔ ∃ p ∈ display, p.2 ≠ 0 := by
  constructor
  · rintro ⟨ls, h⟩
    unfold paramLines at h
    obtain ⟨lp, h1, h⟩ := Except.bind_ok_iff.1 h
    obtain ⟨l, h2, h⟩ := Except.bind_ok_iff.1 h
    obtain ⟨x, hx, hx0⟩ := leftDigits_ok_iff.1 ⟨l, h2⟩
    obtain ⟨p, hp, he⟩ := List.mem_map.1 hx
    have := Option.some.inj he
    subst this
    exact ⟨p, hp, hx0⟩
  · rintro ⟨p, hp, h0⟩
    obtain ⟨l, hl⟩ := leftDigits_ok_iff (log := fixLog10) (xs := display.map fun p => some p.2).2
      ⟨p.2, List.mem_map.2 ⟨p, hp, rfl⟩, h0⟩
    obtain ⟨lp, hlp⟩ := maxLen_ok (ts := display.map fun p => p.1.toList) (by
      intro he
      rw [List.map_eq_nil_iff.1 he] at hp
      cases hp)
    unfold paramLines
    rw [hl, hlp]
    exact ⟨_, rfl⟩

theorem stochText_ok {m : ModelView V} {sig pad : ℕ} {t : Txt} (h : stochText m sig pad = .ok t) :
    ∃ sigma l lp, m.sigma = .ok sigma ∧ leftDigits floorLog10 (sigma.flatten.map some) = .ok l ∧ m.stoch ≠ [] ∧
      (∀ n ∈ m.stoch, n.length ≤ lp) ∧
      t = tableText "covariance of stoch shocks:".toList pad lp (l + sig) sig m.stoch m.stoch (sigma.map fun r => r.map some) := by
  unfold stochText at h
  obtain ⟨lp, h1, h⟩ := Except.bind_ok_iff.1 h
  obtain ⟨sigma, h2, h⟩ := Except.bind_ok_iff.1 h
  obtain ⟨l, h3, h⟩ := Except.bind_ok_iff.1 h
  refine ⟨sigma, l, lp, h2, h3, ?_, maxLen_le h1, ?_⟩
  · rintro he
    rw [he] at h1
    cases h1
  · rw [← Except.ok.inj h]
    unfold tableText
    simp only [List.map_cons, List.zipWith_cons_cons]
    congr 3
    rw [List.map_map, List.zipWith_map]
    congr 1
    funext st row
    simp [Function.comp_def]

theorem stochText_ok_iff {m : ModelView V} {sig pad : ℕ} : (∃ t, stochText m sig pad = .ok t) ↔
    m.stoch ≠ [] ∧ ∃ sigma, m.sigma = .ok sigma ∧ ∃ row ∈ sigma, ∃ x ∈ row, x ≠ 0 := by
  constructor
  · rintro ⟨t, h⟩
    obtain ⟨sigma, l, lp, h1, h2, h3, -⟩ := stochText_ok h
    obtain ⟨x, hx, hx0⟩ := leftDigits_ok_iff.1 ⟨l, h2⟩
    obtain ⟨y, hy, he⟩ := List.mem_map.1 hx
    have := Option.some.inj he
    subst this
    obtain ⟨row, hr, hy⟩ := List.mem_flatten.1 hy
    exact ⟨h3, sigma, h1, row, hr, y, hy, hx0⟩
  · rintro ⟨h3, sigma, h1, row, hr, x, hx, hx0⟩
    obtain ⟨l, hl⟩ := leftDigits_ok_iff (log := floorLog10).2
      ⟨x, List.mem_map.2 ⟨x, List.mem_flatten.2 ⟨row, hr, hx⟩, rfl⟩, hx0⟩
    obtain ⟨lp, hlp⟩ := maxLen_ok h3
    unfold stochText
    rw [hlp, h1]
    have hb : ∀ {α : Type} (f : ℤ → Except Err α), (leftDigits floorLog10 (sigma.flatten.map some) >>= f) = f l := by
      intro α f
      rw [hl]
      rfl
    exact ⟨_, hb _⟩

theorem eigenText_ok_iff {m : ModelView V} {sig pad : ℕ} : (∃ t, eigenText m sig pad = .ok t) ↔
    ∃ es, m.eigen = .ok es ∧ ∃ e ∈ es, ∃ x, x ≠ 0 ∧ (e.re = .fin x ∨ e.im = .fin x ∨ e.mod = .fin x) := by
  have key : ∀ es : List (Eigen V),
      ((es.mergeSort fun a b => a.mod.le b.mod).flatMap fun e => [e.re, e.im, e.mod]).filterMap XNum.good ≠ [] ↔
      ∃ e ∈ es, ∃ x, x ≠ 0 ∧ (e.re = .fin x ∨ e.im = .fin x ∨ e.mod = .fin x) := by
    intro es
    constructor
    · intro hne
      obtain ⟨x, hx⟩ := List.exists_mem_of_ne_nil _ hne
      obtain ⟨y, hy, hg⟩ := List.mem_filterMap.1 hx
      obtain ⟨e, he, hy⟩ := List.mem_flatMap.1 hy
      rw [List.mem_mergeSort] at he
      have hf : y = .fin x ∧ x ≠ 0 := by
        cases y with
        | fin z =>
          simp only [XNum.good] at hg
          split at hg
          · cases hg
          · rename_i hz
            have := Option.some.inj hg
            subst this
            exact ⟨rfl, hz⟩
        | inf n => cases hg
        | nan => cases hg
      obtain ⟨rfl, hx0⟩ := hf
      refine ⟨e, he, x, hx0, ?_⟩
      simp only [List.mem_cons, List.not_mem_nil, or_false] at hy
      rcases hy with h | h | h
      · exact .inl h.symm
      · exact .inr (.inl h.symm)
      · exact .inr (.inr h.symm)
    · rintro ⟨e, he, x, hx0, hx⟩
      refine List.ne_nil_of_mem (a := x) (List.mem_filterMap.2 ⟨.fin x, List.mem_flatMap.2 ⟨e, List.mem_mergeSort.2 he, ?_⟩, by simp [XNum.good, hx0]⟩)
      rcases hx with h | h | h <;> simp [h]
  constructor
  · rintro ⟨t, h⟩
    unfold eigenText at h
    obtain ⟨es, h1, h⟩ := Except.bind_ok_iff.1 h
    dsimp only at h
    split at h
    · cases h
    · rename_i hg
      exact ⟨es, h1, (key es).1 hg⟩
  · rintro ⟨es, h1, h2⟩
    unfold eigenText
    rw [h1]
    exact ⟨_, if_neg ((key es).2 h2)⟩

/-! ### parameters -/

omit [LinearOrder V] [IsStrictOrderedRing V] [FloorRing V] in
theorem pickParams_ok {params : Dict V} {ps : List String} {d r : Dict V} (h : pickParams params d ps = .ok r)
    (hn : d.keys.Nodup) (hv : ∀ p ∈ d, params.get? p.1 = some p.2) :
    r.keys.Nodup ∧ (∀ p ∈ r, params.get? p.1 = some p.2) ∧ (∀ p, p ∈ r.keys ↔ p ∈ d.keys ∨ p ∈ ps) ∧
      ∃ names, names.Sublist ps ∧ r.keys = d.keys ++ names := by
  induction ps generalizing d with
  | nil =>
    have := Except.ok.inj h
    subst this
    exact ⟨hn, hv, by simp, [], by simp, by simp⟩
  | cons p ps ih =>
    unfold pickParams at h
    split at h
    · cases h
    · rename_i v hp
      have hv' : ∀ q ∈ d.set p v, params.get? q.1 = some q.2 := by
        intro q hq
        have hq' := Dict.get?_of_mem (Dict.nodup_keys_set hn p v) (k := q.1) (v := q.2) hq
        rw [Dict.get?_set] at hq'
        split at hq'
        · rename_i he
          have := Option.some.inj hq'
          first
            | rw [← he, hp, this]
            | rw [he, hp, this]
        · exact hv _ (Dict.mem_of_get? hq')
      obtain ⟨i1, i2, i3, names, i4, i5⟩ := ih h (Dict.nodup_keys_set hn p v) hv'
      by_cases hm : p ∈ d.keys
      · rw [Dict.keys_set_of_mem hm] at i5
        refine ⟨i1, i2, ?_, names, i4.cons _, i5⟩
        intro q
        rw [i3, Dict.keys_set_of_mem hm, List.mem_cons]
        constructor
        · rintro (h | h) <;> simp [h]
        · rintro (h | rfl | h)
          · exact .inl h
          · exact .inl hm
          · exact .inr h
      · rw [Dict.keys_set_of_not_mem hm] at i5
        refine ⟨i1, i2, ?_, p :: names, i4.cons_cons _, by rw [i5]; simp⟩
        intro q
        rw [i3, Dict.keys_set_of_not_mem hm, List.mem_cons, List.mem_append, List.mem_singleton]
        tauto

theorem paramLines_shows {sig pad : ℕ} {display : Dict V} {ls : List Txt} (h : paramLines sig pad display = .ok ls)
    (hn : ∀ p ∈ display, Plain p.1.toList) :
    (∀ l ∈ ls, '\n' ∉ l) ∧ List.Forall₂ (ParamShows sig) ls display := by
  unfold paramLines at h
  obtain ⟨lp, h1, h⟩ := Except.bind_ok_iff.1 h
  obtain ⟨l, h2, h⟩ := Except.bind_ok_iff.1 h
  have := Except.ok.inj h
  subst this
  have hle := maxLen_le h1
  clear h h1 h2
  constructor
  · intro t ht hm
    obtain ⟨p, hp, rfl⟩ := List.mem_map.1 ht
    simp only [List.mem_append, List.mem_cons, List.not_mem_nil, or_false] at hm
    rcases hm with ((hm | hm) | hm) | hm
    · exact not_mem_replicate_blank _ hm
    · exact newline_ljust (hn p hp).2.2 hm
    · revert hm; decide
    · exact newline_rjust (cellText_plain sig _).2.2 hm
  · rw [List.forall₂_map_left_iff]
    refine List.forall₂_same.2 ?_
    intro p hp
    refine ⟨cellText sig (some p.2), ?_, cellText_shows sig _⟩
    obtain ⟨p1, p2, -⟩ := hn p hp
    obtain ⟨c1, c2, -⟩ := cellText_plain sig (some p.2)
    have hb : p.1.toList.length < lp + 1 := by
      have := hle p.1.toList (List.mem_map.2 ⟨p, hp, rfl⟩)
      omega
    rw [List.append_assoc, List.append_assoc, lineWords_blanks, lineWords_ljust_append hb, lineWords_word p1 p2]
    have : lineWords (['=', ' '] ++ widthText (l + sig) sig (some p.2)) = [['='], cellText sig (some p.2)] := by
      have := lineWords_append_blank ['='] (widthText (l + sig) sig (some p.2))
      rw [List.cons_append, List.nil_append] at this
      rw [List.cons_append, List.cons_append, List.nil_append, this, lineWords_word (by simp) (by decide)]
      unfold widthText
      rw [lineWords_rjust, lineWords_word c1 c2]
      rfl
    rw [this]
    rfl

omit V [Field V] [LinearOrder V] [IsStrictOrderedRing V] [FloorRing V] in
theorem linesOf_join_lines {a : Txt} {ts : List Txt} (h : ∀ t ∈ a :: ts, '\n' ∉ t) :
    linesOf (joinTxt ['\n'] (a :: ts)) = a :: ts := by
  rw [linesOf_join (by simp) a ts h]
  simp

/-! ### eigenvalues and counts -/

theorem XNum.text_plain (d : ℕ) (x : XNum V) : Plain (x.text d) := by
  cases x with
  | fin x => exact fixedText_plain d x
  | inf n =>
    cases n
    · exact ⟨by simp [XNum.text], by simp [XNum.text], by simp [XNum.text]⟩
    · exact ⟨by simp [XNum.text], by simp [XNum.text], by simp [XNum.text]⟩
  | nan => exact ⟨by simp [XNum.text], by simp [XNum.text], by simp [XNum.text]⟩

theorem XNum.text_shows (d : ℕ) (x : XNum V) : ShowsX d (x.text d) x := by
  cases x with
  | fin x => exact readNumber_fixed d x
  | inf n => cases n <;> rfl
  | nan => rfl

theorem XNum.le_trans' (a b c : XNum V) (h1 : a.le b = true) (h2 : b.le c = true) : a.le c = true := by
  rcases a with x | n | _ <;> rcases b with y | n' | _ <;> rcases c with z | n'' | _ <;>
    simp only [XNum.le, decide_eq_true_eq, Bool.not_eq_true', Bool.false_eq_true] at h1 h2 ⊢ <;>
    first
      | exact le_trans h1 h2
      | (cases n <;> simp_all [XNum.le]; done)
      | (cases n <;> cases n' <;> simp_all [XNum.le]; done)
      | (cases n <;> cases n'' <;> simp_all [XNum.le]; done)
      | (cases n' <;> cases n'' <;> simp_all [XNum.le]; done)
      | (cases n <;> cases n' <;> cases n'' <;> simp_all [XNum.le]; done)
      | simp_all [XNum.le]

theorem XNum.le_total' (a b : XNum V) : (a.le b || b.le a) = true := by
  rcases a with x | n | _ <;> rcases b with y | n' | _ <;>
    first
      | (simp only [XNum.le, Bool.or_eq_true, decide_eq_true_eq]; exact le_total x y)
      | (cases n <;> simp [XNum.le]; done)
      | (cases n' <;> simp [XNum.le]; done)
      | (cases n <;> cases n' <;> simp [XNum.le]; done)
      | simp [XNum.le]

theorem eigenText_ok {m : ModelView V} {sig pad : ℕ} {t : Txt} (h : eigenText m sig pad = .ok t) :
    ∃ es sorted head lines, m.eigen = .ok es ∧ sorted.Perm es ∧ sorted.Pairwise (fun a b => a.mod.le b.mod = true) ∧
      linesOf t = "steady-state eigenvalues:".toList :: head :: lines ∧
      lineWords head = ["real".toList, "imag".toList, "mod".toList] ∧ List.Forall₂ (EigenShows sig) lines sorted := by
  unfold eigenText at h
  obtain ⟨es, h1, h⟩ := Except.bind_ok_iff.1 h
  dsimp only at h
  split at h
  · cases h
  · have := Except.ok.inj h
    subst this
    have hline : ∀ (w : ℤ) (e : Eigen V), lineWords (eigenLine w sig e) = [e.re.text sig, e.im.text sig, e.mod.text sig] := by
      intro w e
      unfold eigenLine
      rw [lineWords_join]
      obtain ⟨a1, a2, -⟩ := XNum.text_plain sig e.re
      obtain ⟨b1, b2, -⟩ := XNum.text_plain sig e.im
      obtain ⟨c1, c2, -⟩ := XNum.text_plain sig e.mod
      simp only [List.map_cons, List.map_nil, List.flatMap_cons, List.flatMap_nil, lineWords_rjust, lineWords_word a1 a2,
        lineWords_word b1 b2, lineWords_word c1 c2]
      rfl
    have hnl : ∀ (w : ℤ) (e : Eigen V), '\n' ∉ eigenLine w sig e := by
      intro w e
      unfold eigenLine
      apply newline_join
      intro t ht
      obtain ⟨x, -, rfl⟩ := List.mem_map.1 ht
      exact newline_rjust (XNum.text_plain sig x).2.2
    have hhead : ∀ w, '\n' ∉ joinTxt [' '] (["real".toList, "imag".toList, "mod".toList].map (rjust w)) := by
      intro w
      apply newline_join
      intro t ht
      obtain ⟨x, hx, rfl⟩ := List.mem_map.1 ht
      refine newline_rjust ?_
      clear ht
      revert x
      decide
    generalize floorLog10 (maxAbs (((es.mergeSort fun a b => a.mod.le b.mod).flatMap fun e => [e.re, e.im, e.mod]).filterMap
      XNum.good)) + 3 + (sig : ℤ) = w
    have hl := linesOf_join (not_mem_replicate_blank pad) "steady-state eigenvalues:".toList
      (joinTxt [' '] (["real".toList, "imag".toList, "mod".toList].map (rjust w.toNat)) ::
        (es.mergeSort fun a b => a.mod.le b.mod).map (eigenLine w sig)) (by
      intro t ht
      rcases List.mem_cons.1 ht with rfl | ht
      · decide
      · rcases List.mem_cons.1 ht with rfl | ht
        · exact hhead _
        · obtain ⟨e, -, rfl⟩ := List.mem_map.1 ht
          exact hnl _ e)
    rw [List.map_cons] at hl
    refine ⟨es, es.mergeSort fun a b => a.mod.le b.mod, _, _, h1, List.mergeSort_perm _ _,
      List.pairwise_mergeSort (fun a b c => XNum.le_trans' a.mod b.mod c.mod) (fun a b => XNum.le_total' a.mod b.mod) _,
      hl, ?_, ?_⟩
    · rw [lineWords_blanks, lineWords_join]
      simp only [List.map_cons, List.map_nil, List.flatMap_cons, List.flatMap_nil, lineWords_rjust]
      decide
    · rw [List.forall₂_map_left_iff, List.forall₂_map_left_iff]
      refine List.forall₂_same.2 ?_
      intro e _
      exact ⟨_, _, _, by rw [lineWords_blanks, hline], XNum.text_shows sig _, XNum.text_shows sig _, XNum.text_shows sig _⟩

omit V [Field V] [LinearOrder V] [IsStrictOrderedRing V] [FloorRing V] in
theorem readNat_digits (n : ℕ) : readNat (Nat.toDigits 10 n) = some n := by
  unfold readNat
  rw [if_pos ⟨Nat.toDigits_ne_nil, by rw [List.all_eq_true]; exact toDigits_digit⟩, toDigits_value]

omit V [Field V] [LinearOrder V] [IsStrictOrderedRing V] [FloorRing V] in
theorem countLine_shows (pad lpad n : ℕ) (label : Txt) (hl : '\n' ∉ label) :
    (∀ t ∈ countLine lpad label n, '\n' ∉ t) ∧
    List.Forall₂ CountShows ((countLine lpad label n).map (List.replicate pad ' ' ++ ·)) (if n = 0 then [] else [(label, n)]) := by
  unfold countLine
  split
  · simp
  · have hd : ' ' ∉ Nat.toDigits 10 n := not_mem_of_digits toDigits_digit (by decide)
    have hd' : '\n' ∉ Nat.toDigits 10 n := not_mem_of_digits toDigits_digit (by decide)
    constructor
    · intro t ht hm
      rw [List.mem_singleton] at ht
      subst ht
      simp only [List.mem_append] at hm
      rcases hm with (((hm | hm) | hm) | hm) | hm
      · revert hm; decide
      · exact hl hm
      · revert hm; decide
      · exact not_mem_replicate_blank _ hm
      · exact hd' hm
    · refine .cons ⟨Nat.toDigits 10 n, ?_, readNat_digits n⟩ .nil
      have e : List.replicate pad ' ' ++ ("number of ".toList ++ label ++ ": ".toList ++
          List.replicate (lpad - label.length) ' ' ++ Nat.toDigits 10 n) =
        List.replicate pad ' ' ++ ("number".toList ++ ' ' :: ("of".toList ++ ' ' :: ((label ++ [':']) ++ ' ' ::
          (List.replicate (lpad - label.length) ' ' ++ Nat.toDigits 10 n)))) := by
        have e1 : "number of ".toList = "number".toList ++ ' ' :: ("of".toList ++ [' ']) := by decide
        have e2 : ": ".toList = [':', ' '] := by decide
        rw [e1, e2]
        simp only [List.append_assoc, List.cons_append, List.nil_append]
      dsimp only
      rw [e, lineWords_blanks, lineWords_append_blank, lineWords_append_blank, lineWords_append_blank, lineWords_blanks,
        lineWords_word Nat.toDigits_ne_nil hd]
      have e1 : lineWords "number".toList = ["number".toList] := by decide
      have e2 : lineWords "of".toList = ["of".toList] := by decide
      rw [e1, e2]
      simp

end
end Pynare
