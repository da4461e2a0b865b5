import Verif.Model.ExprText
import Verif.Model.Reading
import Verif.Spec.ExprText
import Verif.Lemmas.LexerComment
import Verif.Lemmas.ReadingMore
/-! # Lemmas about the printed equations -/

namespace Pynare

variable {V SS S : Type}

theorem splitOnChar_length (c : Char) (t : Txt) : (splitOnChar c t).length = t.count c + 1 := by
  induction t with
  | nil => rfl
  | cons x xs ih =>
    unfold splitOnChar
    by_cases h : x = c
    · rw [if_pos h, List.length_cons, ih, h, List.count_cons_self]
    · rw [if_neg h, List.count_cons_of_ne h]
      cases hs : splitOnChar c xs with
      | nil => rw [hs] at ih; simp at ih
      | cons p ps => rw [hs] at ih; simpa using ih

theorem splitOnChar_none {c : Char} {t : Txt} (h : c ∉ t) : splitOnChar c t = [t] := by
  induction t with
  | nil => rfl
  | cons x xs ih =>
    simp only [List.mem_cons, not_or] at h
    unfold splitOnChar
    rw [if_neg (fun e => h.1 e.symm), ih h.2]

theorem splitOnChar_one {c : Char} {a b : Txt} (ha : c ∉ a) (hb : c ∉ b) :
    splitOnChar c (a ++ c :: b) = [a, b] := by
  induction a with
  | nil =>
    show splitOnChar c (c :: b) = _
    unfold splitOnChar
    rw [if_pos rfl, splitOnChar_none hb]
  | cons x xs ih =>
    simp only [List.mem_cons, not_or] at ha
    show splitOnChar c (x :: (xs ++ c :: b)) = _
    unfold splitOnChar
    rw [if_neg (fun e => ha.1 e.symm), ih ha.2]

theorem count_one_split {c : Char} {t : Txt} (h : t.count c = 1) :
    ∃ a b, t = a ++ c :: b ∧ c ∉ a ∧ c ∉ b := by
  induction t with
  | nil => simp at h
  | cons x xs ih =>
    by_cases e : x = c
    · subst e
      rw [List.count_cons_self] at h
      exact ⟨[], xs, rfl, by simp, List.count_eq_zero.mp (by omega)⟩
    · rw [List.count_cons_of_ne e] at h
      obtain ⟨a, b, h1, h2, h3⟩ := ih h
      exact ⟨x :: a, b, by simp [h1], by simp [h2, Ne.symm e], h3⟩

theorem dropWhile_head (f : Char → Bool) (t : Txt) : ∀ c, (t.dropWhile f).head? = some c → f c = false := by
  induction t with
  | nil => intro c h; simp at h
  | cons x xs ih =>
    intro c h
    by_cases e : f x = true
    · rw [List.dropWhile_cons_of_pos e] at h; exact ih c h
    · rw [List.dropWhile_cons_of_neg e] at h
      simp only [List.head?_cons, Option.some.injEq] at h
      subst h; simpa using e

theorem dropWhile_parts (f : Char → Bool) (t : Txt) : ∃ a, t = a ++ t.dropWhile f ∧ ∀ c ∈ a, f c = true :=
  ⟨t.takeWhile f, (List.takeWhile_append_dropWhile).symm, fun c h => by
    induction t with
    | nil => simp at h
    | cons x xs ih =>
      by_cases e : f x = true
      · rw [List.takeWhile_cons_of_pos e] at h
        rcases List.mem_cons.mp h with rfl | h
        · exact e
        · exact ih h
      · rw [List.takeWhile_cons_of_neg e] at h; simp at h⟩

theorem strip_trims (f : Char → Bool) (t : Txt) : Trims f t (strip f t) := by
  obtain ⟨a, h1, h2⟩ := dropWhile_parts f t
  obtain ⟨b, h3, h4⟩ := dropWhile_parts f (t.dropWhile f).reverse
  have e : t.dropWhile f = strip f t ++ b.reverse := by
    have := congrArg List.reverse h3
    rw [List.reverse_reverse, List.reverse_append] at this
    exact this
  refine ⟨a, b.reverse, ?_, h2, fun c hc => h4 c (by simpa using hc), ?_, ?_⟩
  · rw [List.append_assoc, ← e]; exact h1
  · intro c hc
    apply dropWhile_head f t
    rw [e]
    cases hs : strip f t with
    | nil => rw [hs] at hc; simp at hc
    | cons y ys => rw [hs] at hc; simpa using hc
  · intro c hc
    apply dropWhile_head f (t.dropWhile f).reverse
    rw [← hc]
    simp [strip, List.getLast?_reverse]

theorem exprSides_ok {f : Char → Bool} {s : Txt} (h : s.count '=' = 1) :
    ∃ a b, s = a ++ '=' :: b ∧ '=' ∉ a ∧ '=' ∉ b ∧ exprSides f s = .ok (strip f a, strip f b) := by
  obtain ⟨a, b, h1, h2, h3⟩ := count_one_split h
  exact ⟨a, b, h1, h2, h3, by rw [h1, exprSides, splitOnChar_one h2 h3]⟩

theorem exprSides_error {f : Char → Bool} {s : Txt} (h : s.count '=' ≠ 1) :
    exprSides f s = .error .valueError := by
  have hl := splitOnChar_length '=' s
  unfold exprSides
  split
  · next hs => rw [hs] at hl; simp at hl; omega
  · rfl

theorem sidesLoop_error {f : Char → Bool} {ss : List String} (h : ∃ s ∈ ss, s.toList.count '=' ≠ 1) :
    sidesLoop f ss = .error .valueError := by
  induction ss with
  | nil => simp at h
  | cons s ss ih =>
    by_cases hs : s.toList.count '=' = 1
    · obtain ⟨a, b, _, _, _, h4⟩ := exprSides_ok (f := f) hs
      have : ∃ s ∈ ss, s.toList.count '=' ≠ 1 := by
        obtain ⟨x, hx, hx2⟩ := h
        rcases List.mem_cons.mp hx with rfl | hx
        · exact absurd hs hx2
        · exact ⟨x, hx, hx2⟩
      simp only [sidesLoop, h4, ih this]; rfl
    · simp only [sidesLoop, exprSides_error hs]; rfl

/-- the two sides that are printed for each equation -/
def SidesOf (f : Char → Bool) (s : Txt) (p : Txt × Txt) : Prop :=
  ∃ a b, s = a ++ '=' :: b ∧ '=' ∉ a ∧ '=' ∉ b ∧ p = (strip f a, strip f b)

theorem sidesLoop_ok {f : Char → Bool} {ss : List String} (h : ∀ s ∈ ss, s.toList.count '=' = 1) :
    ∃ ps, sidesLoop f ss = .ok ps ∧ ps.length = ss.length ∧
      ∀ (i : Nat) (s : String) (p : Txt × Txt), ss[i]? = some s → ps[i]? = some p → SidesOf f s.toList p := by
  induction ss with
  | nil => exact ⟨[], rfl, rfl, fun i s p h => by simp at h⟩
  | cons s ss ih =>
    obtain ⟨a, b, h1, h2, h3, h4⟩ := exprSides_ok (f := f) (h s (by simp))
    obtain ⟨ps, h5, h6, h7⟩ := ih (fun s hs => h s (by simp [hs]))
    refine ⟨(strip f a, strip f b) :: ps, by simp only [sidesLoop, h4, h5]; rfl, by simp [h6], ?_⟩
    intro i t p ht hp
    cases i with
    | zero =>
      simp only [List.getElem?_cons_zero, Option.some.injEq] at ht hp
      subst ht; subst hp
      exact ⟨a, b, h1, h2, h3, rfl⟩
    | succ i => exact h7 i t p (by simpa using ht) (by simpa using hp)

theorem foldl_max_le (ts : List Txt) (n : Nat) : n ≤ ts.foldl (fun m s => max m s.length) n ∧
    ∀ t ∈ ts, t.length ≤ ts.foldl (fun m s => max m s.length) n := by
  induction ts generalizing n with
  | nil => exact ⟨Nat.le_refl _, by simp⟩
  | cons x xs ih =>
    obtain ⟨h1, h2⟩ := ih (max n x.length)
    refine ⟨Nat.le_trans (Nat.le_max_left _ _) h1, fun t ht => ?_⟩
    rcases List.mem_cons.mp ht with rfl | ht
    · exact Nat.le_trans (Nat.le_max_right _ _) h1
    · exact h2 t ht

theorem foldl_max_attained (ts : List Txt) (n : Nat) : ts.foldl (fun m s => max m s.length) n = n ∨
    ∃ t ∈ ts, t.length = ts.foldl (fun m s => max m s.length) n := by
  induction ts generalizing n with
  | nil => exact .inl rfl
  | cons x xs ih =>
    rcases ih (max n x.length) with h | ⟨t, ht, h⟩
    · rcases Nat.le_total n x.length with hx | hx
      · exact .inr ⟨x, by simp, by rw [List.foldl_cons, h, Nat.max_eq_right hx]⟩
      · exact .inl (by rw [List.foldl_cons, h, Nat.max_eq_left hx])
    · exact .inr ⟨t, by simp [ht], by rw [List.foldl_cons]; exact h⟩

theorem maxLen_attained {ts : List Txt} (h : ts ≠ []) : ∃ n, maxLen ts = .ok n ∧ (∀ t ∈ ts, t.length ≤ n) ∧
    ∃ t ∈ ts, t.length = n := by
  cases ts with
  | nil => exact absurd rfl h
  | cons x xs =>
    refine ⟨_, rfl, fun t ht => ?_, ?_⟩
    · rcases List.mem_cons.mp ht with rfl | ht
      · exact (foldl_max_le xs t.length).1
      · exact (foldl_max_le xs x.length).2 t ht
    · rcases foldl_max_attained xs x.length with h | ⟨t, ht, h⟩
      · exact ⟨x, by simp, h.symm⟩
      · exact ⟨t, by simp [ht], h⟩

/-! ### white space in front of a text -/

theorem next_blanks (cfg : LexCfg V) {w x : List Char} (hw : ∀ c ∈ w, cfg.isSpace c = true) :
    cfg.next (w ++ x) = cfg.next x := by
  obtain ⟨p, hp⟩ : ∃ p, cfg.skipWs (w ++ x) ⟨1, 0⟩ = cfg.skipWs x p := by
    generalize (⟨1, 0⟩ : Pos) = q
    induction w generalizing q with
    | nil => exact ⟨q, rfl⟩
    | cons c w ih =>
      obtain ⟨p, h⟩ := ih (fun c hc => hw c (by simp [hc])) (q.over c)
      refine ⟨p, ?_⟩
      rw [← h]
      show (spanAdv cfg.isSpace (c :: (w ++ x)) q).2 = _
      rw [spanAdv, if_pos (hw c (by simp))]
      rfl
  rw [← next_eq cfg x p]
  have : cfg.nextToken (w ++ x) ⟨1, 0⟩ = cfg.nextToken x p := by
    unfold LexCfg.nextToken
    rw [hp]
  unfold LexCfg.next
  rw [this]

theorem kindsFrom_blanks {cfg : LexCfg V} (ok : CharOk cfg) {w x : List Char} (hw : ∀ c ∈ w, cfg.isSpace c = true)
    (hx : x ≠ []) : cfg.kindsFrom (w ++ x) = cfg.kindsFrom x :=
  kindsFrom_next ok (by simp [hx]) hx (next_blanks cfg hw)

theorem spells_last {cfg : LexCfg V} (ok : CharOk cfg) {t : Tok V} {w : List Char} (h : Spells cfg t w) :
    ∀ c, w.getLast? = some c → cfg.isSpace c = false := by
  have hvar : ∀ c, cfg.varChar c = true → cfg.isSpace c = false := by
    intro c hc
    simp only [LexCfg.varChar, Bool.or_eq_true, beq_iff_eq] at hc
    rcases hc with h | rfl
    · exact ok.alnum_not_space c h
    · exact ok.punct_not_space _ (by decide)
  have word : ∀ (c : Char) (cs : List Char), cfg.begChar c = true → (∀ x ∈ cs, cfg.varChar x = true) →
      ∀ d, (c :: cs).getLast? = some d → cfg.isSpace d = false := by
    intro c cs hb hv d hd
    rcases List.mem_cons.mp (List.mem_of_getLast? hd) with rfl | hm
    · exact begChar_not_space ok hb
    · exact hvar d (hv d hm)
  cases h with
  | id h1 h2 _ _ => exact word _ _ h1 h2
  | kw h1 h2 _ => exact word _ _ h1 h2
  | func h1 h2 _ _ => exact word _ _ h1 h2
  | num h1 _ => exact fun d hd => numChar_not_space ok (h1 d (List.mem_of_getLast? hd))
  | @str q cs hq _ =>
    intro d hd
    rw [List.getLast?_append, List.getLast?_singleton, Option.some_or] at hd
    cases hd
    rcases hq with rfl | rfl <;> exact ok.punct_not_space _ (by decide)
  | @sym s w h1 _ =>
    intro d hd
    apply ok.punct_not_space
    have hm := List.mem_of_getLast? hd
    cases s <;> simp only [Sym.text, Option.some.injEq, reduceCtorEq] at h1 <;> subst h1 <;>
      first
      | (split at hm <;> simp only [List.mem_cons, List.not_mem_nil, or_false, or_self] at hm <;> subst hm <;> decide)
      | (simp only [List.mem_cons, List.not_mem_nil, or_false, or_self] at hm; rcases hm with rfl | rfl <;> decide)

theorem written_last {cfg : LexCfg V} (ok : CharOk cfg) {toks : List (Tok V)} {s R : List Char}
    (h : Written cfg toks s R) : ∀ c, s.getLast? = some c → cfg.isSpace c = false := by
  induction h with
  | nil => intro c hc; simp at hc
  | @cons t ts l w s R hl hs hf hw ih =>
    intro c hc
    cases s with
    | nil =>
      rw [List.append_nil] at hc
      obtain ⟨hne, _⟩ := spells_start ok hs ([] ++ R) hf
      rw [List.getLast?_append_of_ne_nil _ hne] at hc
      exact spells_last ok hs c hc
    | cons d s =>
      rw [List.getLast?_append_of_ne_nil _ (by simp)] at hc
      exact ih c hc

theorem written_ne {cfg : LexCfg V} (ok : CharOk cfg) {toks : List (Tok V)} {s R : List Char}
    (h : Written cfg toks s R) (hne : toks ≠ []) : s ≠ [] := by
  cases h with
  | nil => exact absurd rfl hne
  | cons hl hs hf hw =>
    have := (spells_start ok hs _ hf).1
    simp [this]

/-- what is trimmed of a written side is the white space around it -/
theorem trims_written {f : Char → Bool} {s w u : List Char} (hne : s ≠ [])
    (hs : ∀ c, s.getLast? = some c → f c = false) (hw : ∀ c ∈ w, f c = true) (h : Trims f (s ++ w) u) :
    ∃ a, s = a ++ u ∧ ∀ c ∈ a, f c = true := by
  obtain ⟨a, b, h1, h2, h3, h4, h5⟩ := h
  have key : ∀ (w b x y : List Char), (∀ c ∈ w, f c = true) → (∀ c ∈ b, f c = true) →
      (∀ c, x.getLast? = some c → f c = false) → (∀ c, y.getLast? = some c → f c = false) → x ≠ [] → y ≠ [] →
      x ++ w = y ++ b → x = y := by
    intro w
    induction w using List.reverseRecOn with
    | nil =>
      intro b x y _ hb hx hy hx0 hy0 e
      cases b using List.reverseRecOn with
      | nil => simpa using e
      | append_singleton b c _ =>
        exfalso
        rw [List.append_nil] at e
        have := hx c (by rw [e, ← List.append_assoc, List.getLast?_append_of_ne_nil _ (by simp)]; rfl)
        rw [hb c (by simp)] at this
        cases this
    | append_singleton w c ih =>
      intro b x y hw hb hx hy hx0 hy0 e
      cases b using List.reverseRecOn with
      | nil =>
        exfalso
        rw [List.append_nil] at e
        have := hy c (by rw [← e, ← List.append_assoc, List.getLast?_append_of_ne_nil _ (by simp)]; rfl)
        rw [hw c (by simp)] at this
        cases this
      | append_singleton b d _ =>
        rw [← List.append_assoc, ← List.append_assoc] at e
        have := List.append_inj' e rfl
        exact ih b x y (fun c hc => hw c (by simp [hc])) (fun c hc => hb c (by simp [hc])) hx hy hx0 hy0 this.1
  by_cases hu : u = []
  · exfalso
    subst hu
    obtain ⟨c, hc⟩ : ∃ c, s.getLast? = some c := by
      cases h : s.getLast? with
      | none => exact absurd (List.getLast?_eq_none_iff.mp h) hne
      | some c => exact ⟨c, rfl⟩
    have hm : c ∈ s ++ w := by simp [List.mem_of_getLast? hc]
    rw [h1] at hm
    have : f c = true := by
      simp only [List.append_nil, List.mem_append] at hm
      exact hm.elim (h2 c) (h3 c)
    rw [hs c hc] at this
    cases this
  · refine ⟨a, key w b s (a ++ u) hw h3 hs ?_ hne (by simp [hu]) h1, h2⟩
    intro c hc
    rw [List.getLast?_append_of_ne_nil _ hu] at hc
    exact h5 c hc

theorem kindsFrom_blank_only {cfg : LexCfg V} (ok : CharOk cfg) {w : List Char} (hw : ∀ c ∈ w, cfg.isSpace c = true) :
    ∃ n, cfg.kindsFrom w = .ok (List.replicate (n + 1) .eof) := by
  by_cases h : w = []
  · subst h; exact ⟨0, rfl⟩
  · refine ⟨1, ?_⟩
    rw [kindsFrom_cons ok h]
    have := next_blanks cfg (x := []) hw
    rw [List.append_nil] at this
    rw [this]
    rfl

/-- the tokens of an equation that is written with its sides, an equals sign between them -/
theorem kinds_equation {cfg : LexCfg V} (ok : CharOk cfg) {tl tr : List (Tok V)} {s1 w1 w s2 w2 : List Char}
    (h1 : Written cfg tl s1 (w1 ++ '=' :: (w ++ s2 ++ w2))) (hw1 : ∀ c ∈ w1, cfg.isSpace c = true)
    (hw : ∀ c ∈ w, cfg.isSpace c = true)
    (h2 : Written cfg tr s2 w2) (he : '=' ∉ s2) (ht : tr ≠ []) (hw2 : ∀ c ∈ w2, cfg.isSpace c = true) :
    ∃ n, cfg.kindsFrom (s1 ++ (w1 ++ '=' :: (w ++ s2 ++ w2))) =
      .ok (tl ++ .sym .equals :: (tr ++ List.replicate (n + 1) .eof)) := by
  obtain ⟨n, hn⟩ := kindsFrom_blank_only ok hw2
  refine ⟨n, ?_⟩
  have hs2 := written_ne ok h2 ht
  have heq : Written cfg [.sym .equals] (w1 ++ ['=']) (w ++ s2 ++ w2) := by
    have lay : Layout cfg w1 := by
      have := Layout.mk (cfg := cfg) (ws := w1) (ls := []) (bs := []) hw1 (by simp) (by simp)
      simpa using this
    have := Written.cons (cfg := cfg) (t := .sym .equals) (ts := []) (w := ['=']) (s := []) (R := w ++ s2 ++ w2)
      lay (.sym rfl (by simp)) ?_ .nil
    · simpa using this
    · intro c hc
      show c ≠ '='
      rintro rfl
      cases w with
      | cons d w =>
        simp only [List.nil_append, List.cons_append, List.head?_cons, Option.some.injEq] at hc
        have := hw d (by simp)
        rw [hc, ok.punct_not_space _ (by decide)] at this
        cases this
      | nil =>
        cases s2 with
        | nil => exact hs2 rfl
        | cons d s2 =>
          simp only [List.nil_append, List.cons_append, List.head?_cons, Option.some.injEq] at hc
          exact he (by simp [hc])
  rw [kindsFrom_written ok h1]
  have e : w1 ++ '=' :: (w ++ s2 ++ w2) = (w1 ++ ['=']) ++ (w ++ s2 ++ w2) := by simp
  rw [e, kindsFrom_written ok heq, List.append_assoc w s2 w2, kindsFrom_blanks ok hw (by simp [hs2]),
    kindsFrom_written ok h2, hn]
  rfl

/-! ### files -/

theorem fromText_strs [Zero V] [One V] {r : ReadEnv V SS S} {lang name : String} {text : List Char} {m : MState V SS S}
    (h : fromText r lang name text = .ok m) : m.exprs.strs.length = m.exprs.exprs.length ∧ ∀ s ∈ m.exprs.strs, s = "" := by
  simp only [fromText, Out.bind_ok_iff, ofExcept_ok] at h
  obtain ⟨o, _, h⟩ := h
  simp only [fromOutline, Except.bind_ok_iff] at h
  obtain ⟨ls, _, locals, _, h⟩ := h
  split at h
  · cases h
  · simp only [Except.bind_ok_iff] at h
    obtain ⟨ps, _, params, _, h⟩ := h
    have : m.exprs = (outlineArgs o name).exprs := by
      simp only [MState.build, Except.bind_ok_iff] at h
      obtain ⟨_, _, _, _, _, _, _, _, _, _, _, _, _, _, h⟩ := h
      cases h
      rfl
    rw [this]
    simp [outlineArgs]

theorem exprLoop_strs (parse : String → Except Err (Expr V)) (as : List (ExprArg V)) (x : ModelExprs V) {s : String}
    (hs : s ∈ x.strs) : s ∈ (exprLoop parse as x).1.strs := by
  induction as generalizing x with
  | nil => exact hs
  | cons a as ih =>
    unfold exprLoop
    cases h : x.append parse a with
    | error e => exact hs
    | ok x' =>
      refine ih x' ?_
      simp only [ModelExprs.append, ModelExprs.insert, Except.bind_ok_iff] at h
      obtain ⟨_, _, h⟩ := h
      cases h
      simp only [pyInsert, pyInsertPos]
      rw [List.mem_insertIdx (by split <;> omega)]
      exact .inr hs

end Pynare
