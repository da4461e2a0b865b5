import Verif.Model.Index
import Verif.Lemmas.Semantics
/-!
# Lemmas about the lead/lag table
-/

namespace Pynare

/-! ### numbering -/

theorem numberCells_get (bs : List Bool) : ∀ (k i : Nat),
    (numberCells k bs)[i]? =
      bs[i]?.map fun b => if b then some (k + (bs.take i).count true) else none := by
  induction bs with
  | nil => intro k i; simp [numberCells]
  | cons b bs ih =>
    intro k i
    cases b with
    | true =>
      cases i with
      | zero => simp [numberCells]
      | succ i =>
        simp only [numberCells, List.getElem?_cons_succ, ih, List.take_succ_cons]
        congr 1
        funext b
        by_cases hb : b = true
        · simp [hb]; omega
        · simp [hb]
    | false =>
      cases i with
      | zero => simp [numberCells]
      | succ i =>
        simp only [numberCells, List.getElem?_cons_succ, ih, List.take_succ_cons]
        simp

theorem numberCells_some {bs : List Bool} {i k : Nat} :
    (numberCells 0 bs)[i]? = some (some k) ↔ bs[i]? = some true ∧ (bs.take i).count true = k := by
  rw [numberCells_get]
  cases h : bs[i]? with
  | none => simp
  | some b => cases b <;> simp

theorem count_take_lt {bs : List Bool} {i j : Nat} (h : i < j) (hi : bs[i]? = some true) :
    (bs.take i).count true < (bs.take j).count true := by
  have e : bs.take (i + 1) = bs.take i ++ [true] := by
    rw [List.take_add_one, hi]; rfl
  have h1 : (bs.take (i + 1)).count true = (bs.take i).count true + 1 := by simp [e]
  have h2 : bs.take (i + 1) = (bs.take j).take (i + 1) := by
    rw [List.take_take]; congr 1; omega
  have h3 : ((bs.take j).take (i + 1)).count true ≤ (bs.take j).count true :=
    List.Sublist.count_le _ (List.take_sublist _ _)
  rw [← h2, h1] at h3
  omega

theorem count_take_inj {bs : List Bool} {i j k l : Nat} (hi : (numberCells 0 bs)[i]? = some (some k))
    (hj : (numberCells 0 bs)[j]? = some (some l)) : k < l ↔ i < j := by
  obtain ⟨h1, rfl⟩ := numberCells_some.mp hi
  obtain ⟨h2, rfl⟩ := numberCells_some.mp hj
  constructor
  · intro h
    rcases Nat.lt_trichotomy i j with g | g | g
    · exact g
    · subst g; omega
    · have := count_take_lt g h2; omega
  · intro h; exact count_take_lt h h1

theorem numberCells_lt {bs : List Bool} {i k : Nat} (hi : (numberCells 0 bs)[i]? = some (some k)) :
    k < bs.count true := by
  obtain ⟨h1, rfl⟩ := numberCells_some.mp hi
  have hl : i < bs.length := (List.getElem?_eq_some_iff.mp h1).1
  have := count_take_lt hl h1
  rwa [List.take_length] at this

theorem numberCells_surj (bs : List Bool) : ∀ (k0 k : Nat), k0 ≤ k → k < k0 + bs.count true →
    ∃ i : Nat, (numberCells k0 bs)[i]? = some (some k) := by
  induction bs with
  | nil => intro k0 k _ h; simp at h; omega
  | cons b bs ih =>
    intro k0 k h1 h2
    cases b with
    | true =>
      by_cases e : k = k0
      · subst e; exact ⟨0, by simp [numberCells]⟩
      · simp at h2
        obtain ⟨i, hi⟩ := ih (k0 + 1) k (by omega) (by omega)
        exact ⟨i + 1, by simpa [numberCells] using hi⟩
    | false =>
      simp at h2
      obtain ⟨i, hi⟩ := ih k0 k h1 h2
      exact ⟨i + 1, by simpa [numberCells] using hi⟩

/-! ### the cells -/

theorem markCells_length (rows : List (List Nat)) : (markCells rows).length = 3 * rows.length := by
  simp [markCells]; omega

theorem markCells_get {rows : List (List Nat)} {r c : Nat} (hr : r < 3) (hc : c < rows.length) :
    (markCells rows)[r * rows.length + c]? = some ((rows[c]?.getD []).contains r) := by
  unfold markCells
  have hc' := List.getElem?_eq_getElem hc
  have h : r = 0 ∨ r = 1 ∨ r = 2 := by omega
  rcases h with rfl | rfl | rfl
  · rw [List.append_assoc, List.getElem?_append_left (by simpa using hc)]
    simp [hc']
  · rw [List.append_assoc, List.getElem?_append_right (by simp), List.getElem?_append_left (by simp; omega)]
    simp [hc']
  · rw [List.getElem?_append_right (by simp; omega)]
    have : 2 * rows.length + c - (List.map (fun x => x.contains 0) rows ++
        List.map (fun x => x.contains 1) rows).length = c := by simp; omega
    rw [this]
    simp [hc']

theorem pos_lt {n r c r' c' : Nat} (hr : r < 3) (hr' : r' < 3) (hc : c < n) (hc' : c' < n) :
    r * n + c < r' * n + c' ↔ r < r' ∨ (r = r' ∧ c < c') := by
  have h : r = 0 ∨ r = 1 ∨ r = 2 := by omega
  have h' : r' = 0 ∨ r' = 1 ∨ r' = 2 := by omega
  rcases h with rfl | rfl | rfl <;> rcases h' with rfl | rfl | rfl <;> omega

theorem allRows_length : ∀ {pss : List (List Int)} {rows : List (List Nat)},
    allRows pss = .ok rows → rows.length = pss.length := by
  intro pss
  induction pss with
  | nil => intro rows h; simp [allRows] at h; subst h; rfl
  | cons ps pss ih =>
    intro rows h
    simp only [allRows, Except.bind_ok_iff] at h
    obtain ⟨r, _, rs, h2, h3⟩ := h
    simp at h3; subst h3
    simp [ih h2]

theorem allRows_get : ∀ {pss : List (List Int)} {rows : List (List Nat)} {c : Nat} {ps : List Int},
    allRows pss = .ok rows → pss[c]? = some ps → ∃ r, rows[c]? = some r ∧ varRows ps = .ok r := by
  intro pss
  induction pss with
  | nil => intro rows c ps _ h; simp at h
  | cons p pss ih =>
    intro rows c ps h hc
    simp only [allRows, Except.bind_ok_iff] at h
    obtain ⟨r, h1, rs, h2, h3⟩ := h
    simp at h3; subst h3
    cases c with
    | zero => simp at hc; subst hc; exact ⟨r, by simp, h1⟩
    | succ c =>
      obtain ⟨r', h4, h5⟩ := ih h2 (by simpa using hc)
      exact ⟨r', by simpa using h4, h5⟩

theorem allRows_ok : ∀ {pss : List (List Int)}, (∀ ps ∈ pss, ∃ r, varRows ps = .ok r) →
    ∃ rows, allRows pss = .ok rows := by
  intro pss
  induction pss with
  | nil => intro _; exact ⟨[], rfl⟩
  | cons ps pss ih =>
    intro h
    obtain ⟨r, hr⟩ := h ps (by simp)
    obtain ⟨rs, hrs⟩ := ih (fun q hq => h q (List.mem_cons_of_mem _ hq))
    exact ⟨r :: rs, by simp [allRows, hr, hrs, bind, Except.bind]⟩

/-- everything about the table in one statement -/
theorem buildLlx_spec {pss : List (List Int)} {t : Llx} (h : buildLlx pss = .ok t) :
    t.n = pss.length ∧
    (∀ r c k, t.cell r c = some k → r < 3 ∧ c < pss.length) ∧
    (∀ r c ps, r < 3 → pss[c]? = some ps → ∃ rs, varRows ps = .ok rs ∧
      ((t.cell r c).isSome ↔ r ∈ rs)) ∧
    (∀ r c k r' c' k', t.cell r c = some k → t.cell r' c' = some k' →
      (k < k' ↔ r < r' ∨ (r = r' ∧ c < c'))) ∧
    (∀ k, k < t.count ↔ ∃ r c, t.cell r c = some k) := by
  simp only [buildLlx, Except.bind_ok_iff] at h
  obtain ⟨rows, h1, h2⟩ := h
  simp at h2
  have hlen := allRows_length h1
  subst h2
  have hcell : ∀ r c k, (if r < 3 ∧ c < pss.length then
      (numberCells 0 (markCells rows))[r * pss.length + c]?.getD none else none) = some k ↔
      (r < 3 ∧ c < pss.length) ∧
        (numberCells 0 (markCells rows))[r * pss.length + c]? = some (some k) := by
    intro r c k
    split
    · rename_i hrc
      simp [hrc]
      cases (numberCells 0 (markCells rows))[r * pss.length + c]? with
      | none => simp
      | some o => simp
    · rename_i hrc; simp [hrc]
  refine ⟨rfl, ?_, ?_, ?_, ?_⟩
  · intro r c k hk
    exact ((hcell r c k).mp hk).1
  · intro r c ps hr hc
    have hcl : c < pss.length := (List.getElem?_eq_some_iff.mp hc).1
    obtain ⟨rs, h3, h4⟩ := allRows_get h1 hc
    refine ⟨rs, h4, ?_⟩
    have hm := markCells_get hr (hlen ▸ hcl : c < rows.length)
    rw [h3, hlen] at hm
    rw [Option.isSome_iff_exists]
    constructor
    · rintro ⟨k, hk⟩
      have := (numberCells_some.mp ((hcell r c k).mp hk).2).1
      rw [hm] at this
      simpa using this
    · intro hmem
      refine ⟨((markCells rows).take (r * pss.length + c)).count true, (hcell r c _).mpr ⟨⟨hr, hcl⟩, ?_⟩⟩
      rw [numberCells_some]
      exact ⟨by rw [hm]; simpa using hmem, rfl⟩
  · intro r c k r' c' k' hk hk'
    obtain ⟨⟨a1, a2⟩, a3⟩ := (hcell r c k).mp hk
    obtain ⟨⟨b1, b2⟩, b3⟩ := (hcell r' c' k').mp hk'
    rw [count_take_inj a3 b3, pos_lt a1 b1 a2 b2]
  · intro k
    constructor
    · intro hk
      obtain ⟨i, hi⟩ := numberCells_surj (markCells rows) 0 k (by omega) (by simpa using hk)
      have hil : i < 3 * pss.length := by
        have := (List.getElem?_eq_some_iff.mp (numberCells_some.mp hi).1).1
        rw [markCells_length, hlen] at this; exact this
      have hpos : 0 < pss.length := by omega
      have hd : i / pss.length < 3 := by
        rw [Nat.div_lt_iff_lt_mul hpos]; exact hil
      refine ⟨i / pss.length, i % pss.length, (hcell _ _ k).mpr ⟨⟨hd, Nat.mod_lt _ hpos⟩, ?_⟩⟩
      rw [Nat.mul_comm, Nat.div_add_mod]; exact hi
    · rintro ⟨r, c, hk⟩
      exact numberCells_lt ((hcell r c k).mp hk).2

theorem buildLlx_ok {pss : List (List Int)} (h : ∀ ps ∈ pss, ∃ r, varRows ps = .ok r) :
    ∃ t, buildLlx pss = .ok t := by
  obtain ⟨rows, hr⟩ := allRows_ok h
  simp only [buildLlx, hr, bind, Except.bind]
  exact ⟨_, rfl⟩

theorem varRows_std {ps : List Int} (h : ps ≠ []) (hp : ∀ p ∈ ps, p = -1 ∨ p = 0 ∨ p = 1) :
    varRows ps = .ok (ps.map fun p => (p + 1).toNat) := by
  have hall : (ps.all fun p => decide (-4 ≤ p ∧ p ≤ 1)) = true := by
    rw [List.all_eq_true]
    intro p hm
    rcases hp p hm with rfl | rfl | rfl <;> decide
  simp only [varRows, if_neg h, hall, if_true]
  congr 1
  refine List.map_congr_left ?_
  intro p hm
  rcases hp p hm with rfl | rfl | rfl <;> rfl

/-! ### selections -/

namespace Typer

theorem mem_sel {t : Typer} {p : Nat → Bool} {c : Nat} : c ∈ t.sel p ↔ c < t.n ∧ p c = true := by
  simp [sel]

theorem sel_nodup (t : Typer) (p : Nat → Bool) : (t.sel p).Nodup :=
  List.Nodup.sublist List.filter_sublist List.nodup_range

theorem backIdx_eq {t : Typer} (h : ∀ c < t.n, t.has 0 c = true → t.has 2 c = true → t.has 1 c = true) :
    t.backIdx = t.pureBackward := by
  unfold backIdx pureBackward sel
  refine List.filter_congr ?_
  intro c hc
  have := h c (by simpa using hc)
  cases h0 : t.has 0 c <;> cases h1 : t.has 1 c <;> cases h2 : t.has 2 c <;> simp_all

end Typer

theorem perm_filter_append {α : Type} (p : α → Bool) (xs : List α) :
    (xs.filter p ++ xs.filter fun x => !p x).Perm xs := List.filter_append_perm p xs

/-- the four groups exhaust the columns -/
theorem four_groups_perm (t : Typer) :
    (t.static ++ t.pureBackward ++ t.mixed ++ t.pureForward).Perm (List.range t.n) := by
  rw [List.perm_ext_iff_of_nodup]
  · intro c
    simp only [List.mem_append, Typer.static, Typer.pureBackward, Typer.mixed, Typer.pureForward,
      Typer.mem_sel, List.mem_range]
    cases t.has 0 c <;> cases t.has 2 c <;> simp
  · have hd : ∀ {p q : Nat → Bool}, (∀ c, ¬ (p c = true ∧ q c = true)) →
        ∀ a ∈ t.sel p, ∀ b ∈ t.sel q, a ≠ b := by
      intro p q h a ha b hb e
      subst e
      exact h a ⟨(Typer.mem_sel.mp ha).2, (Typer.mem_sel.mp hb).2⟩
    rw [List.nodup_append, List.nodup_append, List.nodup_append]
    refine ⟨⟨⟨t.sel_nodup _, t.sel_nodup _, ?_⟩, t.sel_nodup _, ?_⟩, t.sel_nodup _, ?_⟩
    · exact hd (by intro c; cases t.has 0 c <;> cases t.has 2 c <;> simp)
    · intro a ha b hb
      rcases List.mem_append.mp ha with ha | ha
      · exact hd (p := fun c => !t.has 0 c && !t.has 2 c) (q := fun c => t.has 0 c && t.has 2 c)
          (by intro c; cases t.has 0 c <;> cases t.has 2 c <;> simp) a ha b hb
      · exact hd (p := fun c => t.has 0 c && !t.has 2 c) (q := fun c => t.has 0 c && t.has 2 c)
          (by intro c; cases t.has 0 c <;> cases t.has 2 c <;> simp) a ha b hb
    · intro a ha b hb
      rcases List.mem_append.mp ha with ha | ha
      · rcases List.mem_append.mp ha with ha | ha
        · exact hd (p := fun c => !t.has 0 c && !t.has 2 c) (q := fun c => !t.has 0 c && t.has 2 c)
            (by intro c; cases t.has 0 c <;> cases t.has 2 c <;> simp) a ha b hb
        · exact hd (p := fun c => t.has 0 c && !t.has 2 c) (q := fun c => !t.has 0 c && t.has 2 c)
            (by intro c; cases t.has 0 c <;> cases t.has 2 c <;> simp) a ha b hb
      · exact hd (p := fun c => t.has 0 c && t.has 2 c) (q := fun c => !t.has 0 c && t.has 2 c)
          (by intro c; cases t.has 0 c <;> cases t.has 2 c <;> simp) a ha b hb
  · exact List.nodup_range

/-! ### argsort -/

theorem insertKey_perm (p : Nat × Nat) : ∀ xs, (argsort.insertKey p xs).Perm (p :: xs) := by
  intro xs
  induction xs with
  | nil => exact List.Perm.refl _
  | cons q qs ih =>
    simp only [argsort.insertKey]
    split
    · exact List.Perm.refl _
    · exact (ih.cons q).trans (List.Perm.swap p q qs)

theorem insertKey_sorted (p : Nat × Nat) : ∀ xs, xs.Pairwise (fun a b => a.1 ≤ b.1) →
    (argsort.insertKey p xs).Pairwise (fun a b => a.1 ≤ b.1) := by
  intro xs
  induction xs with
  | nil => intro _; simp [argsort.insertKey]
  | cons q qs ih =>
    intro h
    simp only [argsort.insertKey]
    split
    · rename_i hle
      refine List.Pairwise.cons ?_ h
      intro a ha
      rcases List.mem_cons.mp ha with rfl | ha
      · exact hle
      · exact Nat.le_trans hle (List.rel_of_pairwise_cons h ha)
    · rename_i hle
      have hq := List.Pairwise.of_cons h
      refine List.Pairwise.cons ?_ (ih hq)
      intro a ha
      rcases List.mem_cons.mp ((insertKey_perm p qs).mem_iff.mp ha) with rfl | ha
      · omega
      · exact List.rel_of_pairwise_cons h ha

/-- the sorted pairs (entry, position) -/
def sortedPairs (xs : List Nat) : List (Nat × Nat) :=
  ((List.range xs.length).map fun i => (xs[i]?.getD 0, i)).foldr
    (fun p acc => argsort.insertKey p acc) []

theorem argsort_eq (xs : List Nat) : argsort xs = (sortedPairs xs).map Prod.snd := rfl

theorem foldr_insert_spec (ps : List (Nat × Nat)) :
    (ps.foldr (fun p acc => argsort.insertKey p acc) []).Perm ps ∧
    (ps.foldr (fun p acc => argsort.insertKey p acc) []).Pairwise (fun a b => a.1 ≤ b.1) := by
  induction ps with
  | nil => simp
  | cons p ps ih =>
    exact ⟨(insertKey_perm p _).trans (ih.1.cons p), insertKey_sorted p _ ih.2⟩

theorem map_range_getD (xs : List Nat) :
    ((List.range xs.length).map fun i => (xs[i]?.getD 0, i)).map Prod.fst = xs := by
  rw [List.map_map]
  refine List.ext_getElem (by simp) ?_
  intro i h1 h2
  simp [List.getElem?_eq_getElem h2]

/-- sorting a list of distinct numbers below its length gives `0, 1, 2, …` -/
theorem sorted_perm_range {n : Nat} {xs : List Nat} (h1 : xs.Perm (List.range n))
    (h2 : xs.Pairwise (· ≤ ·)) : xs = List.range n := by
  refine h1.eq_of_pairwise ?_ h2 ?_
  · intro a b _ _ h h'; exact Nat.le_antisymm h h'
  · exact (List.pairwise_lt_range (n := n)).imp (fun h => Nat.le_of_lt h)

/-- `argsort` of a permutation is its inverse -/
theorem argsort_perm {n : Nat} {xs : List Nat} (h : xs.Perm (List.range n)) :
    (argsort xs).length = n ∧ (∀ k, k < n → ∃ i, (argsort xs)[k]? = some i ∧ xs[i]? = some k) := by
  have hlen : xs.length = n := by simpa using h.length_eq
  obtain ⟨p1, p2⟩ := foldr_insert_spec ((List.range xs.length).map fun i => (xs[i]?.getD 0, i))
  change (sortedPairs xs).Perm _ at p1
  change (sortedPairs xs).Pairwise _ at p2
  have hf : (sortedPairs xs).map Prod.fst = List.range n := by
    refine sorted_perm_range ?_ (List.pairwise_map.mpr p2)
    refine (p1.map Prod.fst).trans ?_
    rw [map_range_getD]; exact h
  have hl : (sortedPairs xs).length = n := by
    have := congrArg List.length hf; simpa using this
  refine ⟨by rw [argsort_eq]; simpa using hl, ?_⟩
  intro k hk
  have hk' : k < (sortedPairs xs).length := by omega
  have hmem : (sortedPairs xs)[k] ∈ sortedPairs xs := List.getElem_mem hk'
  have h1 : ((sortedPairs xs)[k]).1 = k := by
    have : ((sortedPairs xs).map Prod.fst)[k]? = some k := by rw [hf]; simp [hk]
    rw [List.getElem?_map, List.getElem?_eq_getElem hk'] at this
    simpa using this
  have h2 := p1.mem_iff.mp hmem
  obtain ⟨i, hi, he⟩ := List.mem_map.mp h2
  have hi' : i < xs.length := by simpa using hi
  refine ⟨i, ?_, ?_⟩
  · rw [argsort_eq, List.getElem?_map, List.getElem?_eq_getElem hk', ← he]; rfl
  · rw [← he] at h1
    simp only [List.getElem?_eq_getElem hi', Option.getD_some] at h1
    rw [List.getElem?_eq_getElem hi', h1]

/-! ### positions in a concatenation -/

/-- positions of the entries of `xs` with property `q` -/
def idxs (q : Nat → Bool) (xs : List Nat) : List Nat :=
  (List.range xs.length).filter fun c => (xs[c]?.map q).getD false

theorem idxs_append (q : Nat → Bool) (xs ys : List Nat) :
    idxs q (xs ++ ys) = idxs q xs ++ (idxs q ys).map (xs.length + ·) := by
  unfold idxs
  rw [List.length_append, List.range_add, List.filter_append, List.filter_map]
  congr 1
  · refine List.filter_congr ?_
    intro c hc
    rw [List.getElem?_append_left (by simpa using hc)]
  · congr 1
    refine List.filter_congr ?_
    intro c _
    simp [Function.comp, List.getElem?_append_right]

theorem idxs_all {q : Nat → Bool} {xs : List Nat} (h : ∀ x ∈ xs, q x = true) :
    idxs q xs = List.range xs.length := by
  unfold idxs
  rw [List.filter_eq_self]
  intro c hc
  have hc' : c < xs.length := by simpa using hc
  simp [List.getElem?_eq_getElem hc', h _ (List.getElem_mem hc')]

theorem idxs_none {q : Nat → Bool} {xs : List Nat} (h : ∀ x ∈ xs, q x = false) : idxs q xs = [] := by
  unfold idxs
  rw [List.filter_eq_nil_iff]
  intro c hc
  have hc' : c < xs.length := by simpa using hc
  simp [List.getElem?_eq_getElem hc', h _ (List.getElem_mem hc')]

theorem permute_sel (t : Typer) (order : List Nat) (f : Bool → Bool → Bool → Bool) :
    (t.permute order).sel (fun c => f ((t.permute order).has 0 c) ((t.permute order).has 1 c)
      ((t.permute order).has 2 c)) = idxs (fun x => f (t.has 0 x) (t.has 1 x) (t.has 2 x)) order := by
  unfold Typer.sel idxs
  refine List.filter_congr ?_
  intro c hc
  have hc' : c < order.length := by simpa [Typer.permute] using hc
  simp [Typer.permute, Typer.has, List.getElem?_eq_getElem hc']

end Pynare
