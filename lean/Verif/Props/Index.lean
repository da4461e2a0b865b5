import Verif.Lemmas.Index
import Verif.Lemmas.FactoryCalib
import Verif.Props.Factory
/-!
# C28 – C32, C69: the lead/lag table and the types of the variables

`buildLlx pss` – the table made from the sets of periods of the variables, in order of
declaration; `t.cell r c` – its entry in row `r` (0: lag, 1: current, 2: lead) and column `c`;
`t.count` – the reported number of entries; `modelLlx endog es` – the table of a model with
equations `es`.
-/

namespace Pynare

variable {V : Type}

/-! ### C28: numbering -/

/-- **C28.** For every family of non-empty sets of periods among -1, 0, 1 the table is made; an
entry is present exactly when its variable has that period; the numbers increase strictly by
period, then by declaration; and they are exactly `0, …, count - 1`. -/
theorem C28_numbering (pss : List (List Int)) (hne : ∀ ps ∈ pss, ps ≠ [])
    (hp : ∀ ps ∈ pss, ∀ p ∈ ps, p = -1 ∨ p = 0 ∨ p = 1) :
    ∃ t, buildLlx pss = .ok t ∧ t.n = pss.length ∧
      (∀ (i : Nat) ps (p : Int), pss[i]? = some ps → (p = -1 ∨ p = 0 ∨ p = 1) →
        ((∃ k, t.cell (p + 1).toNat i = some k) ↔ p ∈ ps)) ∧
      (∀ r c k r' c' k', t.cell r c = some k → t.cell r' c' = some k' →
        (k < k' ↔ r < r' ∨ (r = r' ∧ c < c'))) ∧
      (∀ k, k < t.count ↔ ∃ r c, r < 3 ∧ c < pss.length ∧ t.cell r c = some k) := by
  obtain ⟨t, ht⟩ := buildLlx_ok (pss := pss) (fun ps h => ⟨_, varRows_std (hne ps h) (hp ps h)⟩)
  obtain ⟨h1, h2, h3, h4, h5⟩ := buildLlx_spec ht
  refine ⟨t, ht, h1, ?_, h4, ?_⟩
  · intro i ps p hi hpp
    have hm := List.mem_of_getElem? hi
    obtain ⟨rs, h6, h7⟩ := h3 (p + 1).toNat i ps (by omega) hi
    rw [varRows_std (hne ps hm) (hp ps hm)] at h6
    cases h6
    rw [← Option.isSome_iff_exists, h7, List.mem_map]
    constructor
    · rintro ⟨q, hq, e⟩
      have := hp ps hm q hq
      have : q = p := by omega
      exact this ▸ hq
    · intro h; exact ⟨p, h, rfl⟩
  · intro k
    rw [h5]
    constructor
    · rintro ⟨r, c, h⟩; exact ⟨r, c, (h2 r c k h).1, (h2 r c k h).2, h⟩
    · rintro ⟨r, c, _, _, h⟩; exact ⟨r, c, h⟩

/-- non-trivial case, with the resulting numbers -/
example : ∃ t, buildLlx [[0], [0, -1], [1, -1, 0]] = .ok t ∧ t.count = 6 ∧
    t.cell 0 1 = some 0 ∧ t.cell 0 2 = some 1 ∧ t.cell 1 0 = some 2 ∧ t.cell 2 2 = some 5 ∧
    t.cell 2 0 = none := ⟨_, rfl, rfl, rfl, rfl, rfl, rfl, rfl⟩

/-- **C28, for a model**: when every endogenous variable occurs somewhere and no period other than
-1, 0, 1 occurs, the table of the model has an entry for a variable and a period exactly when the
variable occurs with that period in one of the equations. -/
theorem C28_model (endog : List String) (es : List (Expr V))
    (hc : ∀ e ∈ es, e.hasCmp = false)
    (hocc : ∀ x ∈ endog, ∃ p, ∃ e ∈ es, OccursAt x p e)
    (hp : ∀ x ∈ endog, ∀ p, ∀ e ∈ es, OccursAt x p e → p = -1 ∨ p = 0 ∨ p = 1) :
    ∃ t, modelLlx endog es = .ok t ∧ t.n = endog.length ∧
      (∀ (i : Nat) x (p : Int), endog[i]? = some x → (p = -1 ∨ p = 0 ∨ p = 1) →
        ((∃ k, t.cell (p + 1).toNat i = some k) ↔ ∃ e ∈ es, OccursAt x p e)) ∧
      (∀ r c k r' c' k', t.cell r c = some k → t.cell r' c' = some k' →
        (k < k' ↔ r < r' ∨ (r = r' ∧ c < c'))) ∧
      (∀ k, k < t.count ↔ ∃ r c, r < 3 ∧ c < endog.length ∧ t.cell r c = some k) := by
  obtain ⟨d, h1, h2, h3⟩ := readLeadLags_spec endog es hc
  have hmem : ∀ x ∈ endog, ∀ p, p ∈ (d.get? x).getD [] ↔ ∃ e ∈ es, OccursAt x p e := by
    intro x hx p
    have := h3 x p
    constructor
    · intro h
      refine (this.mp ?_).2
      cases hd : d.get? x with
      | none => rw [hd] at h; simp at h
      | some s => rw [hd] at h; exact ⟨s, hd, h⟩
    · intro h
      obtain ⟨s, hs, hps⟩ := this.mpr ⟨hx, h⟩
      rw [hs]; exact hps
  obtain ⟨t, ht, g1, g2, g3, g4⟩ := C28_numbering (endog.map fun x => (d.get? x).getD [])
    (by
      intro ps hps
      obtain ⟨x, hx, rfl⟩ := List.mem_map.mp hps
      obtain ⟨p, e, he, ho⟩ := hocc x hx
      intro h
      have := (hmem x hx p).mpr ⟨e, he, ho⟩
      rw [h] at this; simp at this)
    (by
      intro ps hps p hpp
      obtain ⟨x, hx, rfl⟩ := List.mem_map.mp hps
      obtain ⟨e, he, ho⟩ := (hmem x hx p).mp hpp
      exact hp x hx p e he ho)
  refine ⟨t, ?_, by simpa using g1, ?_, g3, by simpa using g4⟩
  · simp [modelLlx, h1, ht, bind, Except.bind]
  · intro i x p hi hpp
    rw [g2 i _ p (by rw [List.getElem?_map, hi]; rfl) hpp, hmem x (List.mem_of_getElem? hi) p]

/-- non-trivial case: `y = y(-1) + z(+1)`, `z = y` -/
example : ∃ es : List (Expr Nat), es.length = 2 ∧ (∀ e ∈ es, e.hasCmp = false) ∧
    (∀ x ∈ ["y", "z"], ∃ p, ∃ e ∈ es, OccursAt x p e) ∧
    (∀ x ∈ ["y", "z"], ∀ p, ∀ e ∈ es, OccursAt x p e → p = -1 ∨ p = 0 ∨ p = 1) := by
  refine ⟨[.bin .sub (.var "y") (.bin .add (.pvar "y" (-1)) (.pvar "z" 1)),
    .bin .sub (.var "z") (.var "y")], rfl, by decide, ?_, ?_⟩
  · intro x hx
    simp at hx
    exact ⟨0, _, List.mem_cons_of_mem _ (List.mem_cons_self ..), .inl ⟨rfl, by
      rcases hx with rfl | rfl <;> simp [Expr.vars]⟩⟩
  · intro x _ p e he ho
    simp at he
    rcases he with rfl | rfl <;> simp [OccursAt, Expr.vars, Expr.pvars] at ho <;> omega

/-- **C28, the shocks**: the columns of the shocks follow those of the endogenous variables, one
for each. -/
theorem C28_shock_columns (t : Llx) (nExog k : Nat) :
    k ∈ t.exogJacobian nExog ↔ t.count ≤ k ∧ k < t.count + nExog := by
  simp only [Llx.exogJacobian, List.mem_map, List.mem_range]
  constructor
  · rintro ⟨j, hj, rfl⟩; omega
  · rintro ⟨h1, h2⟩; exact ⟨k - t.count, by omega, by omega⟩

/-! ### C29: longer leads and lags -/

/-- **C29, as stated, is false.**  A lag of two periods is recorded as a lead, a lag of three as
the current period, a lag of four as a lag of one; and a variable that only occurs with a lead of
two or more, or a lag of five or more, is recorded as not occurring at all. -/
theorem C29_longer_lags_accepted :
    buildLlx [[-2]] = buildLlx [[1]] ∧ buildLlx [[-3]] = buildLlx [[0]] ∧
    buildLlx [[-4]] = buildLlx [[-1]] ∧
    (∀ p : Int, p < -4 ∨ 1 < p → ∃ t, buildLlx [[p]] = .ok t ∧ t.count = 0 ∧
      ∀ r c, t.cell r c = none) := by
  refine ⟨rfl, rfl, rfl, ?_⟩
  intro p hp
  have hv : varRows [p] = .ok [] := by
    have : ([p].all fun p => decide (-4 ≤ p ∧ p ≤ 1)) = false := by
      simp; omega
    unfold varRows; rw [if_neg (by simp), this]; rfl
  refine ⟨_, by simp [buildLlx, allRows, hv, bind, Except.bind]; rfl, by simp [markCells], ?_⟩
  intro r c
  simp only
  split
  · rename_i h
    have h' : r = 0 ∨ r = 1 ∨ r = 2 := by omega
    have hc : c = 0 := by have := h.2; omega
    subst hc
    rcases h' with rfl | rfl | rfl <;> rfl
  · rfl

/-- **C29, what does hold** (partial).  Exactly the following is rejected when the table is made: a
variable that does not occur, and a variable that occurs with two different periods of which one
is a lead of two or more or a lag of five or more. -/
theorem C29_rejected_iff_partial (pss : List (List Int)) :
    (∃ err, buildLlx pss = .error err) ↔
      ∃ ps ∈ pss, ps = [] ∨ (ps.length ≠ 1 ∧ ∃ p ∈ ps, p < -4 ∨ 1 < p) := by
  have one : ∀ ps : List Int, (∃ err, varRows ps = .error err) ↔
      ps = [] ∨ (ps.length ≠ 1 ∧ ∃ p ∈ ps, p < -4 ∨ 1 < p) := by
    intro ps
    unfold varRows
    by_cases h0 : ps = []
    · simp [h0]
    · rw [if_neg h0]
      by_cases h1 : (ps.all fun p => decide (-4 ≤ p ∧ p ≤ 1)) = true
      · rw [if_pos h1]
        simp only [List.all_eq_true, decide_eq_true_eq] at h1
        constructor
        · rintro ⟨_, h⟩; simp at h
        · rintro (h | ⟨_, p, hp, h⟩)
          · exact absurd h h0
          · have := h1 p hp; omega
      · rw [if_neg h1]
        have hex : ∃ p ∈ ps, p < -4 ∨ 1 < p := by
          simp only [List.all_eq_true, decide_eq_true_eq, Classical.not_forall] at h1
          obtain ⟨p, hp, h⟩ := h1
          exact ⟨p, hp, by omega⟩
        by_cases h2 : ps.length = 1
        · rw [if_pos h2]
          constructor
          · rintro ⟨_, h⟩; simp at h
          · rintro (h | h)
            · exact absurd h h0
            · exact absurd h2 h.1
        · rw [if_neg h2]
          exact ⟨fun _ => .inr ⟨h2, hex⟩, fun _ => ⟨_, rfl⟩⟩
  have all : (∃ err, allRows pss = .error err) ↔ ∃ ps ∈ pss, ∃ err, varRows ps = .error err := by
    induction pss with
    | nil => simp [allRows]
    | cons ps pss ih =>
      simp only [allRows, List.mem_cons, exists_eq_or_imp]
      rw [← ih]
      cases h1 : varRows ps with
      | error e => simp [bind, Except.bind]
      | ok r =>
        cases h2 : allRows pss with
        | error e => simp [bind, Except.bind]
        | ok rs => simp [bind, Except.bind]
  have : (∃ err, buildLlx pss = .error err) ↔ ∃ err, allRows pss = .error err := by
    unfold buildLlx
    cases allRows pss with
    | error e => simp [bind, Except.bind]
    | ok rs => simp [bind, Except.bind]
  rw [this, all]
  constructor
  · rintro ⟨ps, h, h'⟩; exact ⟨ps, h, (one ps).mp h'⟩
  · rintro ⟨ps, h, h'⟩; exact ⟨ps, h, (one ps).mpr h'⟩

/-- non-trivial case: a rejected pattern -/
example : buildLlx [[0], [0, 2]] = .error .valueError := rfl

/-! ### C30: the decision-rule order -/

/-- **C30, as stated, is false**: a variable that occurs with a lag and a lead but not in the
current period is listed twice. -/
theorem C30_listed_twice : ∃ t, buildLlx [[-1, 1], [0]] = .ok t ∧ t.drOrder = [1, 0, 0] :=
  ⟨_, rfl, rfl⟩

/-- **C30, what does hold** (partial, with the exact guard).  The decision-rule order lists every
variable exactly once if and only if no variable occurs with both a lag and a lead but not in the
current period. -/
theorem C30_permutation_iff_partial (t : Typer) :
    t.drOrder.Perm (List.range t.n) ↔
      ∀ c < t.n, ¬ (t.has 0 c = true ∧ t.has 2 c = true ∧ t.has 1 c = false) := by
  constructor
  · intro h c hc hb
    have hn : t.drOrder.Nodup := h.symm.nodup List.nodup_range
    have h1 : c ∈ t.backIdx := by
      simp [Typer.backIdx, Typer.mem_sel, hc, hb]
    have h2 : c ∈ t.mixed := by simp [Typer.mixed, Typer.mem_sel, hc, hb]
    unfold Typer.drOrder at hn
    have hn' := (List.nodup_append.mp hn).1
    exact (List.nodup_append.mp hn').2.2 c (List.mem_append_right _ h1) c h2 rfl
  · intro h
    unfold Typer.drOrder
    rw [Typer.backIdx_eq]
    · exact four_groups_perm t
    · intro c hc h0 h2
      have := h c hc
      cases h1 : t.has 1 c with
      | true => rfl
      | false => exact absurd ⟨h0, h2, h1⟩ this

/-- **C30, the inverse table**: whenever the decision-rule order is a permutation, the other table
is its inverse: position `k` of the declaration order is found at the place it gives. -/
theorem C30_inverse (t : Typer) (h : t.drOrder.Perm (List.range t.n)) :
    t.dcOrder.length = t.n ∧
    (∀ k < t.n, ∃ i : Nat, t.dcOrder[k]? = some i ∧ t.drOrder[i]? = some k) ∧
    (∀ i < t.n, ∃ k : Nat, t.drOrder[i]? = some k ∧ t.dcOrder[k]? = some i) := by
  obtain ⟨h1, h2⟩ := argsort_perm h
  refine ⟨h1, h2, ?_⟩
  intro i hi
  have hlen : t.drOrder.length = t.n := by simpa using h.length_eq
  have hi' : i < t.drOrder.length := by omega
  have hk : t.drOrder[i] < t.n := by
    have := h.mem_iff.mp (List.getElem_mem hi'); simpa using this
  obtain ⟨j, hj, hj'⟩ := h2 _ hk
  refine ⟨t.drOrder[i], List.getElem?_eq_getElem hi', ?_⟩
  have hjl : j < t.drOrder.length := (List.getElem?_eq_some_iff.mp hj').1
  rw [List.getElem?_eq_getElem hjl] at hj'
  have hn : t.drOrder.Nodup := h.symm.nodup List.nodup_range
  have : j = i := (List.Nodup.getElem_inj_iff hn).mp (by simpa using hj')
  exact this ▸ hj

/-- non-trivial case -/
example : ∃ t, buildLlx [[0, 1], [0, -1], [0], [0, 1, -1]] = .ok t ∧ t.drOrder = [2, 1, 3, 0] ∧
    t.dcOrder = [3, 1, 0, 2] ∧ t.drOrder.Perm (List.range t.n) := ⟨_, rfl, rfl, rfl, by decide⟩

/-! ### C31: the types -/

/-- **C31, types.** Every variable is in exactly one of the four groups, which consist of the
variables without lead and lag, with lag only, with both and with lead only; the four sizes add up
to the number of variables. -/
theorem C31_partition (t : Typer) :
    (t.static ++ t.pureBackward ++ t.mixed ++ t.pureForward).Perm (List.range t.n) ∧
    t.static.length + t.pureBackward.length + t.mixed.length + t.pureForward.length = t.n ∧
    (∀ c, c ∈ t.static ↔ c < t.n ∧ t.cell 0 c = none ∧ t.cell 2 c = none) ∧
    (∀ c, c ∈ t.pureBackward ↔ c < t.n ∧ t.cell 0 c ≠ none ∧ t.cell 2 c = none) ∧
    (∀ c, c ∈ t.mixed ↔ c < t.n ∧ t.cell 0 c ≠ none ∧ t.cell 2 c ≠ none) ∧
    (∀ c, c ∈ t.pureForward ↔ c < t.n ∧ t.cell 0 c = none ∧ t.cell 2 c ≠ none) := by
  have hp := four_groups_perm t
  refine ⟨hp, by have := hp.length_eq; simp at this; omega, ?_, ?_, ?_, ?_⟩ <;> intro c <;>
    simp only [Typer.static, Typer.pureBackward, Typer.mixed, Typer.pureForward, Typer.mem_sel,
      Typer.has] <;>
    cases t.cell 0 c <;> cases t.cell 2 c <;> simp

/-- **C31, sizes.** The reported numbers of forward-looking, backward-looking (state) and mixed
variables are the sizes of the groups. -/
theorem C31_sizes (t : Typer) :
    t.nForward = t.forward.length ∧ t.nBackward = t.state.length ∧ t.nMixed = t.mixed.length ∧
    t.nBackward = t.pureBackward.length + t.mixed.length ∧
    t.nForward = t.pureForward.length + t.mixed.length ∧
    t.dynamic.length = t.pureBackward.length + t.mixed.length + t.pureForward.length := by
  have cnt : ∀ (xs : List Nat) (f g : Nat → Bool),
      (xs.filter f).length = (xs.filter fun c => f c && !g c).length +
        (xs.filter fun c => f c && g c).length := by
    intro xs f g
    induction xs with
    | nil => rfl
    | cons x xs ih =>
      cases hf : f x <;> cases hg : g x <;> simp [hf, hg, ih] <;> omega
  refine ⟨?_, ?_, ?_, ?_, ?_, ?_⟩
  · exact List.countP_eq_length_filter
  · exact List.countP_eq_length_filter
  · exact List.countP_eq_length_filter
  · rw [Typer.nBackward, List.countP_eq_length_filter]
    exact cnt _ _ _
  · rw [Typer.nForward, List.countP_eq_length_filter]
    have := cnt (List.range t.n) (fun c => t.has 2 c) (fun c => t.has 0 c)
    rw [this]
    unfold Typer.pureForward Typer.mixed Typer.sel
    congr 2 <;> (refine List.filter_congr ?_; intro c _; exact Bool.and_comm _ _)
  · have h1 := (C31_partition t).2.1
    have h2 : t.static.length + t.dynamic.length = t.n := by
      have := (List.filter_append_perm (fun c => !t.has 0 c && !t.has 2 c) (List.range t.n)).length_eq
      simpa [Typer.static, Typer.dynamic, Typer.sel] using this
    omega

/-- **C31, order of the groups** (partial: with the guard of C30).  The decision-rule order is the
static group, then the purely backward, the mixed and the purely forward group, each in order of
declaration. -/
theorem C31_dr_order_groups_partial (t : Typer)
    (h : ∀ c < t.n, ¬ (t.has 0 c = true ∧ t.has 2 c = true ∧ t.has 1 c = false)) :
    t.drOrder = t.static ++ t.pureBackward ++ t.mixed ++ t.pureForward ∧
    (∀ g ∈ [t.static, t.pureBackward, t.mixed, t.pureForward], g.Pairwise (· < ·)) := by
  constructor
  · unfold Typer.drOrder
    rw [Typer.backIdx_eq]
    intro c hc h0 h2
    cases h1 : t.has 1 c with
    | true => rfl
    | false => exact absurd ⟨h0, h2, h1⟩ (h c hc)
  · intro g hg
    have hs : ∀ p, (t.sel p).Pairwise (· < ·) := fun p =>
      List.Pairwise.sublist List.filter_sublist List.pairwise_lt_range
    simp at hg
    rcases hg with rfl | rfl | rfl | rfl <;> exact hs _

/-- non-trivial case: all four groups occur -/
example : ∃ t, buildLlx [[0, 1], [0, -1], [0], [0, 1, -1]] = .ok t ∧ t.static = [2] ∧
    t.pureBackward = [1] ∧ t.mixed = [3] ∧ t.pureForward = [0] ∧
    ∀ c < t.n, ¬ (t.has 0 c = true ∧ t.has 2 c = true ∧ t.has 1 c = false) :=
  ⟨_, rfl, rfl, rfl, rfl, rfl, by decide⟩

/-! ### C69: blocks in decision-rule order -/

/-- **C69.** In decision-rule order (with the guard of C30) the groups are consecutive blocks: the
static variables come first, the state variables right after them, the forward-looking variables
last, and the mixed ones are where the last two blocks overlap; all that follow the static ones are
dynamic. -/
theorem C69_blocks (t : Typer)
    (h : ∀ c < t.n, ¬ (t.has 0 c = true ∧ t.has 2 c = true ∧ t.has 1 c = false)) :
    let dr := t.permute t.drOrder
    let ns := t.static.length
    let nb := t.pureBackward.length
    let nm := t.mixed.length
    let nf := t.pureForward.length
    dr.n = t.n ∧ dr.static = List.range' 0 ns ∧ dr.pureBackward = List.range' ns nb ∧
    dr.mixed = List.range' (ns + nb) nm ∧ dr.pureForward = List.range' (ns + nb + nm) nf ∧
    dr.state = List.range' ns (nb + nm) ∧ dr.forward = List.range' (ns + nb) (nm + nf) ∧
    dr.dynamic = List.range' ns (nb + nm + nf) := by
  obtain ⟨hdr, _⟩ := C31_dr_order_groups_partial t h
  have hn : (t.permute t.drOrder).n = t.n := by
    have := (four_groups_perm t).length_eq
    simp only [Typer.permute, hdr]; simpa using this
  have key : ∀ (f : Bool → Bool → Bool) (bs bb bm bf : Bool), f false false = bs → f true false = bb →
      f true true = bm → f false true = bf →
      idxs (fun x => f (t.has 0 x) (t.has 2 x)) t.drOrder =
        (if bs then List.range' 0 t.static.length else []) ++
        (if bb then List.range' t.static.length t.pureBackward.length else []) ++
        (if bm then List.range' (t.static.length + t.pureBackward.length) t.mixed.length else []) ++
        (if bf then List.range' (t.static.length + t.pureBackward.length + t.mixed.length)
          t.pureForward.length else []) := by
    intro f bs bb bm bf e1 e2 e3 e4
    have one : ∀ (g : List Nat) (b : Bool), (∀ x ∈ g, f (t.has 0 x) (t.has 2 x) = b) →
        idxs (fun x => f (t.has 0 x) (t.has 2 x)) g = if b then List.range g.length else [] := by
      intro g b hb
      cases b with
      | true => exact idxs_all hb
      | false => exact idxs_none hb
    have m1 : ∀ x ∈ t.static, f (t.has 0 x) (t.has 2 x) = bs := by
      intro x hx
      have := (Typer.mem_sel.mp hx).2
      cases h0 : t.has 0 x <;> cases h2 : t.has 2 x <;> simp_all
    have m2 : ∀ x ∈ t.pureBackward, f (t.has 0 x) (t.has 2 x) = bb := by
      intro x hx
      have := (Typer.mem_sel.mp hx).2
      cases h0 : t.has 0 x <;> cases h2 : t.has 2 x <;> simp_all
    have m3 : ∀ x ∈ t.mixed, f (t.has 0 x) (t.has 2 x) = bm := by
      intro x hx
      have := (Typer.mem_sel.mp hx).2
      cases h0 : t.has 0 x <;> cases h2 : t.has 2 x <;> simp_all
    have m4 : ∀ x ∈ t.pureForward, f (t.has 0 x) (t.has 2 x) = bf := by
      intro x hx
      have := (Typer.mem_sel.mp hx).2
      cases h0 : t.has 0 x <;> cases h2 : t.has 2 x <;> simp_all
    rw [hdr, idxs_append, idxs_append, idxs_append, one _ _ m1, one _ _ m2, one _ _ m3, one _ _ m4]
    have sh : ∀ (b : Bool) (a n : Nat), (if b then List.range n else []).map (a + ·) =
        if b then List.range' a n else [] := by
      intro b a n
      cases b with
      | true => simp [List.range_eq_range', List.map_add_range']
      | false => rfl
    rw [sh, sh, sh]
    simp only [List.length_append, List.range_eq_range']
  have ps := permute_sel t t.drOrder
  refine ⟨hn, ?_, ?_, ?_, ?_, ?_, ?_, ?_⟩
  · refine (ps (fun a _ c => !a && !c)).trans ?_
    rw [key (fun a c => !a && !c) true false false false rfl rfl rfl rfl]; simp
  · refine (ps (fun a _ c => a && !c)).trans ?_
    rw [key (fun a c => a && !c) false true false false rfl rfl rfl rfl]; simp
  · refine (ps (fun a _ c => a && c)).trans ?_
    rw [key (fun a c => a && c) false false true false rfl rfl rfl rfl]; simp
  · refine (ps (fun a _ c => !a && c)).trans ?_
    rw [key (fun a c => !a && c) false false false true rfl rfl rfl rfl]; simp
  · refine (ps (fun a _ _ => a)).trans ?_
    rw [key (fun a _ => a) false true true false rfl rfl rfl rfl]
    simp [List.range'_append_1]
  · refine (ps (fun _ _ c => c)).trans ?_
    rw [key (fun _ c => c) false false true true rfl rfl rfl rfl]
    simp [List.range'_append_1]
  · refine (ps (fun a _ c => !(!a && !c))).trans ?_
    rw [key (fun a c => !(!a && !c)) false true true true rfl rfl rfl rfl]
    simp [List.range'_append_1, Nat.add_assoc]

/-- non-trivial case: the guard holds and all blocks are non-empty -/
example : ∃ t, buildLlx [[0, 1], [0, -1], [0], [0, 1, -1]] = .ok t ∧
    (t.permute t.drOrder).state = [1, 2] ∧ (t.permute t.drOrder).forward = [2, 3] :=
  ⟨_, rfl, rfl, rfl⟩

/-! ### C32: the number of static variables -/

/-- **C32, as stated, is false**: in a model without lags whose first occurring variable is static
the reported number is one too small.  Here one variable occurs only in the current period, and
the reported number is zero. -/
theorem C32_off_by_one : ∃ t, buildLlx [[0], [0, 1]] = .ok t ∧ t.static = [0] ∧ t.nStatic = 0 :=
  ⟨_, rfl, rfl, rfl⟩

/-- **C32, what does hold** (partial, with the exact guard).  For the table of any model, the
reported number is the number of static variables if and only if no static variable has number 0
in the current period; otherwise it is one less. -/
theorem C32_static_count_partial {pss : List (List Int)} {t : Llx} (h : buildLlx pss = .ok t) :
    ((∀ c ∈ t.static, t.cell 1 c ≠ some 0) → t.nStatic = t.static.length) ∧
    ((∃ c ∈ t.static, t.cell 1 c = some 0) → t.nStatic + 1 = t.static.length) := by
  obtain ⟨_, _, _, h4, _⟩ := buildLlx_spec h
  constructor
  · intro hc
    unfold Typer.nStatic
    rw [List.countP_eq_length]
    intro c hm
    simpa using hc c hm
  · rintro ⟨c, hc, h0⟩
    obtain ⟨a, b, e⟩ := List.append_of_mem hc
    have hnd : t.static.Nodup := t.sel_nodup _
    rw [e] at hnd
    have hne : ∀ x ∈ a ++ b, t.cell 1 x ≠ some 0 := by
      intro x hx hx0
      have hxc : x = c := by
        have := h4 1 x 0 1 c 0 hx0 h0
        have := h4 1 c 0 1 x 0 h0 hx0
        omega
      subst hxc
      rw [List.nodup_append] at hnd
      obtain ⟨_, h2, h3⟩ := hnd
      rcases List.mem_append.mp hx with g | g
      · exact h3 x g x (List.mem_cons_self ..) rfl
      · exact (List.nodup_cons.mp h2).1 g
    unfold Typer.nStatic
    rw [e, List.countP_append, List.countP_cons]
    have e1 : a.countP (fun c => t.cell 1 c != some 0) = a.length := by
      rw [List.countP_eq_length]; intro x hx; simpa using hne x (List.mem_append_left _ hx)
    have e2 : b.countP (fun c => t.cell 1 c != some 0) = b.length := by
      rw [List.countP_eq_length]; intro x hx; simpa using hne x (List.mem_append_right _ hx)
    rw [e1, e2]
    simp [h0]; omega

/-- **C32, models with a lag** (partial): as soon as some variable occurs with a lag the reported
number of static variables is right. -/
theorem C32_static_count_with_lag_partial {pss : List (List Int)} {t : Llx}
    (h : buildLlx pss = .ok t) (hlag : t.state ≠ []) :
    t.nStatic = t.static.length ∧ t.nDynamic = t.dynamic.length := by
  obtain ⟨_, _, _, h4, _⟩ := buildLlx_spec h
  have h1 : t.nStatic = t.static.length := by
    refine (C32_static_count_partial h).1 ?_
    intro c _ h0
    obtain ⟨x, hx⟩ := List.exists_mem_of_ne_nil _ hlag
    have hx' := (Typer.mem_sel.mp hx).2
    obtain ⟨k, hk⟩ := Option.isSome_iff_exists.mp hx'
    have := (h4 0 x k 1 c 0 hk h0).mpr (by omega)
    omega
  refine ⟨h1, ?_⟩
  have h2 := (C31_partition t.toTyper).2.1
  have h3 := (C31_sizes t.toTyper).2.2.2.2.2
  unfold Typer.nDynamic
  omega

/-- non-trivial case -/
example : ∃ t, buildLlx [[0], [0, 1], [-1, 0]] = .ok t ∧ t.state ≠ [] ∧ t.nStatic = 1 :=
  ⟨_, rfl, by decide, rfl⟩

#print axioms C28_numbering
#print axioms C28_model
#print axioms C28_shock_columns
#print axioms C29_longer_lags_accepted
#print axioms C29_rejected_iff_partial
#print axioms C30_listed_twice
#print axioms C30_permutation_iff_partial
#print axioms C30_inverse
#print axioms C31_partition
#print axioms C31_sizes
#print axioms C31_dr_order_groups_partial
#print axioms C69_blocks
#print axioms C32_off_by_one
#print axioms C32_static_count_partial
#print axioms C32_static_count_with_lag_partial

end Pynare
