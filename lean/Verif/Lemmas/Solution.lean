import Verif.Lemmas.Policy
/-!
# The policy functions solve the linearised model
-/

namespace Pynare

open Matrix

variable {V : Type} [CommRing V]

set_option linter.unusedSectionVars false

/-- the policy functions in blocks, and the equations they satisfy -/
theorem solution_rows {la : LinAlg V} (ex : la.Exact) {t : Llx} {nExog : Nat} {J gy gu : Arr V}
    {s : Space V} (hcur : ∀ c < t.n, t.has 1 c = true) (hs : t.nStatic = t.static.length)
    (hJ : J.r = t.n) (hc : Space.create la t.toTyper J = .ok s) (hsep : s.parts.Separated)
    (hsol : solveFirstOrder la t nExog s = .ok (gy, gu)) :
    gy.r = t.n ∧ gy.c = t.nBackward ∧ gu.r = t.n ∧ gu.c = nExog ∧
    (∃ Q : Nat → Nat → V, ∀ i < t.n, ∀ k, J.e i k = sumTo t.n fun l => Q i l * s.jac.e l k) ∧
    ∀ i < t.n, let ρ := fun _ : Unit => i
      let gF := gy.blk (fun f => t.static.length + t.pureBackward.length + fwIdx t.toTyper f)
        (stIdx t.toTyper)
      let gB := gy.blk (fun b => t.static.length + stIdx t.toTyper b) (stIdx t.toTyper)
      let pF := fun f : Fin t.pureForward.length =>
        t.static.length + (t.pureBackward.length + t.mixed.length) + f
      let κ := fun k : Fin nExog => k.val
      cAP t.toTyper s.jac ρ * gF * gB + cAS t.toTyper s.jac ρ *
          gy.blk (fun s : Fin t.static.length => s.val) (stIdx t.toTyper) +
        cAB t.toTyper s.jac ρ * gB + cAF t.toTyper s.jac ρ * gy.blk pF (stIdx t.toTyper) +
        cAM t.toTyper s.jac ρ = 0 ∧
      cAS t.toTyper s.jac ρ * gu.blk (fun s : Fin t.static.length => s.val) κ +
        (cAP t.toTyper s.jac ρ * gF + cAB t.toTyper s.jac ρ) *
          gu.blk (fun b => t.static.length + stIdx t.toTyper b) κ +
        cAF t.toTyper s.jac ρ * gu.blk pF κ + s.jac.blk ρ (fun k : Fin nExog => t.count + k) = 0 := by
  have g := groups hcur
  have gt := g.total
  obtain ⟨hnf, hnb, hnm, hnb', hnf', _⟩ := C31_sizes t.toTyper
  have hdr : t.drOrder = t.static ++ t.pureBackward ++ t.mixed ++ t.pureForward :=
    (C31_dr_order_groups_partial t.toTyper (by
      intro c hc h; have := hcur c hc; rw [h.2.2] at this; cases this)).1
  unfold Space.create at hc
  obtain ⟨⟨D, E, A⟩, hst, hc⟩ := Except.bind_eq_ok hc
  obtain ⟨p, hp, hc⟩ := Except.bind_eq_ok hc
  have := Except.ok.inj hc
  subst this
  unfold solveFirstOrder at hsol
  obtain ⟨⟨gym, gyp⟩, hns, hsol⟩ := Except.bind_eq_ok hsol
  obtain ⟨gyd, hgyd, hsol⟩ := Except.bind_eq_ok hsol
  obtain ⟨gys, hgys, hsol⟩ := Except.bind_eq_ok hsol
  obtain ⟨gy', hgy, hsol⟩ := Except.bind_eq_ok hsol
  split at hsol
  · cases hsol
  obtain ⟨fu, hfu, hsol⟩ := Except.bind_eq_ok hsol
  obtain ⟨gu', hgu, hsol⟩ := Except.bind_eq_ok hsol
  have := Except.ok.inj hsol
  simp only [Prod.mk.injEq] at this
  obtain ⟨rfl, rfl⟩ := this
  obtain ⟨c1, c2, c3, c4, c5, c6, c7, core⟩ := partition_core ex hp hsep hns
  -- rotation
  have hrot : rotated la t.toTyper J = .ok A := by
    unfold structSpace at hst
    obtain ⟨A', hr, hst⟩ := Except.bind_eq_ok hst
    obtain ⟨_, _, hst⟩ := Except.bind_eq_ok hst
    obtain ⟨_, _, hst⟩ := Except.bind_eq_ok hst
    obtain ⟨_, _, hst⟩ := Except.bind_eq_ok hst
    obtain ⟨_, _, hst⟩ := Except.bind_eq_ok hst
    obtain ⟨⟨_, _⟩, _, hst⟩ := Except.bind_eq_ok hst
    have := Except.ok.inj hst
    simp only [Prod.mk.injEq] at this
    rw [← this.2.2]; exact hr
  obtain ⟨hA, hzero, hQ⟩ := rotated_spec ex g hdr hJ hrot
  obtain ⟨_, hpen⟩ := structSpace_spec g hs hst hA c1 (by omega) (by omega)
  -- the cut is at the number of states
  have hAp : gyp.r = t.mixed.length + t.pureForward.length := by
    have h := hgys
    unfold solveStatic at h
    obtain ⟨Ap, hAp, h⟩ := Except.bind_eq_ok h
    obtain ⟨_, _, h⟩ := Except.bind_eq_ok h
    obtain ⟨_, _, h⟩ := Except.bind_eq_ok h
    obtain ⟨_, _, h⟩ := Except.bind_eq_ok h
    obtain ⟨_, _, h⟩ := Except.bind_eq_ok h
    obtain ⟨x, hx, h⟩ := Except.bind_eq_ok h
    rw [g.forward] at hAp
    obtain ⟨_, p2, _⟩ := cols_group hAp g.lead
    obtain ⟨x1, _⟩ := Arr.dot_ok hx
    omega
  have hDr := hpen.Dr
  have hDc := hpen.Dc
  have hk : gym.r = t.pureBackward.length + t.mixed.length := by omega
  have hEr : E.r - gym.r = t.mixed.length + t.pureForward.length := by omega
  obtain ⟨mix, hdyn⟩ := dynamic_rows hpen (gym := gym) (gyp := gyp) (by
    have := core (stIdx t.toTyper) (fwIdx t.toTyper) (rowIdx t.toTyper) (by rw [hk]; exact stEnum _)
      (by rw [hEr]; exact fwEnum _) (by
        intro i
        have := ((IsEnum.fin (t.pureBackward.length + t.mixed.length + t.pureForward.length)).sum
          (IsEnum.fin t.mixed.length)).lt i
        rw [c3, hDr]; exact this)
    rw [hk] at this
    exact this)
  rw [hnm] at hgyd
  obtain ⟨d1, d2, d3⟩ := shingle_rows hk hAp hgyd
  obtain ⟨s1, hsta⟩ := static_rows ex g hs hk c5 hAp c7 hgys
  obtain ⟨v1, v2, v3, v4, v5⟩ := Arr.vstack_ok hgy
  obtain ⟨f1, f2, f3⟩ := Arr.cols_ok hfu
  have f2' : fu.c = nExog := by rw [f2]; simp [Llx.exogJacobian]
  have hexo := fun {α : Type} (ρ : α → Nat) (hρ : ∀ i, ρ i < t.n) =>
    shock_rows ex g hA (by omega) hgu ρ hρ (fun k : Fin nExog => k.val) (fun k => by rw [f2']; exact k.2)
  -- blocks of the stacked responses
  have bB : gy'.blk (fun b => t.static.length + stIdx t.toTyper b) (stIdx t.toTyper) =
      gym.blk (stIdx t.toTyper) (stIdx t.toTyper) := by
    ext b j
    have := congrFun (congrFun d3 (.inl b)) j
    simp only [Arr.blk_apply]
    rw [← s1, v5]; exact this
  have bPF : gy'.blk (fun f : Fin t.pureForward.length =>
        t.static.length + (t.pureBackward.length + t.mixed.length) + f) (stIdx t.toTyper) =
      gypF t.toTyper gyp := by
    ext f j
    have := congrFun (congrFun d3 (.inr f)) j
    simp only [Arr.blk_apply]
    rw [← s1, Nat.add_assoc, v5]; exact this
  have bF : gy'.blk (fun f => t.static.length + t.pureBackward.length + fwIdx t.toTyper f)
      (stIdx t.toTyper) = gyp.blk (fwIdx t.toTyper) (stIdx t.toTyper) := by
    ext (m | f) j
    · rw [← mix m j, ← bB]
      simp [Arr.blk_apply, fwIdx, stIdx, sumIdx, Nat.add_assoc]
    · have := congrFun (congrFun bPF f) j
      refine Eq.trans ?_ this
      simp [Arr.blk_apply, fwIdx, sumIdx, Nat.add_assoc]
  have bS : gy'.blk (fun s : Fin t.static.length => s.val) (stIdx t.toTyper) =
      gys.blk (fun s : Fin t.static.length => s.val) (stIdx t.toTyper) := by
    ext a j
    exact v4 _ _ (by rw [s1]; exact a.2)
  have hgysc : gys.c = t.nBackward := by rw [v1, d2, c5, hk, hnb']
  obtain ⟨u1, u2, _⟩ := hexo (α := Empty) (fun e => e.elim) (fun e => e.elim)
  refine ⟨by rw [v2, s1, d1]; omega, by rw [v3, hgysc], u1, by rw [u2, f2'], hQ, ?_⟩
  intro i hi
  simp only
  rw [bB, bF, bPF, bS]
  refine ⟨?_, ?_⟩
  · by_cases his : i < t.static.length
    · ext a b
      exact congrFun (congrFun hsta ⟨i, his⟩) b
    · have hS0 : cAS t.toTyper A (fun _ : Unit => i) = 0 := by
        ext a b
        exact hzero i (by omega) hi b b.2
      rw [hS0, Matrix.zero_mul, add_zero]
      ext a b
      have hlt : i - t.static.length < t.pureBackward.length + t.mixed.length + t.pureForward.length := by
        omega
      have hrow : eqIdx t.toTyper ⟨i - t.static.length, hlt⟩ = i := by simp only [eqIdx]; omega
      have h := congrFun (congrFun hdyn ⟨i - t.static.length, hlt⟩) b
      have key : ∀ {β : Type} (κ : β → Nat), (fun (x : Unit) j => A.blk (eqIdx t.toTyper) κ
          ⟨i - t.static.length, hlt⟩ j) = A.blk (fun _ : Unit => i) κ := by
        intro β κ
        funext x j
        simp only [Arr.blk_apply, hrow]
      have e1 : cAP t.toTyper A (fun _ : Unit => i) =
        fun _ j => cAP t.toTyper A (eqIdx t.toTyper) ⟨i - t.static.length, hlt⟩ j := (key _).symm
      have e2 : cAB t.toTyper A (fun _ : Unit => i) =
        fun _ j => cAB t.toTyper A (eqIdx t.toTyper) ⟨i - t.static.length, hlt⟩ j := (key _).symm
      have e3 : cAF t.toTyper A (fun _ : Unit => i) =
        fun _ j => cAF t.toTyper A (eqIdx t.toTyper) ⟨i - t.static.length, hlt⟩ j := (key _).symm
      have e4 : cAM t.toTyper A (fun _ : Unit => i) =
        fun _ j => cAM t.toTyper A (eqIdx t.toTyper) ⟨i - t.static.length, hlt⟩ j := (key _).symm
      rw [e1, e2, e3, e4]
      exact h
  · have := (hexo (fun _ : Unit => i) (fun _ => hi)).2.2
    have hfb : fu.blk (fun _ : Unit => i) (fun k : Fin nExog => k.val) =
        A.blk (fun _ : Unit => i) (fun k : Fin nExog => t.count + k) := by
      rw [f3]
      ext a k
      simp [Arr.blk_apply, Llx.exogJacobian]
    rw [hfb] at this
    exact this

/-! ### from blocks to variables -/

/-- variable number `j` in decision-rule order -/
def Typer.dr (t : Typer) (j : Nat) : Nat := t.drOrder[j]?.getD 0

theorem drEnum {t : Typer} (g : Groups t) {α : Type} {κ : α → Nat} (h : IsEnum κ t.n) :
    IsEnum (fun a => t.dr (κ a)) t.n := by
  have hl : t.drOrder.length = t.n := by rw [g.perm.length_eq]; simp
  have hnd : t.drOrder.Nodup := g.perm.nodup_iff.mpr List.nodup_range
  have hget : ∀ a, t.drOrder[κ a]? = some (t.dr (κ a)) := by
    intro a
    have : κ a < t.drOrder.length := by rw [hl]; exact h.lt a
    simp [Typer.dr, List.getElem?_eq_getElem this]
  refine ⟨?_, ?_, ?_⟩
  · intro a
    have := g.perm.mem_iff.mp (List.mem_of_getElem? (hget a))
    simpa using this
  · intro a b hab
    apply h.inj
    have ha : κ a < t.drOrder.length := by rw [hl]; exact h.lt a
    have hb : κ b < t.drOrder.length := by rw [hl]; exact h.lt b
    refine (List.Nodup.getElem_inj_iff hnd (hi := ha) (hj := hb)).mp ?_
    have h1 := hget a
    have h2 := hget b
    rw [List.getElem?_eq_getElem ha] at h1
    rw [List.getElem?_eq_getElem hb] at h2
    rw [Option.some.inj h1, Option.some.inj h2]
    exact hab
  · intro i hi
    have hm : i ∈ t.drOrder := g.perm.mem_iff.mpr (by simpa using hi)
    obtain ⟨j, hj, he⟩ := List.getElem_of_mem hm
    obtain ⟨a, ha⟩ := h.surj j (by omega)
    refine ⟨a, ?_⟩
    simp only [Typer.dr, ha, List.getElem?_eq_getElem hj, he, Option.getD_some]

theorem rowPart_dr {t : Typer} (g : Groups t) (A : Arr V) (i r : Nat) (y : Nat → V) :
    rowPart t A i r y = ∑ a : AllI t, match (t.permute t.drOrder).cell r (allIdx t a) with
      | some k => A.e i k * y (t.dr (allIdx t a))
      | none => 0 := by
  unfold rowPart
  rw [sumTo_enum (drEnum g (allEnum g))]
  refine Finset.sum_congr rfl fun a _ => ?_
  have hl : t.drOrder.length = t.n := by rw [g.perm.length_eq]; simp
  have ha : allIdx t a < t.drOrder.length := by rw [hl]; exact (allEnum g).lt a
  have : (t.permute t.drOrder).cell r (allIdx t a) = t.cell r (t.dr (allIdx t a)) := by
    simp [Typer.permute, Typer.dr, List.getElem?_eq_getElem ha]
  rw [this]
  cases t.cell r (t.dr (allIdx t a)) <;> rfl

theorem cell_some {t : Typer} {r j : Nat} (h : (t.permute t.drOrder).has r j = true) :
    (t.permute t.drOrder).cell r j = some (t.col r j) := by
  obtain ⟨v, hv⟩ := Option.isSome_iff_exists.mp h
  simp [Typer.col, hv]

theorem lag_none {t : Typer} (g : Groups t) {j : Nat} (hj : j < t.n)
    (h : j < t.static.length ∨ t.static.length + (t.pureBackward.length + t.mixed.length) ≤ j) :
    (t.permute t.drOrder).cell 0 j = none := by
  cases hc : (t.permute t.drOrder).cell 0 j with
  | none => rfl
  | some v =>
    exfalso
    have : j ∈ (t.permute t.drOrder).state := by
      refine Typer.mem_sel.mpr ⟨by rw [g.n]; exact hj, ?_⟩
      simp [Typer.has, hc]
    rw [g.state, List.mem_range'_1] at this
    omega

theorem lead_none {t : Typer} (g : Groups t) {j : Nat} (hj : j < t.n)
    (h : j < t.static.length + t.pureBackward.length) :
    (t.permute t.drOrder).cell 2 j = none := by
  have gt := g.total
  cases hc : (t.permute t.drOrder).cell 2 j with
  | none => rfl
  | some v =>
    exfalso
    have : j ∈ (t.permute t.drOrder).forward := by
      refine Typer.mem_sel.mpr ⟨by rw [g.n]; exact hj, ?_⟩
      simp [Typer.has, hc]
    rw [g.forward, List.mem_range'_1] at this
    omega

/-- values of the variables listed by `κ` -/
def pick {α : Type} (t : Typer) (κ : α → Nat) (y : Nat → V) : α → V := fun a => y (t.dr (κ a))

theorem rowPart_cur {t : Typer} (g : Groups t) (A : Arr V) (i : Nat) (y : Nat → V) :
    rowPart t A i 1 y =
      (cAS t A (fun _ : Unit => i) *ᵥ pick t (fun s : Fin t.static.length => s.val) y) () +
      (cAB t A (fun _ : Unit => i) *ᵥ pick t (fun b => t.static.length + stIdx t b) y) () +
      (cAF t A (fun _ : Unit => i) *ᵥ pick t (fun f : Fin t.pureForward.length =>
        t.static.length + (t.pureBackward.length + t.mixed.length) + f) y) () := by
  rw [rowPart_dr g]
  have h : ∀ a, (t.permute t.drOrder).cell 1 (allIdx t a) = some (t.col 1 (allIdx t a)) :=
    fun a => cell_some (g.cur _ ((allEnum g).lt a))
  simp only [h, Fintype.sum_sum_type]
  simp only [mulVec, dotProduct, pick, Fintype.sum_sum_type, cAS, cAB, cAF, Arr.blk_apply,
    allIdx, stIdx, sumIdx, Sum.elim_inl, Sum.elim_inr, Nat.add_assoc]

theorem rowPart_lag {t : Typer} (g : Groups t) (A : Arr V) (i : Nat) (y : Nat → V) :
    rowPart t A i 0 y =
      (cAM t A (fun _ : Unit => i) *ᵥ pick t (fun b => t.static.length + stIdx t b) y) () := by
  have gt := g.total
  rw [rowPart_dr g, Fintype.sum_sum_type, Fintype.sum_sum_type]
  have h1 : ∀ s : Fin t.static.length, (t.permute t.drOrder).cell 0 (allIdx t (.inl (.inl s))) = none :=
    fun s => lag_none g ((allEnum g).lt _) (.inl s.2)
  have h2 : ∀ b, (t.permute t.drOrder).cell 0 (allIdx t (.inl (.inr b))) =
      some (t.col 0 (allIdx t (.inl (.inr b)))) := fun b => cell_some (g.lag _ ((stEnum t).lt b))
  have h3 : ∀ f : Fin t.pureForward.length, (t.permute t.drOrder).cell 0 (allIdx t (.inr f)) = none :=
    fun f => lag_none g ((allEnum g).lt _) (.inr (Nat.le_add_right ..))
  simp only [h1, h2, h3, Finset.sum_const_zero, zero_add, add_zero]
  rfl

theorem rowPart_lead {t : Typer} (g : Groups t) (A : Arr V) (i : Nat) (y : Nat → V) :
    rowPart t A i 2 y = (cAP t A (fun _ : Unit => i) *ᵥ
      pick t (fun f => t.static.length + t.pureBackward.length + fwIdx t f) y) () := by
  have gt := g.total
  rw [rowPart_dr g, Fintype.sum_sum_type, Fintype.sum_sum_type, Fintype.sum_sum_type]
  have h1 : ∀ s : Fin t.static.length, (t.permute t.drOrder).cell 2 (allIdx t (.inl (.inl s))) = none :=
    fun s => lead_none g ((allEnum g).lt _) (Nat.lt_of_lt_of_le s.2 (Nat.le_add_right ..))
  have h2 : ∀ b : Fin t.pureBackward.length,
      (t.permute t.drOrder).cell 2 (allIdx t (.inl (.inr (.inl b)))) = none :=
    fun b => lead_none g ((allEnum g).lt _) (Nat.add_lt_add_left b.2 _)
  have i3 : ∀ m : Fin t.mixed.length, allIdx t (.inl (.inr (.inr m))) =
      t.static.length + t.pureBackward.length + fwIdx t (.inl m) := fun m => by
    simp [allIdx, stIdx, fwIdx, sumIdx, Nat.add_assoc]
  have i4 : ∀ f : Fin t.pureForward.length, allIdx t (.inr f) =
      t.static.length + t.pureBackward.length + fwIdx t (.inr f) := fun f => by
    simp [allIdx, fwIdx, sumIdx, Nat.add_assoc]
  have h3 : ∀ f, (t.permute t.drOrder).cell 2
      (t.static.length + t.pureBackward.length + fwIdx t f) =
      some (t.col 2 (t.static.length + t.pureBackward.length + fwIdx t f)) :=
    fun f => cell_some (g.lead _ ((fwEnum t).lt f))
  simp only [h1, h2, i3, i4, h3, Finset.sum_const_zero, zero_add, mulVec, dotProduct, pick,
    Fintype.sum_sum_type, cAP, Arr.blk_apply]

theorem follows_blocks {t : Typer} (g : Groups t) {nExog : Nat} {gy gu : Arr V} {ym u y : Nat → V}
    (h : FollowsPolicy t nExog gy gu ym u y) {α : Type} (κ : α → Nat) (hκ : ∀ a, κ a < t.n) :
    pick t κ y = gy.blk κ (stIdx t) *ᵥ pick t (fun b => t.static.length + stIdx t b) ym +
      gu.blk κ (fun k : Fin nExog => k.val) *ᵥ fun k => u k := by
  have hl : t.drOrder.length = t.n := by rw [g.perm.length_eq]; simp
  funext a
  have ha : κ a < t.drOrder.length := by rw [hl]; exact hκ a
  have := h (κ a) (t.dr (κ a)) (by simp [Typer.dr, List.getElem?_eq_getElem ha])
  simp only [pick]
  rw [this, (C31_sizes t).2.2.2.1, sumTo_enum (stEnum t), sumTo_enum (IsEnum.fin nExog)]
  simp only [Pi.add_apply, mulVec, dotProduct, Arr.blk_apply, pick]
  congr 1
  refine Finset.sum_congr rfl fun b _ => ?_
  have hb := (stEnum t).lt b
  have : (t.permute t.drOrder).state[stIdx t b]?.getD 0 = t.static.length + stIdx t b := by
    rw [g.state]; simp [hb]
  rw [this]
  rfl

/-- the linearised equations hold when the variables follow the policy functions -/
theorem linearised_zero {la : LinAlg V} (ex : la.Exact) {t : Llx} {nExog : Nat} {J gy gu : Arr V}
    {s : Space V} (hcur : ∀ c < t.n, t.has 1 c = true) (hs : t.nStatic = t.static.length)
    (hJ : J.r = t.n) (hc : Space.create la t.toTyper J = .ok s) (hsep : s.parts.Separated)
    (hsol : solveFirstOrder la t nExog s = .ok (gy, gu)) {ym u y yp : Nat → V}
    (h1 : FollowsPolicy t.toTyper nExog gy gu ym u y)
    (h2 : FollowsPolicy t.toTyper nExog gy gu y (fun _ => 0) yp) :
    ∀ i < t.n, linearised t nExog J i ym y yp u = 0 := by
  have g := groups hcur
  have gt := g.total
  obtain ⟨-, -, -, -, ⟨Q, hQ⟩, hrows⟩ := solution_rows ex hcur hs hJ hc hsep hsol
  have hA : ∀ l < t.n, linearised t nExog s.jac l ym y yp u = 0 := by
    intro l hl
    obtain ⟨hG, hH⟩ := hrows l hl
    unfold linearised
    rw [rowPart_lead g, rowPart_cur g, rowPart_lag g, sumTo_enum (IsEnum.fin nExog)]
    rw [follows_blocks g h2 (fun f => t.static.length + t.pureBackward.length + fwIdx t.toTyper f)
        (fun f => by have := (fwEnum t.toTyper).lt f; omega),
      follows_blocks g h1 (fun s : Fin t.static.length => s.val) (fun f => by have := f.2; omega),
      follows_blocks g h1 (fun b => t.static.length + stIdx t.toTyper b)
        (fun b => by have := (stEnum t.toTyper).lt b; omega),
      follows_blocks g h1 (fun f : Fin t.pureForward.length =>
        t.static.length + (t.pureBackward.length + t.mixed.length) + f)
        (fun f => by have := f.2; omega)]
    have hz : (fun _ : Fin nExog => (0 : V)) = 0 := rfl
    rw [hz, mulVec_zero, add_zero]
    have hu : (∑ k : Fin nExog, s.jac.e l (t.count + k) * u k) =
        (s.jac.blk (fun _ : Unit => l) (fun k : Fin nExog => t.count + k) *ᵥ fun k => u k) () := rfl
    rw [hu]
    have hG' := congrFun (congrArg (· *ᵥ pick t.toTyper (fun b => t.static.length + stIdx t.toTyper b) ym) hG) ()
    have hH' := congrFun (congrArg (· *ᵥ (fun k : Fin nExog => u k)) hH) ()
    simp only [add_mulVec, Matrix.add_mul, ← mulVec_mulVec, zero_mulVec, Pi.add_apply, Pi.zero_apply] at hG' hH'
    simp only [mulVec_add, Pi.add_apply]
    have := congrArg₂ (· + ·) hG' hH'
    simp only [add_zero] at this
    rw [← this]
    abel
  intro i hi
  have lin : linearised t nExog J i ym y yp u =
      sumTo t.n fun l => Q i l * linearised t nExog s.jac l ym y yp u := by
    have hrp : ∀ r (z : Nat → V), rowPart t.toTyper J i r z =
        sumTo t.n fun l => Q i l * rowPart t.toTyper s.jac l r z := by
      intro r z
      unfold rowPart
      simp only [sumTo_eq, Finset.mul_sum]
      rw [Finset.sum_comm]
      refine Finset.sum_congr rfl fun c _ => ?_
      cases t.cell r c with
      | none => simp
      | some k =>
        simp only
        rw [hQ i hi, sumTo_eq, Finset.sum_mul]
        exact Finset.sum_congr rfl fun l _ => by ring
    unfold linearised
    rw [hrp, hrp, hrp]
    simp only [sumTo_eq, mul_add, Finset.sum_add_distrib]
    congr 1
    simp only [Finset.mul_sum]
    rw [Finset.sum_comm]
    refine Finset.sum_congr rfl fun c _ => ?_
    rw [hQ i hi, sumTo_eq, Finset.sum_mul]
    exact Finset.sum_congr rfl fun l _ => by ring
  rw [lin, sumTo_eq]
  refine Finset.sum_eq_zero fun l hl => ?_
  rw [hA l (Finset.mem_range.mp hl), mul_zero]

end Pynare
