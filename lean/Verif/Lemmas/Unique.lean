import Verif.Lemmas.Stability
import Verif.Props.FirstOrder
import Verif.Lemmas.Simul
/-!
# Paths of a solved model: bounds and uniqueness
-/

namespace Pynare

open Matrix

variable {V : Type} [Field V]

set_option linter.unusedSectionVars false

/-- the pieces of a solution -/
theorem solved_parts {la : LinAlg V} (ex : la.Exact) {t : Llx} {nExog : Nat} {J gy gu : Arr V}
    {s : Space V} (hcur : ∀ c < t.n, t.has 1 c = true) (hs : t.nStatic = t.static.length)
    (hJ : J.r = t.n) (hc : Space.create la t.toTyper J = .ok s)
    (hsol : solveFirstOrder la t nExog s = .ok (gy, gu)) :
    ∃ gym gyp : Arr V, partitionedQZ la s.lhs s.rhs = .ok s.parts ∧
      solveNonstatic la s.parts = .ok (gym, gyp) ∧
      gym.r = t.pureBackward.length + t.mixed.length ∧ gym.c = gym.r ∧
      gyp.r = t.mixed.length + t.pureForward.length ∧ gyp.c = gym.r ∧
      s.rhs.r - gym.r = t.mixed.length + t.pureForward.length ∧ s.rhs.r = s.lhs.r ∧
      gym.r < s.rhs.r ∧
      (∀ b < t.pureBackward.length + t.mixed.length, ∀ j, gy.e (t.static.length + b) j = gym.e b j) ∧
      (∀ f < t.pureForward.length, ∀ j,
        gy.e (t.static.length + (t.pureBackward.length + t.mixed.length) + f) j =
          gyp.e (t.mixed.length + f) j) ∧
      Pencil t.toTyper s.jac s.lhs s.rhs ∧ s.jac.r = t.n ∧
      (∀ i, t.static.length ≤ i → i < t.n → ∀ j < t.static.length, s.jac.e i (t.col 1 j) = 0) ∧
      (∃ Q : Nat → Nat → V, ∀ l < t.n, ∀ k, s.jac.e l k = sumTo t.n fun i => Q l i * J.e i k) ∧
      ∃ fu, solveExo la t.toTyper s.jac gyp fu = .ok gu := by
  have g := groups hcur
  have gt := g.total
  obtain ⟨hnf, hnb, hnm, hnb', hnf', _⟩ := C31_sizes t.toTyper
  have hdr : t.drOrder = t.static ++ t.pureBackward ++ t.mixed ++ t.pureForward :=
    (C31_dr_order_groups_partial t.toTyper (by
      intro c hc h; have := hcur c hc; rw [h.2.2] at this; cases this)).1
  unfold Space.create at hc
  obtain ⟨⟨D, E, A⟩, hst, hc⟩ := Except.bind_eq_ok hc
  obtain ⟨p, hp, hc⟩ := Except.bind_eq_ok hc
  have := Except.ok.inj hc
  subst this
  unfold solveFirstOrder at hsol
  obtain ⟨⟨gym, gyp⟩, hns, hsol⟩ := Except.bind_eq_ok hsol
  obtain ⟨gyd, hgyd, hsol⟩ := Except.bind_eq_ok hsol
  obtain ⟨gys, hgys, hsol⟩ := Except.bind_eq_ok hsol
  obtain ⟨gy', hgy, hsol⟩ := Except.bind_eq_ok hsol
  split at hsol
  · cases hsol
  obtain ⟨fu, hfu, hsol⟩ := Except.bind_eq_ok hsol
  obtain ⟨gu', hgu, hsol⟩ := Except.bind_eq_ok hsol
  have := Except.ok.inj hsol
  simp only [Prod.mk.injEq] at this
  obtain ⟨rfl, rfl⟩ := this
  obtain ⟨c1, c2, c3, -, c4, c6, -⟩ := partition_shapes ex hp hns
  obtain ⟨q, hq⟩ : ∃ q, la.ordqz E D = .ok q := by
    have h := hp
    unfold partitionedQZ at h
    obtain ⟨q, hq, h⟩ := Except.bind_eq_ok h
    unfold LinAlg.ordqzChecked at hq
    split at hq
    · exact ⟨q, hq⟩
    · cases hq
  obtain ⟨-, -, -, c5, -, c7, -⟩ := partition_blocks ex hp hq hns
  have hrot : rotated la t.toTyper J = .ok A := by
    unfold structSpace at hst
    obtain ⟨A', hr, hst⟩ := Except.bind_eq_ok hst
    obtain ⟨_, _, hst⟩ := Except.bind_eq_ok hst
    obtain ⟨_, _, hst⟩ := Except.bind_eq_ok hst
    obtain ⟨_, _, hst⟩ := Except.bind_eq_ok hst
    obtain ⟨_, _, hst⟩ := Except.bind_eq_ok hst
    obtain ⟨⟨_, _⟩, _, hst⟩ := Except.bind_eq_ok hst
    have := Except.ok.inj hst
    simp only [Prod.mk.injEq] at this
    rw [← this.2.2]; exact hr
  obtain ⟨hA, hzero, -⟩ := rotated_spec ex g hdr hJ hrot
  obtain ⟨-, hpen⟩ := structSpace_spec g hs hst hA c1 (by omega) (by omega)
  have hAp : gyp.r = t.mixed.length + t.pureForward.length := by
    have := forward_shape g hgys
    omega
  have hDr := hpen.Dr
  have hk : gym.r = t.pureBackward.length + t.mixed.length := by omega
  rw [hnm] at hgyd
  obtain ⟨d1, d2, d3⟩ := shingle_rows hk hAp hgyd
  obtain ⟨s1, -⟩ := static_rows ex g hs hk c5 hAp c7 hgys
  obtain ⟨v1, v2, v3, v4, v5⟩ := Arr.vstack_ok hgy
  obtain ⟨w1, w2, w3, w4, w5⟩ := arrayShingle_ok (by omega) hgyd
  refine ⟨gym, gyp, hp, hns, hk, c5, hAp, c7, by show E.r - _ = _; omega, c3, c4, ?_, ?_, hpen, hA, hzero, ?_, fu, hgu⟩
  · intro b hb j
    rw [← s1, v5]
    exact w4 _ _ (by omega)
  · intro f hf j
    rw [← s1, Nat.add_assoc, v5, ← hk, w5, Nat.add_comm]
  · unfold rotated at hrot
    simp only at hrot
    split at hrot
    · have := Except.ok.inj hrot
      subst this
      refine ⟨fun l i => if i = l then 1 else 0, ?_⟩
      intro l hl k
      rw [sumTo_eq]
      simp [Finset.mem_range, hl]
    · obtain ⟨js, hjs, hrot⟩ := Except.bind_eq_ok hrot
      obtain ⟨⟨Q, R⟩, hqr, hrot⟩ := Except.bind_eq_ok hrot
      split at hrot
      · cases hrot
      · obtain ⟨e1, e2, e3, e4⟩ := dot_entry hrot
        refine ⟨fun l i => Q.tr.e l i, ?_⟩
        intro l hl k
        rw [e4, e1, hJ]

/-- the equations without static variables, and the identities of mixed variables, are the pencil -/
theorem pencil_rows {t : Typer} (g : Groups t) {A D E : Arr V} (hpen : Pencil t A D E)
    (hzero : ∀ i, t.static.length ≤ i → i < t.n → ∀ j < t.static.length, A.e i (t.col 1 j) = 0)
    {ym y yp : Nat → V}
    (h : ∀ i, t.static.length ≤ i → i < t.n → rowPart t A i 2 yp + rowPart t A i 1 y + rowPart t A i 0 ym = 0) :
    ∀ i < D.r, (sumTo (t.pureBackward.length + t.mixed.length) fun j =>
        D.e i j * y (t.dr (t.static.length + j))) +
      (sumTo (t.mixed.length + t.pureForward.length) fun j =>
        D.e i (t.pureBackward.length + t.mixed.length + j) *
          yp (t.dr (t.static.length + t.pureBackward.length + j))) =
      (sumTo (t.pureBackward.length + t.mixed.length) fun j =>
        E.e i j * ym (t.dr (t.static.length + j))) +
      sumTo (t.mixed.length + t.pureForward.length) fun j =>
        E.e i (t.pureBackward.length + t.mixed.length + j) *
          y (t.dr (t.static.length + t.pureBackward.length + j)) := by
  have gt := g.total
  intro i hi
  rw [hpen.Dr] at hi
  rw [sumTo_enum (stEnum t), sumTo_enum (fwEnum t), sumTo_enum (stEnum t), sumTo_enum (fwEnum t)]
  by_cases hlt : i < t.pureBackward.length + t.mixed.length + t.pureForward.length
  · have hrow := h (i + t.static.length) (by omega) (by omega)
    rw [rowPart_lead g, rowPart_cur g, rowPart_lag g] at hrow
    have hS0 : cAS t A (fun _ : Unit => i + t.static.length) = 0 := by
      ext a b
      exact hzero (i + t.static.length) (by omega) (by omega) b b.2
    rw [hS0, zero_mulVec] at hrow
    simp only [mulVec, dotProduct, Fintype.sum_sum_type, cAP, cAB, cAF, cAM, Arr.blk_apply, pick, stIdx,
      fwIdx, sumIdx, Sum.elim_inl, Sum.elim_inr, Pi.zero_apply, zero_add] at hrow
    have dm : ∀ m : Fin t.mixed.length, D.e i (t.pureBackward.length + m) = 0 :=
      fun m => hpen.D12 i hlt m m.2
    have db : ∀ b : Fin t.pureBackward.length, D.e i b = _ := fun b => hpen.D11 i hlt b b.2
    have df : ∀ f, D.e i (t.pureBackward.length + t.mixed.length + fwIdx t f) = _ :=
      fun f => hpen.D13 i hlt _ ((fwEnum t).lt f)
    have eb : ∀ b, E.e i (stIdx t b) = _ := fun b => hpen.E11 i hlt _ ((stEnum t).lt b)
    have ef : ∀ f, E.e i (t.pureBackward.length + t.mixed.length + fwIdx t f) = _ :=
      fun f => hpen.E12 i hlt _ ((fwEnum t).lt f)
    simp only [df, eb, ef]
    simp only [Fintype.sum_sum_type, stIdx, fwIdx, sumIdx, Sum.elim_inl, Sum.elim_inr, dm, db, zero_mul,
      Finset.sum_const_zero, add_zero, neg_mul, Finset.sum_neg_distrib, Nat.add_assoc] at hrow ⊢
    linear_combination hrow
  · obtain ⟨m, rfl⟩ : ∃ m, i = t.pureBackward.length + t.mixed.length + t.pureForward.length + m :=
      ⟨i - (t.pureBackward.length + t.mixed.length + t.pureForward.length), by omega⟩
    have hm : m < t.mixed.length := by omega
    have e1 : ∀ b, D.e (t.pureBackward.length + t.mixed.length + t.pureForward.length + m) (stIdx t b) =
        if b = .inr ⟨m, hm⟩ then 1 else 0 := by
      intro b'
      refine (hpen.D21 m hm _ ((stEnum t).lt b')).trans ?_
      congr 1
      rw [eq_iff_iff]
      constructor
      · intro he; apply (stEnum t).inj; rw [he]; exact Nat.add_comm _ _
      · intro he; rw [he]; exact Nat.add_comm _ _
    have e2 : ∀ f, D.e (t.pureBackward.length + t.mixed.length + t.pureForward.length + m)
          (t.pureBackward.length + t.mixed.length + fwIdx t f) = 0 :=
      fun f => hpen.D22 m hm _ ((fwEnum t).lt f)
    have e3 : ∀ b, E.e (t.pureBackward.length + t.mixed.length + t.pureForward.length + m) (stIdx t b) = 0 :=
      fun b => hpen.E21 m hm _ ((stEnum t).lt b)
    have e4 : ∀ f, E.e (t.pureBackward.length + t.mixed.length + t.pureForward.length + m)
          (t.pureBackward.length + t.mixed.length + fwIdx t f) = if f = .inl ⟨m, hm⟩ then 1 else 0 := by
      intro f
      refine (hpen.E22 m hm _ ((fwEnum t).lt f)).trans ?_
      congr 1
      rw [eq_iff_iff]
      constructor
      · intro he; apply (fwEnum t).inj; rw [he]; rfl
      · intro he; rw [he]; rfl
    simp only [e1, e2, e3, e4, zero_mul, Finset.sum_const_zero, add_zero, ite_mul, one_mul,
      Finset.sum_ite_eq', Finset.mem_univ, if_true, zero_add]
    simp [stIdx, fwIdx, sumIdx, Nat.add_assoc]

/-- the matrix of the current variables, given the responses of the forward-looking ones -/
abbrev impact (t : Typer) (A gyp : Arr V) : Matrix (AllI t) (AllI t) V :=
  fromCols (fromCols (cAS t A (allIdx t))
    (cAP t A (allIdx t) * gyp.blk (fwIdx t) (stIdx t) + cAB t A (allIdx t))) (cAF t A (allIdx t))

/-- it is invertible if the responses to shocks could be computed -/
theorem impact_inv {la : LinAlg V} (ex : la.Exact) {t : Typer} (g : Groups t) {A gyp fu gu : Arr V}
    (hA : A.r = t.n) (h2' : gyp.c = t.pureBackward.length + t.mixed.length)
    (h : solveExo la t A gyp fu = .ok gu) : ∃ Ui, Ui * impact t A gyp = 1 := by
  have gt := g.total
  obtain ⟨hnf, hnb, hnm, hnb', hnf', _⟩ := C31_sizes t
  unfold solveExo at h
  obtain ⟨cs, hcs, h⟩ := Except.bind_eq_ok h
  obtain ⟨cb, hcb, h⟩ := Except.bind_eq_ok h
  obtain ⟨cf, hcf, h⟩ := Except.bind_eq_ok h
  obtain ⟨Ap, hAp, h⟩ := Except.bind_eq_ok h
  obtain ⟨x, hx, h⟩ := Except.bind_eq_ok h
  obtain ⟨ib, hib, h⟩ := Except.bind_eq_ok h
  obtain ⟨U1, hU1, h⟩ := Except.bind_eq_ok h
  obtain ⟨U, hU, h⟩ := Except.bind_eq_ok h
  obtain ⟨y, hy, h⟩ := Except.bind_eq_ok h
  rw [g.static] at hcs
  rw [g.state] at hcb
  rw [g.pureForward] at hcf
  rw [g.forward] at hAp
  obtain ⟨s1, s2, s3⟩ := cols_group hcs (fun j hj => g.cur _ (by omega))
  obtain ⟨b1, b2, b3⟩ := cols_group hcb (fun j hj => g.cur _ (by omega))
  obtain ⟨f1, f2, f3⟩ := cols_group hcf (fun j hj => g.cur _ (by omega))
  obtain ⟨p1, p2, p3⟩ := cols_group hAp g.lead
  obtain ⟨x1, x2, x3, x4⟩ := Arr.dot_ok hx
  obtain ⟨i1, i2, i3, i4, i5⟩ := Arr.add_ok hib
  obtain ⟨v1, v2, v3, v4, v5⟩ := Arr.hstack_ok hU1
  obtain ⟨w1, w2, w3, w4, w5⟩ := Arr.hstack_ok hU
  unfold LinAlg.solveChecked at hy
  split at hy
  case isFalse => cases hy
  rename_i hsq
  obtain ⟨-, Ui, hinv⟩ := ex.solve _ _ _ hsq.1 hsq.2 hy
  have hUr : U.r = t.n := by rw [w2, v2, s1, hA]
  have hm := (hinv.mul (κ := allIdx t) (by rw [hUr]; exact allEnum g)).2
  have hibc : ib.c = t.pureBackward.length + t.mixed.length := by rw [i4, x3, h2']
  have hUb : U.blk (allIdx t) (allIdx t) = impact t A gyp := by
    have e1 : ib.blk (allIdx t) (stIdx t) =
        cAP t A (allIdx t) * gyp.blk (fwIdx t) (stIdx t) + cAB t A (allIdx t) := by
      rw [i5, x4 (allIdx t) (fwIdx t) (stIdx t) (by rw [p2]; exact fwEnum t)]
      congr 1
      · congr 1
        ext i j; exact p3 _ _ ((fwEnum t).lt j)
      · ext i j; exact b3 _ _ ((stEnum t).lt j)
    ext i ((j | j) | j)
    · simp only [impact, Arr.blk_apply, allIdx, sumIdx, Sum.elim_inl, fromCols_apply_inl]
      rw [w4 _ _ (by have := j.2; omega), v4 _ _ (by have := j.2; omega), s3 _ _ j.2]
      simp [cAS, Arr.blk_apply]
    · simp only [impact, fromCols_apply_inl, fromCols_apply_inr, ← e1]
      simp only [Arr.blk_apply, show allIdx t (.inl (.inr j)) = t.static.length + stIdx t j from rfl]
      rw [w4 _ _ (by have := (stEnum t).lt j; omega), ← s2, v5]
    · simp only [impact, fromCols_apply_inr]
      simp only [Arr.blk_apply, show allIdx t (.inr j) =
        t.static.length + (t.pureBackward.length + t.mixed.length) + j from rfl]
      rw [show t.static.length + (t.pureBackward.length + t.mixed.length) = U1.c by omega, w5, f3 _ _ j.2]
      rfl
  rw [hUb] at hm
  exact ⟨_, hm⟩

/-- linear combinations of the equations hold too -/
theorem linearised_combine {t : Llx} {nExog : Nat} {J A : Arr V} {Q : Nat → Nat → V} {l : Nat}
    (hQ : ∀ k, A.e l k = sumTo t.n fun i => Q l i * J.e i k) {ym y yp u : Nat → V}
    (h : ∀ i < t.n, linearised t nExog J i ym y yp u = 0) : linearised t nExog A l ym y yp u = 0 := by
  have lin : linearised t nExog A l ym y yp u =
      sumTo t.n fun i => Q l i * linearised t nExog J i ym y yp u := by
    have hrp : ∀ r (z : Nat → V), rowPart t.toTyper A l r z =
        sumTo t.n fun i => Q l i * rowPart t.toTyper J i r z := by
      intro r z
      unfold rowPart
      simp only [sumTo_eq, Finset.mul_sum]
      rw [Finset.sum_comm]
      refine Finset.sum_congr rfl fun c _ => ?_
      cases t.cell r c with
      | none => simp
      | some k =>
        simp only
        rw [hQ, sumTo_eq, Finset.sum_mul]
        exact Finset.sum_congr rfl fun l _ => by ring
    unfold linearised
    rw [hrp, hrp, hrp]
    simp only [sumTo_eq, mul_add, Finset.sum_add_distrib]
    congr 1
    simp only [Finset.mul_sum]
    rw [Finset.sum_comm]
    refine Finset.sum_congr rfl fun c _ => ?_
    rw [hQ, sumTo_eq, Finset.sum_mul]
    exact Finset.sum_congr rfl fun l _ => by ring
  rw [lin, sumTo_eq]
  exact Finset.sum_eq_zero fun i hi => by rw [h i (Finset.mem_range.mp hi), mul_zero]

theorem pick_whole {t : Typer} (y : Nat → V) : pick t (allIdx t) y =
    Sum.elim (Sum.elim (pick t (fun s : Fin t.static.length => s.val) y)
      (pick t (fun b => t.static.length + stIdx t b) y)) (pick t (fun f : Fin t.pureForward.length =>
        t.static.length + (t.pureBackward.length + t.mixed.length) + f) y) := by
  funext a
  rcases a with (a | a) | a <;> rfl

/-- if the forward-looking variables respond to the states next period, the equations determine the
variables of the current period -/
theorem current_unique {la : LinAlg V} (ex : la.Exact) {t : Llx} {nExog : Nat} {J gy gu : Arr V}
    {s : Space V} (hcur : ∀ c < t.n, t.has 1 c = true) (hs : t.nStatic = t.static.length)
    (hJ : J.r = t.n) (hc : Space.create la t.toTyper J = .ok s) (hsep : s.parts.Separated)
    (hsol : solveFirstOrder la t nExog s = .ok (gy, gu)) {gym gyp : Arr V}
    (hns : solveNonstatic la s.parts = .ok (gym, gyp)) {ym y yp u : Nat → V}
    (h : ∀ i < t.n, linearised t nExog J i ym y yp u = 0)
    (hf : ∀ j < gyp.r, yp (t.dr (t.static.length + t.pureBackward.length + j)) =
      sumTo gym.r fun b => gyp.e j b * y (t.dr (t.static.length + b))) :
    FollowsPolicy t.toTyper nExog gy gu ym u y := by
  have g := groups hcur
  have gt := g.total
  obtain ⟨hnf, hnb, hnm, hnb', hnf', _⟩ := C31_sizes t.toTyper
  obtain ⟨gym', gyp', hp, hns', g1, g1', g2, g2', g3, g4, g5, g6, g7, hpen, hA, hzero, ⟨Q, hQ⟩, fu, hexo⟩ :=
    solved_parts ex hcur hs hJ hc hsol
  rw [hns] at hns'
  obtain ⟨rfl, rfl⟩ := Prod.mk.inj (Except.ok.inj hns')
  obtain ⟨Ui, hUi⟩ := impact_inv ex g hA (by omega) hexo
  obtain ⟨-, -, -, -, -, hrows⟩ := solution_rows ex hcur hs hJ hc hsep hsol
  have hrow : ∀ l < t.n, linearised t nExog s.jac l ym y yp u = 0 :=
    fun l hl => linearised_combine (hQ l hl) h
  obtain ⟨c1, c2, c3, c4, c5, c6, c7, core⟩ := partition_core ex hp hsep hns
  have hDr := hpen.Dr
  obtain ⟨mix, -⟩ := dynamic_rows hpen (gym := gym) (gyp := gyp) (by
    have := core (stIdx t.toTyper) (fwIdx t.toTyper) (rowIdx t.toTyper) (by rw [g1]; exact stEnum _)
      (by rw [g3]; exact fwEnum _) (by
        intro i
        have := ((IsEnum.fin (t.pureBackward.length + t.mixed.length + t.pureForward.length)).sum
          (IsEnum.fin t.mixed.length)).lt i
        rw [c3, hDr]; exact this)
    rw [g1] at this
    exact this)
  -- the responses of the forward-looking variables among those of all
  have bF : gy.blk (fun f => t.static.length + t.pureBackward.length + fwIdx t.toTyper f)
      (stIdx t.toTyper) = gyp.blk (fwIdx t.toTyper) (stIdx t.toTyper) := by
    ext (m | f) j
    · rw [← mix m j]
      have := g6 (stIdx t.toTyper (.inr m)) ((stEnum _).lt _) (stIdx t.toTyper j)
      simpa [Arr.blk_apply, fwIdx, stIdx, sumIdx, Nat.add_assoc] using this
    · have := g7 f f.2 (stIdx t.toTyper j)
      simpa [Arr.blk_apply, fwIdx, sumIdx, Nat.add_assoc] using this
  have lead : pick t.toTyper (fun f => t.static.length + t.pureBackward.length + fwIdx t.toTyper f) yp =
      gyp.blk (fwIdx t.toTyper) (stIdx t.toTyper) *ᵥ
        pick t.toTyper (fun b => t.static.length + stIdx t.toTyper b) y := by
    funext f
    have := hf (fwIdx t.toTyper f) (by rw [g2]; exact (fwEnum _).lt f)
    rw [g1, sumTo_enum (stEnum _)] at this
    exact this
  -- values and policy solve the same equations
  have eq1 : impact t.toTyper s.jac gyp *ᵥ pick t.toTyper (allIdx t.toTyper) y =
      - (cAM t.toTyper s.jac (allIdx t.toTyper) *ᵥ
          pick t.toTyper (fun b => t.static.length + stIdx t.toTyper b) ym +
        s.jac.blk (allIdx t.toTyper) (fun k : Fin nExog => t.count + k) *ᵥ fun k => u k) := by
    funext a
    have := hrow (allIdx t.toTyper a) ((allEnum g).lt a)
    unfold linearised at this
    rw [rowPart_lead g, rowPart_cur g, rowPart_lag g, sumTo_enum (IsEnum.fin nExog), lead] at this
    have this' : (cAP t.toTyper s.jac (allIdx t.toTyper) *ᵥ (gyp.blk (fwIdx t.toTyper) (stIdx t.toTyper) *ᵥ
          pick t.toTyper (fun b => t.static.length + stIdx t.toTyper b) y)) a +
        ((cAS t.toTyper s.jac (allIdx t.toTyper) *ᵥ
            pick t.toTyper (fun s : Fin t.static.length => s.val) y) a +
          (cAB t.toTyper s.jac (allIdx t.toTyper) *ᵥ
            pick t.toTyper (fun b => t.static.length + stIdx t.toTyper b) y) a +
          (cAF t.toTyper s.jac (allIdx t.toTyper) *ᵥ pick t.toTyper (fun f : Fin t.pureForward.length =>
            t.static.length + (t.pureBackward.length + t.mixed.length) + f) y) a) +
        (cAM t.toTyper s.jac (allIdx t.toTyper) *ᵥ
          pick t.toTyper (fun b => t.static.length + stIdx t.toTyper b) ym) a +
        (s.jac.blk (allIdx t.toTyper) (fun k : Fin nExog => t.count + k) *ᵥ fun k => u k) a = 0 := this
    rw [pick_whole, impact, fromCols_mulVec_sumElim, fromCols_mulVec_sumElim, add_mulVec, ← mulVec_mulVec]
    rw [Pi.neg_apply, eq_neg_iff_add_eq_zero]
    refine Eq.trans ?_ this'
    simp only [Pi.add_apply]
    ring
  have eq2 : impact t.toTyper s.jac gyp *ᵥ (gy.blk (allIdx t.toTyper) (stIdx t.toTyper) *ᵥ
          pick t.toTyper (fun b => t.static.length + stIdx t.toTyper b) ym +
        gu.blk (allIdx t.toTyper) (fun k : Fin nExog => k.val) *ᵥ fun k => u k) =
      - (cAM t.toTyper s.jac (allIdx t.toTyper) *ᵥ
          pick t.toTyper (fun b => t.static.length + stIdx t.toTyper b) ym +
        s.jac.blk (allIdx t.toTyper) (fun k : Fin nExog => t.count + k) *ᵥ fun k => u k) := by
    have hall : ∀ {β : Type} (X : Arr V) (κ : β → Nat), X.blk (allIdx t.toTyper) κ =
        fromRows (fromRows (X.blk (fun s : Fin t.static.length => s.val) κ)
          (X.blk (fun b => t.static.length + stIdx t.toTyper b) κ))
          (X.blk (fun f : Fin t.pureForward.length =>
            t.static.length + (t.pureBackward.length + t.mixed.length) + f) κ) := by
      intro β X κ
      ext ((i | i) | i) j <;> rfl
    have m1 : impact t.toTyper s.jac gyp * gy.blk (allIdx t.toTyper) (stIdx t.toTyper) =
        - cAM t.toTyper s.jac (allIdx t.toTyper) := by
      rw [hall, impact, fromCols_mul_fromRows, fromCols_mul_fromRows, Matrix.add_mul]
      ext a j
      have h1 := congrFun (congrFun (hrows (allIdx t.toTyper a) ((allEnum g).lt a)).1 ()) j
      rw [bF] at h1
      rw [Matrix.neg_apply, eq_neg_iff_add_eq_zero]
      refine Eq.trans ?_ h1
      simp only [Matrix.add_apply]
      show (_ + (_ + _) + _) + _ = (_ + _ + _ + _ + _)
      simp only [Matrix.mul_apply, cAS, cAP, cAB, cAF, cAM, Arr.blk_apply]
      ring
    have m2 : impact t.toTyper s.jac gyp * gu.blk (allIdx t.toTyper) (fun k : Fin nExog => k.val) =
        - s.jac.blk (allIdx t.toTyper) (fun k : Fin nExog => t.count + k) := by
      rw [hall, impact, fromCols_mul_fromRows, fromCols_mul_fromRows]
      ext a j
      have h1 := congrFun (congrFun (hrows (allIdx t.toTyper a) ((allEnum g).lt a)).2 ()) j
      rw [bF] at h1
      rw [Matrix.neg_apply, eq_neg_iff_add_eq_zero]
      exact h1
    rw [mulVec_add, mulVec_mulVec, mulVec_mulVec, m1, m2, neg_mulVec, neg_mulVec, neg_add]
  have hfin : pick t.toTyper (allIdx t.toTyper) y = gy.blk (allIdx t.toTyper) (stIdx t.toTyper) *ᵥ
          pick t.toTyper (fun b => t.static.length + stIdx t.toTyper b) ym +
        gu.blk (allIdx t.toTyper) (fun k : Fin nExog => k.val) *ᵥ fun k => u k := by
    have := congrArg (fun v => Ui *ᵥ v) (eq1.trans eq2.symm)
    simpa only [mulVec_mulVec, hUi, one_mulVec] using this
  intro i c hic
  have hl : t.drOrder.length = t.n := by rw [g.perm.length_eq]; simp
  have hi : i < t.n := by rw [← hl]; exact (List.getElem?_eq_some_iff.mp hic).1
  obtain ⟨a, rfl⟩ := (allEnum g).surj i hi
  have hc' : t.dr (allIdx t.toTyper a) = c := by simp [Typer.dr, hic]
  have := congrFun hfin a
  rw [hnb', sumTo_enum (stEnum _), sumTo_enum (IsEnum.fin nExog)]
  rw [← hc']
  refine this.trans ?_
  simp only [Pi.add_apply, mulVec, dotProduct, Arr.blk_apply, pick]
  congr 1
  refine Finset.sum_congr rfl fun b _ => ?_
  have hb := (stEnum t.toTyper).lt b
  have : (t.permute t.drOrder).state[stIdx t.toTyper b]?.getD 0 = t.static.length + stIdx t.toTyper b := by
    rw [g.state]; simp [hb]
  rw [this]
  rfl

/-! ### models that pass the check -/

/-- `Determinate`, with what is needed of the table of periods. -/
structure Det (φ : V →+* ℂ) (la : LinAlg V) (t : Llx) (nExog : Nat) (J gy gu : Arr V)
    (s : Space V) (q : QZ V) (ev : Nat → Option ℂ) : Prop where
  cur : ∀ c < t.n, t.has 1 c = true
  static : t.nStatic = t.static.length
  square : J.r = t.n
  space : Space.create la t.toTyper J = .ok s
  solved : solveFirstOrder la t nExog s = .ok (gy, gu)
  verified : s.verify la t.toTyper = .ok ()
  decomposed : la.ordqz s.rhs s.lhs = .ok q
  eigen : q.Eigen φ ev
  noUnit : NoUnitRoot q.eigs.length ev

theorem Determinate.det {φ : V →+* ℂ} {la : LinAlg V} (ex : la.Exact) {pss : List (List Int)} {t : Llx}
    {nExog : Nat} {J gy gu : Arr V} {s : Space V} {q : QZ V} {ev : Nat → Option ℂ}
    (h : Determinate φ la pss t nExog J gy gu s q ev) :
    Det φ la t nExog J gy gu s q ev ∧ t.n = pss.length := by
  have hps := h.periods
  obtain ⟨t', ht', hn, hcell, -⟩ := C28_numbering pss (fun ps h h0 => by
    have := (hps ps h).1; rw [h0] at this; cases this) (fun ps h => (hps ps h).2)
  rw [h.table] at ht'
  have := Except.ok.inj ht'
  subst this
  have hcur : ∀ c < t.n, t.has 1 c = true := by
    intro c hcn
    have hc' : c < pss.length := by omega
    exact Option.isSome_iff_exists.mpr ((hcell c pss[c] 0 (List.getElem?_eq_getElem hc') (by omega)).mpr
      (hps _ (List.getElem_mem hc')).1)
  have hpos := (C73_refused la ex t nExog hcur J s gy gu h.space h.solved).1
  obtain ⟨hnf, hnb, -⟩ := C31_sizes t.toTyper
  have hst := (C32_static_count_with_lag_partial h.table (by
    intro h0; rw [hnb, h0] at hpos; cases hpos)).1
  have := h.square
  exact ⟨⟨hcur, hst, by omega, h.space, h.solved, h.verified, h.decomposed, h.eigen, h.noUnit⟩, hn⟩

theorem Det.count {φ : V →+* ℂ} {la : LinAlg V} (ex : la.Exact) {t : Llx} {nExog : Nat}
    {J gy gu : Arr V} {s : Space V} {q : QZ V} {ev : Nat → Option ℂ}
    (h : Det φ la t nExog J gy gu s q ev) {gym gyp : Arr V}
    (hns : solveNonstatic la s.parts = .ok (gym, gyp)) :
    (s.parts.eigs.countP fun x => x.big || x.inf) = gyp.r := by
  obtain ⟨gym', gyp', hp, hns', -, -, g2, -⟩ := solved_parts ex h.cur h.static h.square h.space h.solved
  rw [hns] at hns'
  obtain ⟨rfl, rfl⟩ := Prod.mk.inj (Except.ok.inj hns')
  have hv := h.verified
  unfold Space.verify at hv
  split at hv
  · cases hv
  · rename_i hne
    have h1 := (C31_sizes t.toTyper).2.2.2.2.1
    have h2 := not_not.mp hne
    omega

theorem Det.separated {φ : V →+* ℂ} {la : LinAlg V} (ex : la.Exact) {t : Llx} {nExog : Nat}
    {J gy gu : Arr V} {s : Space V} {q : QZ V} {ev : Nat → Option ℂ}
    (h : Det φ la t nExog J gy gu s q ev) : s.parts.Separated := by
  obtain ⟨gym, gyp, hp, hns, g1, -⟩ := solved_parts ex h.cur h.static h.square h.space h.solved
  have := (C73_refused la ex t nExog h.cur J s gy gu h.space h.solved).1
  have hb := (C31_sizes t.toTyper).2.2.2.1
  exact cut_separated ex hp h.decomposed hns h.eigen h.noUnit (h.count ex hns) (by omega)

/-- all paths are bounded in terms of their first values and of the shocks, and what remains of the
former declines geometrically -/
theorem Det.bound {φ : V →+* ℂ} {la : LinAlg V} (ex : la.Exact) {t : Llx} {nExog : Nat}
    {J gy gu : Arr V} {s : Space V} {q : QZ V} {ev : Nat → Option ℂ}
    (h : Det φ la t nExog J gy gu s q ev) :
    ∃ C r : ℝ, 0 ≤ C ∧ 0 < r ∧ r < 1 ∧ ∀ (N : Nat) (y u : Nat → Nat → V) (X B : ℝ), 0 ≤ X → 0 ≤ B →
      (∀ τ < N, FollowsPolicy t.toTyper nExog gy gu (y τ) (u τ) (y (τ + 1))) →
      (∀ c < t.n, ‖φ (y 0 c)‖ ≤ X) → (∀ τ < N, ∀ k < nExog, ‖φ (u τ k)‖ ≤ B) →
      ∀ c < t.n, ‖φ (y N c)‖ ≤ C * (r ^ N * X + B) := by
  have g := groups h.cur
  have gt := g.total
  obtain ⟨hnf, hnb, hnm, hnb', hnf', _⟩ := C31_sizes t.toTyper
  obtain ⟨gym, gyp, hp, hns, g1, g1', g2, g2', g3, g4, g5, g6, -⟩ :=
    solved_parts ex h.cur h.static h.square h.space h.solved
  obtain ⟨C0, r, hC0, hr, hr1, hst⟩ :=
    states_bound ex hp h.decomposed hns h.eigen h.noUnit (h.count ex hns)
  set G := ∑ i ∈ Finset.range t.n, ∑ j ∈ Finset.range gym.r, ‖φ (gy.e i j)‖ with hG
  set H := ∑ i ∈ Finset.range t.n, ∑ k ∈ Finset.range nExog, ‖φ (gu.e i k)‖ with hH
  have hG0 : 0 ≤ G := Finset.sum_nonneg fun _ _ => Finset.sum_nonneg fun _ _ => norm_nonneg _
  have hH0 : 0 ≤ H := Finset.sum_nonneg fun _ _ => Finset.sum_nonneg fun _ _ => norm_nonneg _
  have hr' : 0 < 1 - r := by linarith
  refine ⟨1 + G * (C0 * gym.r) / r + G * (C0 * H / (1 - r)) + H, r, by positivity, hr, hr1, ?_⟩
  intro N y u X B hX hB hy hX0 hu c hcn
  have hl : t.drOrder.length = t.n := by rw [g.perm.length_eq]; simp
  have hdr : ∀ i < t.n, t.drOrder[i]? = some (t.dr i) := by
    intro i hi
    have : i < t.drOrder.length := by omega
    simp [Typer.dr, List.getElem?_eq_getElem this]
  have hdn : ∀ i < t.n, t.dr i < t.n := by
    intro i hi
    have := g.perm.mem_iff.mp (List.mem_of_getElem? (hdr i hi))
    simpa using this
  -- the policy in terms of the states
  have pol : ∀ τ < N, ∀ i < t.n, y (τ + 1) (t.dr i) =
      (sumTo gym.r fun j => gy.e i j * y τ (t.dr (t.static.length + j))) +
        sumTo nExog fun k => gu.e i k * u τ k := by
    intro τ hτ i hi
    rw [hy τ hτ i _ (hdr i hi), hnb', ← g1]
    congr 1
    rw [sumTo_eq, sumTo_eq]
    refine Finset.sum_congr rfl fun b hb => ?_
    have hb := Finset.mem_range.mp hb
    have : (t.permute t.drOrder).state[b]?.getD 0 = t.static.length + b := by
      rw [g.state]; simp [show b < t.pureBackward.length + t.mixed.length by omega]
    rw [this]
    rfl
  have shock : ∀ τ < N, ∀ i < t.n, ‖φ (sumTo nExog fun k => gu.e i k * u τ k)‖ ≤
      (∑ k ∈ Finset.range nExog, ‖φ (gu.e i k)‖) * B := by
    intro τ hτ i hi
    rw [sumTo_eq, map_sum, Finset.sum_mul]
    refine (norm_sum_le _ _).trans (Finset.sum_le_sum fun k hk => ?_)
    rw [map_mul, norm_mul]
    exact mul_le_mul_of_nonneg_left (hu τ hτ k (Finset.mem_range.mp hk)) (norm_nonneg _)
  have states : ∀ τ ≤ N, ∀ i < gym.r, ‖φ (y τ (t.dr (t.static.length + i)))‖ ≤
      C0 * r ^ τ * (gym.r * X) + C0 * (H * B) / (1 - r) := by
    intro τ hτ i hi
    refine (hst (fun τ i => y τ (t.dr (t.static.length + i)))
      (fun τ i => sumTo nExog fun k => gu.e (t.static.length + i) k * u τ k) τ ?_ (H * B) (by positivity)
      ?_ i hi).trans ?_
    · intro m hm i hi
      rw [pol m (by omega) _ (by omega)]
      congr 1
      rw [sumTo_eq, sumTo_eq]
      refine Finset.sum_congr rfl fun j _ => ?_
      rw [g6 i (by omega)]
    · intro m hm
      refine (Finset.sum_le_sum fun j hj => shock m (by omega) _ (by
        have := Finset.mem_range.mp hj; omega)).trans ?_
      rw [← Finset.sum_mul]
      refine mul_le_mul_of_nonneg_right ?_ hB
      have hsub : ∑ j ∈ Finset.range gym.r, (fun i => ∑ k ∈ Finset.range nExog, ‖φ (gu.e i k)‖)
          (t.static.length + j) = ∑ i ∈ Finset.Ico t.static.length (t.static.length + gym.r),
            ∑ k ∈ Finset.range nExog, ‖φ (gu.e i k)‖ := by
        rw [Finset.sum_Ico_eq_sum_range, Nat.add_sub_cancel_left]
      rw [hsub]
      refine Finset.sum_le_sum_of_subset_of_nonneg ?_ fun _ _ _ => Finset.sum_nonneg fun _ _ => norm_nonneg _
      intro i hi
      have := Finset.mem_Ico.mp hi
      exact Finset.mem_range.mpr (by omega)
    · have hsum : ∑ j ∈ Finset.range gym.r, ‖φ (y 0 (t.dr (t.static.length + j)))‖ ≤ gym.r * X := by
        refine (Finset.sum_le_sum fun j hj => hX0 _ (hdn _ (by
          have := Finset.mem_range.mp hj; omega))).trans ?_
        simp
      have := mul_le_mul_of_nonneg_left hsum (show 0 ≤ C0 * r ^ τ by positivity)
      linarith
  cases N with
  | zero =>
    have := hX0 c hcn
    have h1 : 0 ≤ G * (C0 * gym.r) / r + G * (C0 * H / (1 - r)) + H := by positivity
    have h2 : 0 ≤ X + B := by linarith
    have := mul_nonneg h1 h2
    rw [pow_zero, one_mul]
    nlinarith
  | succ N =>
    obtain ⟨i, hi⟩ := (drEnum g (IsEnum.fin t.n)).surj c hcn
    have hi2 := i.2
    rw [← hi, pol N (by omega) i hi2, map_add]
    refine (norm_add_le _ _).trans ?_
    have e1 : ‖φ (sumTo gym.r fun j => gy.e i j * y N (t.dr (t.static.length + j)))‖ ≤
        G * (C0 * r ^ N * (gym.r * X) + C0 * (H * B) / (1 - r)) := by
      have hb : 0 ≤ C0 * r ^ N * (gym.r * X) + C0 * (H * B) / (1 - r) := by positivity
      refine le_trans ?_ (mul_le_mul_of_nonneg_right (Finset.single_le_sum
        (f := fun i => ∑ j ∈ Finset.range gym.r, ‖φ (gy.e i j)‖)
        (fun _ _ => Finset.sum_nonneg fun _ _ => norm_nonneg _) (Finset.mem_range.mpr hi2)) hb)
      rw [sumTo_eq, map_sum, Finset.sum_mul]
      refine (norm_sum_le _ _).trans (Finset.sum_le_sum fun j hj => ?_)
      rw [map_mul, norm_mul]
      exact mul_le_mul_of_nonneg_left (states N (by omega) j (Finset.mem_range.mp hj)) (norm_nonneg _)
    have e2 : ‖φ (sumTo nExog fun k => gu.e i k * u N k)‖ ≤ H * B := by
      refine (shock N (by omega) i hi2).trans (mul_le_mul_of_nonneg_right ?_ hB)
      exact Finset.single_le_sum (f := fun i => ∑ k ∈ Finset.range nExog, ‖φ (gu.e i k)‖)
        (fun _ _ => Finset.sum_nonneg fun _ _ => norm_nonneg _) (Finset.mem_range.mpr hi2)
    refine (add_le_add e1 e2).trans ?_
    have e3 : G * (C0 * r ^ N * (gym.r * X)) = G * (C0 * gym.r) / r * (r ^ (N + 1) * X) := by
      rw [pow_succ]; field_simp
    have e4 : G * (C0 * (H * B) / (1 - r)) = G * (C0 * H / (1 - r)) * B := by ring
    rw [mul_add, e3, e4]
    have p1 : 0 ≤ r ^ (N + 1) * X := by positivity
    have p2 : 0 ≤ G * (C0 * gym.r) / r := by positivity
    have p3 : 0 ≤ G * (C0 * H / (1 - r)) := by positivity
    have p4 := mul_nonneg p2 hB
    have p5 := mul_nonneg p3 p1
    have p6 := mul_nonneg hH0 p1
    nlinarith

/-- without shocks the states decline geometrically -/
theorem Det.states {φ : V →+* ℂ} {la : LinAlg V} (ex : la.Exact) {t : Llx} {nExog : Nat}
    {J gy gu : Arr V} {s : Space V} {q : QZ V} {ev : Nat → Option ℂ}
    (h : Det φ la t nExog J gy gu s q ev) :
    ∃ C r : ℝ, 0 ≤ C ∧ 0 < r ∧ r < 1 ∧ ∀ (x b : Nat → Nat → V) (τ : Nat),
      (∀ m < τ, ∀ i < t.nBackward, x (m + 1) i =
        (sumTo t.nBackward fun j => gy.e ((t.permute t.drOrder).state[i]?.getD 0) j * x m j) + b m i) →
      ∀ B : ℝ, 0 ≤ B → (∀ m < τ, ∑ j ∈ Finset.range t.nBackward, ‖φ (b m j)‖ ≤ B) →
      ∀ i < t.nBackward, ‖φ (x τ i)‖ ≤
        C * r ^ τ * (∑ j ∈ Finset.range t.nBackward, ‖φ (x 0 j)‖) + C * B / (1 - r) := by
  have g := groups h.cur
  obtain ⟨hnf, hnb, hnm, hnb', hnf', _⟩ := C31_sizes t.toTyper
  obtain ⟨gym, gyp, hp, hns, g1, g1', g2, g2', g3, g4, g5, g6, -⟩ :=
    solved_parts ex h.cur h.static h.square h.space h.solved
  have := states_bound ex hp h.decomposed hns h.eigen h.noUnit (h.count ex hns)
  have hr : gym.r = t.nBackward := by omega
  rw [hr] at this
  obtain ⟨C, r, hC, hr0, hr1, hb⟩ := this
  refine ⟨C, r, hC, hr0, hr1, fun x b τ hx => hb x b τ fun m hm i hi => ?_⟩
  rw [hx m hm i hi]
  congr 1
  rw [sumTo_eq, sumTo_eq]
  refine Finset.sum_congr rfl fun j _ => ?_
  have : (t.permute t.drOrder).state[i]?.getD 0 = t.static.length + i := by
    rw [g.state]; simp [show i < t.pureBackward.length + t.mixed.length by omega]
  rw [this, g6 i (by omega)]

/-- the same, with the effects of the past one by one -/
theorem Det.states_sum {φ : V →+* ℂ} {la : LinAlg V} (ex : la.Exact) {t : Llx} {nExog : Nat}
    {J gy gu : Arr V} {s : Space V} {q : QZ V} {ev : Nat → Option ℂ}
    (h : Det φ la t nExog J gy gu s q ev) :
    ∃ C r : ℝ, 0 ≤ C ∧ 0 < r ∧ r < 1 ∧ ∀ (x b : Nat → Nat → V) (τ : Nat),
      (∀ m < τ, ∀ i < t.nBackward, x (m + 1) i =
        (sumTo t.nBackward fun j => gy.e ((t.permute t.drOrder).state[i]?.getD 0) j * x m j) + b m i) →
      ∀ i < t.nBackward, ‖φ (x τ i)‖ ≤ C * r ^ τ * (∑ j ∈ Finset.range t.nBackward, ‖φ (x 0 j)‖) +
        ∑ m ∈ Finset.range τ, C * r ^ (τ - 1 - m) * ∑ j ∈ Finset.range t.nBackward, ‖φ (b m j)‖ := by
  have g := groups h.cur
  obtain ⟨hnf, hnb, hnm, hnb', hnf', _⟩ := C31_sizes t.toTyper
  obtain ⟨gym, gyp, hp, hns, g1, g1', g2, g2', g3, g4, g5, g6, -⟩ :=
    solved_parts ex h.cur h.static h.square h.space h.solved
  have := Pynare.states_sum ex hp h.decomposed hns h.eigen h.noUnit (h.count ex hns)
  have hr : gym.r = t.nBackward := by omega
  rw [hr] at this
  obtain ⟨C, r, hC, hr0, hr1, hb⟩ := this
  refine ⟨C, r, hC, hr0, hr1, fun x b τ hx => hb x b τ fun m hm i hi => ?_⟩
  rw [hx m hm i hi]
  congr 1
  rw [sumTo_eq, sumTo_eq]
  refine Finset.sum_congr rfl fun j _ => ?_
  have : (t.permute t.drOrder).state[i]?.getD 0 = t.static.length + i := by
    rw [g.state]; simp [show i < t.pureBackward.length + t.mixed.length by omega]
  rw [this, g6 i (by omega)]

/-- the only bounded solution -/
theorem Det.unique {φ : V →+* ℂ} {la : LinAlg V} (ex : la.Exact) {t : Llx} {nExog : Nat}
    {J gy gu : Arr V} {s : Space V} {q : QZ V} {ev : Nat → Option ℂ}
    (h : Det φ la t nExog J gy gu s q ev) (y u : Nat → Nat → V)
    (hu : ∀ τ, 0 < τ → ∀ k < nExog, u τ k = 0)
    (heq : ∀ τ, ∀ i < t.n, linearised t nExog J i (y τ) (y (τ + 1)) (y (τ + 2)) (u τ) = 0)
    (B : ℝ) (hB : ∀ τ, ∀ c < t.n, ‖φ (y τ c)‖ ≤ B) :
    ∀ τ, FollowsPolicy t.toTyper nExog gy gu (y τ) (u τ) (y (τ + 1)) := by
  have g := groups h.cur
  have gt := g.total
  obtain ⟨gym, gyp, hp, hns, g1, g1', g2, g2', g3, g4, g5, g6, g7, hpen, hA, hzero, ⟨Q, hQ⟩, -⟩ :=
    solved_parts ex h.cur h.static h.square h.space h.solved
  have hl : t.drOrder.length = t.n := by rw [g.perm.length_eq]; simp
  have hdn : ∀ i < t.n, t.dr i < t.n := by
    intro i hi
    have : t.drOrder[i]? = some (t.dr i) := by
      have : i < t.drOrder.length := by omega
      simp [Typer.dr, List.getElem?_eq_getElem this]
    have := g.perm.mem_iff.mp (List.mem_of_getElem? this)
    simpa using this
  have hf := forward_unique ex hp h.decomposed hns h.eigen h.noUnit (h.count ex hns)
    (fun τ j => y (τ + 1) (t.dr (t.static.length + j)))
    (fun τ j => y (τ + 2) (t.dr (t.static.length + t.pureBackward.length + j))) (by
      intro τ i hi
      have := pencil_rows g hpen hzero (ym := y (τ + 1)) (y := y (τ + 2)) (yp := y (τ + 3)) (by
        intro i _ hi
        have := linearised_combine (hQ i hi) (heq (τ + 1))
        unfold linearised at this
        have hz : (sumTo nExog fun k => s.jac.e i (t.count + k) * u (τ + 1) k) = 0 := by
          rw [sumTo_eq]
          exact Finset.sum_eq_zero fun k hk => by
            rw [hu (τ + 1) (by omega) k (Finset.mem_range.mp hk), mul_zero]
        rw [hz, add_zero] at this
        exact this) i (by omega)
      rw [g1] at g3 ⊢
      rw [g3]
      exact this) B (by
      intro τ
      refine ⟨fun j hj => hB _ _ (hdn _ (by omega)), fun j hj => hB _ _ (hdn _ (by omega))⟩)
  intro τ
  exact current_unique ex h.cur h.static h.square h.space (h.separated ex) h.solved hns (heq τ)
    (fun j hj => hf τ j hj)

end Pynare
