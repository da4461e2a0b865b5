import Verif.Lemmas.Partition
/-!
# The policy functions in matrix form
-/

namespace Pynare

open Matrix

variable {V : Type} [CommRing V]

set_option linter.unusedSectionVars false

/-! ### enumerations of the groups -/

/-- state variables: purely backward, then mixed -/
abbrev StI (t : Typer) : Type := Fin t.pureBackward.length ⊕ Fin t.mixed.length
/-- forward-looking variables: mixed, then purely forward -/
abbrev FwI (t : Typer) : Type := Fin t.mixed.length ⊕ Fin t.pureForward.length

/-- numbers of the state variables -/
def stIdx (t : Typer) : StI t → Nat := sumIdx (fun i => i.val) t.pureBackward.length fun i => i.val
/-- numbers of the forward-looking variables -/
def fwIdx (t : Typer) : FwI t → Nat := sumIdx (fun i => i.val) t.mixed.length fun i => i.val

theorem stEnum (t : Typer) : IsEnum (stIdx t) (t.pureBackward.length + t.mixed.length) :=
  (IsEnum.fin _).sum (IsEnum.fin _)

theorem fwEnum (t : Typer) : IsEnum (fwIdx t) (t.mixed.length + t.pureForward.length) :=
  (IsEnum.fin _).sum (IsEnum.fin _)

/-- all variables in decision-rule order: static, state, purely forward -/
abbrev AllI (t : Typer) : Type := (Fin t.static.length ⊕ StI t) ⊕ Fin t.pureForward.length

/-- numbers of all variables -/
def allIdx (t : Typer) : AllI t → Nat :=
  sumIdx (sumIdx (fun i => i.val) t.static.length (stIdx t))
    (t.static.length + (t.pureBackward.length + t.mixed.length)) fun i => i.val

theorem allEnum {t : Typer} (g : Groups t) : IsEnum (allIdx t) t.n := by
  have := ((IsEnum.fin t.static.length).sum (stEnum t)).sum (IsEnum.fin t.pureForward.length)
  have gt := g.total
  rwa [show t.static.length + (t.pureBackward.length + t.mixed.length) + t.pureForward.length = t.n by
    omega] at this

/-- rows of the state space: the equations without static variables, then one for each mixed variable -/
def rowIdx (t : Typer) : Fin (t.pureBackward.length + t.mixed.length + t.pureForward.length) ⊕
    Fin t.mixed.length → Nat :=
  sumIdx (fun i => i.val) (t.pureBackward.length + t.mixed.length + t.pureForward.length) fun i => i.val

/-- rows of the jacobian that belong to the equations without static variables -/
def eqIdx (t : Typer) (i : Fin (t.pureBackward.length + t.mixed.length + t.pureForward.length)) : Nat :=
  i.val + t.static.length

/-! ### columns of the rotated jacobian -/

section
variable {α : Type} (t : Typer) (A : Arr V) (ρ : α → Nat)

/-- leads of forward-looking variables -/
def cAP : Matrix α (FwI t) V :=
  A.blk ρ fun f => t.col 2 (t.static.length + t.pureBackward.length + fwIdx t f)
/-- lags of state variables -/
def cAM : Matrix α (StI t) V := A.blk ρ fun b => t.col 0 (t.static.length + stIdx t b)
/-- static variables -/
def cAS : Matrix α (Fin t.static.length) V := A.blk ρ fun s => t.col 1 s
/-- current state variables -/
def cAB : Matrix α (StI t) V := A.blk ρ fun b => t.col 1 (t.static.length + stIdx t b)
/-- current purely forward variables -/
def cAF : Matrix α (Fin t.pureForward.length) V := A.blk ρ fun f =>
  t.col 1 (t.static.length + t.pureBackward.length + t.mixed.length + f)
end

/-- the pure part of the forward responses -/
def gypF (t : Typer) (gyp : Arr V) : Matrix (Fin t.pureForward.length) (StI t) V :=
  gyp.blk (fun f => t.mixed.length + f) (stIdx t)

theorem gypF_rows (t : Typer) (gyp : Arr V) : gyp.blk (fwIdx t) (stIdx t) =
    fromRows (gyp.blk (fun m : Fin t.mixed.length => m.val) (stIdx t)) (gypF t gyp) := by
  ext (i | i) j <;> rfl

/-- what the pencil says about the equations without static variables, and about the mixed
variables -/
theorem dynamic_rows {t : Typer} {A D E gym gyp : Arr V} (hp : Pencil t A D E)
    (heq : (D.blk (rowIdx t) (stIdx t) + D.blk (rowIdx t) (fun j => t.pureBackward.length + t.mixed.length + fwIdx t j) *
          gyp.blk (fwIdx t) (stIdx t)) * gym.blk (stIdx t) (stIdx t) =
        E.blk (rowIdx t) (stIdx t) + E.blk (rowIdx t) (fun j => t.pureBackward.length + t.mixed.length + fwIdx t j) *
          gyp.blk (fwIdx t) (stIdx t)) :
    (∀ (m : Fin t.mixed.length) b, gym.blk (stIdx t) (stIdx t) (.inr m) b =
      gyp.blk (fwIdx t) (stIdx t) (.inl m) b) ∧
    (let ρ := eqIdx t
     cAP t A ρ * gyp.blk (fwIdx t) (stIdx t) * gym.blk (stIdx t) (stIdx t) +
      cAB t A ρ * gym.blk (stIdx t) (stIdx t) + cAF t A ρ * gypF t gyp + cAM t A ρ = 0) := by
  have mix : ∀ (m : Fin t.mixed.length) b, gym.blk (stIdx t) (stIdx t) (.inr m) b =
      gyp.blk (fwIdx t) (stIdx t) (.inl m) b := by
    intro m b
    have h := congrFun (congrFun heq (.inr m)) b
    simp only [Matrix.mul_apply, Matrix.add_apply] at h
    have e1 : ∀ b', D.blk (rowIdx t) (stIdx t) (.inr m) b' = if b' = .inr m then 1 else 0 := by
      intro b'
      refine (hp.D21 m m.2 _ ((stEnum t).lt b')).trans ?_
      congr 1
      rw [eq_iff_iff]
      constructor
      · intro he; apply (stEnum t).inj; rw [he]; exact Nat.add_comm _ _
      · intro he; rw [he]; exact Nat.add_comm _ _
    have e2 : ∀ f, D.blk (rowIdx t)
          (fun j => t.pureBackward.length + t.mixed.length + fwIdx t j) (.inr m) f = 0 :=
      fun f => hp.D22 m m.2 _ ((fwEnum t).lt f)
    have e3 : E.blk (rowIdx t) (stIdx t) (.inr m) b = 0 :=
      hp.E21 m m.2 _ ((stEnum t).lt b)
    have e4 : ∀ f, E.blk (rowIdx t)
          (fun j => t.pureBackward.length + t.mixed.length + fwIdx t j) (.inr m) f =
          if f = .inl m then 1 else 0 := by
      intro f
      refine (hp.E22 m m.2 _ ((fwEnum t).lt f)).trans ?_
      congr 1
      rw [eq_iff_iff]
      constructor
      · intro he; apply (fwEnum t).inj; rw [he]; rfl
      · intro he; rw [he]; rfl
    simp only [e1, e2, e3, e4, zero_mul, Finset.sum_const_zero, add_zero, ite_mul, one_mul,
      Finset.sum_ite_eq', Finset.mem_univ, if_true, zero_add] at h
    exact h
  refine ⟨mix, ?_⟩
  intro ρ
  ext i b
  have h := congrFun (congrFun heq (.inl i)) b
  have e1 : ∀ b', D.blk (rowIdx t) (stIdx t) (.inl i) b' =
      match b' with
      | .inl _ => cAB t A ρ i b'
      | .inr _ => 0 := by
    rintro (b' | b')
    · exact hp.D11 i i.2 b' b'.2
    · exact hp.D12 i i.2 b' b'.2
  have e2 : ∀ f, D.blk (rowIdx t) (fun j => t.pureBackward.length + t.mixed.length + fwIdx t j) (.inl i) f = cAP t A ρ i f :=
    fun f => hp.D13 i i.2 _ ((fwEnum t).lt f)
  have e3 : E.blk (rowIdx t) (stIdx t) (.inl i) b = - cAM t A ρ i b :=
    hp.E11 i i.2 _ ((stEnum t).lt b)
  have e4 : ∀ f, E.blk (rowIdx t) (fun j => t.pureBackward.length + t.mixed.length + fwIdx t j) (.inl i) f =
        match f with
        | .inl m => - cAB t A ρ i (.inr m)
        | .inr f => - cAF t A ρ i f := by
    rintro (f | f)
    · refine (hp.E12 i i.2 _ ((fwEnum t).lt (.inl f))).trans ?_
      simp [cAB, Arr.blk_apply, fwIdx, stIdx, sumIdx, ρ, eqIdx, Nat.add_assoc]
    · refine (hp.E12 i i.2 _ ((fwEnum t).lt (.inr f))).trans ?_
      simp [cAF, Arr.blk_apply, fwIdx, sumIdx, ρ, eqIdx, Nat.add_assoc]
  rw [Matrix.mul_apply] at h
  simp only [Matrix.add_apply, e1, e3] at h
  simp only [Matrix.mul_apply (M := E.blk _ _), e4] at h
  have e5 : ∀ b', (D.blk (rowIdx t) (fun j => t.pureBackward.length + t.mixed.length + fwIdx t j) *
        gyp.blk (fwIdx t) (stIdx t)) (.inl i) b' = (cAP t A ρ * gyp.blk (fwIdx t) (stIdx t)) i b' := by
    intro b'
    rw [Matrix.mul_apply, Matrix.mul_apply]
    exact Finset.sum_congr rfl fun f _ => by rw [e2]
  simp only [e5, add_mul, Finset.sum_add_distrib] at h
  rw [← Matrix.mul_apply (M := cAP t A ρ * gyp.blk (fwIdx t) (stIdx t))
    (N := gym.blk (stIdx t) (stIdx t))] at h
  simp only [Fintype.sum_sum_type, zero_mul, Finset.sum_const_zero, add_zero, neg_mul,
    Finset.sum_neg_distrib] at h
  simp only [Matrix.add_apply, Matrix.zero_apply]
  rw [Matrix.mul_apply (M := cAB t A ρ), Matrix.mul_apply (M := cAF t A ρ), Fintype.sum_sum_type]
  simp only [mix]
  have h' := eq_sub_of_add_eq h
  rw [add_comm] at h
  rw [eq_sub_of_add_eq h]
  show _ + (_ + _) + ∑ x, cAF t A ρ i x * gyp.blk (fwIdx t) (stIdx t) (.inr x) b + _ = 0
  ring

/-! ### static responses -/

theorem shingle_rows {t : Typer} {gym gyp gyd : Arr V}
    (h1 : gym.r = t.pureBackward.length + t.mixed.length)
    (h2 : gyp.r = t.mixed.length + t.pureForward.length)
    (h : arrayShingle gym gyp t.mixed.length = .ok gyd) :
    gyd.r = t.pureBackward.length + t.mixed.length + t.pureForward.length ∧ gyd.c = gym.c ∧
    gyd.blk (sumIdx (stIdx t) (t.pureBackward.length + t.mixed.length)
      fun f : Fin t.pureForward.length => f.val) (stIdx t) =
      fromRows (gym.blk (stIdx t) (stIdx t)) (gypF t gyp) := by
  obtain ⟨s1, s2, s3, s4, s5⟩ := arrayShingle_ok (by omega) h
  refine ⟨by omega, s3, ?_⟩
  ext (i | i) j
  · exact s4 _ _ (by rw [h1]; exact (stEnum t).lt i)
  · simp only [Arr.blk_apply, sumIdx, Sum.elim_inr, fromRows_apply_inr, gypF]
    rw [← h1, s5, Nat.add_comm]

theorem static_rows {la : LinAlg V} (ex : la.Exact) {t : Typer} (g : Groups t) {A gym gyp gys : Arr V}
    (hs : t.nStatic = t.static.length)
    (h1 : gym.r = t.pureBackward.length + t.mixed.length) (h1' : gym.c = gym.r)
    (h2 : gyp.r = t.mixed.length + t.pureForward.length) (h2' : gyp.c = gym.r)
    (h : solveStatic la t A gym gyp = .ok gys) :
    gys.r = t.static.length ∧
    let ρ := fun s : Fin t.static.length => s.val
    cAP t A ρ * gyp.blk (fwIdx t) (stIdx t) * gym.blk (stIdx t) (stIdx t) +
      cAS t A ρ * gys.blk ρ (stIdx t) + cAB t A ρ * gym.blk (stIdx t) (stIdx t) +
      cAF t A ρ * gypF t gyp + cAM t A ρ = 0 := by
  have gt := g.total
  obtain ⟨hnf, hnb, hnm, hnb', hnf', _⟩ := C31_sizes t
  unfold solveStatic at h
  obtain ⟨Ap, hAp, h⟩ := Except.bind_eq_ok h
  obtain ⟨Am, hAm, h⟩ := Except.bind_eq_ok h
  obtain ⟨A0s, hA0s, h⟩ := Except.bind_eq_ok h
  obtain ⟨A0d, hA0d, h⟩ := Except.bind_eq_ok h
  obtain ⟨gyd, hgyd, h⟩ := Except.bind_eq_ok h
  obtain ⟨x, hx, h⟩ := Except.bind_eq_ok h
  obtain ⟨Agp, hAgp, h⟩ := Except.bind_eq_ok h
  obtain ⟨Agd, hAgd, h⟩ := Except.bind_eq_ok h
  obtain ⟨Ai, hAi, h⟩ := Except.bind_eq_ok h
  obtain ⟨s1, hs1, h⟩ := Except.bind_eq_ok h
  obtain ⟨s2, hs2, h⟩ := Except.bind_eq_ok h
  obtain ⟨y, hy, h⟩ := Except.bind_eq_ok h
  have := Except.ok.inj h
  subst this
  rw [hs] at hAp hAm hA0s hA0d
  rw [hnm] at hgyd
  rw [g.forward] at hAp
  rw [g.state] at hAm
  rw [g.static] at hA0s
  rw [g.dynamic] at hA0d
  obtain ⟨p1, p2, p3⟩ := cols_group hAp g.lead
  obtain ⟨m1, m2, m3⟩ := cols_group hAm g.lag
  obtain ⟨a1, a2, a3⟩ := cols_group hA0s (fun j hj => g.cur _ (by omega))
  obtain ⟨d1, d2, d3⟩ := cols_group hA0d (fun j hj => g.cur _ (by omega))
  simp only [Arr.top] at p1 p3 m1 m3 a1 a3 d1 d3
  obtain ⟨e1, e2, e3⟩ := shingle_rows h1 h2 hgyd
  obtain ⟨x1, x2, x3, x4⟩ := Arr.dot_ok hx
  obtain ⟨y1, y2, y3, y4⟩ := Arr.dot_ok hAgp
  obtain ⟨z1, z2, z3, z4⟩ := Arr.dot_ok hAgd
  obtain ⟨u1, u2, u3, u4, u5⟩ := Arr.add_ok hs1
  obtain ⟨v1, v2, v3, v4, v5⟩ := Arr.add_ok hs2
  obtain ⟨w1, w2, w3, w4⟩ := Arr.dot_ok hy
  unfold LinAlg.invChecked at hAi
  split at hAi
  case isFalse => cases hAi
  rename_i hsq
  have hinv := ex.inv _ _ hsq hAi
  have hA0r : A0s.r = t.static.length := by rw [hsq, a2]
  have hAic : Ai.r = A0s.r := hinv.2.2.1.symm
  have hAicc : Ai.c = A0s.r := hinv.2.1
  refine ⟨by show y.r = _; rw [w2, hAic, hA0r], ?_⟩
  intro ρ
  have hAP : Ap.blk ρ (fwIdx t) = cAP t A ρ := by
    ext i j; exact p3 _ _ ((fwEnum t).lt j)
  have hAM : Am.blk ρ (stIdx t) = cAM t A ρ := by
    ext i j; exact m3 _ _ ((stEnum t).lt j)
  have hAS : A0s.blk ρ ρ = cAS t A ρ := by
    ext i j
    refine (a3 _ _ j.2).trans ?_
    simp [cAS, Arr.blk_apply]
  have hAD : A0d.blk ρ (sumIdx (stIdx t) (t.pureBackward.length + t.mixed.length)
      fun f : Fin t.pureForward.length => f.val) = fromCols (cAB t A ρ) (cAF t A ρ) := by
    ext i (j | j)
    · exact d3 _ _ (by have := (stEnum t).lt j; simp only [sumIdx, Sum.elim_inl]; omega)
    · refine (d3 _ _ (by have := j.2; simp only [sumIdx, Sum.elim_inr]; omega)).trans ?_
      simp [cAF, Arr.blk_apply, sumIdx, Nat.add_assoc]
  have henD : IsEnum (sumIdx (stIdx t) (t.pureBackward.length + t.mixed.length)
      fun f : Fin t.pureForward.length => f.val) A0d.c := by
    rw [d2]; exact (stEnum t).sum (IsEnum.fin _)
  have hs2b : s2.blk ρ (stIdx t) = cAP t A ρ * gyp.blk (fwIdx t) (stIdx t) *
      gym.blk (stIdx t) (stIdx t) + (cAB t A ρ * gym.blk (stIdx t) (stIdx t) +
        cAF t A ρ * gypF t gyp) + cAM t A ρ := by
    rw [v5, u5, y4 ρ (stIdx t) (stIdx t) (by rw [x3, h2', h1]; exact stEnum t),
      x4 ρ (fwIdx t) (stIdx t) (by rw [p2]; exact fwEnum t), z4 ρ _ (stIdx t) henD, e3, hAP, hAM, hAD,
      fromCols_mul_fromRows]
  have hyb : y.blk ρ (stIdx t) = Ai.blk ρ ρ * s2.blk ρ (stIdx t) :=
    w4 ρ ρ (stIdx t) (by rw [hAicc, hA0r]; exact IsEnum.fin _)
  have hii := (hinv.mul (κ := ρ) (by rw [hA0r]; exact IsEnum.fin _)).1
  rw [hAS] at hii
  show _ + cAS t A ρ * (-(y.blk ρ (stIdx t))) + _ + _ + _ = _
  rw [hyb, Matrix.mul_neg, ← Matrix.mul_assoc, hii, Matrix.one_mul, hs2b]
  abel

/-! ### shock responses -/

theorem shock_rows {la : LinAlg V} (ex : la.Exact) {t : Typer} (g : Groups t) {A gyp fu gu : Arr V}
    (hA : A.r = t.n)
    (h2' : gyp.c = t.pureBackward.length + t.mixed.length)
    (h : solveExo la t A gyp fu = .ok gu) {α ε : Type} (ρ : α → Nat) (hρ : ∀ i, ρ i < t.n)
    (κ : ε → Nat) (hκ : ∀ i, κ i < fu.c) :
    gu.r = t.n ∧ gu.c = fu.c ∧
    cAS t A ρ * gu.blk (fun s : Fin t.static.length => s.val) κ +
      (cAP t A ρ * gyp.blk (fwIdx t) (stIdx t) + cAB t A ρ) *
        gu.blk (fun b => t.static.length + stIdx t b) κ +
      cAF t A ρ * gu.blk (fun f : Fin t.pureForward.length =>
        t.static.length + (t.pureBackward.length + t.mixed.length) + f) κ + fu.blk ρ κ = 0 := by
  have gt := g.total
  obtain ⟨hnf, hnb, hnm, hnb', hnf', _⟩ := C31_sizes t
  unfold solveExo at h
  obtain ⟨cs, hcs, h⟩ := Except.bind_eq_ok h
  obtain ⟨cb, hcb, h⟩ := Except.bind_eq_ok h
  obtain ⟨cf, hcf, h⟩ := Except.bind_eq_ok h
  obtain ⟨Ap, hAp, h⟩ := Except.bind_eq_ok h
  obtain ⟨x, hx, h⟩ := Except.bind_eq_ok h
  obtain ⟨ib, hib, h⟩ := Except.bind_eq_ok h
  obtain ⟨U1, hU1, h⟩ := Except.bind_eq_ok h
  obtain ⟨U, hU, h⟩ := Except.bind_eq_ok h
  obtain ⟨y, hy, h⟩ := Except.bind_eq_ok h
  have := Except.ok.inj h
  subst this
  rw [g.static] at hcs
  rw [g.state] at hcb
  rw [g.pureForward] at hcf
  rw [g.forward] at hAp
  obtain ⟨s1, s2, s3⟩ := cols_group hcs (fun j hj => g.cur _ (by omega))
  obtain ⟨b1, b2, b3⟩ := cols_group hcb (fun j hj => g.cur _ (by omega))
  obtain ⟨f1, f2, f3⟩ := cols_group hcf (fun j hj => g.cur _ (by omega))
  obtain ⟨p1, p2, p3⟩ := cols_group hAp g.lead
  obtain ⟨x1, x2, x3, x4⟩ := Arr.dot_ok hx
  obtain ⟨i1, i2, i3, i4, i5⟩ := Arr.add_ok hib
  obtain ⟨v1, v2, v3, v4, v5⟩ := Arr.hstack_ok hU1
  obtain ⟨w1, w2, w3, w4, w5⟩ := Arr.hstack_ok hU
  unfold LinAlg.solveChecked at hy
  split at hy
  case isFalse => cases hy
  rename_i hsq
  obtain ⟨hprod, _⟩ := ex.solve _ _ _ hsq.1 hsq.2 hy
  have hUr : U.r = t.n := by rw [w2, v2, s1, hA]
  have hUc : U.c = t.n := by rw [← hsq.1, hUr]
  have hyr : y.r = t.n := by rw [← hprod.1, hUc]
  have hyc : y.c = fu.c := hprod.2.2.1.symm
  refine ⟨hyr, hyc, ?_⟩
  have hm := hprod.mul (ρ := ρ) (κ := allIdx t) (σ := κ) (fun i => by rw [hUr]; exact hρ i)
    (by rw [hUc]; exact allEnum g) (fun i => by rw [hyc]; exact hκ i)
  have hibc : ib.c = t.pureBackward.length + t.mixed.length := by rw [i4, x3, h2']
  have hUb : U.blk ρ (allIdx t) = fromCols (fromCols (cAS t A ρ)
      (cAP t A ρ * gyp.blk (fwIdx t) (stIdx t) + cAB t A ρ)) (cAF t A ρ) := by
    have e1 : ib.blk ρ (stIdx t) = cAP t A ρ * gyp.blk (fwIdx t) (stIdx t) + cAB t A ρ := by
      rw [i5, x4 ρ (fwIdx t) (stIdx t) (by rw [p2]; exact fwEnum t)]
      congr 1
      · congr 1
        ext i j; exact p3 _ _ ((fwEnum t).lt j)
      · ext i j; exact b3 _ _ ((stEnum t).lt j)
    ext i ((j | j) | j)
    · simp only [Arr.blk_apply, allIdx, sumIdx, Sum.elim_inl, fromCols_apply_inl]
      rw [w4 _ _ (by have := j.2; omega), v4 _ _ (by have := j.2; omega), s3 _ _ j.2]
      simp [cAS, Arr.blk_apply]
    · simp only [fromCols_apply_inl, fromCols_apply_inr, ← e1, Arr.blk_apply, allIdx, sumIdx, Sum.elim_inl,
        Sum.elim_inr]
      rw [w4 _ _ (by have := (stEnum t).lt j; omega), ← s2, v5]
    · simp only [fromCols_apply_inr, Arr.blk_apply, allIdx, sumIdx, Sum.elim_inr]
      rw [show t.static.length + (t.pureBackward.length + t.mixed.length) = U1.c by omega, w5, f3 _ _ j.2]
      rfl
  have hyb : y.blk (allIdx t) κ = fromRows (fromRows (y.blk (fun s : Fin t.static.length => s.val) κ)
      (y.blk (fun b => t.static.length + stIdx t b) κ)) (y.blk (fun f : Fin t.pureForward.length =>
        t.static.length + (t.pureBackward.length + t.mixed.length) + f) κ) := by
    ext ((i | i) | i) j <;> rfl
  rw [hUb, hyb, fromCols_mul_fromRows, fromCols_mul_fromRows] at hm
  simp only [Arr.neg_blk, Matrix.mul_neg]
  rw [← hm]
  abel

/-! ### rotation -/

theorem static_list (t : Typer)
    (hd : t.drOrder = t.static ++ t.pureBackward ++ t.mixed ++ t.pureForward) :
    t.timed t.static 1 = (t.permute t.drOrder).timed (List.range' 0 t.static.length) 1 := by
  unfold Typer.timed
  have : ∀ (l l2 : List Nat) (f : Nat → Option Nat), l.filterMap f =
      (List.range' 0 l.length).filterMap fun c => ((l ++ l2)[c]?).bind f := by
    intro l l2 f
    induction l generalizing l2 with
    | nil => rfl
    | cons a l ih =>
      rw [List.length_cons, List.range'_succ, List.filterMap_cons, List.filterMap_cons]
      have e : (List.range' (0 + 1) l.length).filterMap (fun c => ((a :: l ++ l2)[c]?).bind f) =
          (List.range' 0 l.length).filterMap fun c => ((l ++ l2)[c]?).bind f := by
        rw [show List.range' (0 + 1) l.length = (List.range' 0 l.length).map (1 + ·) by
          rw [List.map_add_range']]
        rw [List.filterMap_map]
        congr 1
        funext c
        simp [Nat.add_comm 1 c]
      rw [e, ← ih l2]
      simp
  rw [this t.static (t.pureBackward ++ (t.mixed ++ t.pureForward)) (t.cell 1)]
  congr 1
  funext c
  simp only [Typer.permute, hd, List.append_assoc]
  cases (t.static ++ (t.pureBackward ++ (t.mixed ++ t.pureForward)))[c]? <;> rfl

/-- the rotated jacobian spans the same equations, and the static variables occur in the first of them
only -/
theorem rotated_spec {la : LinAlg V} (ex : la.Exact) {t : Typer} (g : Groups t)
    (hd : t.drOrder = t.static ++ t.pureBackward ++ t.mixed ++ t.pureForward) {J A : Arr V}
    (hJ : J.r = t.n) (h : rotated la t J = .ok A) :
    A.r = t.n ∧ (∀ i, t.static.length ≤ i → i < t.n → ∀ j < t.static.length, A.e i (t.col 1 j) = 0) ∧
    ∃ Q : Nat → Nat → V, ∀ i < t.n, ∀ k, J.e i k = sumTo t.n fun l => Q i l * A.e l k := by
  have gt := g.total
  unfold rotated at h
  simp only at h
  rw [static_list t hd] at h
  split at h
  · rename_i hnil
    have := Except.ok.inj h
    subst this
    refine ⟨hJ, ?_, ?_⟩
    · intro i hi hin j hj
      exfalso
      have hc := g.cur j (by omega)
      obtain ⟨v, hv⟩ := Option.isSome_iff_exists.mp hc
      have : v ∈ (t.permute t.drOrder).timed (List.range' 0 t.static.length) 1 := by
        unfold Typer.timed
        rw [List.mem_filterMap]
        exact ⟨j, by rw [List.mem_range'_1]; omega, hv⟩
      rw [hnil] at this
      cases this
    · refine ⟨fun i l => if l = i then 1 else 0, ?_⟩
      intro i hi k
      rw [sumTo_eq]
      simp [Finset.mem_range, hi]
  · obtain ⟨js, hjs, h⟩ := Except.bind_eq_ok h
    obtain ⟨⟨Q, R⟩, hqr, h⟩ := Except.bind_eq_ok h
    split at h
    · cases h
    · obtain ⟨c1, c2, c3⟩ := cols_group hjs (fun j hj => g.cur _ (by omega))
      obtain ⟨q1, q2, q3, q4⟩ := ex.qr _ _ _ hqr
      have hQr : Q.r = t.n := by rw [q1, c1, hJ]
      have hQc : Q.c = t.n := by have := q2.2.2.2.1; simp only [Arr.eye] at this; omega
      obtain ⟨a1, a2, a3, a4⟩ := Arr.dot_ok h
      have hen : IsEnum (fun i : Fin t.n => i.val) t.n := IsEnum.fin _
      have orth := q2.mul (κ := fun i : Fin t.n => i.val) (by rw [hQr]; exact hen)
      have hAr : A.r = t.n := by rw [a2]; exact hQc
      refine ⟨hAr, ?_, ?_⟩
      · intro i hi hin j hj
        have hA1 := a4 (α := Unit) (γ := Unit) (fun _ => i) (fun i : Fin t.n => i.val) (fun _ => t.col 1 j)
          (by show IsEnum _ Q.r; rw [hQr]; exact hen)
        have hR := q3.mul (ρ := fun i : Fin t.n => i.val) (κ := fun i : Fin t.n => i.val)
          (σ := fun _ : Unit => j) (fun a => by rw [hQr]; exact a.2) (by rw [hQc]; exact hen)
          (fun _ => by have := q3.2.2.1; omega)
        have hJs : js.blk (fun i : Fin t.n => i.val) (fun _ : Unit => j) =
            J.blk (fun i : Fin t.n => i.val) (fun _ : Unit => t.col 1 j) := by
          ext a b
          refine (c3 _ _ hj).trans ?_
          simp [Arr.blk_apply]
        rw [hJs] at hR
        have hrow : ∀ m : Matrix (Fin t.n) Unit V,
            (Q.tr.blk (fun _ : Unit => i) (fun i : Fin t.n => i.val) * m) () () =
            ((Q.tr.blk (fun i : Fin t.n => i.val) (fun i : Fin t.n => i.val)) * m) ⟨i, hin⟩ () :=
          fun m => rfl
        have := congrFun (congrFun hA1 ()) ()
        rw [hrow, ← hR, ← Matrix.mul_assoc, orth.2, Matrix.one_mul] at this
        refine this.trans ?_
        exact q4 i j (by omega) (by rw [c1, hJ]; exact hin) (by rw [c2]; exact hj)
      · refine ⟨fun i l => Q.e i l, ?_⟩
        intro i hi k
        have hA1 := a4 (γ := Unit) (fun i : Fin t.n => i.val) (fun i : Fin t.n => i.val) (fun _ => k)
          (by show IsEnum _ Q.r; rw [hQr]; exact hen)
        have : Q.blk (fun i : Fin t.n => i.val) (fun i : Fin t.n => i.val) *
            A.blk (fun i : Fin t.n => i.val) (fun _ : Unit => k) =
            J.blk (fun i : Fin t.n => i.val) (fun _ : Unit => k) := by
          rw [hA1, ← Matrix.mul_assoc, orth.1, Matrix.one_mul]
        have := congrFun (congrFun this ⟨i, hi⟩) ()
        rw [Matrix.mul_apply] at this
        rw [sumTo_enum hen]
        exact this.symm

end Pynare
