import Verif.Lemmas.Solution
import Verif.Examples.FirstOrder
/-!
# C43 to C46, C72 and C73: the first-order solution
-/

namespace Pynare

open Matrix

variable {V : Type} [CommRing V]

set_option linter.unusedSectionVars false

/-! ### C43: the dynamic block -/

/-- **C43** (partial: the cut of the decomposition must not run through a pair of complex conjugates).
For the two arrays `D` and `E` of any state space and exact linear algebra, if the responses `gym` of
the states and `gyp` of the forward-looking variables are computed, then for every vector of states `x`
the system `D (x', z') = E (x, z)` holds, where `x' = gym x` are the next states and `z = gyp x`,
`z' = gyp x'` the values of the forward-looking variables now and next period. -/
theorem C43_dynamic_block_partial (la : LinAlg V) (ex : la.Exact) (D E gym gyp : Arr V)
    (parts : QZParts V) (hp : partitionedQZ la D E = .ok parts) (hsep : parts.Separated)
    (hs : solveNonstatic la parts = .ok (gym, gyp)) :
    gym.r = gym.c ∧ gyp.c = gym.r ∧ gym.r + gyp.r = D.c ∧
    ∀ x x' z z' : Nat → V,
      (∀ i < gym.r, x' i = sumTo gym.c fun j => gym.e i j * x j) →
      (∀ i < gyp.r, z i = sumTo gyp.c fun j => gyp.e i j * x j) →
      (∀ i < gyp.r, z' i = sumTo gyp.c fun j => gyp.e i j * x' j) →
      ∀ i < D.r, (sumTo gym.r fun j => D.e i j * x' j) + (sumTo gyp.r fun j => D.e i (gym.r + j) * z' j) =
        (sumTo gym.r fun j => E.e i j * x j) + sumTo gyp.r fun j => E.e i (gym.r + j) * z j := by
  obtain ⟨c1, c2, c3, c4, c5, c6, c7, core⟩ := partition_core ex hp hsep hs
  refine ⟨c5.symm, c7, by omega, ?_⟩
  intro x x' z z' hx' hz hz' i hi
  have h := core (fun k : Fin gym.r => k.val) (fun k : Fin gyp.r => k.val) (fun _ : Unit => i)
    (IsEnum.fin _) (by rw [← c6]; exact IsEnum.fin _) (fun _ => by omega)
  have ex1 : (fun k : Fin gym.r => x' k) =
      gym.blk (fun k : Fin gym.r => k.val) (fun k : Fin gym.r => k.val) *ᵥ fun k => x k := by
    funext k
    rw [hx' k k.2, c5, sumTo_enum (IsEnum.fin gym.r)]; rfl
  have ez : (fun k : Fin gyp.r => z k) =
      gyp.blk (fun k : Fin gyp.r => k.val) (fun k : Fin gym.r => k.val) *ᵥ fun k => x k := by
    funext k
    rw [hz k k.2, c7, sumTo_enum (IsEnum.fin gym.r)]; rfl
  have ez' : (fun k : Fin gyp.r => z' k) =
      gyp.blk (fun k : Fin gyp.r => k.val) (fun k : Fin gym.r => k.val) *ᵥ fun k : Fin gym.r => x' k := by
    funext k
    rw [hz' k k.2, c7, sumTo_enum (IsEnum.fin gym.r)]; rfl
  have l1 : (sumTo gym.r fun j => D.e i j * x' j) =
      (D.blk (fun _ : Unit => i) (fun k : Fin gym.r => k.val) *ᵥ fun k : Fin gym.r => x' k) () := by
    rw [sumTo_enum (IsEnum.fin gym.r)]; rfl
  have l2 : (sumTo gyp.r fun j => D.e i (gym.r + j) * z' j) =
      (D.blk (fun _ : Unit => i) (fun k : Fin gyp.r => gym.r + k) *ᵥ fun k : Fin gyp.r => z' k) () := by
    rw [sumTo_enum (IsEnum.fin gyp.r)]; rfl
  have l3 : (sumTo gym.r fun j => E.e i j * x j) =
      (E.blk (fun _ : Unit => i) (fun k : Fin gym.r => k.val) *ᵥ fun k : Fin gym.r => x k) () := by
    rw [sumTo_enum (IsEnum.fin gym.r)]; rfl
  have l4 : (sumTo gyp.r fun j => E.e i (gym.r + j) * z j) =
      (E.blk (fun _ : Unit => i) (fun k : Fin gyp.r => gym.r + k) *ᵥ fun k : Fin gyp.r => z k) () := by
    rw [sumTo_enum (IsEnum.fin gyp.r)]; rfl
  rw [l1, l2, l3, l4, ez, ez', ex1]
  have h' := congrFun (congrArg (· *ᵥ fun k : Fin gym.r => x k) h) ()
  simp only [add_mulVec, Matrix.add_mul, ← mulVec_mulVec, Pi.add_apply] at h'
  exact h'

/-! ### C44: static responses -/

/-- **C44.** Let every variable occur in the current period and let `n_static` be the number of static
variables.  With exact linear algebra, if the static responses `gys` are computed from any responses
`gym` of the states and `gyp` of the forward-looking variables, then the first `n_static` equations of
the (rotated) jacobian hold for all lagged values `ym`, when the variables `y` respond by `gys`, `gym`
and `gyp`, and their expected values `yp` for the next period are again given by `gyp`. -/
theorem C44_static (la : LinAlg V) (ex : la.Exact) (t : Typer) (hcur : ∀ c < t.n, t.has 1 c = true)
    (hs : t.nStatic = t.static.length) (A gym gyp gys : Arr V)
    (h1 : gym.r = t.nBackward) (h1' : gym.c = t.nBackward)
    (h2 : gyp.r = t.nForward) (h2' : gyp.c = t.nBackward)
    (h : solveStatic la t A gym gyp = .ok gys) :
    gys.r = t.nStatic ∧
    ∀ ym y yp : Nat → V,
      (∀ j < t.nStatic, y (t.dr j) = sumTo t.nBackward fun b => gys.e j b * ym (t.dr (t.nStatic + b))) →
      (∀ j < t.nBackward, y (t.dr (t.nStatic + j)) =
        sumTo t.nBackward fun b => gym.e j b * ym (t.dr (t.nStatic + b))) →
      (∀ j < t.pureForward.length, y (t.dr (t.nStatic + t.nBackward + j)) =
        sumTo t.nBackward fun b => gyp.e (t.nMixed + j) b * ym (t.dr (t.nStatic + b))) →
      (∀ j < t.nForward, yp (t.dr (t.nStatic + t.pureBackward.length + j)) =
        sumTo t.nBackward fun b => gyp.e j b * y (t.dr (t.nStatic + b))) →
      ∀ i < t.nStatic, rowPart t A i 2 yp + rowPart t A i 1 y + rowPart t A i 0 ym = 0 := by
  have g := groups hcur
  have gt := g.total
  obtain ⟨hnf, hnb, hnm, hnb', hnf', _⟩ := C31_sizes t
  obtain ⟨e1, e2⟩ := static_rows ex g hs (by omega) (by omega) (by omega) (by omega) h
  refine ⟨by omega, ?_⟩
  intro ym y yp y1 y2 y3 y4 i hi
  rw [hs] at y1 y2 y3 y4 hi
  rw [rowPart_lead g, rowPart_cur g, rowPart_lag g]
  have pS : pick t (fun s : Fin t.static.length => s.val) y =
      gys.blk (fun s : Fin t.static.length => s.val) (stIdx t) *ᵥ
        pick t (fun b => t.static.length + stIdx t b) ym := by
    funext k
    rw [show pick t (fun s : Fin t.static.length => s.val) y k = y (t.dr k) from rfl, y1 k k.2, hnb',
      sumTo_enum (stEnum t)]
    rfl
  have pB : pick t (fun b => t.static.length + stIdx t b) y = gym.blk (stIdx t) (stIdx t) *ᵥ
        pick t (fun b => t.static.length + stIdx t b) ym := by
    funext k
    rw [show pick t (fun b => t.static.length + stIdx t b) y k = y (t.dr (t.static.length + stIdx t k))
      from rfl, y2 _ (by have := (stEnum t).lt k; omega), hnb', sumTo_enum (stEnum t)]
    rfl
  have pF : pick t (fun f : Fin t.pureForward.length =>
      t.static.length + (t.pureBackward.length + t.mixed.length) + f) y = gypF t gyp *ᵥ
        pick t (fun b => t.static.length + stIdx t b) ym := by
    funext k
    have := y3 k k.2
    rw [hnb', hnm] at this
    rw [show pick t (fun f : Fin t.pureForward.length =>
      t.static.length + (t.pureBackward.length + t.mixed.length) + f) y k =
      y (t.dr (t.static.length + (t.pureBackward.length + t.mixed.length) + k)) from rfl, this,
      sumTo_enum (stEnum t)]
    rfl
  have pP : pick t (fun f => t.static.length + t.pureBackward.length + fwIdx t f) yp =
      gyp.blk (fwIdx t) (stIdx t) *ᵥ pick t (fun b => t.static.length + stIdx t b) y := by
    funext k
    rw [show pick t (fun f => t.static.length + t.pureBackward.length + fwIdx t f) yp k =
      yp (t.dr (t.static.length + t.pureBackward.length + fwIdx t k)) from rfl,
      y4 _ (by have := (fwEnum t).lt k; omega), hnb', sumTo_enum (stEnum t)]
    rfl
  rw [pP, pS, pF, pB]
  have h' := congrFun (congrArg (· *ᵥ pick t (fun b => t.static.length + stIdx t b) ym) e2) ⟨i, hi⟩
  simp only [add_mulVec, ← mulVec_mulVec, Pi.add_apply, zero_mulVec, Pi.zero_apply] at h'
  rw [← h']
  show ((cAP t A fun _ : Unit => i) *ᵥ _) () + (((cAS t A fun _ : Unit => i) *ᵥ _) () +
    ((cAB t A fun _ : Unit => i) *ᵥ _) () + ((cAF t A fun _ : Unit => i) *ᵥ _) ()) +
    ((cAM t A fun _ : Unit => i) *ᵥ _) () = ((cAP t A fun _ : Unit => i) *ᵥ _) () +
      ((cAS t A fun _ : Unit => i) *ᵥ _) () + ((cAB t A fun _ : Unit => i) *ᵥ _) () +
      ((cAF t A fun _ : Unit => i) *ᵥ _) () + ((cAM t A fun _ : Unit => i) *ᵥ _) ()
  abel

/-! ### C45: shock responses -/

/-- **C45.** Let every variable occur in the current period.  With exact linear algebra, if the shock
responses `gu` are computed from any responses `gyp` of the forward-looking variables and coefficients
`fu` of the shocks, then for every vector of shocks `u` all equations hold on impact: with `y = gu u`
and expected values for the next period given by `gyp`. -/
theorem C45_shocks (la : LinAlg V) (ex : la.Exact) (t : Typer) (hcur : ∀ c < t.n, t.has 1 c = true)
    (A gyp fu gu : Arr V) (hA : A.r = t.n) (h2' : gyp.c = t.nBackward)
    (h : solveExo la t A gyp fu = .ok gu) :
    gu.r = t.n ∧ gu.c = fu.c ∧
    ∀ u y yp : Nat → V,
      (∀ j < t.n, y (t.dr j) = sumTo fu.c fun k => gu.e j k * u k) →
      (∀ j < t.nForward, yp (t.dr (t.static.length + t.pureBackward.length + j)) =
        sumTo t.nBackward fun b => gyp.e j b * y (t.dr (t.static.length + b))) →
      ∀ i < t.n, rowPart t A i 2 yp + rowPart t A i 1 y + (sumTo fu.c fun k => fu.e i k * u k) = 0 := by
  have g := groups hcur
  have gt := g.total
  obtain ⟨hnf, hnb, hnm, hnb', hnf', _⟩ := C31_sizes t
  have hexo := fun {α : Type} (ρ : α → Nat) (hρ : ∀ i, ρ i < t.n) =>
    shock_rows ex g hA (by omega) h ρ hρ (fun k : Fin fu.c => k.val) (fun k => k.2)
  obtain ⟨u1, u2, _⟩ := hexo (α := Empty) (fun e => e.elim) (fun e => e.elim)
  refine ⟨u1, u2, ?_⟩
  intro u y yp y1 y2 i hi
  have e2 := (hexo (fun _ : Unit => i) (fun _ => hi)).2.2
  rw [rowPart_lead g, rowPart_cur g, sumTo_enum (IsEnum.fin fu.c)]
  have pk : ∀ {α : Type} (κ : α → Nat), (∀ a, κ a < t.n) →
      pick t κ y = gu.blk κ (fun k : Fin fu.c => k.val) *ᵥ fun k : Fin fu.c => u k := by
    intro α κ hκ
    funext a
    rw [show pick t κ y a = y (t.dr (κ a)) from rfl, y1 _ (hκ a), sumTo_enum (IsEnum.fin fu.c)]
    rfl
  have pP : pick t (fun f => t.static.length + t.pureBackward.length + fwIdx t f) yp =
      gyp.blk (fwIdx t) (stIdx t) *ᵥ pick t (fun b => t.static.length + stIdx t b) y := by
    funext k
    rw [show pick t (fun f => t.static.length + t.pureBackward.length + fwIdx t f) yp k =
      yp (t.dr (t.static.length + t.pureBackward.length + fwIdx t k)) from rfl,
      y2 _ (by have := (fwEnum t).lt k; omega), hnb', sumTo_enum (stEnum t)]
    rfl
  rw [pP, pk (fun s : Fin t.static.length => s.val) (fun s => by have := s.2; omega),
    pk (fun b => t.static.length + stIdx t b) (fun b => by have := (stEnum t).lt b; omega),
    pk (fun f : Fin t.pureForward.length =>
      t.static.length + (t.pureBackward.length + t.mixed.length) + f) (fun f => by have := f.2; omega)]
  have h' := congrFun (congrArg (· *ᵥ fun k : Fin fu.c => u k) e2) ()
  simp only [add_mulVec, Matrix.add_mul, ← mulVec_mulVec, Pi.add_apply, zero_mulVec, Pi.zero_apply] at h'
  rw [← h']
  have hu : (∑ k : Fin fu.c, fu.e i k * u k) =
      (fu.blk (fun _ : Unit => i) (fun k : Fin fu.c => k.val) *ᵥ fun k : Fin fu.c => u k) () := rfl
  rw [hu]
  abel

/-! ### C73: which models can be solved -/

/-- the shapes of the state space exclude models without states, and those whose states are several
mixed variables only -/
theorem create_needs_states {la : LinAlg V} {t : Typer} (hcur : ∀ c < t.n, t.has 1 c = true)
    {J : Arr V} {s : Space V} (h : Space.create la t J = .ok s) :
    0 < t.pureBackward.length ∨ t.mixed.length = 1 := by
  have g := groups hcur
  have gt := g.total
  obtain ⟨hnf, hnb, hnm, hnb', hnf', _⟩ := C31_sizes t
  rcases Nat.eq_zero_or_pos t.pureBackward.length with h0 | h0
  · right
    unfold Space.create at h
    obtain ⟨⟨D, E, A⟩, hst, h⟩ := Except.bind_eq_ok h
    obtain ⟨p, hp, h⟩ := Except.bind_eq_ok h
    unfold partitionedQZ at hp
    obtain ⟨q, hq, hp⟩ := Except.bind_eq_ok hp
    unfold LinAlg.ordqzChecked at hq
    split at hq
    case isFalse => cases hq
    rename_i hsh
    unfold structSpace at hst
    obtain ⟨A', hrot, hst⟩ := Except.bind_eq_ok hst
    obtain ⟨Ap, hAp, hst⟩ := Except.bind_eq_ok hst
    obtain ⟨Am, hAm, hst⟩ := Except.bind_eq_ok hst
    obtain ⟨A0p, hA0p, hst⟩ := Except.bind_eq_ok hst
    obtain ⟨A0m, hA0m, hst⟩ := Except.bind_eq_ok hst
    obtain ⟨⟨D', E'⟩, hDE, hst⟩ := Except.bind_eq_ok hst
    have := Except.ok.inj hst
    simp only [Prod.mk.injEq] at this
    obtain ⟨rfl, rfl, rfl⟩ := this
    rw [g.forward] at hAp hA0p
    rw [g.state] at hAm
    obtain ⟨p1, p2, -⟩ := cols_group hAp g.lead
    obtain ⟨m1, m2, -⟩ := cols_group hAm g.lag
    obtain ⟨q1, q2, -⟩ := cols_group hA0p (fun j hj => g.cur _ (by omega))
    have z : A0m.c = 1 := by
      unfold a0mTilde at hA0m
      obtain ⟨y, hy, hA0m⟩ := Except.bind_eq_ok hA0m
      rw [g.pureBackward] at hy
      obtain ⟨y1, y2, -⟩ := cols_group hy (fun j hj => g.cur _ (by omega))
      rw [if_pos (by rw [y2, h0, Nat.mul_zero])] at hA0m
      rw [← Except.ok.inj hA0m]; rfl
    unfold assemble at hDE
    by_cases hm : t.nMixed > 0
    · rw [if_pos hm] at hDE
      unfold assembleMixed at hDE
      obtain ⟨⟨A0m', Im⟩, hpd, hDE⟩ := Except.bind_eq_ok hDE
      obtain ⟨D2, hD, hDE⟩ := Except.bind_eq_ok hDE
      obtain ⟨E2, hE, hDE⟩ := Except.bind_eq_ok hDE
      obtain ⟨d1, d2, d3, d4, d5, -⟩ := block_ok hD
      simp only [Arr.zeros] at d3
      unfold padded at hpd
      simp only at hpd
      split at hpd
      · obtain ⟨B, hB, hpd⟩ := Except.bind_eq_ok hpd
        obtain ⟨b1, b2, b3, -⟩ := Arr.hstack_ok hB
        have := Except.ok.inj hpd
        simp only [Prod.mk.injEq] at this
        obtain ⟨rfl, rfl⟩ := this
        simp only [Arr.zeros, Arr.eye] at b3 d3
        omega
      · have := Except.ok.inj hpd
        simp only [Prod.mk.injEq] at this
        obtain ⟨rfl, rfl⟩ := this
        simp only [Arr.eye] at d3
        omega
    · rw [if_neg hm] at hDE
      unfold assemblePure at hDE
      obtain ⟨D2, hD, hDE⟩ := Except.bind_eq_ok hDE
      obtain ⟨e, he, hDE⟩ := Except.bind_eq_ok hDE
      have := Except.ok.inj hDE
      simp only [Prod.mk.injEq] at this
      obtain ⟨rfl, rfl⟩ := this
      obtain ⟨d1, d2, d3, -⟩ := Arr.hstack_ok hD
      obtain ⟨e1, e2, e3, -⟩ := Arr.hstack_ok he
      obtain ⟨s1, s2, s3⟩ := hsh
      simp only [Arr.neg] at s1 s2 s3
      omega
  · exact .inl h0

theorem forward_shape {la : LinAlg V} {t : Typer} (g : Groups t) {A gym gyp gys : Arr V}
    (h : solveStatic la t A gym gyp = .ok gys) : gyp.r = t.nForward := by
  obtain ⟨hnf, hnb, hnm, hnb', hnf', _⟩ := C31_sizes t
  unfold solveStatic at h
  obtain ⟨Ap, hAp, h⟩ := Except.bind_eq_ok h
  obtain ⟨_, _, h⟩ := Except.bind_eq_ok h
  obtain ⟨_, _, h⟩ := Except.bind_eq_ok h
  obtain ⟨_, _, h⟩ := Except.bind_eq_ok h
  obtain ⟨_, _, h⟩ := Except.bind_eq_ok h
  obtain ⟨x, hx, h⟩ := Except.bind_eq_ok h
  rw [g.forward] at hAp
  obtain ⟨_, p2, _⟩ := cols_group hAp g.lead
  obtain ⟨x1, _⟩ := Arr.dot_ok hx
  omega

/-- **C73, what is refused.** Let every variable occur in the current period.  A model is solved only if
it has a state variable and a forward-looking variable, and either a variable that is purely backward
or exactly one mixed variable.  In particular, purely backward-looking, purely forward-looking and
static models, and models whose states are two or more mixed variables, are always refused. -/
theorem C73_refused (la : LinAlg V) (ex : la.Exact) (t : Llx) (nExog : Nat)
    (hcur : ∀ c < t.n, t.has 1 c = true) (J : Arr V) (s : Space V) (gy gu : Arr V)
    (hc : Space.create la t.toTyper J = .ok s) (hsol : solveFirstOrder la t nExog s = .ok (gy, gu)) :
    0 < t.nBackward ∧ 0 < t.nForward ∧ (0 < t.pureBackward.length ∨ t.mixed.length = 1) := by
  have g := groups hcur
  obtain ⟨hnf, hnb, hnm, hnb', hnf', _⟩ := C31_sizes t.toTyper
  have h1 := create_needs_states hcur hc
  refine ⟨by omega, ?_, h1⟩
  unfold Space.create at hc
  obtain ⟨⟨D, E, A⟩, hst, hc⟩ := Except.bind_eq_ok hc
  obtain ⟨p, hp, hc⟩ := Except.bind_eq_ok hc
  have := Except.ok.inj hc
  subst this
  unfold solveFirstOrder at hsol
  obtain ⟨⟨gym, gyp⟩, hns, hsol⟩ := Except.bind_eq_ok hsol
  obtain ⟨gyd, hgyd, hsol⟩ := Except.bind_eq_ok hsol
  obtain ⟨gys, hgys, hsol⟩ := Except.bind_eq_ok hsol
  have h2 := forward_shape g hgys
  obtain ⟨-, -, -, -, h3, h4, -⟩ := partition_shapes ex hp hns
  omega

/-- **C73 is false.** A first-order autoregression (one variable with a lag and no lead) and a model of
two variables that both occur with lag and lead are refused, whatever the coefficients. -/
theorem C73_false : ∃ t t' : Llx, buildLlx [[-1, 0]] = .ok t ∧ buildLlx [[-1, 0, 1], [-1, 0, 1]] = .ok t' ∧
    (∀ (la : LinAlg V), la.Exact → ∀ J s nExog gy gu, Space.create la t.toTyper J = .ok s →
      solveFirstOrder la t nExog s ≠ .ok (gy, gu)) ∧
    ∀ (la : LinAlg V) J s, Space.create la t'.toTyper J ≠ .ok s := by
  refine ⟨_, _, rfl, rfl, ?_, ?_⟩
  · intro la ex J s nExog gy gu hc hsol
    have := (C73_refused la ex _ nExog (by decide) J s gy gu hc hsol).2.1
    revert this
    decide
  · intro la J s hc
    have := create_needs_states (by decide) hc
    revert this
    decide

/-! ### C46: the policy functions solve the model -/

/-- **C46** (partial: see the hypotheses).  Let `pss` be the periods in which the variables occur, each of
them between -1 and 1 and the current one always among them, and let the model have as many equations as
variables.  With exact linear algebra, if the solution `gy`, `gu` is computed and the decomposition was
not cut through a pair of complex conjugates, then along every path `y` that follows the policy functions
for a sequence `u` of shocks, the linearised equations hold in every period, where the next period's
values are those expected, i.e. given by the policy functions without shocks. -/
theorem C46_policy_partial (la : LinAlg V) (ex : la.Exact) (pss : List (List Int)) (t : Llx)
    (hps : ∀ ps ∈ pss, 0 ∈ ps ∧ ∀ p ∈ ps, p = -1 ∨ p = 0 ∨ p = 1) (ht : buildLlx pss = .ok t)
    (J : Arr V) (hJ : J.r = pss.length) (nExog : Nat) (s : Space V) (gy gu : Arr V)
    (hc : Space.create la t.toTyper J = .ok s) (hsep : s.parts.Separated)
    (hsol : solveFirstOrder la t nExog s = .ok (gy, gu)) (y u yE : Nat → Nat → V)
    (hy : ∀ τ, FollowsPolicy t.toTyper nExog gy gu (y τ) (u τ) (y (τ + 1)))
    (hE : ∀ τ, FollowsPolicy t.toTyper nExog gy gu (y (τ + 1)) (fun _ => 0) (yE τ)) :
    ∀ τ, ∀ i < J.r, linearised t nExog J i (y τ) (y (τ + 1)) (yE τ) (u τ) = 0 := by
  obtain ⟨t', ht', hn, hcell, -⟩ := C28_numbering pss (fun ps h h0 => by
    have := (hps ps h).1; rw [h0] at this; cases this) (fun ps h => (hps ps h).2)
  rw [ht] at ht'
  have := Except.ok.inj ht'
  subst this
  have hcur : ∀ c < t.n, t.has 1 c = true := by
    intro c hcn
    have hc' : c < pss.length := by omega
    exact Option.isSome_iff_exists.mpr ((hcell c pss[c] 0 (List.getElem?_eq_getElem hc') (by omega)).mpr
      (hps _ (List.getElem_mem hc')).1)
  have hpos := (C73_refused la ex t nExog hcur J s gy gu hc hsol).1
  obtain ⟨hnf, hnb, hnm, hnb', hnf', _⟩ := C31_sizes t.toTyper
  have hst := (C32_static_count_with_lag_partial ht (by
    intro h0; rw [hnb, h0] at hpos; cases hpos)).1
  intro τ i hi
  exact linearised_zero ex hcur hst (by omega) hc hsep hsol (hy τ) (hE τ) i (by omega)

/-- the hypotheses of C43 to C46 and C73 are met: a model with a static, a backward-looking and a
forward-looking variable is solved with non-trivial responses -/
theorem ex_solved : ∃ (s : Space ℚ) (gy gu : Arr ℚ),
    Space.create (exLa 2 stab expl) exT.toTyper (exJ 2) = .ok s ∧ s.parts.Separated ∧
    solveFirstOrder (exLa 2 stab expl) exT 1 s = .ok (gy, gu) ∧
    gy.e 0 0 = 11/6 ∧ gy.e 1 0 = 1/2 ∧ gy.e 2 0 = 4/3 ∧ gu.e 0 0 = -3/5 := by
  obtain ⟨s, hs, h⟩ := ok_of_check (x := Space.create (exLa 2 stab expl) exT.toTyper (exJ 2))
    (p := fun s => s.parts.eigs == [stab, expl] &&
      okAnd (solveFirstOrder (exLa 2 stab expl) exT 1 s) fun g => decide (g.1.e 0 0 = 11/6) &&
        decide (g.1.e 1 0 = 1/2) && decide (g.1.e 2 0 = 4/3) && decide (g.2.e 0 0 = -3/5)) (by decide +kernel)
  rw [Bool.and_eq_true] at h
  obtain ⟨⟨gy, gu⟩, hg, h'⟩ := ok_of_check h.2
  simp only [Bool.and_eq_true, decide_eq_true_eq] at h'
  refine ⟨s, gy, gu, hs, .inl ?_, hg, h'.1.1.1, h'.1.1.2, h'.1.2, h'.2⟩
  rw [beq_iff_eq.mp h.1]
  exact ⟨expl, by simp, rfl⟩

/-- the other hypotheses of C46 for this model -/
example : buildLlx [[0, 1], [0, -1], [0]] = .ok exT ∧ (exJ 2).r = 3 ∧ (exLa 2 stab expl).Exact ∧
    ∀ ps ∈ ([[0, 1], [0, -1], [0]] : List (List Int)), 0 ∈ ps ∧ ∀ p ∈ ps, p = -1 ∨ p = 0 ∨ p = 1 :=
  ⟨rfl, rfl, exLa_exact (by norm_num) _ _, by decide⟩

/-- the hypotheses of C43, C44 and C45 for this model -/
example : ∃ (s : Space ℚ) (gym gyp gys fu gu : Arr ℚ),
    partitionedQZ (exLa 2 stab expl) s.lhs s.rhs = .ok s.parts ∧ s.parts.Separated ∧
    solveNonstatic (exLa 2 stab expl) s.parts = .ok (gym, gyp) ∧
    solveStatic (exLa 2 stab expl) exT.toTyper s.jac gym gyp = .ok gys ∧
    solveExo (exLa 2 stab expl) exT.toTyper s.jac gyp fu = .ok gu ∧ fu.e 1 0 = 1 ∧
    exT.nStatic = exT.static.length ∧ ∀ c < exT.n, exT.has 1 c = true := by
  obtain ⟨s, gy, gu, hc, hsep, hsol, -⟩ := ex_solved
  have hjac : s.jac.e 1 5 = 1 := by
    obtain ⟨s', hs', h⟩ := ok_of_check (x := Space.create (exLa 2 stab expl) exT.toTyper (exJ 2))
      (p := fun s => decide (s.jac.e 1 5 = 1)) (by decide +kernel)
    rw [hc] at hs'
    rw [Except.ok.inj hs']
    exact of_decide_eq_true h
  unfold Space.create at hc
  obtain ⟨⟨D, E, A⟩, hst, hc⟩ := Except.bind_eq_ok hc
  obtain ⟨p, hp, hc⟩ := Except.bind_eq_ok hc
  have := Except.ok.inj hc
  subst this
  unfold solveFirstOrder at hsol
  obtain ⟨⟨gym, gyp⟩, hns, hsol⟩ := Except.bind_eq_ok hsol
  obtain ⟨gyd, hgyd, hsol⟩ := Except.bind_eq_ok hsol
  obtain ⟨gys, hgys, hsol⟩ := Except.bind_eq_ok hsol
  obtain ⟨gy', hgy', hsol⟩ := Except.bind_eq_ok hsol
  rw [if_neg (by decide)] at hsol
  obtain ⟨fu, hfu, hsol⟩ := Except.bind_eq_ok hsol
  obtain ⟨gu', hgu', hsol⟩ := Except.bind_eq_ok hsol
  refine ⟨_, gym, gyp, gys, fu, gu', hp, hsep, hns, hgys, hgu', ?_, rfl, by decide⟩
  unfold Arr.cols at hfu
  split at hfu
  case isFalse => cases hfu
  rw [← Except.ok.inj hfu]
  exact hjac

/-! ### C72: determinate models -/

/-- **C72 is false (1).** A model with one forward-looking variable and no explosive eigenvalue at all is
indeterminate, and the check of the state space says so, but it is solved all the same. -/
theorem C72_indeterminate_solved : ∃ (la : LinAlg ℚ) (s : Space ℚ) (gy gu : Arr ℚ), la.Exact ∧
    Space.create la exT.toTyper (exJ (1/3)) = .ok s ∧ exT.nForward = 1 ∧
    (s.parts.eigs.countP fun x => x.big || x.inf) = 0 ∧
    s.verify la exT.toTyper = .error .identification ∧
    solveFirstOrder la exT 1 s = .ok (gy, gu) := by
  obtain ⟨s, hs, h⟩ := ok_of_check
    (x := Space.create (exLa (1/3) stab stab) exT.toTyper (exJ (1/3)))
    (p := fun s => decide ((s.parts.eigs.countP fun x => x.big || x.inf) = 0) &&
      okAnd (solveFirstOrder (exLa (1/3) stab stab) exT 1 s) fun _ => true) (by decide +kernel)
  rw [Bool.and_eq_true] at h
  obtain ⟨⟨gy, gu⟩, hg, -⟩ := ok_of_check h.2
  have h0 := of_decide_eq_true h.1
  refine ⟨_, s, gy, gu, exLa_exact (by norm_num) stab stab, hs, rfl, h0, ?_, hg⟩
  unfold Space.verify
  rw [if_pos (by rw [h0]; decide)]

/-- linear algebra that answers for triangular pairs with the identity -/
def idLa (eigs : List Eig) : LinAlg ℚ where
  qr _ := .error .valueError
  rank a := a.r
  ordqz b a := if sameArr b (listArr [[1/2, 0, 0], [0, -2, 0], [0, 0, 3]] 3) &&
      sameArr a (Arr.eye 3 3 0) && decide (eigs.length = 3) then
    .ok ⟨b, a, eigs, Arr.eye 3 3 0, Arr.eye 3 3 0⟩ else .error .valueError
  inv a := if sameArr a (Arr.eye a.r a.r 0) then .ok a else .error .valueError
  solve a b := if sameArr a (Arr.eye a.r a.r 0) then .ok b else .error .valueError

theorem sameArr_eye {a : Arr ℚ} (h : sameArr a (Arr.eye a.r a.r 0) = true) (b : Arr ℚ) (hb : b.r = a.r) :
    a.IsProd b b := by
  obtain ⟨_, h2, h3⟩ := sameArr_spec h
  have h2 : a.c = a.r := h2
  refine ⟨by omega, hb, rfl, ?_⟩
  intro i hi j hj
  rw [sumTo_eq, Finset.sum_eq_single i]
  · rw [h3 i hi i (by omega)]; simp [Arr.eye]
  · intro k hk hne
    rw [h3 i hi k (Finset.mem_range.mp hk)]; simp [Arr.eye, hne]
  · intro hn
    exact absurd (Finset.mem_range.mpr (by omega)) hn

theorem sameArr_inv {a : Arr ℚ} (h : sameArr a (Arr.eye a.r a.r 0) = true) : a.IsInv a := by
  obtain ⟨_, h2, h3⟩ := sameArr_spec h
  have h2 : a.c = a.r := h2
  have := sameArr_eye h a rfl
  have h4 : a.IsProd a (Arr.eye a.r a.r 0) := by
    refine ⟨h2, rfl, h2.symm, ?_⟩
    intro i hi j hj
    rw [this.2.2.2 i hi j hj]
    exact h3 i hi j hj
  exact ⟨h4, h4⟩

theorem idLa_exact (eigs : List Eig) : (idLa eigs).Exact := by
  constructor
  · intro M Q R h; cases h
  · intro a b _ h
    simp only [idLa] at h
    split at h
    case isFalse => cases h
    rename_i hs
    rw [← Except.ok.inj h]
    exact sameArr_inv hs
  · intro a b x _ hr h
    simp only [idLa] at h
    split at h
    case isFalse => cases h
    rename_i hs
    rw [← Except.ok.inj h]
    exact ⟨sameArr_eye hs b hr, a, sameArr_inv hs⟩
  · intro b a q _ _ _ h
    simp only [idLa] at h
    split at h
    case isFalse => cases h
    rename_i hs
    simp only [Bool.and_eq_true, decide_eq_true_eq] at hs
    have := Except.ok.inj h
    subst this
    obtain ⟨b1, b2, b3⟩ := sameArr_spec hs.1.1
    obtain ⟨a1, a2, a3⟩ := sameArr_spec hs.1.2
    have b1' : b.r = 3 := b1
    have b2' : b.c = 3 := b2
    have a1' : a.r = 3 := a1
    have a2' : a.c = 3 := a2
    rw [b1', b2'] at b3
    rw [a1', a2'] at a3
    have hI : (Arr.eye 3 3 0 : Arr ℚ).IsInv (Arr.eye 3 3 0 : Arr ℚ).tr := by
      refine ⟨⟨rfl, rfl, rfl, ?_⟩, ⟨rfl, rfl, rfl, ?_⟩⟩ <;>
      · intro i hi j hj
        have hi : i < 3 := hi
        have hj : j < 3 := hj
        interval_cases i <;> interval_cases j <;> norm_num [sumTo, Arr.eye, Arr.tr]
    refine ⟨?_, by rw [b1']; exact hs.2, hI, hI, ?_, ?_, ?_, ?_, ?_⟩
    · intro x hx
      simp only [List.mem_cons, List.not_mem_nil, or_false] at hx
      rcases hx with rfl | rfl | rfl | rfl
      · exact ⟨rfl, by omega⟩
      · exact ⟨by omega, by omega⟩
      · exact ⟨b1'.symm, b1'.symm⟩
      · exact ⟨b1'.symm, b1'.symm⟩
    · rw [b1']
      intro i hi j hj
      interval_cases i <;> interval_cases j <;> norm_num [sumTo, Arr.eye]
    · rw [b1']
      intro i hi j hj
      interval_cases i <;> interval_cases j <;> norm_num [sumTo, Arr.eye]
    · rw [b1']
      intro i j hji hi
      rw [a3 i hi j (by omega)]
      simp only [Arr.eye]
      rw [if_neg (by omega)]
    · rw [b1']
      intro i j hji hi
      rw [b3 i hi j (by omega)]
      have hj3 : j < 3 := by omega
      interval_cases i <;> interval_cases j <;> first | rfl | omega
    · rw [b1']
      intro i hi hne
      have hi3 : i < 3 := by omega
      have h0 : b.e (i + 1) i = 0 := by
        rw [b3 _ hi i hi3]; interval_cases i <;> first | rfl | omega
      exact absurd h0 hne

/-- the table of a model with one backward-looking and two forward-looking variables -/
def idT : Llx := match buildLlx [[-1, 0], [0, 1], [0, 1]] with
  | .ok t => t
  | .error _ => ⟨⟨0, fun _ _ => none⟩, 0⟩

/-- the jacobian of `x = x(-1)/2 + e`, `y(+1) = -2 y`, `z(+1) = 3 z` -/
def idJ : Arr ℚ := listArr [[-1/2, 1, 0, 0, 0, 0, -1], [0, 0, 2, 0, 1, 0, 0], [0, 0, 0, -3, 0, 1, 0]] 7

/-- **C72 is false (2).** The model `x = x(-1)/2 + e`, `y(+1) = -2 y`, `z(+1) = 3 z` is determinate, and
the check of the state space accepts it (two eigenvalues of modulus above one, two forward-looking
variables), but if the decomposition lists the explosive eigenvalue -2 before 3 it is not solved. -/
theorem C72_determinate_refused : ∃ (la : LinAlg ℚ) (s : Space ℚ), la.Exact ∧
    buildLlx [[-1, 0], [0, 1], [0, 1]] = .ok idT ∧ Space.create la idT.toTyper idJ = .ok s ∧
    s.parts.eigs = [stab, ⟨false, false, true⟩, expl] ∧
    s.verify la idT.toTyper = .ok () ∧ solveFirstOrder la idT 1 s = .error .valueError := by
  obtain ⟨s, hs, h⟩ := ok_of_check
    (x := Space.create (idLa [stab, ⟨false, false, true⟩, expl]) idT.toTyper idJ)
    (p := fun s => s.parts.eigs == [stab, ⟨false, false, true⟩, expl] &&
      decide ((s.parts.eigs.countP fun x => x.big || x.inf) = idT.nForward) &&
      match solveFirstOrder (idLa [stab, ⟨false, false, true⟩, expl]) idT 1 s with
      | .ok _ => false
      | .error e => e == .valueError) (by decide +kernel)
  simp only [Bool.and_eq_true, decide_eq_true_eq] at h
  refine ⟨_, s, idLa_exact _, rfl, hs, beq_iff_eq.mp h.1.1, ?_, ?_⟩
  · unfold Space.verify
    rw [if_neg (fun hn => hn h.1.2), if_neg (fun hn => hn rfl)]
  · have h2 := h.2
    cases hx : solveFirstOrder (idLa [stab, ⟨false, false, true⟩, expl]) idT 1 s with
    | ok g => rw [hx] at h2; cases h2
    | error e => rw [hx] at h2; rw [beq_iff_eq.mp h2]

theorem countP_sorted (p : Eig → Bool) : ∀ (es : List Eig) (k : Nat), k ≤ es.length →
    (∀ (j : Nat) e, es[j]? = some e → (p e = true ↔ k ≤ j)) → es.countP p = es.length - k
  | [], k, h, _ => by simp
  | e :: es, 0, _, hp => by
    rw [List.countP_eq_length.mpr]
    · simp
    · intro a ha
      obtain ⟨j, hj⟩ := List.mem_iff_getElem?.mp ha
      exact (hp j a hj).mpr (Nat.zero_le _)
  | e :: es, k + 1, h, hp => by
    have h0 : p e = false := by
      have := hp 0 e rfl
      cases hpe : p e with
      | false => rfl
      | true => have := this.mp hpe; omega
    rw [List.countP_cons_of_neg (by rw [h0]; decide), countP_sorted p es k (by simpa using h)]
    · simp
    · intro j a hj
      rw [hp (j + 1) a hj]
      omega

/-- **C72, what does hold** (partial, with the guards).  Let every variable occur in the current period.
If an eigenvalue has modulus above one exactly when it is greater than one (it is not when negative or
complex), if the decomposition lists those last, and if there is at least one of them, then a model is
solved only if it has as many explosive eigenvalues as forward-looking variables. -/
theorem C72_determinate_partial (la : LinAlg V) (ex : la.Exact) (t : Llx) (nExog : Nat)
    (hcur : ∀ c < t.n, t.has 1 c = true) (J : Arr V) (s : Space V) (gy gu : Arr V)
    (hc : Space.create la t.toTyper J = .ok s) (hsol : solveFirstOrder la t nExog s = .ok (gy, gu))
    (hbig : ∀ e ∈ s.parts.eigs, e.big = e.gt1)
    (hlast : s.parts.eigs.Pairwise fun a b => (a.gt1 || a.inf) = true → (b.gt1 || b.inf) = true)
    (hone : ∃ e ∈ s.parts.eigs, (e.big || e.inf) = true) :
    (s.parts.eigs.countP fun x => x.big || x.inf) = t.nForward := by
  have g := groups hcur
  unfold Space.create at hc
  obtain ⟨⟨D, E, A⟩, hst, hc⟩ := Except.bind_eq_ok hc
  obtain ⟨p, hp, hc⟩ := Except.bind_eq_ok hc
  have := Except.ok.inj hc
  subst this
  unfold solveFirstOrder at hsol
  obtain ⟨⟨gym, gyp⟩, hns, hsol⟩ := Except.bind_eq_ok hsol
  obtain ⟨gyd, hgyd, hsol⟩ := Except.bind_eq_ok hsol
  obtain ⟨gys, hgys, hsol⟩ := Except.bind_eq_ok hsol
  have h2 := forward_shape g hgys
  obtain ⟨-, -, -, h5, h3, h4, i, hi, hcut⟩ := partition_shapes ex hp hns
  simp only at hbig hlast hone ⊢
  obtain ⟨hne, hfi⟩ := findFirst_spec hi
  rcases hfi with ⟨-, hall⟩ | ⟨k, rfl, hk, ⟨e, he1, he2⟩, hbefore⟩
  · obtain ⟨e, hm, he⟩ := hone
    rw [hbig e hm, hall e hm] at he; cases he
  have hkc : cutAt E.r (k : Int) = k := by rw [cutAt, if_neg (by omega)]; rfl
  rw [countP_sorted _ _ k (by omega)]
  · omega
  · intro j a hj
    rw [hbig a (List.mem_of_getElem? hj)]
    constructor
    · intro ha
      rcases Nat.lt_or_ge j k with h | h
      · rw [hbefore j h a hj] at ha; cases ha
      · exact h
    · intro h
      rcases Nat.eq_or_lt_of_le h with h | h
      · subst h
        rw [he1] at hj
        rw [← Option.some.inj hj]; exact he2
      · obtain ⟨hj1, hj2⟩ := List.getElem?_eq_some_iff.mp hj
        obtain ⟨hk1, hk2⟩ := List.getElem?_eq_some_iff.mp he1
        have := List.pairwise_iff_getElem.mp hlast k j hk1 hj1 h
        rw [hj2, hk2] at this
        exact this he2

/-- the hypotheses of the partial theorem are met -/
example : ∃ (s : Space ℚ) (gy gu : Arr ℚ),
    Space.create (exLa 2 stab expl) exT.toTyper (exJ 2) = .ok s ∧
    solveFirstOrder (exLa 2 stab expl) exT 1 s = .ok (gy, gu) ∧
    (∀ e ∈ s.parts.eigs, e.big = e.gt1) ∧
    (s.parts.eigs.Pairwise fun a b => (a.gt1 || a.inf) = true → (b.gt1 || b.inf) = true) ∧
    (∃ e ∈ s.parts.eigs, (e.big || e.inf) = true) := by
  obtain ⟨s, gy, gu, hc, -, hsol, -⟩ := ex_solved
  have h : s.parts.eigs = [stab, expl] := by
    obtain ⟨s', hs', h⟩ := ok_of_check (x := Space.create (exLa 2 stab expl) exT.toTyper (exJ 2))
      (p := fun s => s.parts.eigs == [stab, expl]) (by decide +kernel)
    rw [hc] at hs'
    rw [Except.ok.inj hs']
    exact beq_iff_eq.mp h
  refine ⟨s, gy, gu, hc, hsol, ?_⟩
  rw [h]
  decide

#print axioms C43_dynamic_block_partial
#print axioms C44_static
#print axioms C45_shocks
#print axioms C46_policy_partial
#print axioms C72_indeterminate_solved
#print axioms C72_determinate_refused
#print axioms C72_determinate_partial
#print axioms C73_refused
#print axioms C73_false

end Pynare
