import Verif.Model.Steady
import Verif.Props.Exprs
import Mathlib.Algebra.Order.Ring.Defs
import Mathlib.Algebra.Order.Ring.Int
import Mathlib.Tactic.Ring
import Mathlib.Tactic.Linarith
/-!
# Properties of steady states
-/

namespace Pynare

/-! ### C98: methods -/

/-- **C98**, partial.  The property says that every method that dynare numbers, from 0 to 11, can be used.  A method
reaches the minimiser exactly if it is none, an empty string or another false object, a number whose whole part is 8,
or `'nelder-mead'`. -/
theorem C98_usable_partial {V : Type} [Add V] [Mul V] [Zero V] (p : SteadyProblem V) (m : Method) :
    (∃ a, selectAlgo "dynare" m = .ok a ∧
      ∀ opt : Minimizer V, runAlgo opt p a = opt a (leastSquares p) p.start) ↔
    m = .none ∨ m = .text "" ∨ m = .other false ∨ m = .number 8 ∨ m = .text "nelder-mead" := by
  have no : ∀ a : Algo, (∀ opt : Minimizer V, runAlgo opt p a = opt a (leastSquares p) p.start) ↔
      a = .gradient ∨ a = .simplex := by
    intro a
    cases a
    case gradient => exact ⟨fun _ => .inl rfl, fun _ _ => rfl⟩
    case simplex => exact ⟨fun _ => .inr rfl, fun _ _ => rfl⟩
    all_goals
      refine ⟨fun h => ?_, fun h => by simp at h⟩
      have := h fun _ _ x => .ok ⟨x, false⟩
      simp [runAlgo] at this
  simp only [no]
  constructor
  · rintro ⟨a, h, ha⟩
    cases m with
    | none => simp
    | text s =>
      simp only [selectAlgo, if_true] at h
      by_cases hs : s = ""
      · simp [hs]
      · rw [if_neg hs, nonlangMapping] at h
        by_cases hn : s = "nelder-mead"
        · simp [hn]
        · rw [if_neg hn] at h
          cases h
    | number i =>
      simp only [selectAlgo, if_true, dynareMapping] at h
      by_cases h0 : i = 0
      · simp [h0] at h
        subst h
        simp at ha
      · by_cases h8 : i = 8
        · simp [h8]
        · by_cases hr : 1 ≤ i ∧ i ≤ 11
          · simp [h0, h8, hr] at h
            subst h
            simp at ha
          · simp [h0, h8, hr, nonlangMapping] at h
    | other b => cases b <;> simp_all [selectAlgo]
  · rintro (rfl | rfl | rfl | rfl | rfl)
    · exact ⟨.gradient, rfl, .inl rfl⟩
    · exact ⟨.gradient, rfl, .inl rfl⟩
    · exact ⟨.gradient, rfl, .inl rfl⟩
    · exact ⟨.gradient, rfl, .inl rfl⟩
    · exact ⟨.simplex, by decide +kernel, .inr rfl⟩

/-- **C98**, partial: all other methods are refused, whatever the minimiser and the object. -/
theorem C98_refused_partial {V : Type} [Add V] [Mul V] [Zero V] (opt : Minimizer V) (p : SteadyProblem V) (s : SteadyObj V)
    (m : Method) (h : ¬ (m = .none ∨ m = .text "" ∨ m = .other false ∨ m = .number 8 ∨ m = .text "nelder-mead")) :
    ∃ e, s.compute opt "dynare" p m = (s, .error e) := by
  have key := mt (C98_usable_partial p m).mp h
  unfold SteadyObj.compute
  cases hs : selectAlgo "dynare" m with
  | error e => exact ⟨e, rfl⟩
  | ok a =>
    cases a
    case gradient => exact absurd ⟨_, hs, fun _ => rfl⟩ key
    case simplex => exact absurd ⟨_, hs, fun _ => rfl⟩ key
    all_goals exact ⟨_, rfl⟩

/-- **C98** is false: method 4, dynare's default, cannot be used, and neither can method 0. -/
theorem C98_false : ∀ (V : Type) [Add V] [Mul V] [Zero V] (opt : Minimizer V) (p : SteadyProblem V),
    modelCompute opt "dynare" p (.number 4) = .error .typeError ∧
    modelCompute opt "dynare" p (.number 0) = .error .notImplemented :=
  fun _ _ _ _ _ _ => ⟨rfl, rfl⟩

/-! ### C99: steady states solve the equations -/

section
variable {V : Type} [CommRing V] [LinearOrder V] [IsStrictOrderedRing V]

theorem foldl_squares (vs : List V) : ∀ a : V, 0 ≤ a →
    a ≤ (vs.map fun v => v * v).foldl (· + ·) a ∧
    ((vs.map fun v => v * v).foldl (· + ·) a = 0 ↔ a = 0 ∧ ∀ v ∈ vs, v = 0) := by
  induction vs with
  | nil => intro a h; simp
  | cons v vs ih =>
    intro a h
    have hv : 0 ≤ v * v := mul_self_nonneg v
    obtain ⟨h1, h2⟩ := ih (a + v * v) (by linarith [add_nonneg h hv])
    refine ⟨by simpa using (le_trans (by linarith) h1), ?_⟩
    simp only [List.map_cons, List.foldl_cons, List.forall_mem_cons]
    rw [h2]
    constructor
    · rintro ⟨e, e'⟩
      have ea : a = 0 := by linarith
      have ev : v * v = 0 := by linarith
      exact ⟨ea, mul_self_eq_zero.mp ev, e'⟩
    · rintro ⟨rfl, rfl, e'⟩
      exact ⟨by ring, e'⟩

/-- the objective is zero exactly where all residuals are, and is not negative -/
theorem leastSquares_zero {p : SteadyProblem V} {x : List V} {w : V} (h : leastSquares p x = .ok w) :
    0 ≤ w ∧ ∃ vs, p.functions x = .ok vs ∧ (w = 0 ↔ ∀ v ∈ vs, v = 0) := by
  unfold leastSquares at h
  cases hf : p.functions x with
  | error e => rw [hf] at h; cases h
  | ok vs =>
    rw [hf] at h
    cases h
    obtain ⟨h1, h2⟩ := foldl_squares vs 0 (le_refl _)
    exact ⟨h1, vs, rfl, by rw [h2]; simp⟩

theorem steadyFuncs_get {ops : Ops V} {okName : String → Bool} {endo : List String} {σ : String → Option V} :
    ∀ {es : List (Expr V)} {fs : List (List V → Except Err V)}, steadyFuncs ops okName endo σ es = .ok fs →
    fs.length = es.length ∧ ∀ (i : Nat) e, es[i]? = some e → ∃ f, fs[i]? = some f ∧ steadyFunc ops okName endo σ e = .ok f := by
  intro es
  induction es with
  | nil => intro fs h; cases h; simp
  | cons e es ih =>
    intro fs h
    simp only [steadyFuncs, Except.bind_ok_iff, Except.ok.injEq] at h
    obtain ⟨f, hf, gs, hg, rfl⟩ := h
    obtain ⟨i1, i2⟩ := ih hg
    refine ⟨by simp [i1], fun i e' he => ?_⟩
    cases i with
    | zero => simp at he; subst he; exact ⟨f, by simp, hf⟩
    | succ i => simpa using i2 i e' (by simpa using he)

/-- The equation `l = r` holds when every variable, at whatever period, has its value in `ss`. -/
def HoldsAtRest (ops : Ops V) (endo : List String) (σ : String → Option V) (ss : List V) (l r : Expr V) : Prop :=
  ∃ a, PEvals ops (ReadsSteady σ endo ss) (fun x _ => ReadsSteady σ endo ss x) l a ∧
    PEvals ops (ReadsSteady σ endo ss) (fun x _ => ReadsSteady σ endo ss x) r a

/-- **C99**, partial.  The property says that the steady state reported for a model solves its equations.  It does
exactly if the objective is zero there. -/
theorem C99_zero_partial {ops : Ops V} (hsub : ∀ a b, ops.bin .sub a b = .ok (a - b)) {okName : String → Bool}
    {endo : List String} {σ : String → Option V} {es : List (Expr V)} {start : List V} {p : SteadyProblem V}
    (hp : steadyProblem ops okName endo σ es start = .ok p) (heq : ∀ e ∈ es, ∃ l r, e = .bin .sub l r) {ss : List V}
    (hss : ss.length = endo.length) {w : V} (hw : leastSquares p ss = .ok w) :
    w = 0 ↔ ∀ l r, .bin .sub l r ∈ es → HoldsAtRest ops endo σ ss l r := by
  unfold steadyProblem at hp
  simp only [Except.bind_ok_iff, Except.ok.injEq] at hp
  obtain ⟨fs, hfs, rfl⟩ := hp
  obtain ⟨f1, f2⟩ := steadyFuncs_get hfs
  obtain ⟨-, vs, hv, h0⟩ := leastSquares_zero hw
  obtain ⟨c1, c2⟩ := callAll_get hv
  have hv' : ∀ (i : Nat) l r, es[i]? = some (.bin .sub l r) → ∃ v, vs[i]? = some v ∧
      (v = 0 ↔ HoldsAtRest ops endo σ ss l r) := by
    intro i l r he
    obtain ⟨f, hf, hsf⟩ := f2 i _ he
    obtain ⟨v, hv, hfv⟩ := c2 i f hf
    refine ⟨v, hv, ?_⟩
    obtain ⟨a, b, ha, hb, hab⟩ := (C34_steady_residual ops okName endo σ l r hsf hss v).mp hfv
    rw [hsub] at hab
    cases hab
    constructor
    · intro h
      have : a = b := sub_eq_zero.mp h
      subst this
      exact ⟨a, ha, hb⟩
    · rintro ⟨c, h1, h2⟩
      have := (C34_steady_residual ops okName endo σ l r hsf hss (c - c)).mpr ⟨c, c, h1, h2, hsub c c⟩
      rw [this] at hfv
      exact (Except.ok.inj hfv).symm.trans (sub_self c)
  rw [h0]
  constructor
  · intro h l r he
    obtain ⟨i, hi, e⟩ := List.getElem_of_mem he
    obtain ⟨v, v1, v2⟩ := hv' i l r (by rw [List.getElem?_eq_getElem hi, e])
    exact v2.mp (h v (List.mem_of_getElem? v1))
  · intro h v hv
    obtain ⟨i, hi, e⟩ := List.getElem_of_mem hv
    have hi' : i < es.length := by omega
    obtain ⟨l, r, he⟩ := heq es[i] (List.getElem_mem hi')
    obtain ⟨w, w1, w2⟩ := hv' i l r (by rw [List.getElem?_eq_getElem hi', he])
    rw [List.getElem?_eq_getElem hi] at w1
    cases w1
    rw [← e]
    exact w2.mpr (h l r (he ▸ List.getElem_mem hi'))

/-- A minimiser that finds a point where the objective is smallest. -/
def FindsMinimum (opt : Minimizer V) : Prop :=
  ∀ a obj x0 r, opt a obj x0 = .ok r → r.x.length = x0.length ∧
    ∃ w, obj r.x = .ok w ∧ ∀ y v, y.length = x0.length → obj y = .ok v → w ≤ v

omit [LinearOrder V] [IsStrictOrderedRing V] in
theorem modelCompute_ok {opt : Minimizer V} {lang : String} {p : SteadyProblem V} {m : Method} {x : List V}
    (h : modelCompute opt lang p m = .ok x) : ∃ a r, opt a (leastSquares p) p.start = .ok r ∧ r.x = x := by
  unfold modelCompute SteadyObj.compute at h
  split at h
  · cases h
  · rename_i a ha
    split at h
    · cases h
    · rename_i r hr
      cases h
      cases a <;> first | exact ⟨_, r, hr, rfl⟩ | cases hr

/-- **C99**, partial: if the model has a steady state at all, and the minimiser finds a point where the objective is
smallest, then the steady state reported solves the equations. -/
theorem C99_minimum_partial {ops : Ops V} (hsub : ∀ a b, ops.bin .sub a b = .ok (a - b)) {okName : String → Bool}
    {endo : List String} {σ : String → Option V} {es : List (Expr V)} {start : List V} {p : SteadyProblem V}
    (hp : steadyProblem ops okName endo σ es start = .ok p) (heq : ∀ e ∈ es, ∃ l r, e = .bin .sub l r)
    (hst : start.length = endo.length) {opt : Minimizer V} (hopt : FindsMinimum opt) {lang : String} {m : Method}
    {ss : List V} (h : modelCompute opt lang p m = .ok ss)
    {y : List V} (hy : y.length = endo.length) {v : V} (hyv : leastSquares p y = .ok v)
    (hsol : ∀ l r, .bin .sub l r ∈ es → HoldsAtRest ops endo σ y l r) :
    ∀ l r, .bin .sub l r ∈ es → HoldsAtRest ops endo σ ss l r := by
  have hps : p.start = start := by
    unfold steadyProblem at hp
    simp only [Except.bind_ok_iff, Except.ok.injEq] at hp
    obtain ⟨fs, hfs, rfl⟩ := hp
    rfl
  obtain ⟨a, r, hr, rfl⟩ := modelCompute_ok h
  obtain ⟨o1, w, hw, hmin⟩ := hopt a _ _ r hr
  rw [hps, hst] at o1
  rw [hps, hst] at hmin
  have h0 := (C99_zero_partial hsub hp heq hy hyv).mpr hsol
  have := hmin y v hy hyv
  have hw0 := (leastSquares_zero hw).1
  exact (C99_zero_partial hsub hp heq o1 hw).mp (le_antisymm (h0 ▸ this) hw0)

end

/-- a minimiser that gives up at once and says so -/
def idleMin : Minimizer Int := fun _ _ x => .ok ⟨x, false⟩

/-- **C99** is false: whether the minimiser succeeded is not looked at, and its last point is reported.  Here the
only equation is `x = rho`, where `rho` is 5, and the steady state reported is 0. -/
theorem C99_false : ∃ p, steadyProblem intOps (fun _ => true) ["x"] scopeRho [.bin .sub (.var "x") (.var "rho")] [0] = .ok p ∧
    modelValues idleMin "dynare" p = .ok [0] ∧ leastSquares p [0] = .ok 25 ∧
    ¬ HoldsAtRest intOps ["x"] scopeRho [0] (.var "x") (.var "rho") ∧
    HoldsAtRest intOps ["x"] scopeRho [5] (.var "x") (.var "rho") := by
  have hsub : ∀ a b, intOps.bin .sub a b = .ok (a - b) := fun _ _ => rfl
  have heq : ∀ e ∈ ([.bin .sub (.var "x") (.var "rho")] : List (Expr Int)), ∃ l r, e = .bin .sub l r := by simp
  obtain ⟨p, hp⟩ : ∃ p, steadyProblem intOps (fun _ => true) ["x"] scopeRho [.bin .sub (.var "x") (.var "rho")] [0] = .ok p :=
    ⟨_, rfl⟩
  have h25 : leastSquares p [0] = .ok 25 := by cases hp; rfl
  have h0 : leastSquares p [5] = .ok 0 := by cases hp; rfl
  refine ⟨p, hp, by cases hp; rfl, h25, ?_, ?_⟩
  · intro h
    have := (C99_zero_partial hsub hp heq rfl h25).mpr (by simpa using h)
    exact absurd this (by decide)
  · exact (C99_zero_partial hsub hp heq rfl h0).mp rfl _ _ (by simp)

open Classical in
/-- a minimiser that finds a smallest point if there is one -/
noncomputable def bestMin : Minimizer Int := fun _ obj x0 =>
  if h : ∃ x : List Int, x.length = x0.length ∧ ∃ w, obj x = .ok w ∧ ∀ y v, y.length = x0.length → obj y = .ok v → w ≤ v then
    .ok ⟨h.choose, true⟩
  else .error .valueError

theorem bestMin_finds : FindsMinimum bestMin := by
  intro a obj x0 r h
  unfold bestMin at h
  split at h
  · rename_i he
    cases h
    exact he.choose_spec
  · cases h

/-- hypotheses of `C99_minimum_partial` -/
example : ∃ p ss, steadyProblem intOps (fun _ => true) ["x"] scopeRho [.bin .sub (.var "x") (.var "rho")] [0] = .ok p ∧
    modelCompute bestMin "dynare" p (.number 8) = .ok ss ∧
    ∀ l r, .bin .sub l r ∈ [(.bin .sub (.var "x") (.var "rho") : Expr Int)] → HoldsAtRest intOps ["x"] scopeRho ss l r := by
  have hsub : ∀ a b, intOps.bin .sub a b = .ok (a - b) := fun _ _ => rfl
  have heq : ∀ e ∈ ([.bin .sub (.var "x") (.var "rho")] : List (Expr Int)), ∃ l r, e = .bin .sub l r := by simp
  obtain ⟨p, hp⟩ : ∃ p, steadyProblem intOps (fun _ => true) ["x"] scopeRho [.bin .sub (.var "x") (.var "rho")] [0] = .ok p :=
    ⟨_, rfl⟩
  have hs : p.start = [0] := by cases hp; rfl
  have h0 : leastSquares p [5] = .ok 0 := by cases hp; rfl
  have he : ∃ x : List Int, x.length = p.start.length ∧ ∃ w, leastSquares p x = .ok w ∧
      ∀ y v, y.length = p.start.length → leastSquares p y = .ok v → w ≤ v :=
    ⟨[5], by rw [hs]; rfl, 0, h0, fun y v _ hv => (leastSquares_zero hv).1⟩
  have hc : modelCompute bestMin "dynare" p (.number 8) = .ok he.choose := by
    simp only [modelCompute, SteadyObj.compute, selectAlgo, dynareMapping, if_true]
    simp only [runAlgo, bestMin, dif_pos he]
    rfl
  obtain ⟨-, -, -, -, -, hsol⟩ := C99_false
  exact ⟨p, _, hp, hc, C99_minimum_partial hsub hp heq rfl bestMin_finds hc rfl h0 (by simpa using hsol)⟩

/-! ### C100: a chosen method -/

section
variable {V : Type} [Add V] [Mul V] [Zero V]

/-- the values of the last computation that returned in a list of requests -/
def lastValues (opt : Minimizer V) (lang : String) (p : SteadyProblem V) : List SteadyReq → Option (List V)
  | [] => none
  | .values :: rs => lastValues opt lang p rs
  | .compute m :: rs => match lastValues opt lang p rs with
    | some v => some v
    | none => (modelCompute opt lang p m).toOption

/-- **C100**, partial: on an object that is kept, the values are those of the last computation that returned, and those
of the default method if there was none. -/
theorem C100_kept_partial (opt : Minimizer V) (lang : String) (p : SteadyProblem V) (rs : List SteadyReq)
    (hv : ∀ r ∈ rs, ∃ m, r = .compute m) :
    ((rs.foldl (fun s r => (s.step opt lang p r).1) ({} : SteadyObj V)).values opt lang p).2 =
      match lastValues opt lang p rs with
      | some v => .ok v
      | none => modelCompute opt lang p .none := by
  have key : ∀ (rs : List SteadyReq) (s : SteadyObj V), (∀ r ∈ rs, ∃ m, r = .compute m) →
      (rs.foldl (fun s r => (s.step opt lang p r).1) s).vals = match lastValues opt lang p rs with
        | some v => some v
        | none => s.vals := by
    intro rs
    induction rs with
    | nil => intro s _; rfl
    | cons r rs ih =>
      intro s hv
      obtain ⟨m, rfl⟩ := hv r (by simp)
      rw [List.foldl_cons, ih _ fun r hr => hv r (by simp [hr])]
      simp only [lastValues]
      cases lastValues opt lang p rs with
      | some v => rfl
      | none =>
        simp only [SteadyObj.step, SteadyObj.compute, modelCompute]
        cases selectAlgo lang m with
        | error e => rfl
        | ok a =>
          cases h : runAlgo opt p a with
          | error e => simp [h, Except.toOption]
          | ok r => simp [h, Except.toOption]
  have h := key rs {} hv
  unfold SteadyObj.values
  rw [h]
  cases lastValues opt lang p rs with
  | some v => rfl
  | none =>
    simp only [SteadyObj.compute, modelCompute]
    cases selectAlgo lang .none with
    | error e => rfl
    | ok a =>
      cases h : runAlgo opt p a with
      | error e => simp [h]
      | ok r => simp [h]

end

/-- a minimiser whose two methods find different points -/
def twoMin : Minimizer Int := fun a _ _ => .ok ⟨[if a = .simplex then 5 else 4], true⟩

/-- **C100** is false: the property `ss` of a model makes another object each time it is read, so that the steady state
computed with a chosen method is not the one used afterwards. -/
theorem C100_false : ∃ p : SteadyProblem Int, modelCompute twoMin "dynare" p (.text "nelder-mead") = .ok [5] ∧
    modelValues twoMin "dynare" p = .ok [4] :=
  ⟨⟨fun _ => .ok [0], [0]⟩, by decide +kernel, by decide +kernel⟩

/-- hypotheses of `C100_kept_partial` -/
example : ((([.compute (.text "nelder-mead"), .compute (.number 4)] : List SteadyReq).foldl
    (fun s r => (SteadyObj.step twoMin "dynare" ⟨fun _ => .ok [0], [0]⟩ s r).1) ({} : SteadyObj Int)).values twoMin "dynare"
      ⟨fun _ => .ok [0], [0]⟩).2 = .ok [5] :=
  (C100_kept_partial twoMin "dynare" ⟨fun _ => .ok [0], [0]⟩ _ (by simp)).trans (by decide +kernel)

#print axioms C98_usable_partial
#print axioms C98_refused_partial
#print axioms C98_false
#print axioms C99_zero_partial
#print axioms C99_minimum_partial
#print axioms C99_false
#print axioms C100_kept_partial
#print axioms C100_false

end Pynare
