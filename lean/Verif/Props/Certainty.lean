import Verif.Lemmas.Certainty
import Verif.Props.Whole
/-!
# C181: the shocks block and the solution
-/

namespace Pynare

set_option linter.unusedSectionVars false

variable {V SS S : Type}

/-- **C181, model**.  Two model files that differ in their shocks blocks only, and that can both be read, give models with
the same endogenous variables, names of shocks, parameters, equations and state space (steady state, jacobian and arrays
of the linear system included). -/
theorem C181_space [Zero V] [One V] {r : ReadEnv V SS S} (ok : CharOk r.cfg) {m m' : ModelFile V}
    (hd : DifferInShocks m m') {us us' : List (Tok V)} {text text' : List Char} (hf : FileOf r.pc us m)
    (hf' : FileOf r.pc us' m') (hw : Written r.cfg us text []) (hw' : Written r.cfg us' text' [])
    {lang lang' name name' : String} {md md' : MState V SS S} (h : fromText r lang name text = .ok md)
    (h' : fromText r lang' name' text' = .ok md') :
    md'.endog = md.endog ∧ md'.stochNames = md.stochNames ∧ md'.params = md.params ∧ md'.locals = md.locals ∧
      md'.indexes = md.indexes ∧ md'.steady = md.steady ∧ md'.dynamic = md.dynamic ∧ md'.statespace = md.statespace := by
  obtain ⟨-, o, a1, a2⟩ := fromText_inv ok hf hw h
  obtain ⟨-, o', b1, b2⟩ := fromText_inv ok hf' hw' h'
  obtain ⟨d, rfl⟩ := outline_differ hd a1 b1
  exact built_differ a2 b2

/-- two second-order solutions for one first-order solution -/
theorem secondArrays_shocks [Field V] [DecidableEq V] {la : LinAlg V} {qz : Arr V → Arr V → Except Err (GQZ V)} {half : V}
    {t : Typer} {n : Nat} {J H : Arr V} {sg sg' : Sig V} {gy gu : Nd V} {q q' : SecondNd V}
    (p3 : solveSecondOrder la qz half t n J H ⟨n, n, sg⟩ gy gu = .ok q)
    (p3' : solveSecondOrder la qz half t n J H ⟨n, n, sg'⟩ gy gu = .ok q') :
    q'.ghxx = q.ghxx ∧ q'.ghxu = q.ghxu ∧ q'.ghuu = q.ghuu ∧
      (la.Exact → ∀ k : V, (∀ i < n, ∀ j < n, sg' i j = k * sg i j) → q.del2.to2.Times k q'.del2.to2) := by
  unfold solveSecondOrder at p3 p3'
  obtain ⟨order, k1, p3⟩ := Except.bind_eq_ok p3
  obtain ⟨hess, k2, p3⟩ := Except.bind_eq_ok p3
  obtain ⟨⟨A, C, D⟩, k3, p3⟩ := Except.bind_eq_ok p3
  dsimp only at p3
  obtain ⟨zx, k4, p3⟩ := Except.bind_eq_ok p3
  obtain ⟨zu, k5, p3⟩ := Except.bind_eq_ok p3
  obtain ⟨ghxx, k6, p3⟩ := Except.bind_eq_ok p3
  obtain ⟨ghxu, k7, p3⟩ := Except.bind_eq_ok p3
  obtain ⟨ghuu, k8, p3⟩ := Except.bind_eq_ok p3
  obtain ⟨order', k1', p3'⟩ := Except.bind_eq_ok p3'
  obtain rfl := Except.ok.inj (k1.symm.trans k1')
  obtain ⟨hess', k2', p3'⟩ := Except.bind_eq_ok p3'
  obtain rfl := Except.ok.inj (k2.symm.trans k2')
  obtain ⟨⟨A', C', D'⟩, k3', p3'⟩ := Except.bind_eq_ok p3'
  obtain ⟨⟩ := Except.ok.inj (k3.symm.trans k3')
  dsimp only at p3'
  obtain ⟨zx', k4', p3'⟩ := Except.bind_eq_ok p3'
  obtain rfl := Except.ok.inj (k4.symm.trans k4')
  obtain ⟨zu', k5', p3'⟩ := Except.bind_eq_ok p3'
  obtain rfl := Except.ok.inj (k5.symm.trans k5')
  obtain ⟨ghxx', k6', p3'⟩ := Except.bind_eq_ok p3'
  obtain rfl := Except.ok.inj (k6.symm.trans k6')
  obtain ⟨ghxu', k7', p3'⟩ := Except.bind_eq_ok p3'
  obtain rfl := Except.ok.inj (k7.symm.trans k7')
  obtain ⟨ghuu', k8', p3'⟩ := Except.bind_eq_ok p3'
  obtain rfl := Except.ok.inj (k8.symm.trans k8')
  obtain ⟨del, k9, p3⟩ := Except.bind_eq_ok p3
  obtain ⟨del', k9', p3'⟩ := Except.bind_eq_ok p3'
  obtain rfl := Except.ok.inj p3
  obtain rfl := Except.ok.inj p3'
  refine ⟨rfl, rfl, rfl, fun ex k hk => ?_⟩
  have ht : (⟨n, n, sg⟩ : Arr V).Times k ⟨n, n, sg'⟩ := ⟨rfl, rfl, hk⟩
  have hn := solveDel2_times ex ht k9 k9'
  exact hn.to2

/-- two second-order solutions of one state space -/
theorem secondSolution_shocks [Field V] [LinearOrder V] [IsStrictOrderedRing V] {lib : Libs V} {half : V}
    {sp : ModelSpace V} {sg sg' : Sig V} {gy gu gy' gu' : Arr V} {so so' : SecondNd V}
    (a1 : secondSolution lib half sp sg = .ok ((gy, gu), so))
    (b1 : secondSolution lib half sp sg' = .ok ((gy', gu'), so')) :
    gy' = gy ∧ gu' = gu ∧ so'.ghxx = so.ghxx ∧ so'.ghxu = so.ghxu ∧ so'.ghuu = so.ghuu ∧
      (lib.la.Exact → ∀ k : V, (∀ i < sp.nExog, ∀ j < sp.nExog, sg' i j = k * sg i j) →
        so.del2.to2.Times k so'.del2.to2) := by
  unfold secondSolution at a1 b1
  obtain ⟨⟨y, u⟩, p1, a1⟩ := Except.bind_eq_ok a1
  obtain ⟨H, p2, a1⟩ := Except.bind_eq_ok a1
  obtain ⟨q, p3, a1⟩ := Except.bind_eq_ok a1
  simp only [p1, p2, exc_bind] at b1
  obtain ⟨q', p3', b1⟩ := Except.bind_eq_ok b1
  simp only [Except.ok.injEq, Prod.mk.injEq] at a1 b1
  obtain ⟨⟨rfl, rfl⟩, rfl⟩ := a1
  obtain ⟨⟨rfl, rfl⟩, rfl⟩ := b1
  obtain ⟨c1, c2, c3, c4⟩ := secondArrays_shocks p3 p3'
  refine ⟨rfl, rfl, ?_, c2, ?_, c4⟩
  · show q'.ghxx.map _ = _
    rw [c1]
    rfl
  · show q'.ghuu.map _ = _
    rw [c3]
    rfl

variable [Field V] [LinearOrder V] [IsStrictOrderedRing V]

theorem text_solution {r : ReadEnv V SS S} (ok : CharOk r.cfg) {m : ModelFile V} {us : List (Tok V)} {text : List Char}
    (hf : FileOf r.pc us m) (hw : Written r.cfg us text []) {lang name : String} {md md₁ : MState V SS S} {s : S}
    (h : fromText r lang name text = .ok md) (hs : md.solve r.env = (md₁, .ok s)) :
    ∃ sg, r.env.mkSol md.statespace sg = .ok s ∧ (md.readSigma r.env).2 = .ok sg := by
  obtain ⟨-, o, a1, a2⟩ := fromText_inv ok hf hw h
  obtain ⟨-, _, _, _, _, _, _, _, _, _, hb⟩ := fromOutline_inv a2
  exact solve_fresh (create_fresh hb).2.1 hs

/-- **C181, first order**.  Two model files that differ in their shocks blocks only have the same first-order solution
(certainty equivalence). -/
theorem C181_first_order (r : ReadEnv V SS S) (lib : Libs V) (ok : CharOk r.cfg) {m m' : ModelFile V}
    (hd : DifferInShocks m m') {us us' : List (Tok V)} {text text' : List Char} (hf : FileOf r.pc us m)
    (hf' : FileOf r.pc us' m') (hw : Written r.cfg us text []) (hw' : Written r.cfg us' text' [])
    {lang lang' name name' : String} {md md₁ md' md₁' : MState V (ModelSpace V) (Arr V × Arr V)}
    (h : fromText (r.first lib) lang name text = .ok md) (h' : fromText (r.first lib) lang' name' text' = .ok md')
    {gy gu gy' gu' : Arr V} (hs : md.solve (r.env.first lib) = (md₁, .ok (gy, gu)))
    (hs' : md'.solve (r.env.first lib) = (md₁', .ok (gy', gu'))) : gy' = gy ∧ gu' = gu := by
  obtain ⟨-, -, -, -, -, -, -, hsp⟩ := C181_space (r := r.first lib) ok hd hf hf' hw hw' h h'
  obtain ⟨sg, a1, -⟩ := text_solution (r := r.first lib) ok hf hw h hs
  obtain ⟨sg', b1, -⟩ := text_solution (r := r.first lib) ok hf' hw' h' hs'
  rw [hsp] at b1
  have a1 : firstSolution lib md.statespace sg = .ok (gy, gu) := a1
  have b1 : firstSolution lib md.statespace sg' = .ok (gy', gu') := b1
  simp only [firstSolution] at a1 b1
  rw [a1] at b1
  cases b1
  exact ⟨rfl, rfl⟩

/-- **C181, second order**.  Two model files that differ in their shocks blocks only have second-order solutions with the
same arrays, but for the correction for risk.  If all covariances in the second are `k` times those in the first, its
correction for risk is `k` times that of the first. -/
theorem C181_second_order (r : ReadEnv V SS S) (lib : Libs V) (half : V) (ok : CharOk r.cfg) {m m' : ModelFile V}
    (hd : DifferInShocks m m') {us us' : List (Tok V)} {text text' : List Char} (hf : FileOf r.pc us m)
    (hf' : FileOf r.pc us' m') (hw : Written r.cfg us text []) (hw' : Written r.cfg us' text' [])
    {lang lang' name name' : String} {md md₁ md' md₁' : MState V (ModelSpace V) ((Arr V × Arr V) × SecondNd V)}
    (h : fromText (r.second lib half) lang name text = .ok md)
    (h' : fromText (r.second lib half) lang' name' text' = .ok md')
    {gy gu gy' gu' : Arr V} {so so' : SecondNd V}
    (hs : md.solve (r.env.second lib half) = (md₁, .ok ((gy, gu), so)))
    (hs' : md'.solve (r.env.second lib half) = (md₁', .ok ((gy', gu'), so'))) :
    gy' = gy ∧ gu' = gu ∧ so'.ghxx = so.ghxx ∧ so'.ghxu = so.ghxu ∧ so'.ghuu = so.ghuu ∧
      (lib.la.Exact → ∀ (k : V) (sg sg' : Sig V), (md.readSigma (r.env.second lib half)).2 = .ok sg →
        (md'.readSigma (r.env.second lib half)).2 = .ok sg' →
        (∀ i < md.stoch.length, ∀ j < md.stoch.length, sg' i j = k * sg i j) →
        so.del2.to2.Times k so'.del2.to2) := by
  obtain ⟨-, hn, -, -, -, -, -, hsp⟩ := C181_space (r := r.second lib half) ok hd hf hf' hw hw' h h'
  obtain ⟨sg, a1, a2⟩ := text_solution (r := r.second lib half) ok hf hw h hs
  obtain ⟨sg', b1, b2⟩ := text_solution (r := r.second lib half) ok hf' hw' h' hs'
  rw [hsp] at b1
  have a1 : secondSolution lib half md.statespace sg = .ok ((gy, gu), so) := a1
  have b1 : secondSolution lib half md.statespace sg' = .ok ((gy', gu'), so') := b1
  have hx : md.statespace.nExog = md.stoch.length := by
    obtain ⟨-, o, d1, d2⟩ := fromText_inv (r := r.second lib half) ok hf hw h
    obtain ⟨-, _, _, _, _, _, _, _, _, _, hb⟩ := fromOutline_inv d2
    exact (modelSpace_ok (lib := lib) (create_fresh hb).1.space).2.1
  obtain ⟨c1, c2, c3, c4, c5, c6⟩ := secondSolution_shocks a1 b1
  refine ⟨c1, c2, c3, c4, c5, fun ex k s s' e1 e2 hk => ?_⟩
  obtain rfl : sg = s := Except.ok.inj (a2.symm.trans e1)
  obtain rfl : sg' = s' := Except.ok.inj (b2.symm.trans e2)
  rw [← hx] at hk
  exact c6 ex k hk

#print axioms C181_space
#print axioms C181_first_order
#print axioms C181_second_order

end Pynare
