import Verif.Lemmas.RiskSums
import Verif.Spec.RiskSums
import Verif.Props.Certainty
/-!
# C188: the correction for risk and the covariances of the shocks
-/

namespace Pynare

set_option linter.unusedSectionVars false

variable {V SS S : Type}

/-- the last step of two second-order solutions of one system -/
theorem second_last [Field V] [DecidableEq V] {la : LinAlg V} {qz : Arr V → Arr V → Except Err (GQZ V)} {half : V}
    {t : Typer} {n : Nat} {J H : Arr V} {sigma : Arr V} {gy gu : Nd V} {q : SecondNd V}
    (h : solveSecondOrder la qz half t n J H sigma gy gu = .ok q) :
    ∀ (sigma' : Arr V) (q' : SecondNd V), solveSecondOrder la qz half t n J H sigma' gy gu = .ok q' →
      solveDel2 la half t (t.drAll n).length gy gu q.ghuu sigma' J H = .ok q'.del2 := by
  intro sigma' q' h'
  unfold solveSecondOrder at h h'
  obtain ⟨order, k1, h⟩ := Except.bind_eq_ok h
  obtain ⟨hess, k2, h⟩ := Except.bind_eq_ok h
  obtain ⟨⟨A, C, D⟩, k3, h⟩ := Except.bind_eq_ok h
  dsimp only at h
  obtain ⟨zx, k4, h⟩ := Except.bind_eq_ok h
  obtain ⟨zu, k5, h⟩ := Except.bind_eq_ok h
  obtain ⟨ghxx, k6, h⟩ := Except.bind_eq_ok h
  obtain ⟨ghxu, k7, h⟩ := Except.bind_eq_ok h
  obtain ⟨ghuu, k8, h⟩ := Except.bind_eq_ok h
  obtain ⟨del, k9, h⟩ := Except.bind_eq_ok h
  obtain rfl := Except.ok.inj h
  simp only [k1, k2, k3, k4, k5, k6, k7, k8, exc_bind] at h'
  obtain ⟨del', k9', h'⟩ := Except.bind_eq_ok h'
  obtain rfl := Except.ok.inj h'
  exact k9'

/-- three second-order solutions for one first-order solution -/
theorem secondArrays_mix [Field V] [DecidableEq V] {la : LinAlg V} {qz : Arr V → Arr V → Except Err (GQZ V)} {half : V}
    {t : Typer} {n : Nat} {J H : Arr V} {sg sg' sg'' : Sig V} {gy gu : Nd V} {q q' q'' : SecondNd V} (ex : la.Exact)
    (p3 : solveSecondOrder la qz half t n J H ⟨n, n, sg⟩ gy gu = .ok q)
    (p3' : solveSecondOrder la qz half t n J H ⟨n, n, sg'⟩ gy gu = .ok q')
    (p3'' : solveSecondOrder la qz half t n J H ⟨n, n, sg''⟩ gy gu = .ok q'') {a b : V}
    (hk : ∀ i < n, ∀ j < n, sg'' i j = a * sg i j + b * sg' i j) :
    Arr.Mix a b q.del2.to2 q'.del2.to2 q''.del2.to2 := by
  have hl := second_last p3
  have hm : Arr.Mix a b (⟨n, n, sg⟩ : Arr V) ⟨n, n, sg'⟩ ⟨n, n, sg''⟩ := ⟨rfl, rfl, rfl, rfl, hk⟩
  have h1 := hl _ _ p3
  have h2 := hl _ _ p3'
  have h3 := hl _ _ p3''
  have hn := solveDel2_mix ex hm h1 h2 h3
  exact hn.to2

variable [Field V] [LinearOrder V] [IsStrictOrderedRing V]

/-- three second-order solutions of one state space -/
theorem secondSolution_mix {lib : Libs V} (ex : lib.la.Exact) {half : V} {sp : ModelSpace V} {sg sg' sg'' : Sig V}
    {gy gu gy' gu' gy'' gu'' : Arr V} {so so' so'' : SecondNd V}
    (a1 : secondSolution lib half sp sg = .ok ((gy, gu), so))
    (b1 : secondSolution lib half sp sg' = .ok ((gy', gu'), so'))
    (c1 : secondSolution lib half sp sg'' = .ok ((gy'', gu''), so'')) {a b : V}
    (hk : ∀ i < sp.nExog, ∀ j < sp.nExog, sg'' i j = a * sg i j + b * sg' i j) :
    Arr.Mix a b so.del2.to2 so'.del2.to2 so''.del2.to2 := by
  unfold secondSolution at a1 b1 c1
  obtain ⟨⟨y, u⟩, p1, a1⟩ := Except.bind_eq_ok a1
  obtain ⟨H, p2, a1⟩ := Except.bind_eq_ok a1
  obtain ⟨q, p3, a1⟩ := Except.bind_eq_ok a1
  simp only [p1, p2, exc_bind] at b1 c1
  obtain ⟨q', p3', b1⟩ := Except.bind_eq_ok b1
  obtain ⟨q'', p3'', c1⟩ := Except.bind_eq_ok c1
  simp only [Except.ok.injEq, Prod.mk.injEq] at a1 b1 c1
  obtain ⟨-, rfl⟩ := a1
  obtain ⟨-, rfl⟩ := b1
  obtain ⟨-, rfl⟩ := c1
  exact secondArrays_mix ex p3 p3' p3'' hk

theorem SolvedToSecond.parts {r : ReadEnv V SS S} {lib : Libs V} {half : V} (ok : CharOk r.cfg) {m : ModelFile V}
    {md : MState V (ModelSpace V) ((Arr V × Arr V) × SecondNd V)} {gy gu : Arr V} {so : SecondNd V} {sg : Sig V}
    (h : SolvedToSecond r lib half m md gy gu so sg) :
    secondSolution lib half md.statespace sg = .ok ((gy, gu), so) ∧ md.statespace.nExog = md.stoch.length := by
  obtain ⟨⟨us, text, lang, name, hf, hw, h1⟩, ⟨md₁, h2⟩, h3⟩ := h
  obtain ⟨s, a1, a2⟩ := text_solution (r := r.second lib half) ok hf hw h1 h2
  obtain rfl : s = sg := Except.ok.inj (a2.symm.trans h3)
  refine ⟨a1, ?_⟩
  obtain ⟨-, o, d1, d2⟩ := fromText_inv (r := r.second lib half) ok hf hw h1
  obtain ⟨-, _, _, _, _, _, _, _, _, _, hb⟩ := fromOutline_inv d2
  exact (modelSpace_ok (lib := lib) (create_fresh hb).1.space).2.1

theorem SolvedToSecond.space {r : ReadEnv V SS S} {lib : Libs V} {half : V} (ok : CharOk r.cfg) {m m' : ModelFile V}
    (hd : DifferInShocks m m') {md md' : MState V (ModelSpace V) ((Arr V × Arr V) × SecondNd V)} {gy gu gy' gu' : Arr V}
    {so so' : SecondNd V} {sg sg' : Sig V} (h : SolvedToSecond r lib half m md gy gu so sg)
    (h' : SolvedToSecond r lib half m' md' gy' gu' so' sg') : md'.statespace = md.statespace := by
  obtain ⟨us, text, lang, name, hf, hw, h1⟩ := h.read
  obtain ⟨us', text', lang', name', hf', hw', h1'⟩ := h'.read
  exact (C181_space (r := r.second lib half) ok hd hf hf' hw hw' h1 h1').2.2.2.2.2.2.2

/-- **C188, sums**.  Three model files differ in their shocks blocks only, and each covariance of the third is `a` times that of
the first plus `b` times that of the second.  Then the same holds of their corrections for risk. -/
theorem C188_sums (r : ReadEnv V SS S) (lib : Libs V) (half : V) (ok : CharOk r.cfg) (ex : lib.la.Exact)
    {m m' m'' : ModelFile V} (hd : DifferInShocks m m') (hd' : DifferInShocks m m'')
    {md md' md'' : MState V (ModelSpace V) ((Arr V × Arr V) × SecondNd V)} {gy gu gy' gu' gy'' gu'' : Arr V}
    {so so' so'' : SecondNd V} {sg sg' sg'' : Sig V} (h : SolvedToSecond r lib half m md gy gu so sg)
    (h' : SolvedToSecond r lib half m' md' gy' gu' so' sg') (h'' : SolvedToSecond r lib half m'' md'' gy'' gu'' so'' sg'')
    {a b : V} (hk : ∀ i < md.stoch.length, ∀ j < md.stoch.length, sg'' i j = a * sg i j + b * sg' i j) :
    Arr.Mix a b so.del2.to2 so'.del2.to2 so''.del2.to2 := by
  obtain ⟨p, hx⟩ := h.parts ok
  obtain ⟨p', -⟩ := h'.parts ok
  obtain ⟨p'', -⟩ := h''.parts ok
  rw [h.space ok hd h'] at p'
  rw [h.space ok hd' h''] at p''
  rw [← hx] at hk
  exact secondSolution_mix ex p p' p'' hk

/-- **C188, no risk**.  A model whose shocks have no variances and covariances has no correction for risk. -/
theorem C188_none (r : ReadEnv V SS S) (lib : Libs V) (half : V) (ok : CharOk r.cfg) (ex : lib.la.Exact)
    {m : ModelFile V} {md : MState V (ModelSpace V) ((Arr V × Arr V) × SecondNd V)} {gy gu : Arr V} {so : SecondNd V}
    {sg : Sig V} (h : SolvedToSecond r lib half m md gy gu so sg)
    (hz : ∀ i < md.stoch.length, ∀ j < md.stoch.length, sg i j = 0) :
    ∀ i < so.del2.to2.r, ∀ j < so.del2.to2.c, so.del2.to2.e i j = 0 := by
  obtain ⟨p, hx⟩ := h.parts ok
  rw [← hx] at hz
  obtain ⟨-, -, -, -, e⟩ := secondSolution_mix ex p p p (a := 0) (b := 0) (fun i hi j hj => by rw [hz i hi j hj]; ring)
  intro i hi j hj
  rw [e i hi j hj]
  ring

#print axioms C188_sums
#print axioms C188_none

end Pynare
