import Verif.Spec.Start
import Verif.Props.Whole
/-!
# C179: the values in the `initval` block are where the search for the steady state starts
-/

namespace Pynare

set_option linter.unusedSectionVars false

variable {V : Type} [Field V] [LinearOrder V] [IsStrictOrderedRing V]

theorem foldl_sum (gs : List V) : ∀ a : V, gs.foldl (· + ·) a = a + gs.sum := by
  induction gs with
  | nil => intro a; simp
  | cons g gs ih => intro a; simp [ih, add_assoc]

/-- a variable that has a terminal and no initial value -/
theorem no_initial {SS S : Type} {r : ReadEnv V SS S} {text : List Char} {m : ModelFile V} {ρ : String → Option V}
    {md : MState V SS S} (h : ReadFrom r text m ρ md) {x : String} {v : V} (hn : NoInitial m x)
    (ht : GivenTerminal r.env.ops m ρ x v) : ∀ en ∈ md.endog, en.name = x → en.initial = none := by
  obtain ⟨us, hf, hw⟩ := h.file
  obtain ⟨lang, name, hm⟩ := h.made
  obtain ⟨_, o, h1, h2⟩ := fromText_inv h.chars hf hw hm
  obtain ⟨hiv, htv, -⟩ := C23_initial_terminal_partial h1 h.values
  obtain ⟨_, ls, ps, params, locals, -, -, -, -, -, h6⟩ := fromOutline_inv h2
  simp only [MState.build, Except.bind_ok_iff, Except.ok.injEq] at h6
  obtain ⟨ll, g1, steady, g2, sto, g3, det, g4, idx, g5, dyn, g6, ss, g7, rfl⟩ := h6
  intro en hen hx
  obtain ⟨y, _, rfl⟩ := List.mem_map.mp hen
  rw [(Endog.create_name _ _ _ _ _).1] at hx; subst hx
  obtain ⟨pre, e, post, t1, t2, t3⟩ := ht
  have a := dropNone_some (htv.2 pre y e post t1 t2 v t3)
  have b : (dropNone o.initial).get? y = none := dropNone_none ((Dict.get?_eq_none_iff _ _).mpr fun hm => by
    obtain ⟨e, h⟩ := (hiv.1 y).mp hm; exact hn e h)
  simp only [outlineArgs, a, b, Endog.create]

/-- the objective of the search -/
theorem squared_gaps {SS S : Type} {ops : Ops V} (hsub : ∀ a b, ops.bin .sub a b = .ok (a - b)) {m : ModelFile V}
    {ρ σ : String → Option V} {md : MState V SS S} {pss : List (List Int)} (h : TextBase ops m ρ σ md pss)
    (hp : PlainParams m) (he : PlainEquations m) (st : List V) {ys : List V} (hy : ys.length = (m.names "var").length) (w : V) :
    leastSquares ⟨callAll md.steady, st⟩ ys = .ok w ↔ SquaredGaps ops m σ ys w := by
  have key : ∀ gs, callAll md.steady ys = .ok gs ↔
      List.Forall₂ (fun p g => GapIs ops m σ (levelsAt ys noDev) p.1 p.2 g) (equations m.stmts) gs := by
    intro gs
    rw [List.forall₂_iff_get]
    constructor
    · intro hc
      obtain ⟨c1, c2⟩ := callAll_get hc
      refine ⟨by rw [c1, h.rep.steadyLength], fun i h1 h2 => ?_⟩
      have hf := List.getElem?_eq_getElem (l := md.steady) (i := i) (by rw [h.rep.steadyLength]; exact h1)
      obtain ⟨v, d1, d2⟩ := c2 i _ hf
      have hlr : (equations m.stmts)[i]? = some ((equations m.stmts)[i].1, (equations m.stmts)[i].2) :=
        List.getElem?_eq_getElem h1
      have := (h.rest hsub hp he hlr hf hy v).mp d2
      rw [List.getElem?_eq_getElem h2] at d1
      simp only [List.get_eq_getElem, Option.some.inj d1]
      exact this
    · rintro ⟨hl, hg⟩
      obtain ⟨vs, c1, c2, c3⟩ := callAll_of (fs := md.steady) (vec := ys) (Q := fun i v => gs[i]? = some v) fun i f hf => by
        have h1 : i < (equations m.stmts).length := by
          rw [← h.rep.steadyLength]; exact (List.getElem?_eq_some_iff.mp hf).1
        have hlr : (equations m.stmts)[i]? = some ((equations m.stmts)[i].1, (equations m.stmts)[i].2) :=
          List.getElem?_eq_getElem h1
        exact ⟨gs[i], (h.rest hsub hp he hlr hf hy _).mpr (hg i h1 (by omega)), List.getElem?_eq_getElem _⟩
      have e : vs = gs := by
        refine List.ext_getElem (by rw [c2, h.rep.steadyLength, hl]) fun i h1 h2 => ?_
        have := c3 i _ (List.getElem?_eq_getElem h1)
        rw [List.getElem?_eq_getElem h2] at this
        exact (Option.some.inj this).symm
      rw [c1, e]
  constructor
  · intro hw
    unfold leastSquares at hw
    obtain ⟨gs, h1, h2⟩ := Except.bind_eq_ok hw
    refine ⟨gs, (key gs).mp h1, ?_⟩
    rw [← Except.ok.inj h2, foldl_sum, zero_add]
  · rintro ⟨gs, h1, rfl⟩
    have := (key gs).mpr h1
    show (callAll md.steady ys).bind _ = _
    rw [this]
    show Except.ok _ = _
    rw [foldl_sum, zero_add]

/-- **C179.**  A model that was read from a file has the steady state at which the minimiser stopped.  It was given the sum
of the squares of left minus right of the equations at rest, and as starting values those of the `initval` block, zero for
variables of which no boundary block says anything, and not-a-number for those that have a terminal value only. -/
theorem C179_start {SS S : Type} (r : ReadEnv V SS S) (lib : Libs V) (hsub : ∀ a b, r.env.ops.bin .sub a b = .ok (a - b))
    {text : List Char} {m : ModelFile V} {ρ σ : String → Option V} (hσ : FileVals r.env.ops m ρ σ)
    {md : MState V (ModelSpace V) (Arr V × Arr V)} (h : ReadFrom (r.first lib) text m ρ md) :
    ∃ f st res, lib.opt .gradient f st = .ok res ∧ md.statespace.steady = res.x ∧
      st.length = (m.names "var").length ∧
      (∀ (i : Nat) x, (m.names "var")[i]? = some x →
        (∀ v, GivenInitial r.env.ops m ρ x v → st[i]? = some v) ∧ (NoBounds m x → st[i]? = some 0) ∧
        (∀ v, NoInitial m x → GivenTerminal r.env.ops m ρ x v → st[i]? = some lib.nan)) ∧
      ∀ ys : List V, ys.length = (m.names "var").length → ∀ w, f ys = .ok w ↔ SquaredGaps r.env.ops m σ ys w := by
  obtain ⟨σ', pss, tf⟩ := text_facts (r := r.first lib) (lib := lib) rfl h
  obtain rfl : σ' = σ := exec_unique tf.vals.model hσ.model
  obtain ⟨-, -, -, -, s5, -, -⟩ := modelSpace_ok tf.space
  obtain ⟨a, res, ha, hr, hx⟩ : ∃ a res, selectAlgo "dynare" .none = .ok a ∧
      runAlgo lib.opt ⟨callAll md.steady, startValues lib.nan md.endog⟩ a = .ok res ∧ res.x = md.statespace.steady := by
    unfold modelValues SteadyObj.values SteadyObj.compute at s5
    simp only at s5
    split at s5
    · cases s5
    · rename_i a ha
      split at s5
      · cases s5
      · rename_i res hr
        exact ⟨a, res, ha, hr, Except.ok.inj s5⟩
  obtain rfl : a = .gradient := (Except.ok.inj ha).symm
  have hn := tf.rep.endog
  refine ⟨_, _, res, hr, hx.symm, ?_, fun i x hi => ?_, fun ys hy w => squared_gaps hsub tf.toTextBase h.params h.equations _ hy w⟩
  · show (startValues lib.nan md.endog).length = _
    rw [← hn]; simp [startValues, MState.endogNames]
  · rw [← hn, MState.endogNames, List.getElem?_map, Option.map_eq_some_iff] at hi
    obtain ⟨en, hen, hex⟩ := hi
    have hmem := List.mem_of_getElem? hen
    have hst : (startValues lib.nan md.endog)[i]? = some (en.initial.getD lib.nan) := by
      simp [startValues, hen]
    refine ⟨?_, ?_, ?_⟩
    · rintro v ⟨pre, e, post, h1, h2, h3⟩
      show (startValues lib.nan md.endog)[i]? = _
      rw [hst, tf.rep.initial pre x e post h1 h2 v h3 en hmem hex]
      rfl
    · rintro ⟨h1, h2, h3⟩
      subst hex
      show (startValues lib.nan md.endog)[i]? = _
      rw [hst, tf.rep.initialZero en hmem h1 h2 h3]
      rfl
    · intro v h1 h2
      show (startValues lib.nan md.endog)[i]? = _
      rw [hst, no_initial h h1 h2 en hmem hex]
      rfl

/-- **C179.**  If the equations hold at rest at the values of the `initval` block (zero for variables of which no boundary
block says anything), and the minimiser stays where the objective is zero, then these values are the steady state, whether
or not there are others. -/
theorem C179_kept {SS S : Type} (r : ReadEnv V SS S) (lib : Libs V) (hsub : ∀ a b, r.env.ops.bin .sub a b = .ok (a - b))
    (hopt : StaysAtZero lib.opt)
    {text : List Char} {m : ModelFile V} {ρ σ : String → Option V} (hσ : FileVals r.env.ops m ρ σ)
    {md : MState V (ModelSpace V) (Arr V × Arr V)} (h : ReadFrom (r.first lib) text m ρ md) (a : String → V)
    (ha : ∀ x ∈ m.names "var", GivenInitial r.env.ops m ρ x (a x) ∨ NoBounds m x ∧ a x = 0)
    (hrest : ∀ l r', (l, r') ∈ equations m.stmts →
      GapIs r.env.ops m σ (levelsAt ((m.names "var").map a) noDev) l r' 0) :
    md.statespace.steady = (m.names "var").map a := by
  obtain ⟨f, st, res, h1, h2, h3, h4, h5⟩ := C179_start r lib hsub hσ h
  have hst : st = (m.names "var").map a := by
    refine List.ext_getElem (by rw [h3, List.length_map]) fun i g1 g2 => ?_
    have hi : i < (m.names "var").length := by omega
    obtain ⟨k1, k2, -⟩ := h4 i _ (List.getElem?_eq_getElem hi)
    have : st[i]? = some (a (m.names "var")[i]) := by
      rcases ha _ (List.getElem_mem hi) with g | ⟨g, e⟩
      · exact k1 _ g
      · rw [k2 g, e]
    rw [List.getElem?_eq_getElem g1] at this
    rw [Option.some.inj this, List.getElem_map]
  have h0 : f st = .ok 0 := by
    rw [h5 st h3, hst]
    refine ⟨(equations m.stmts).map fun _ => 0, ?_, by simp⟩
    rw [List.forall₂_map_right_iff, List.forall₂_same]
    exact fun p hp => hrest p.1 p.2 hp
  obtain ⟨b, hb⟩ := hopt f st h0 fun y w hy hw => by
    obtain ⟨gs, -, rfl⟩ := (h5 y (by omega) w).mp hw
    exact List.sum_nonneg fun z hz => by
      obtain ⟨g, -, rfl⟩ := List.mem_map.mp hz
      exact mul_self_nonneg g
  rw [h1] at hb
  rw [h2, Except.ok.inj hb, hst]

#print axioms C179_start
#print axioms C179_kept

end Pynare
