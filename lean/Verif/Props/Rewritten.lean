import Verif.Lemmas.Rewritten
import Verif.Props.WholeOrder
/-!
# C167: model files written with other equations
-/

namespace Pynare

set_option linter.unusedSectionVars false

variable {V : Type} [Field V] [LinearOrder V] [IsStrictOrderedRing V]

/-- the model made from a file with one point of rest, solved -/
theorem read_solved {SS S : Type} {φ : V →+* ℂ} {r : ReadEnv V SS S} {lib : Libs V} (hopt : FindsMinimum lib.opt)
    (hsub : ∀ a b, r.env.ops.bin .sub a b = .ok (a - b)) {text : List Char} {m : ModelFile V} (hw : WellPosed m)
    {ρ σ : String → Option V} (hσ : FileVals r.env.ops m ρ σ) {a : String → V} (hone : OneRest r.env.ops m σ a)
    {md md₁ : MState V (ModelSpace V) (Arr V × Arr V)} (h : ReadFrom (r.first lib) text m ρ md) {gy gu : Arr V}
    (hsol : md.solve (r.env.first lib) = (md₁, .ok (gy, gu))) (hc : PassesCheck φ lib.la md) :
    ∃ pss q ev, TextFacts r.env.ops lib m ρ σ md pss ∧ md.statespace.steady = (m.names "var").map a ∧
      SolvedModel φ r.env.ops r.env.okName lib.ad lib.la σ (m.names "var") (m.names "varexo")
        ((equations m.stmts).map fun p => .bin .sub p.1 p.2) md.statespace.steady md.indexes md.statespace.jacobian gy gu
        md.statespace.space q ev := by
  obtain ⟨σ₁, pss, tf⟩ := text_facts (lib := lib) rfl h
  obtain rfl : σ₁ = σ := exec_unique tf.vals.model hσ.model
  obtain ⟨s1, s2, s3, s4, s5, s6, s7⟩ := modelSpace_ok tf.space
  obtain ⟨sg, hs, -⟩ := solve_fresh tf.fresh hsol
  have hs : solveFirstOrder lib.la md.statespace.indexes md.statespace.nExog md.statespace.space = .ok (gy, gu) := hs
  rw [s1, s2] at hs
  obtain ⟨q, ev, e1, e2, e3⟩ := hc.eigen
  exact ⟨pss, q, ev, tf, tf.only hsub hopt h.params h.equations hone, read_plain h hw tf, s7, hs, hc.verified, e1, e2, e3⟩

/-- what the solution of a file says implies what that of another says, if the equations do -/
theorem solved_implied {S S' : Type} {φ : V →+* ℂ} {ops : Ops V} {okName : String → Bool} {lib lib' : Libs V}
    (ex : lib.la.Exact) (ex' : lib'.la.Exact) (had : lib.ad.Exact) (had' : lib'.ad.Exact)
    (hsub : ∀ a b, ops.bin .sub a b = .ok (a - b)) {m m' : ModelFile V} (hw : WellPosed m) (hw' : WellPosed m')
    (hpl : PlainEquations m) (hpl' : PlainEquations m') {ρ σ ρ' σ' : String → Option V}
    {md : MState V (ModelSpace V) S} {md' : MState V (ModelSpace V) S'} {pt pt' : List (List Int)}
    (tf : TextFacts ops lib m ρ σ md pt) (tf' : TextFacts ops lib' m' ρ' σ' md' pt') {a : String → V}
    (ss : md.statespace.steady = (m.names "var").map a) (ss' : md'.statespace.steady = (m'.names "var").map a)
    (hrest : ∀ l r, (l, r) ∈ equations m.stmts → GapIs ops m σ (levelsAt ((m.names "var").map a) noDev) l r 0)
    (hrest' : ∀ l r, (l, r) ∈ equations m'.stmts → GapIs ops m' σ' (levelsAt ((m'.names "var").map a) noDev) l r 0)
    {gy gu gy' gu' : Arr V} {q q' : QZ V} {ev ev' : Nat → Option ℂ}
    (hm : SolvedModel φ ops okName lib.ad lib.la σ (m.names "var") (m.names "varexo")
        ((equations m.stmts).map fun p => .bin .sub p.1 p.2) md.statespace.steady md.indexes md.statespace.jacobian gy gu
        md.statespace.space q ev)
    (hm' : SolvedModel φ ops okName lib'.ad lib'.la σ' (m'.names "var") (m'.names "varexo")
        ((equations m'.stmts).map fun p => .bin .sub p.1 p.2) md'.statespace.steady md'.indexes md'.statespace.jacobian
        gy' gu' md'.statespace.space q' ev')
    (hvar : m'.names "var" ⊆ m.names "var") (hexo : m'.names "varexo" ⊆ m.names "varexo")
    (himp : ImpliesNear ops m σ m' σ' a) (ym u y : String → V)
    (hy : FollowsPolicy md.indexes.toTyper (m.names "varexo").length gy gu (byName (m.names "var") ym)
        (byName (m.names "varexo") u) (byName (m.names "var") y)) :
    FollowsPolicy md'.indexes.toTyper (m'.names "varexo").length gy' gu' (byName (m'.names "var") ym)
        (byName (m'.names "varexo") u) (byName (m'.names "var") y) := by
  obtain ⟨hr, hn, pss, hp, hd⟩ := hm.determinate had
  obtain ⟨hr', hn', pss', hp', hd'⟩ := hm'.determinate had'
  have J := (modelSpace_ok tf.space).2.2.2.2.2.1
  have J' := (modelSpace_ok tf'.space).2.2.2.2.2.1
  rw [ss] at J
  rw [ss'] at J'
  have e := tf.toTextBase.solves_iff hsub hpl hw had J hrest
  have e' := tf'.toTextBase.solves_iff hsub hpl' hw' had' J' hrest'
  have hlt : ∀ {l l' : List String}, l' ⊆ l → ∀ i < l'.length, l.idxOf (l'[i]?.getD "") < l.length := by
    intro l l' p i hi
    rw [List.getElem?_eq_getElem hi, Option.getD_some]
    exact List.idxOf_lt_length_iff.mpr (p (List.getElem_mem hi))
  have hback : ∀ {l l' : List String} (a : String → V), l' ⊆ l → ∀ i < l'.length,
      byName l a (l.idxOf (l'[i]?.getD "")) = byName l' a i := by
    intro l l' a p i hi
    have hm : l'[i] ∈ l := p (List.getElem_mem hi)
    rw [byName_get (List.getElem?_eq_getElem hi), List.getElem?_eq_getElem hi, Option.getD_some,
      byName_get (List.getElem?_idxOf hm)]
  have key : ∀ {l : List String} (w : Nat → V), l.Nodup → ∀ c < l.length, w c = byName l (fun x => w (l.idxOf x)) c := by
    intro l w hl c hc
    rw [byName_get (List.getElem?_eq_getElem hc), hl.idxOf_getElem]
  have := policy_implies ex ex' hd hd' (fun c => (m.names "var").idxOf ((m'.names "var")[c]?.getD ""))
    (fun k => (m.names "varexo").idxOf ((m'.names "varexo")[k]?.getD ""))
    (fun c hc => by rw [hp]; exact hlt hvar c (by omega)) (fun k hk => hlt hexo k hk) (by
      intro ym y yp u heq
      have d := hm.plain.distinct
      refine (e' (named m' (fun x => ym ((m.names "var").idxOf x)) (fun x => y ((m.names "var").idxOf x))
        (fun x => yp ((m.names "var").idxOf x)) (fun x => u ((m.names "varexo").idxOf x)))).mp (himp.solves ((e _).mpr ?_))
      intro i hi
      refine Eq.trans ?_ (heq i hi)
      exact (linearised_within (fun c hc => key ym d c (by omega)) (fun c hc => key y d c (by omega))
        (fun c hc => key yp d c (by omega)) fun k hk => key u hm.plain.shocks k hk).symm) hy
  obtain ⟨hdd, -⟩ := hd'.det ex'
  exact followsPolicy_congr (groups hdd.cur).perm this (fun c hc => hback ym hvar c (by omega))
    (fun k hk => hback u hexo k hk) (fun c hc => hback y hvar c (by omega))

/-- **C167** (partial: for files as in C161, each with exactly one steady state, the same one by name, whose state spaces
pass the check and have no eigenvalue of modulus one).  If near the steady state the equations of one file imply those of
another, which may declare fewer variables and shocks, then the solution of the first implies that of the second: values
of last period, shocks and present values, all given by name, that are related by the solution of the first file are
related by that of the second. -/
theorem C167_implied_partial {SS S : Type} (φ : V →+* ℂ) (r : ReadEnv V SS S) (lib lib' : Libs V) (ex : lib.la.Exact)
    (ex' : lib'.la.Exact) (had : lib.ad.Exact) (had' : lib'.ad.Exact) (hopt : FindsMinimum lib.opt)
    (hopt' : FindsMinimum lib'.opt) (hsub : ∀ a b, r.env.ops.bin .sub a b = .ok (a - b)) {text text' : List Char}
    {m m' : ModelFile V} (hw : WellPosed m) (hw' : WellPosed m') {ρ σ ρ' σ' : String → Option V}
    (hσ : FileVals r.env.ops m ρ σ) (hσ' : FileVals r.env.ops m' ρ' σ') {a : String → V}
    (hone : OneRest r.env.ops m σ a) (hone' : OneRest r.env.ops m' σ' a)
    {md md₁ md' md₁' : MState V (ModelSpace V) (Arr V × Arr V)}
    (h : ReadFrom (r.first lib) text m ρ md) (h' : ReadFrom (r.first lib') text' m' ρ' md')
    {gy gu gy' gu' : Arr V} (hsol : md.solve (r.env.first lib) = (md₁, .ok (gy, gu)))
    (hsol' : md'.solve (r.env.first lib') = (md₁', .ok (gy', gu')))
    (hc : PassesCheck φ lib.la md) (hc' : PassesCheck φ lib'.la md')
    (hvar : m'.names "var" ⊆ m.names "var") (hexo : m'.names "varexo" ⊆ m.names "varexo")
    (himp : ImpliesNear r.env.ops m σ m' σ' a) (ym u y : String → V)
    (hy : FollowsPolicy md.indexes.toTyper (m.names "varexo").length gy gu (byName (m.names "var") ym)
        (byName (m.names "varexo") u) (byName (m.names "var") y)) :
    FollowsPolicy md'.indexes.toTyper (m'.names "varexo").length gy' gu' (byName (m'.names "var") ym)
        (byName (m'.names "varexo") u) (byName (m'.names "var") y) := by
  obtain ⟨pt, q, ev, tf, ss, hm⟩ := read_solved hopt hsub hw hσ hone h hsol hc
  obtain ⟨pt', q', ev', tf', ss', hm'⟩ := read_solved hopt' hsub hw' hσ' hone' h' hsol' hc'
  exact solved_implied ex ex' had had' hsub hw hw' h.equations h'.equations tf tf' ss ss' ((hone _ (by simp)).mpr rfl)
    ((hone' _ (by simp)).mpr rfl) hm hm' hvar hexo himp ym u y hy

/-- **C167** (partial as above).  Two files that declare the same variables and shocks, in whatever order, and whose
equations imply each other near their steady state, have the same steady state and the same solution. -/
theorem C167_rewritten_partial {SS S : Type} (φ : V →+* ℂ) (r : ReadEnv V SS S) (lib lib' : Libs V) (ex : lib.la.Exact)
    (ex' : lib'.la.Exact) (had : lib.ad.Exact) (had' : lib'.ad.Exact) (hopt : FindsMinimum lib.opt)
    (hopt' : FindsMinimum lib'.opt) (hsub : ∀ a b, r.env.ops.bin .sub a b = .ok (a - b)) {text text' : List Char}
    {m m' : ModelFile V} (hw : WellPosed m) (hw' : WellPosed m') {ρ σ ρ' σ' : String → Option V}
    (hσ : FileVals r.env.ops m ρ σ) (hσ' : FileVals r.env.ops m' ρ' σ') {a : String → V}
    (hone : OneRest r.env.ops m σ a) (hone' : OneRest r.env.ops m' σ' a)
    {md md₁ md' md₁' : MState V (ModelSpace V) (Arr V × Arr V)}
    (h : ReadFrom (r.first lib) text m ρ md) (h' : ReadFrom (r.first lib') text' m' ρ' md')
    {gy gu gy' gu' : Arr V} (hsol : md.solve (r.env.first lib) = (md₁, .ok (gy, gu)))
    (hsol' : md'.solve (r.env.first lib') = (md₁', .ok (gy', gu')))
    (hc : PassesCheck φ lib.la md) (hc' : PassesCheck φ lib'.la md')
    (hvar : ∀ x, x ∈ m'.names "var" ↔ x ∈ m.names "var") (hexo : ∀ x, x ∈ m'.names "varexo" ↔ x ∈ m.names "varexo")
    (himp : ImpliesNear r.env.ops m σ m' σ' a) (himp' : ImpliesNear r.env.ops m' σ' m σ a) :
    md.statespace.steady = (m.names "var").map a ∧ md'.statespace.steady = (m'.names "var").map a ∧
    ∀ ym u y : String → V,
      FollowsPolicy md.indexes.toTyper (m.names "varexo").length gy gu (byName (m.names "var") ym)
          (byName (m.names "varexo") u) (byName (m.names "var") y) ↔
        FollowsPolicy md'.indexes.toTyper (m'.names "varexo").length gy' gu' (byName (m'.names "var") ym)
          (byName (m'.names "varexo") u) (byName (m'.names "var") y) := by
  obtain ⟨-, -, -, -, ss, -⟩ := read_solved hopt hsub hw hσ hone h hsol hc
  obtain ⟨-, -, -, -, ss', -⟩ := read_solved hopt' hsub hw' hσ' hone' h' hsol' hc'
  exact ⟨ss, ss', fun ym u y =>
    ⟨C167_implied_partial φ r lib lib' ex ex' had had' hopt hopt' hsub hw hw' hσ hσ' hone hone' h h' hsol hsol' hc hc'
      (fun x hx => (hvar x).mp hx) (fun x hx => (hexo x).mp hx) himp ym u y,
    C167_implied_partial φ r lib' lib ex' ex had' had hopt' hopt hsub hw' hw hσ' hσ hone' hone h' h hsol' hsol hc' hc
      (fun x hx => (hvar x).mpr hx) (fun x hx => (hexo x).mpr hx) himp' ym u y⟩⟩

/-! ### exchanging the sides of equations -/

theorem SidesExchanged.symm {m m' : ModelFile V} (h : SidesExchanged m m') : SidesExchanged m' m := by
  refine ⟨h.decls.symm, h.params.symm, h.locals.symm, h.equations.flip.imp fun e e' he => ?_⟩
  rcases he with he | he
  · exact .inl he.symm
  · right
    rw [he, Prod.swap_swap]

theorem SidesExchanged.mem {m m' : ModelFile V} (h : SidesExchanged m m') {l r : Expr V}
    (hm : (l, r) ∈ Pynare.equations m'.stmts) : (l, r) ∈ Pynare.equations m.stmts ∨ (r, l) ∈ Pynare.equations m.stmts := by
  obtain ⟨i, hi⟩ := List.getElem?_of_mem hm
  have hl := h.equations.length_eq
  have hi' := (List.getElem?_eq_some_iff.mp hi)
  have hi₀ : i < (Pynare.equations m.stmts).length := by rw [hl]; exact hi'.1
  have := List.Forall₂.get h.equations (i := i) hi₀ hi'.1
  simp only [List.get_eq_getElem, hi'.2] at this
  rcases this with h1 | h1
  · exact .inl (h1 ▸ List.getElem_mem _)
  · right
    have : (r, l) = (Pynare.equations m.stmts)[i] := by rw [← Prod.swap_swap ((Pynare.equations m.stmts)[i]), ← h1]; rfl
    rw [this]
    exact List.getElem_mem _

theorem SidesExchanged.names {m m' : ModelFile V} (h : SidesExchanged m m') (k : String) : m'.names k = m.names k := by
  unfold ModelFile.names
  rw [h.decls]

theorem SidesExchanged.vals {ops : Ops V} {m m' : ModelFile V} (h : SidesExchanged m m') {ρ σ : String → Option V}
    (hv : FileVals ops m ρ σ) : FileVals ops m' ρ σ := by
  refine ⟨by rw [h.params]; exact hv.preamble, ?_⟩
  have e : m'.paramVals ρ = m.paramVals ρ := by
    funext x
    unfold ModelFile.paramVals
    rw [h.decls]
  rw [h.locals, e]
  exact hv.model

theorem SidesExchanged.posed {m m' : ModelFile V} (h : SidesExchanged m m') (hw : WellPosed m) : WellPosed m' := by
  refine ⟨fun x hx => ?_, ?_⟩
  · obtain ⟨l, r, a, b⟩ := hw.current x (by unfold ModelFile.DeclaredAs at hx; rwa [h.decls] at hx)
    rcases h.symm.mem a with h1 | h1
    · exact ⟨l, r, h1, b⟩
    · exact ⟨r, l, h1, b.symm⟩
  · rw [← h.equations.length_eq, h.names, hw.square]

theorem SidesExchanged.gap {ops : Ops V} {m m' : ModelFile V} (h : SidesExchanged m m') {σ : String → Option V}
    {L : Around V} {η : V} (hg : MetWithin ops m σ L η) : MetWithin ops m' σ L η := by
  intro l r hlr
  have side : ∀ {e : Expr V} {v : V}, SideValue ops m σ L e v → SideValue ops m' σ L e v := by
    intro e v he
    unfold SideValue at he ⊢
    rwa [h.names, h.names]
  rcases h.mem hlr with h1 | h1
  · obtain ⟨w, ⟨u, v, a, b, c⟩, hw⟩ := hg l r h1
    exact ⟨w, ⟨u, v, side a, side b, c⟩, hw⟩
  · obtain ⟨w, ⟨u, v, a, b, c⟩, hw⟩ := hg r l h1
    exact ⟨-w, ⟨v, u, side b, side a, by rw [← c, neg_sub]⟩, by rwa [abs_neg]⟩

theorem met_zero {ops : Ops V} {m : ModelFile V} {σ : String → Option V} {L : Around V} :
    MetWithin ops m σ L 0 ↔ ∀ l r, (l, r) ∈ equations m.stmts → GapIs ops m σ L l r 0 := by
  constructor
  · intro h l r hlr
    obtain ⟨w, g, hw⟩ := h l r hlr
    obtain rfl : w = 0 := abs_nonpos_iff.mp hw
    exact g
  · intro h l r hlr
    exact ⟨0, h l r hlr, by simp⟩

theorem SidesExchanged.rest {ops : Ops V} {m m' : ModelFile V} (h : SidesExchanged m m') {σ : String → Option V}
    {a : String → V} (h1 : OneRest ops m σ a) : OneRest ops m' σ a := by
  intro ys hl
  rw [h.names] at hl ⊢
  rw [← h1 ys hl, ← met_zero, ← met_zero]
  exact ⟨h.symm.gap, h.gap⟩

theorem SidesExchanged.implies {ops : Ops V} {m m' : ModelFile V} (h : SidesExchanged m m') (σ : String → Option V)
    (a : String → V) : ImpliesNear ops m σ m' σ a := by
  refine ⟨1, 1, one_pos, fun ym y yp u _ _ η hg => ?_⟩
  have : named m' ym y yp u = named m ym y yp u := by
    unfold named
    rw [h.names, h.names]
  rw [this, one_mul]
  exact h.gap hg

/-- **C167** (partial as above).  Exchanging the two sides of some equations of a file changes neither the steady state
nor the solution. -/
theorem C167_exchanged_partial {SS S : Type} (φ : V →+* ℂ) (r : ReadEnv V SS S) (lib lib' : Libs V) (ex : lib.la.Exact)
    (ex' : lib'.la.Exact) (had : lib.ad.Exact) (had' : lib'.ad.Exact) (hopt : FindsMinimum lib.opt)
    (hopt' : FindsMinimum lib'.opt) (hsub : ∀ a b, r.env.ops.bin .sub a b = .ok (a - b)) {text text' : List Char}
    {m m' : ModelFile V} (hex : SidesExchanged m m') (hw : WellPosed m) {ρ σ : String → Option V}
    (hσ : FileVals r.env.ops m ρ σ) {a : String → V} (hone : OneRest r.env.ops m σ a)
    {md md₁ md' md₁' : MState V (ModelSpace V) (Arr V × Arr V)}
    (h : ReadFrom (r.first lib) text m ρ md) (h' : ReadFrom (r.first lib') text' m' ρ md')
    {gy gu gy' gu' : Arr V} (hsol : md.solve (r.env.first lib) = (md₁, .ok (gy, gu)))
    (hsol' : md'.solve (r.env.first lib') = (md₁', .ok (gy', gu')))
    (hc : PassesCheck φ lib.la md) (hc' : PassesCheck φ lib'.la md') :
    md'.statespace.steady = md.statespace.steady ∧
    ∀ ym u y : String → V,
      FollowsPolicy md.indexes.toTyper (m.names "varexo").length gy gu (byName (m.names "var") ym)
          (byName (m.names "varexo") u) (byName (m.names "var") y) ↔
        FollowsPolicy md'.indexes.toTyper (m.names "varexo").length gy' gu' (byName (m.names "var") ym)
          (byName (m.names "varexo") u) (byName (m.names "var") y) := by
  obtain ⟨s1, s2, hp⟩ := C167_rewritten_partial φ r lib lib' ex ex' had had' hopt hopt' hsub hw (hex.posed hw) hσ (hex.vals hσ)
    hone (hex.rest hone) h h' hsol hsol' hc hc' (fun x => by rw [hex.names]) (fun x => by rw [hex.names])
    (hex.implies σ a) (hex.symm.implies σ a)
  rw [hex.names] at s2
  rw [hex.names, hex.names] at hp
  exact ⟨by rw [s1, s2], hp⟩

#print axioms C167_implied_partial
#print axioms C167_rewritten_partial
#print axioms C167_exchanged_partial

end Pynare
