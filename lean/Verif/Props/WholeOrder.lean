import Verif.Spec.WholeOrder
import Verif.Props.Whole
import Verif.Props.Order
/-!
# C161: model files written in another order
-/

namespace Pynare

set_option linter.unusedSectionVars false

variable {V : Type} [Field V] [LinearOrder V] [IsStrictOrderedRing V]

theorem Reordered.names {m m' : ModelFile V} (h : Reordered m m') (k : String) : (m'.names k).Perm (m.names k) :=
  (h.decls.filter _).map _

theorem Reordered.declared {m m' : ModelFile V} (h : Reordered m m') {x k : String} :
    m'.DeclaredAs x k ↔ m.DeclaredAs x k := h.decls.mem_iff

theorem Reordered.posed {m m' : ModelFile V} (h : Reordered m m') (hw : WellPosed m) : WellPosed m' := by
  refine ⟨fun x hx => ?_, ?_⟩
  · obtain ⟨l, r, a, b⟩ := hw.current x (h.declared.mp hx)
    exact ⟨l, r, h.equations.mem_iff.mpr a, b⟩
  · rw [h.equations.length_eq, (h.names "var").length_eq, hw.square]

/-- the values of the names are the same -/
theorem Reordered.vals {ops : Ops V} {m m' : ModelFile V} (h : Reordered m m') {ρ σ ρ' σ' : String → Option V}
    (h1 : FileVals ops m ρ σ) (h2 : FileVals ops m' ρ' σ') : σ' = σ := by
  have a := h2.preamble
  rw [h.params] at a
  obtain rfl := exec_unique a h1.preamble
  have b := h2.model
  rw [h.locals] at b
  have : m'.paramVals ρ' = m.paramVals ρ' := by
    funext x
    unfold ModelFile.paramVals
    exact if_congr (h.decls.mem_iff (a := (x, "parameters"))) rfl rfl
  rw [this] at b
  exact exec_unique b h1.model

/-- the value of a side does not depend on the order -/
theorem side_reordered {ops : Ops V} {m m' : ModelFile V} (h : Reordered m m') {σ : String → Option V} {ys ys' : List V}
    (hy : SameByName (m.names "var") (m'.names "var") (vecEntry ys) (vecEntry ys')) {e : Expr V} {v : V}
    (hv : SideValue ops m σ (levelsAt ys noDev) e v) : SideValue ops m' σ (levelsAt ys' noDev) e v := by
  have other : ∀ k (c : Nat) x, (m.names k)[c]? = some x → ∃ c' : Nat, (m'.names k)[c']? = some x := by
    intro k c x hc
    have := (h.names k).mem_iff.mpr (List.mem_of_getElem? hc)
    obtain ⟨c', h1, h2⟩ := List.getElem_of_mem this
    exact ⟨c', by rw [List.getElem?_eq_getElem h1, h2]⟩
  refine hv.congr ?_ ?_
  · intro x _ v hv
    cases hv with
    | param h => exact .param h
    | @endog c h0 hc =>
      obtain ⟨c', hc'⟩ := other _ c x hc
      have := NameNow.endog (exo := m'.names "varexo") (L := levelsAt ys' noDev) h0 hc'
      simp only [levelsAt, noDev, ← hy c c' x hc hc'] at this ⊢
      exact this
    | @shock j h0 hc =>
      obtain ⟨c', hc'⟩ := other _ j x hc
      exact NameNow.shock (endo := m'.names "var") (L := levelsAt ys' noDev) (j := c') h0 hc'
  · intro x o _ v hv
    cases hv with
    | @before c hc =>
      obtain ⟨c', hc'⟩ := other _ c x hc
      have := NameAt.before (L := levelsAt ys' noDev) hc'
      simp only [levelsAt, noDev, ← hy c c' x hc hc'] at this ⊢
      exact this
    | @after c hc =>
      obtain ⟨c', hc'⟩ := other _ c x hc
      have := NameAt.after (L := levelsAt ys' noDev) hc'
      simp only [levelsAt, noDev, ← hy c c' x hc hc'] at this ⊢
      exact this

theorem Reordered.symm {m m' : ModelFile V} (h : Reordered m m') : Reordered m' m :=
  ⟨h.decls.symm, h.params.symm, h.locals.symm, h.equations.symm⟩

/-- values given by name -/
theorem same_map (a : String → V) (ns ns' : List String) :
    SameByName ns ns' (vecEntry (ns.map a)) (vecEntry (ns'.map a)) := by
  intro i i' x h h'
  simp [vecEntry, h, h']

/-- a list with as many entries as names gives each name a number -/
theorem exists_byName {ns : List String} (hd : ns.Nodup) {ys : List V} (hl : ys.length = ns.length) :
    ∃ b : String → V, ys = ns.map b := by
  refine ⟨fun x => vecEntry ys (ns.idxOf x), List.ext_getElem (by simp [hl]) fun k h1 h2 => ?_⟩
  have hk : k < ns.length := by omega
  rw [List.getElem_map, hd.idxOf_getElem k hk]
  simp [vecEntry, h1]

/-- both files have the same rest points -/
theorem OneRest.reordered {ops : Ops V} {m m' : ModelFile V} (h : Reordered m m') {σ : String → Option V} {a : String → V}
    (hn : (m'.names "var").Nodup) (h1 : OneRest ops m σ a) : OneRest ops m' σ a := by
  have gaps : ∀ {m m' : ModelFile V}, Reordered m m' → ∀ {b : String → V},
      (∀ l r, (l, r) ∈ equations m.stmts → GapIs ops m σ (levelsAt ((m.names "var").map b) noDev) l r 0) →
      ∀ l r, (l, r) ∈ equations m'.stmts → GapIs ops m' σ (levelsAt ((m'.names "var").map b) noDev) l r 0 := by
    intro m m' h b hg l r hlr
    obtain ⟨u, v, hu, hv, huv⟩ := hg l r (h.equations.mem_iff.mp hlr)
    exact ⟨u, v, side_reordered h (same_map _ _ _) hu, side_reordered h (same_map _ _ _) hv, huv⟩
  intro ys hl
  obtain ⟨b, rfl⟩ := exists_byName hn hl
  constructor
  · intro hg
    have := (h1 ((m.names "var").map b) (by simp)).mp (gaps h.symm hg)
    refine List.map_congr_left fun x hx => ?_
    exact (List.map_inj_left.mp this) x ((h.names "var").mem_iff.mp hx)
  · intro hb
    rw [hb]
    exact gaps h ((h1 ((m.names "var").map a) (by simp)).mpr rfl)

/-- the steady state found is the only one -/
theorem TextFacts.only {S : Type} {ops : Ops V} (hsub : ∀ a b, ops.bin .sub a b = .ok (a - b)) {lib : Libs V}
    (hopt : FindsMinimum lib.opt) {m : ModelFile V} {ρ σ : String → Option V} {md : MState V (ModelSpace V) S}
    {pss : List (List Int)} (h : TextFacts ops lib m ρ σ md pss) (hp : PlainParams m) (he : PlainEquations m)
    {a : String → V} (h1 : OneRest ops m σ a) : md.statespace.steady = (m.names "var").map a := by
  have hf := h.found hsub hopt hp he (ys := (m.names "var").map a) (by simp) ((h1 _ (by simp)).mpr rfl)
  obtain ⟨-, -, -, s4, s5, -⟩ := modelSpace_ok h.space
  exact (h1 _ (by rw [s4, (buildLlx_spec h.table).1, h.len])).mp fun l r hlr => (hf l r hlr 0).mpr rfl

/-- a model made from a text is one of those that C149 is about -/
theorem read_plain {lib : Libs V} {S' : Type} {re : ReadEnv V (ModelSpace V) S'}
    {text : List Char} {m : ModelFile V} {ρ σ : String → Option V} {md : MState V (ModelSpace V) S'}
    {pss : List (List Int)} (h : ReadFrom re text m ρ md) (hw : WellPosed m) (tf : TextFacts re.env.ops lib m ρ σ md pss) :
    JacobianOf re.env.ops re.env.okName lib.ad σ (m.names "var") (m.names "varexo")
      ((equations m.stmts).map fun p => .bin .sub p.1 p.2) md.statespace.steady md.indexes md.statespace.jacobian := by
  obtain ⟨us, hf, hwr⟩ := h.file
  obtain ⟨lang, name, hm⟩ := h.made
  obtain ⟨hfr, ha, hx, hc⟩ := text_fresh h.chars hf hwr hm h.values
  obtain ⟨s1, s2, s3, s4, s5, s6, s7⟩ := modelSpace_ok tf.space
  have he := h.equations
  obtain ⟨n1, n2, n3⟩ := List.nodup_append.mp (names_nodup tf.acc)
  have occ : ∀ {x q l rr}, (l, rr) ∈ equations m.stmts → OccursAt x q (.bin .sub l rr) →
      (q = 0 ∧ (x ∈ l.vars ∨ x ∈ rr.vars)) ∨ ((x, q) ∈ l.pvars ∨ (x, q) ∈ rr.pvars) := by
    intro x q l rr _ ho
    rcases ho with ⟨a, b⟩ | b
    · exact .inl ⟨a, by simpa [Expr.vars] using b⟩
    · exact .inr (by simpa [Expr.pvars] using b)
  refine ⟨⟨n1, n2, by rw [List.length_map, hw.square], ?_, ?_, ?_, ?_, ?_, ?_⟩, ?_, md.dynamic, ?_, s6⟩
  · intro e hm
    obtain ⟨⟨l, rr⟩, -, rfl⟩ := List.mem_map.mp hm
    exact ⟨l, rr, rfl⟩
  · rw [hx] at hc
    exact hc
  · intro x hm
    obtain ⟨l, rr, a, b⟩ := hw.current x (mem_names.mp hm)
    exact ⟨_, List.mem_map.mpr ⟨_, a, rfl⟩, .inl ⟨rfl, by simpa [Expr.vars] using b⟩⟩
  · intro x _ q e hm ho
    obtain ⟨⟨l, rr⟩, hlr, rfl⟩ := List.mem_map.mp hm
    rcases occ hlr ho with ⟨a, -⟩ | a
    · exact .inr (.inl a)
    · rcases (he.pvars l rr hlr x q a).2 with h | h
      · exact .inl h
      · exact .inr (.inr h)
  · intro e hm x hxe
    obtain ⟨⟨l, rr⟩, hlr, rfl⟩ := List.mem_map.mp hm
    rcases he.vars l rr hlr x (by simpa [Expr.vars] using hxe) with h1 | h1 | h1 | h1
    · exact .inr (.inl (mem_names.mpr h1))
    · exact .inr (.inr (mem_names.mpr h1))
    · refine .inl (exec_defined tf.vals.model x (.inl ?_))
      unfold ModelFile.paramVals
      rw [if_pos (show (x, "parameters") ∈ m.decls from h1)]
      exact exec_defined tf.vals.preamble x (.inr (h.params.all x h1))
    · exact .inl (exec_defined tf.vals.model x (.inr h1))
  · intro e hm x o hxo
    obtain ⟨⟨l, rr⟩, hlr, rfl⟩ := List.mem_map.mp hm
    obtain ⟨a, b⟩ := he.pvars l rr hlr x o (by simpa [Expr.pvars] using hxo)
    exact ⟨mem_names.mpr a, b⟩
  · have := hfr.indexes
    rwa [tf.rep.endog, hx] at this
  · have := hfr.dynamic
    rwa [tf.rep.endog, tf.rep.stoch, tf.rep.scope, hx] at this

/-- **C161** (partial: for files as in C159 that have exactly one steady state, whose state spaces pass the check and have
no eigenvalue of modulus one).  Two model files that declare the same names and have the same equations, in different
order, give the same model: with exact libraries both report the same steady state, the solutions list the same
variables and state variables, the response of every variable to every state variable and to every shock is the same
number, and values of last period, shocks and present values, all given by name, are related by one solution if and only
if they are by the other. -/
theorem C161_reordered_partial {SS S : Type} (φ : V →+* ℂ) (r : ReadEnv V SS S) (lib lib' : Libs V) (ex : lib.la.Exact)
    (ex' : lib'.la.Exact) (had : lib.ad.Exact) (had' : lib'.ad.Exact) (hopt : FindsMinimum lib.opt)
    (hopt' : FindsMinimum lib'.opt) (hsub : ∀ a b, r.env.ops.bin .sub a b = .ok (a - b)) {text text' : List Char}
    {m m' : ModelFile V} (hre : Reordered m m') (hw : WellPosed m) {ρ σ ρ' : String → Option V}
    (hσ : FileVals r.env.ops m ρ σ) {a : String → V} (hone : OneRest r.env.ops m σ a)
    {md md₁ md' md₁' : MState V (ModelSpace V) (Arr V × Arr V)}
    (h : ReadFrom (r.first lib) text m ρ md) (h' : ReadFrom (r.first lib') text' m' ρ' md')
    {gy gu gy' gu' : Arr V} (hsol : md.solve (r.env.first lib) = (md₁, .ok (gy, gu)))
    (hsol' : md'.solve (r.env.first lib') = (md₁', .ok (gy', gu')))
    (hc : PassesCheck φ lib.la md) (hc' : PassesCheck φ lib'.la md') :
    md.statespace.steady = (m.names "var").map a ∧ md'.statespace.steady = (m'.names "var").map a ∧
    (ruleNames md'.indexes.toTyper (m'.names "var")).Perm (ruleNames md.indexes.toTyper (m.names "var")) ∧
    (stateNames md'.indexes.toTyper (m'.names "var")).Perm (stateNames md.indexes.toTyper (m.names "var")) ∧
    (∀ (i i' : Nat) x, (ruleNames md.indexes.toTyper (m.names "var"))[i]? = some x →
      (ruleNames md'.indexes.toTyper (m'.names "var"))[i']? = some x →
      SameByName (stateNames md.indexes.toTyper (m.names "var")) (stateNames md'.indexes.toTyper (m'.names "var"))
        (gy.e i) (gy'.e i') ∧
      SameByName (m.names "varexo") (m'.names "varexo") (gu.e i) (gu'.e i')) ∧
    ∀ ym u y : String → V,
      FollowsPolicy md.indexes.toTyper (m.names "varexo").length gy gu (byName (m.names "var") ym)
          (byName (m.names "varexo") u) (byName (m.names "var") y) ↔
        FollowsPolicy md'.indexes.toTyper (m'.names "varexo").length gy' gu' (byName (m'.names "var") ym)
          (byName (m'.names "varexo") u) (byName (m'.names "var") y) := by
  obtain ⟨σ₁, pss, tf⟩ := text_facts (lib := lib) rfl h
  obtain ⟨σ₂, pss', tf'⟩ := text_facts (lib := lib') rfl h'
  obtain rfl : σ₁ = σ := exec_unique tf.vals.model hσ.model
  obtain rfl : σ₂ = σ₁ := hre.vals tf.vals tf'.vals
  have hn' := (List.nodup_append.mp (names_nodup tf'.acc)).1
  have ss := tf.only hsub hopt h.params h.equations hone
  have ss' := tf'.only hsub hopt' h'.params h'.equations (hone.reordered hre hn')
  have solved : ∀ {lib : Libs V} {text : List Char} {m : ModelFile V} {ρ σ : String → Option V}
      {md md₁ : MState V (ModelSpace V) (Arr V × Arr V)} {gy gu : Arr V} {pss : List (List Int)},
      ReadFrom (r.first lib) text m ρ md → WellPosed m → TextFacts r.env.ops lib m ρ σ md pss →
      md.solve (r.env.first lib) = (md₁, .ok (gy, gu)) → PassesCheck φ lib.la md →
      ∃ q ev, SolvedModel φ r.env.ops r.env.okName lib.ad lib.la σ (m.names "var") (m.names "varexo")
        ((equations m.stmts).map fun p => .bin .sub p.1 p.2) md.statespace.steady md.indexes md.statespace.jacobian gy gu
        md.statespace.space q ev := by
    intro lib text m ρ σ md md₁ gy gu pss h hw tf hsol hc
    obtain ⟨s1, s2, s3, s4, s5, s6, s7⟩ := modelSpace_ok tf.space
    obtain ⟨sg, hs, -⟩ := solve_fresh tf.fresh hsol
    have hs : solveFirstOrder lib.la md.statespace.indexes md.statespace.nExog md.statespace.space = .ok (gy, gu) := hs
    rw [s1, s2] at hs
    obtain ⟨q, ev, e1, e2, e3⟩ := hc.eigen
    exact ⟨q, ev, read_plain h hw tf, s7, hs, hc.verified, e1, e2, e3⟩
  obtain ⟨q, ev, hm⟩ := solved h hw tf hsol hc
  obtain ⟨q', ev', hm'⟩ := solved h' (hre.posed hw) tf' hsol' hc'
  have hss : SameByName (m.names "var") (m'.names "var") (vecEntry md.statespace.steady) (vecEntry md'.statespace.steady) := by
    rw [ss, ss']
    exact same_map _ _ _
  have pq := hre.equations.map fun p : Expr V × Expr V => Expr.bin .sub p.1 p.2
  obtain ⟨c1, c2, c3⟩ := C149_coefficients_partial φ r.env.ops r.env.okName r.env.okName lib.ad lib'.ad had had' lib.la lib'.la ex ex'
    _ _ _ _ _ _ _ _ _ _ _ _ _ _ _ _ _ _ _ _ _ _ _ hm hm' (hre.names _) (hre.names _) pq hss
  exact ⟨ss, ss', c1, c2, c3, C149_policy_partial φ r.env.ops r.env.okName r.env.okName lib.ad lib'.ad had had' lib.la lib'.la
    ex ex' _ _ _ _ _ _ _ _ _ _ _ _ _ _ _ _ _ _ _ _ _ _ _ hm hm' (hre.names _) (hre.names _) pq hss⟩

#print axioms C161_reordered_partial

end Pynare
