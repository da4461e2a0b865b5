import Verif.Spec.ScaledBlock
import Verif.Props.Sigma
import Verif.Props.Reading
import Verif.Props.Certainty
import Verif.Props.ShockSize
import Verif.Props.Mixture
/-!
# C185: larger standard deviations in the shocks block of a model file
-/

namespace Pynare

set_option linter.unusedSectionVars false

variable {V SS S : Type} [Field V] [LinearOrder V] [IsStrictOrderedRing V] {ops : Ops V} {sq : V → Except Err V} {sqrt : V → V}
  {ρ : String → Option V} {names : List String} {ss ss' : List (Shock V)} {k : V}

/-- what the covariance matrix of a shocks block is -/
def MatrixOf (ops : Ops V) (sq : V → Except Err V) (sqrt : V → V) (ρ : String → Option V) (names : List String)
    (ss : List (Shock V)) (sig : Sig V) : Prop :=
  (∀ (i : Nat) x v, names[i]? = some x → VarOf ops sq ρ ss x v → sig i i = v) ∧
  (∀ (i j : Nat) x y e c vx vy, names[i]? = some x → names[j]? = some y → Shock.corr x y e ∈ ss → Evals ops ρ e c →
    VarOf ops sq ρ ss x vx → VarOf ops sq ρ ss y vy → sig i j = sqrt (vx * vy) * c ∧ sig j i = sqrt (vx * vy) * c) ∧
  (∀ (i j : Nat) x y e c, names[i]? = some x → names[j]? = some y → Shock.cov x y e ∈ ss → Evals ops ρ e c →
    sig i j = c ∧ sig j i = c) ∧
  (∀ (i j : Nat) x y, i ≠ j → names[i]? = some x → names[j]? = some y → (∀ s ∈ ss, ¬ s.isPair x y ∧ ¬ s.isPair y x) →
    sig i j = 0)

theorem root_times (hk : 0 < k) {v w : V} (h : RootAt sqrt (v * w)) (h' : RootAt sqrt (k * k * v * (k * k * w))) :
    sqrt (k * k * v * (k * k * w)) = k * k * sqrt (v * w) := by
  refine (mul_self_inj h'.1 (mul_nonneg (mul_pos hk hk).le h.1)).mp ?_
  rw [h'.2, show k * k * sqrt (v * w) * (k * k * sqrt (v * w)) = k * k * (k * k) * (sqrt (v * w) * sqrt (v * w)) by ring, h.2]
  ring

theorem matrix_times (hk : 0 < k) (hb : BlockTimes ops sq ρ k names ss ss') (hr : RootsOfBlock ops sq sqrt ρ k ss)
    {sig sig' : Sig V} (h : MatrixOf ops sq sqrt ρ names ss sig) (h' : MatrixOf ops sq sqrt ρ names ss' sig') :
    ∀ i < names.length, ∀ j < names.length, sig' i j = k * k * sig i j := by
  intro i hi j hj
  obtain ⟨a1, a2, a3, a4⟩ := h
  obtain ⟨b1, b2, b3, b4⟩ := h'
  have gi := List.getElem?_eq_getElem hi
  have gj := List.getElem?_eq_getElem hj
  generalize names[i] = x at gi
  generalize names[j] = y at gj
  by_cases hij : i = j
  · subst hij
    obtain ⟨v, v1, v2⟩ := hb.variances x (List.mem_of_getElem? gi)
    rw [a1 i x v gi v1, b1 i x _ gi v2]
  -- a statement about the two
  have key : ∀ {i j : Nat} {x y : String}, names[i]? = some x → names[j]? = some y → (∃ s ∈ ss, s.isPair x y) →
      sig' i j = k * k * sig i j ∧ sig' j i = k * k * sig j i := by
    rintro i j x y gi gj ⟨s, hs, hp⟩
    obtain ⟨v, v1, v2⟩ := hb.variances x (List.mem_of_getElem? gi)
    obtain ⟨w, w1, w2⟩ := hb.variances y (List.mem_of_getElem? gj)
    cases s with
    | corr p q e =>
      obtain ⟨rfl, rfl⟩ := hp
      obtain ⟨c, e', hc, hs', hc'⟩ := hb.correlations _ _ _ hs
      obtain ⟨r1, r2⟩ := hr _ _ _ hs v w v1 w1
      obtain ⟨m1, m2⟩ := a2 i j _ _ e c v w gi gj hs hc v1 w1
      obtain ⟨n1, n2⟩ := b2 i j _ _ e' c _ _ gi gj hs' hc' v2 w2
      rw [m1, m2, n1, n2, root_times hk r1 r2]
      constructor <;> ring
    | cov p q e =>
      obtain ⟨rfl, rfl⟩ := hp
      obtain ⟨c, e', hc, hs', hc'⟩ := hb.covariances _ _ _ hs
      obtain ⟨m1, m2⟩ := a3 i j _ _ e c gi gj hs hc
      obtain ⟨n1, n2⟩ := b3 i j _ _ e' _ gi gj hs' hc'
      rw [m1, m2, n1, n2]
      exact ⟨rfl, rfl⟩
    | variance p e => exact absurd hp id
    | stderr p e => exact absurd hp id
    | det p a b => exact absurd hp id
  by_cases h1 : ∃ s ∈ ss, s.isPair x y
  · exact (key gi gj h1).1
  by_cases h2 : ∃ s ∈ ss, s.isPair y x
  · exact (key gj gi h2).2
  rw [a4 i j x y hij gi gj (fun s hs => ⟨fun hp => h1 ⟨s, hs, hp⟩, fun hp => h2 ⟨s, hs, hp⟩⟩),
    b4 i j x y hij gi gj (fun s hs => ⟨fun hp => h1 (hb.others s hs x y hp), fun hp => h2 (hb.others s hs y x hp)⟩), mul_zero]

/-- **C185, covariance matrix** (partial: plain blocks only, as in C24).  With standard deviations `k` times as large in the
shocks block, every entry of the covariance matrix is `k * k` times as large. -/
theorem C185_matrix_partial {d d' : Dict (ShockDict V)} (h : facShocks ops sq ρ [] ss = .ok d)
    (h' : facShocks ops sq ρ [] ss' = .ok d') (hp : PlainShocks names ss) (hp' : PlainShocks names ss')
    (hval : ∀ s ∈ ss, ∀ x, s.isVarOf x → ∃ v, SetsVar ops sq ρ s x v)
    (hval' : ∀ s ∈ ss', ∀ x, s.isVarOf x → ∃ v, SetsVar ops sq ρ s x v) (hk : 0 < k)
    (hb : BlockTimes ops sq ρ k names ss ss') (hr : RootsOfBlock ops sq sqrt ρ k ss) :
    ∃ sig sig', defineSigma sqrt (createStochs d names) = .ok sig ∧ defineSigma sqrt (createStochs d' names) = .ok sig' ∧
      ∀ i < names.length, ∀ j < names.length, sig' i j = k * k * sig i j := by
  obtain ⟨sig, e, a⟩ := C24_covariance_partial (sqrt := sqrt) h hp hval
  obtain ⟨sig', e', a'⟩ := C24_covariance_partial (sqrt := sqrt) h' hp' hval'
  exact ⟨sig, sig', e, e', matrix_times hk hb hr a a'⟩

/-- **C185, model files** (partial: plain blocks only, as in C24).  Two model files that differ in their shocks blocks only,
with standard deviations `k` times as large in the second.  Their first-order solutions are the same, the covariance matrix
of the second model is `k * k` times that of the first, and impulse responses are `k` times as large. -/
theorem C185_impulse_partial (r : ReadEnv V SS S) (lib : Libs V) (ok : CharOk r.cfg) {m m' : ModelFile V}
    (hd : DifferInShocks m m') {us us' : List (Tok V)} {text text' : List Char} (hf : FileOf r.pc us m)
    (hf' : FileOf r.pc us' m') (hw : Written r.cfg us text []) (hw' : Written r.cfg us' text' [])
    {lang lang' name name' : String} {md md₁ md' md₁' : MState V (ModelSpace V) (Arr V × Arr V)}
    (h : fromText (r.first lib) lang name text = .ok md) (h' : fromText (r.first lib) lang' name' text' = .ok md')
    {gy gu gy' gu' : Arr V} (hs : md.solve (r.env.first lib) = (md₁, .ok (gy, gu)))
    (hs' : md'.solve (r.env.first lib) = (md₁', .ok (gy', gu'))) (hρ : Exec r.env.ops noValues m.params ρ) {b b' : Shocks V}
    (hb : m.actions.shocks = some b) (hb' : m'.actions.shocks = some b') (hp : PlainShocks (m.names "varexo") b.shocks)
    (hp' : PlainShocks (m.names "varexo") b'.shocks)
    (hval : ∀ s ∈ b.shocks, ∀ x, s.isVarOf x → ∃ v, SetsVar r.env.ops r.sq ρ s x v)
    (hval' : ∀ s ∈ b'.shocks, ∀ x, s.isVarOf x → ∃ v, SetsVar r.env.ops r.sq ρ s x v) (hk : 0 < k)
    (ht : BlockTimes r.env.ops r.sq ρ k (m.names "varexo") b.shocks b'.shocks)
    (hr : RootsOfBlock r.env.ops r.sq r.env.sqrt ρ k b.shocks) :
    gy' = gy ∧ gu' = gu ∧ md'.indexes = md.indexes ∧ md'.statespace = md.statespace ∧
    ∃ sg sg' : Sig V, (md.readSigma (r.env.first lib)).2 = .ok sg ∧ (md'.readSigma (r.env.first lib)).2 = .ok sg' ∧
      (∀ n, n = (m.names "varexo").length → Arr.Times (k * k) ⟨n, n, sg⟩ ⟨n, n, sg'⟩ ∧
        ∀ (chol : Chol V) (half : V) (exog : ImpulseArg) (periods : Nat) (size : V) (p p' : Arr V), CholUpper chol →
          impulseNamed chol half md.indexes.toTyper (.first gy gu) md.statespace.steady ⟨n, n, sg⟩ (m.names "varexo") exog periods
            size = .ok p →
          impulseNamed chol half md'.indexes.toTyper (.first gy' gu') md'.statespace.steady ⟨n, n, sg'⟩ (m.names "varexo") exog
            periods size = .ok p' → p.Times k p') := by
  obtain ⟨-, -, -, -, hi, -, -, hsp⟩ := C181_space (r := r.first lib) ok hd hf hf' hw hw' h h'
  obtain ⟨rfl, rfl⟩ := C181_first_order r lib ok hd hf hf' hw hw' h h' hs hs'
  have hn : m'.names "varexo" = m.names "varexo" := by
    unfold ModelFile.names
    rw [hd.decls]
  obtain ⟨sg, e, a⟩ := C118_shocks_partial (r := r.first lib) ok hf hw h hρ hb hp hval
  obtain ⟨sg', e', a'⟩ := C118_shocks_partial (r := r.first lib) (ρ := ρ) ok hf' hw' h' (by rw [hd.params]; exact hρ) hb'
    (by rw [hn]; exact hp') hval'
  rw [hn] at a'
  refine ⟨rfl, rfl, hi, hsp, sg, sg', congrArg Prod.snd e, congrArg Prod.snd e', ?_⟩
  rintro n rfl
  have times : Arr.Times (k * k) ⟨(m.names "varexo").length, (m.names "varexo").length, sg⟩
      ⟨(m.names "varexo").length, (m.names "varexo").length, sg'⟩ :=
    ⟨rfl, rfl, fun i hi j hj => matrix_times (names := m.names "varexo") (ops := r.env.ops) (sq := r.sq) (sqrt := r.env.sqrt)
      hk ht hr a a' i hi j hj⟩
  refine ⟨times, fun chol half exog periods size p p' hch g g' => ?_⟩
  rw [hi, hsp] at g'
  exact C184_impulse hch hk times g g'

/-- **C185, covariances** (partial as above).  If the states return to the steady state without shocks, the covariances of
the variables of the second model are `k * k` times those of the first. -/
theorem C185_covariances_partial (r : ReadEnv V SS S) (lib : Libs V) (ok : CharOk r.cfg) {m m' : ModelFile V}
    (hd : DifferInShocks m m') {us us' : List (Tok V)} {text text' : List Char} (hf : FileOf r.pc us m)
    (hf' : FileOf r.pc us' m') (hw : Written r.cfg us text []) (hw' : Written r.cfg us' text' [])
    {lang lang' name name' : String} {md md₁ md' md₁' : MState V (ModelSpace V) (Arr V × Arr V)}
    (h : fromText (r.first lib) lang name text = .ok md) (h' : fromText (r.first lib) lang' name' text' = .ok md')
    {gy gu gy' gu' : Arr V} (hs : md.solve (r.env.first lib) = (md₁, .ok (gy, gu)))
    (hs' : md'.solve (r.env.first lib) = (md₁', .ok (gy', gu'))) (hρ : Exec r.env.ops noValues m.params ρ) {b b' : Shocks V}
    (hb : m.actions.shocks = some b) (hb' : m'.actions.shocks = some b') (hp : PlainShocks (m.names "varexo") b.shocks)
    (hp' : PlainShocks (m.names "varexo") b'.shocks)
    (hval : ∀ s ∈ b.shocks, ∀ x, s.isVarOf x → ∃ v, SetsVar r.env.ops r.sq ρ s x v)
    (hval' : ∀ s ∈ b'.shocks, ∀ x, s.isVarOf x → ∃ v, SetsVar r.env.ops r.sq ρ s x v) (hk : 0 < k)
    (ht : BlockTimes r.env.ops r.sq ρ k (m.names "varexo") b.shocks b'.shocks)
    (hr : RootsOfBlock r.env.ops r.sq r.env.sqrt ρ k b.shocks) {lyap : Lyap V} (ly : LyapExact lyap)
    (sh : SolutionShape md.indexes.toTyper gy gu) (hst : Stable (stateRows md.indexes.toTyper gy)) {sg sg' : Sig V}
    (hsg : (md.readSigma (r.env.first lib)).2 = .ok sg) (hsg' : (md'.readSigma (r.env.first lib)).2 = .ok sg') {n : Nat}
    (hn : n = (m.names "varexo").length) {C C' : Arr V}
    (hC : covArr lib.la lyap md.indexes.toTyper md.statespace.space gy gu ⟨n, n, sg⟩ = .ok C)
    (hC' : covArr lib.la lyap md'.indexes.toTyper md'.statespace.space gy' gu' ⟨n, n, sg'⟩ = .ok C') : C.Times (k * k) C' := by
  obtain ⟨rfl, rfl, hi, hsp, s, s', e, e', hall⟩ := C185_impulse_partial r lib ok hd hf hf' hw hw' h h' hs hs' hρ hb hb' hp hp' hval
    hval' hk ht hr
  obtain rfl := Except.ok.inj (hsg.symm.trans e)
  obtain rfl := Except.ok.inj (hsg'.symm.trans e')
  rw [hi, hsp] at hC'
  exact C182_multiplied ly sh hst (hall n hn).1 hC hC'

#print axioms C185_matrix_partial
#print axioms C185_impulse_partial
#print axioms C185_covariances_partial

end Pynare
