import Verif.Props.Restated
/-!
# C178: simulations and impulse responses of model files written in other variables
-/

namespace Pynare

set_option linter.unusedSectionVars false

variable {V : Type} [Field V] [LinearOrder V] [IsStrictOrderedRing V]

/-- simulations of solutions of which one implies the other after multiplication -/
theorem restated_paths {φ φ' : V →+* ℂ} {la la' : LinAlg V} (ex : la.Exact) (ex' : la'.Exact) {t t' : Llx} {n n' : Nat}
    {J gy gu J' gy' gu' : Arr V} {s s' : Space V} {q q' : QZ V} {ev ev' : Nat → Option ℂ}
    (h : Det φ la t n J gy gu s q ev) (h' : Det φ' la' t' n' J' gy' gu' s' q' ev') {endo exo endo' exo' : List String}
    (hd : endo.Nodup) (hdx : exo.Nodup) (hd' : endo'.Nodup) (hl : endo.length = t.n) (hl' : endo'.length = t'.n) (hx : exo.length = n)
    (hx' : exo'.length = n') (hv : endo' ⊆ endo) (he : exo' ⊆ exo) {k j : String → V}
    (key : ∀ ym u y : String → V, FollowsPolicy t.toTyper n gy gu (byName endo ym) (byName exo u) (byName endo y) →
      FollowsPolicy t'.toTyper n' gy' gu' (byName endo' fun x => k x * ym x) (byName exo' fun x => j x * u x)
        (byName endo' fun x => k x * y x))
    {ss ss' init init' : List V} {shocks shocks' p p' : Arr V} (hc : shocks.c = n) (hc' : shocks'.c = n')
    (hr : shocks.r = shocks'.r) (hp : simulateFirst t.toTyper gy gu ss shocks init = .ok p)
    (hp' : simulateFirst t'.toTyper gy' gu' ss' shocks' init' = .ok p')
    (h0 : ScaledByName k endo endo' (dev ss p 0) (dev ss' p' 0))
    (hs : ∀ i, ScaledByName j exo exo' (shocks.e i) (shocks'.e i)) :
    p.r = shocks.r ∧ p'.r = shocks.r ∧ ∀ i < shocks.r, ScaledByName k endo endo' (dev ss p i) (dev ss' p' i) := by
  obtain ⟨r1, f1⟩ := simulated_follows ex h hc hp
  obtain ⟨r1', f1'⟩ := simulated_follows ex' h' hc' hp'
  have pp := (groups h.cur).perm
  have pp' := (groups h'.cur).perm
  refine ⟨r1, by omega, fun i => ?_⟩
  have back : ∀ {l : List String} (w : Nat → V), l.Nodup → ∀ c < l.length, w c = byName l (fun x => w (l.idxOf x)) c := by
    intro l w hl c hc
    rw [byName_get (List.getElem?_eq_getElem hc), hl.idxOf_getElem]
  have read : ∀ {l l' : List String} {κ : String → V} (w w' : Nat → V), l' ⊆ l → ScaledByName κ l l' w w' → ∀ c < l'.length,
      byName l' (fun x => κ x * w (l.idxOf x)) c = w' c := by
    intro l l' κ w w' p hw c hc
    rw [byName_get (List.getElem?_eq_getElem hc)]
    exact (hw _ c _ (List.getElem?_idxOf (p (List.getElem_mem hc))) (List.getElem?_eq_getElem hc)).symm
  induction i with
  | zero => exact fun _ => h0
  | succ i ih =>
    intro hi
    have ih := ih (by omega)
    have g := followsPolicy_congr pp (f1 i (by omega)) (ym' := byName endo fun x => dev ss p i (endo.idxOf x))
      (u' := byName exo fun x => shocks.e i (exo.idxOf x)) (y' := byName endo fun x => dev ss p (i + 1) (endo.idxOf x))
      (fun c hc => back _ hd c (by omega)) (fun c hc => back _ hdx c (by omega)) (fun c hc => back _ hd c (by omega))
    have g2 := followsPolicy_congr pp' (key _ _ _ g) (ym' := dev ss' p' i) (u' := fun c => shocks'.e i c)
      (y' := byName endo' fun x => k x * dev ss p (i + 1) (endo.idxOf x))
      (fun c hc => read _ _ hv ih c (by omega)) (fun c hc => read _ _ he (hs i) c (by omega)) (fun _ _ => rfl)
    have e := followsPolicy_fun pp' g2 (f1' i (by omega))
    intro c c' x hcx hcx'
    have a := e c' (by rw [← hl']; exact (List.getElem?_eq_some_iff.mp hcx').1)
    rw [byName_get hcx'] at a
    rw [← a]
    obtain ⟨w1, w2⟩ := List.getElem?_eq_some_iff.mp hcx
    rw [← w2, hd.idxOf_getElem]

/-- **C178** (partial as C175).  A file says about `T x` of its variables what another says about them directly.  If both
are simulated with the same draws of the shocks, from starting values whose distances from the steady states are related by
the derivatives `k x` of `T x` at the steady state, then the deviations of a variable from its steady state in the second
simulation are `k x` times those in the first, in every period.  Partial also in that the shocks are uncorrelated or are
declared in the same order (see C151). -/
theorem C178_simulation_partial {SS S : Type} (φ : V →+* ℂ) (r : ReadEnv V SS S) (lib lib' : Libs V) (ex : lib.la.Exact)
    (ex' : lib'.la.Exact) (had : lib.ad.Exact) (had' : lib'.ad.Exact) (hopt : FindsMinimum lib.opt)
    (hopt' : FindsMinimum lib'.opt) (hsub : ∀ a b, r.env.ops.bin .sub a b = .ok (a - b)) {text text' : List Char}
    {m m' : ModelFile V} (hw : WellPosed m) (hw' : WellPosed m') {ρ σ ρ' σ' : String → Option V}
    (hσ : FileVals r.env.ops m ρ σ) (hσ' : FileVals r.env.ops m' ρ' σ') {a k : String → V} {T : String → V → V}
    (hone : OneRest r.env.ops m σ a) (hone' : OneRest r.env.ops m' σ' fun x => T x (a x))
    {md md₁ md' md₁' : MState V (ModelSpace V) (Arr V × Arr V)}
    (h : ReadFrom (r.first lib) text m ρ md) (h' : ReadFrom (r.first lib') text' m' ρ' md')
    {gy gu gy' gu' : Arr V} (hsol : md.solve (r.env.first lib) = (md₁, .ok (gy, gu)))
    (hsol' : md'.solve (r.env.first lib') = (md₁', .ok (gy', gu')))
    (hc : PassesCheck φ lib.la md) (hc' : PassesCheck φ lib'.la md')
    (hvar : m'.names "var" ⊆ m.names "var") (hexo : (m'.names "varexo").Perm (m.names "varexo"))
    (himp : RestatedNear r.env.ops m σ m' σ' a T fun _ v => v)
    (hT : ∀ x ∈ m'.names "var", HasSlope (T x) (a x) (k x))
    (chol chol' : Chol V) (hch : CholUpper chol) (hch' : CholUpper chol') (half half' : V)
    (sigma sigma' given given' p p' : Arr V) (init init' : Option (List V))
    (hr : sigma.r = (m.names "varexo").length) (hr' : sigma'.r = (m'.names "varexo").length)
    (hsig : SameSquare (m.names "varexo") (m'.names "varexo") sigma sigma')
    (hor : m'.names "varexo" = m.names "varexo" ∨ Uncorrelated sigma)
    (hg : ∀ i, SameByName (m.names "varexo") (m'.names "varexo") (given.e i) (given'.e i)) (hgr : given.r = given'.r)
    (hi : ScaledByName k (m.names "var") (m'.names "var")
      (fun c => vecEntry (init.getD md.statespace.steady) c - vecEntry md.statespace.steady c)
      (fun c => vecEntry (init'.getD md'.statespace.steady) c - vecEntry md'.statespace.steady c))
    (hp : simulate chol half md.indexes.toTyper (.first gy gu) md.statespace.steady sigma given init = .ok p)
    (hp' : simulate chol' half' md'.indexes.toTyper (.first gy' gu') md'.statespace.steady sigma' given' init' = .ok p') :
    p.r = given.r ∧ p'.r = given.r ∧ ∀ i < given.r, ScaledByName k (m.names "var") (m'.names "var")
      (fun c => p.e i c - vecEntry md.statespace.steady c) (fun c => p'.e i c - vecEntry md'.statespace.steady c) := by
  obtain ⟨ss, ss', key⟩ := C175_restated_partial φ r lib lib' ex ex' had had' hopt hopt' hsub hw hw' hσ hσ' hone hone' h h'
    hsol hsol' hc hc' hvar (fun x hx => hexo.mem_iff.mp hx) himp hT (j := fun _ => 1) fun x _ => ⟨rfl, slope_self 0⟩
  obtain ⟨_, _, _, -, -, hm⟩ := read_solved hopt hsub hw hσ hone h hsol hc
  obtain ⟨_, _, _, -, -, hm'⟩ := read_solved hopt' hsub hw' hσ' hone' h' hsol' hc'
  obtain ⟨_, hn, _, hpp, hd⟩ := hm.determinate had
  obtain ⟨_, hn', _, hpp', hd'⟩ := hm'.determinate had'
  unfold simulate at hp hp'
  obtain ⟨shocks, hs, hp⟩ := Except.bind_eq_ok hp
  obtain ⟨shocks', hs', hp'⟩ := Except.bind_eq_ok hp'
  obtain ⟨a1, a2, a3, a4, a5⟩ := shocks_relay hch hch' hm.plain.shocks hexo hr hr' hsig hor hs hs' hg
  have z := (C49_first_row _ _ _ _ _ _ _ hp).2.2
  have z' := (C49_first_row _ _ _ _ _ _ _ hp').2.2
  have := restated_paths ex ex' (hd.det ex).1 (hd'.det ex').1 hm.plain.distinct hm.plain.shocks hm'.plain.distinct
    (by omega) (by omega) rfl rfl hvar (fun x hx => hexo.mem_iff.mp hx) key a2 a4 (by omega) hp hp' (by
      intro c c' x hx hx'
      have e := hi c c' x hx hx'
      have b := z c (by rw [ss, List.length_map]; exact (List.getElem?_eq_some_iff.mp hx).1)
      have b' := z' c' (by rw [ss', List.length_map]; exact (List.getElem?_eq_some_iff.mp hx').1)
      simp only [vecEntry, b, b', Option.getD_some] at e
      exact e) (fun i c c' x hx hx' => by rw [one_mul]; exact (a5 i c c' x hx hx').symm)
  rw [a1] at this
  exact this

/-- **C178** (partial as above).  The responses to a shock of a variable in the second file are `k x` times those in the
first. -/
theorem C178_impulse_partial {SS S : Type} (φ : V →+* ℂ) (r : ReadEnv V SS S) (lib lib' : Libs V) (ex : lib.la.Exact)
    (ex' : lib'.la.Exact) (had : lib.ad.Exact) (had' : lib'.ad.Exact) (hopt : FindsMinimum lib.opt)
    (hopt' : FindsMinimum lib'.opt) (hsub : ∀ a b, r.env.ops.bin .sub a b = .ok (a - b)) {text text' : List Char}
    {m m' : ModelFile V} (hw : WellPosed m) (hw' : WellPosed m') {ρ σ ρ' σ' : String → Option V}
    (hσ : FileVals r.env.ops m ρ σ) (hσ' : FileVals r.env.ops m' ρ' σ') {a k : String → V} {T : String → V → V}
    (hone : OneRest r.env.ops m σ a) (hone' : OneRest r.env.ops m' σ' fun x => T x (a x))
    {md md₁ md' md₁' : MState V (ModelSpace V) (Arr V × Arr V)}
    (h : ReadFrom (r.first lib) text m ρ md) (h' : ReadFrom (r.first lib') text' m' ρ' md')
    {gy gu gy' gu' : Arr V} (hsol : md.solve (r.env.first lib) = (md₁, .ok (gy, gu)))
    (hsol' : md'.solve (r.env.first lib') = (md₁', .ok (gy', gu')))
    (hc : PassesCheck φ lib.la md) (hc' : PassesCheck φ lib'.la md')
    (hvar : m'.names "var" ⊆ m.names "var") (hexo : (m'.names "varexo").Perm (m.names "varexo"))
    (himp : RestatedNear r.env.ops m σ m' σ' a T fun _ v => v)
    (hT : ∀ x ∈ m'.names "var", HasSlope (T x) (a x) (k x))
    (chol chol' : Chol V) (hch : CholUpper chol) (hch' : CholUpper chol') (half half' : V)
    (sigma sigma' p p' : Arr V) (periods idx idx' : Nat) (size : V) (e : String)
    (hr : sigma.r = (m.names "varexo").length) (hr' : sigma'.r = (m'.names "varexo").length)
    (hsig : SameSquare (m.names "varexo") (m'.names "varexo") sigma sigma')
    (hor : m'.names "varexo" = m.names "varexo" ∨ Uncorrelated sigma)
    (hx : (m.names "varexo")[idx]? = some e) (hx' : (m'.names "varexo")[idx']? = some e)
    (hp : impulseResponse chol half md.indexes.toTyper (.first gy gu) md.statespace.steady sigma periods idx size = .ok p)
    (hp' : impulseResponse chol' half' md'.indexes.toTyper (.first gy' gu') md'.statespace.steady sigma' periods idx' size =
      .ok p') :
    p.r = periods ∧ p'.r = periods ∧ ∀ i < periods, ScaledByName k (m.names "var") (m'.names "var") (p.e i) (p'.e i) := by
  obtain ⟨_, _, _, -, -, hm⟩ := read_solved hopt hsub hw hσ hone h hsol hc
  unfold impulseResponse at hp hp'
  obtain ⟨given, hg, hp⟩ := Except.bind_eq_ok hp
  obtain ⟨given', hg', hp'⟩ := Except.bind_eq_ok hp'
  obtain ⟨q, hs, hpr⟩ := Except.bind_eq_ok hp
  obtain ⟨q', hs', hpr'⟩ := Except.bind_eq_ok hp'
  have shape : ∀ {n i : Nat} {g : Arr V}, impulseShocks periods n i size = .ok g →
      g = ⟨periods, n, fun k j => if k = 0 ∧ j = i then size else 0⟩ := by
    intro n i g hg
    unfold impulseShocks at hg
    split at hg
    · cases hg
    · exact (Except.ok.inj hg).symm
  replace hg := shape hg
  replace hg' := shape hg'
  subst hg hg'
  have hd' := hexo.symm.nodup hm.plain.shocks
  have := C178_simulation_partial φ r lib lib' ex ex' had had' hopt hopt' hsub hw hw' hσ hσ' hone hone' h h' hsol hsol' hc hc'
    hvar hexo himp hT chol chol' hch hch' half half' sigma sigma'
    ⟨periods, sigma.r, fun k j => if k = 0 ∧ j = idx then size else 0⟩
    ⟨periods, sigma'.r, fun k j => if k = 0 ∧ j = idx' then size else 0⟩ q q' none none hr hr' hsig hor (by
      intro k j j' y hy hy'
      show (if k = 0 ∧ j = idx then size else 0) = if k = 0 ∧ j' = idx' then size else 0
      have : j = idx ↔ j' = idx' := by
        constructor
        · rintro rfl
          rw [hx] at hy
          rw [Option.some.inj hy] at hx'
          exact Layouts.nodup_get hd' hy' hx'
        · rintro rfl
          rw [hx'] at hy'
          rw [Option.some.inj hy'] at hx
          exact Layouts.nodup_get hm.plain.shocks hy hx
      simp only [this]) rfl (by
      intro c c' x _ _
      simp) hs hs'
  obtain rfl := Except.ok.inj hpr
  obtain rfl := Except.ok.inj hpr'
  exact this

#print axioms C178_simulation_partial
#print axioms C178_impulse_partial

end Pynare
