import Verif.Lemmas.Restated
import Verif.Props.Enlarged
import Mathlib.Analysis.SpecialFunctions.ExpDeriv
/-!
# C175: model files written in other variables
-/

namespace Pynare

set_option linter.unusedSectionVars false

section
variable {V : Type} [Field V] [LinearOrder V] [IsStrictOrderedRing V]

/-- **C175** (partial: for files as in C161, each with exactly one steady state, whose state spaces pass the check and have
no eigenvalue of modulus one).  A file says about `T x` of its variables and `U x` of its shocks what another says about
them directly.  Then the steady state of the second is `T x` of that of the first, and the solution of the first implies
that of the second: deviations from the steady state are multiplied by the derivative of `T x` there, shocks by that of
`U x`. -/
theorem C175_restated_partial {SS S : Type} (φ : V →+* ℂ) (r : ReadEnv V SS S) (lib lib' : Libs V) (ex : lib.la.Exact)
    (ex' : lib'.la.Exact) (had : lib.ad.Exact) (had' : lib'.ad.Exact) (hopt : FindsMinimum lib.opt)
    (hopt' : FindsMinimum lib'.opt) (hsub : ∀ a b, r.env.ops.bin .sub a b = .ok (a - b)) {text text' : List Char}
    {m m' : ModelFile V} (hw : WellPosed m) (hw' : WellPosed m') {ρ σ ρ' σ' : String → Option V}
    (hσ : FileVals r.env.ops m ρ σ) (hσ' : FileVals r.env.ops m' ρ' σ') {a k j : String → V} {T U : String → V → V}
    (hone : OneRest r.env.ops m σ a) (hone' : OneRest r.env.ops m' σ' fun x => T x (a x))
    {md md₁ md' md₁' : MState V (ModelSpace V) (Arr V × Arr V)}
    (h : ReadFrom (r.first lib) text m ρ md) (h' : ReadFrom (r.first lib') text' m' ρ' md')
    {gy gu gy' gu' : Arr V} (hsol : md.solve (r.env.first lib) = (md₁, .ok (gy, gu)))
    (hsol' : md'.solve (r.env.first lib') = (md₁', .ok (gy', gu')))
    (hc : PassesCheck φ lib.la md) (hc' : PassesCheck φ lib'.la md')
    (hvar : m'.names "var" ⊆ m.names "var") (hexo : m'.names "varexo" ⊆ m.names "varexo")
    (himp : RestatedNear r.env.ops m σ m' σ' a T U)
    (hT : ∀ x ∈ m'.names "var", HasSlope (T x) (a x) (k x))
    (hU : ∀ x ∈ m'.names "varexo", U x 0 = 0 ∧ HasSlope (U x) 0 (j x)) :
    md.statespace.steady = (m.names "var").map a ∧ md'.statespace.steady = (m'.names "var").map (fun x => T x (a x)) ∧
    ∀ ym u y : String → V,
      FollowsPolicy md.indexes.toTyper (m.names "varexo").length gy gu (byName (m.names "var") ym)
          (byName (m.names "varexo") u) (byName (m.names "var") y) →
        FollowsPolicy md'.indexes.toTyper (m'.names "varexo").length gy' gu' (byName (m'.names "var") fun x => k x * ym x)
          (byName (m'.names "varexo") fun x => j x * u x) (byName (m'.names "var") fun x => k x * y x) := by
  obtain ⟨pt, q, ev, tf, ss, hm⟩ := read_solved hopt hsub hw hσ hone h hsol hc
  obtain ⟨pt', q', ev', tf', ss', hm'⟩ := read_solved hopt' hsub hw' hσ' hone' h' hsol' hc'
  refine ⟨ss, ss', fun ym u y hy => ?_⟩
  obtain ⟨hr, hn, pss, hp, hd⟩ := hm.determinate had
  obtain ⟨hr', hn', pss', hp', hd'⟩ := hm'.determinate had'
  have J := (modelSpace_ok tf.space).2.2.2.2.2.1
  have J' := (modelSpace_ok tf'.space).2.2.2.2.2.1
  rw [ss] at J
  rw [ss'] at J'
  have e := tf.toTextBase.solves_iff hsub h.equations hw had J ((hone _ (by simp)).mpr rfl)
  have hlt : ∀ {l l' : List String}, l' ⊆ l → ∀ i < l'.length, l.idxOf (l'[i]?.getD "") < l.length := by
    intro l l' p i hi
    rw [List.getElem?_eq_getElem hi, Option.getD_some]
    exact List.idxOf_lt_length_iff.mpr (p (List.getElem_mem hi))
  have hback : ∀ {l l' : List String} (κ a : String → V), l' ⊆ l → ∀ i < l'.length,
      byName l' κ i * byName l a (l.idxOf (l'[i]?.getD "")) = byName l' (fun x => κ x * a x) i := by
    intro l l' κ a p i hi
    have hm : l'[i] ∈ l := p (List.getElem_mem hi)
    rw [byName_get (List.getElem?_eq_getElem hi), byName_get (List.getElem?_eq_getElem hi), List.getElem?_eq_getElem hi,
      Option.getD_some, byName_get (List.getElem?_idxOf hm)]
  have key : ∀ {l : List String} (w : Nat → V), l.Nodup → ∀ c < l.length, w c = byName l (fun x => w (l.idxOf x)) c := by
    intro l w hl c hc
    rw [byName_get (List.getElem?_eq_getElem hc), hl.idxOf_getElem]
  have := policy_implies_scaled ex ex' hd hd' (fun c => (m.names "var").idxOf ((m'.names "var")[c]?.getD ""))
    (fun k => (m.names "varexo").idxOf ((m'.names "varexo")[k]?.getD "")) (byName (m'.names "var") k)
    (byName (m'.names "varexo") j)
    (fun c hc => by rw [hp]; exact hlt hvar c (by omega)) (by
      intro ym y yp u heq
      have d := hm.plain.distinct
      have := himp.solves hsub tf'.toTextBase h'.equations hw' had' hT hU J' ((hone' _ (by simp)).mpr rfl)
        (ym := fun x => ym ((m.names "var").idxOf x)) (y := fun x => y ((m.names "var").idxOf x))
        (yp := fun x => yp ((m.names "var").idxOf x)) (u := fun x => u ((m.names "varexo").idxOf x)) ((e _).mpr (by
          intro i hi
          refine Eq.trans ?_ (heq i hi)
          exact (linearised_within (fun c hc => key ym d c (by omega)) (fun c hc => key y d c (by omega))
            (fun c hc => key yp d c (by omega)) fun k hk => key u hm.plain.shocks k hk).symm))
      exact this) hy
  obtain ⟨hdd, -⟩ := hd'.det ex'
  exact followsPolicy_congr (groups hdd.cur).perm this (fun c hc => hback k ym hvar c (by omega))
    (fun i hi => hback j u hexo i hi) (fun c hc => hback k y hvar c (by omega))

/-- **C175** (partial as above).  If both files have the same variables and no derivative is zero, the two solutions say
the same. -/
theorem C175_same_partial {SS S : Type} (φ : V →+* ℂ) (r : ReadEnv V SS S) (lib lib' : Libs V) (ex : lib.la.Exact)
    (ex' : lib'.la.Exact) (had : lib.ad.Exact) (had' : lib'.ad.Exact) (hopt : FindsMinimum lib.opt)
    (hopt' : FindsMinimum lib'.opt) (hsub : ∀ a b, r.env.ops.bin .sub a b = .ok (a - b)) {text text' : List Char}
    {m m' : ModelFile V} (hw : WellPosed m) (hw' : WellPosed m') {ρ σ ρ' σ' : String → Option V}
    (hσ : FileVals r.env.ops m ρ σ) (hσ' : FileVals r.env.ops m' ρ' σ') {a k j : String → V} {T U : String → V → V}
    (hone : OneRest r.env.ops m σ a) (hone' : OneRest r.env.ops m' σ' fun x => T x (a x))
    {md md₁ md' md₁' : MState V (ModelSpace V) (Arr V × Arr V)}
    (h : ReadFrom (r.first lib) text m ρ md) (h' : ReadFrom (r.first lib') text' m' ρ' md')
    {gy gu gy' gu' : Arr V} (hsol : md.solve (r.env.first lib) = (md₁, .ok (gy, gu)))
    (hsol' : md'.solve (r.env.first lib') = (md₁', .ok (gy', gu')))
    (hc : PassesCheck φ lib.la md) (hc' : PassesCheck φ lib'.la md')
    (hvar : ∀ x, x ∈ m'.names "var" ↔ x ∈ m.names "var") (hexo : m'.names "varexo" ⊆ m.names "varexo")
    (himp : RestatedNear r.env.ops m σ m' σ' a T U)
    (hT : ∀ x ∈ m'.names "var", HasSlope (T x) (a x) (k x) ∧ k x ≠ 0)
    (hU : ∀ x ∈ m'.names "varexo", U x 0 = 0 ∧ HasSlope (U x) 0 (j x)) :
    md.statespace.steady = (m.names "var").map a ∧ md'.statespace.steady = (m'.names "var").map (fun x => T x (a x)) ∧
    ∀ ym u y : String → V,
      FollowsPolicy md.indexes.toTyper (m.names "varexo").length gy gu (byName (m.names "var") ym)
          (byName (m.names "varexo") u) (byName (m.names "var") y) ↔
        FollowsPolicy md'.indexes.toTyper (m'.names "varexo").length gy' gu' (byName (m'.names "var") fun x => k x * ym x)
          (byName (m'.names "varexo") fun x => j x * u x) (byName (m'.names "var") fun x => k x * y x) := by
  obtain ⟨ss, ss', key⟩ := C175_restated_partial φ r lib lib' ex ex' had had' hopt hopt' hsub hw hw' hσ hσ' hone hone' h h'
    hsol hsol' hc hc' (fun x hx => (hvar x).mp hx) hexo himp (fun x hx => (hT x hx).1) hU
  refine ⟨ss, ss', fun ym u y => ⟨key ym u y, fun hy => ?_⟩⟩
  obtain ⟨_, _, _, -, -, hm⟩ := read_solved hopt hsub hw hσ hone h hsol hc
  obtain ⟨_, _, _, -, -, hm'⟩ := read_solved hopt' hsub hw' hσ' hone' h' hsol' hc'
  obtain ⟨_, hn, _, hp, hd⟩ := hm.determinate had
  obtain ⟨_, hn', _, hp', hd'⟩ := hm'.determinate had'
  have pm := (groups (hd.det ex).1.cur).perm
  have pm' := (groups (hd'.det ex').1.cur).perm
  obtain ⟨y₁, h1⟩ := policy_values pm (m.names "varexo").length gy gu hm.plain.distinct (by omega)
      (byName (m.names "var") ym) (byName (m.names "varexo") u)
  have h2 := key ym u y₁ h1
  refine followsPolicy_congr pm h1 (fun _ _ => rfl) (fun _ _ => rfl) fun c hcl => ?_
  have hl : c < (m.names "var").length := by omega
  rw [byName_get (List.getElem?_eq_getElem hl), byName_get (List.getElem?_eq_getElem hl)]
  have hx := (hvar _).mpr (List.getElem_mem hl)
  generalize (m.names "var")[c] = x at hx
  obtain ⟨c', hc'⟩ := List.getElem?_of_mem hx
  have hcl' : c' < (m'.names "var").length := (List.getElem?_eq_some_iff.mp hc').1
  obtain ⟨i, hi⟩ := List.getElem?_of_mem (pm'.mem_iff.mpr (List.mem_range.mpr (show c' < md'.indexes.n by omega)))
  have := (h2 i c' hi).trans (hy i c' hi).symm
  rw [byName_get hc', byName_get hc'] at this
  exact mul_left_cancel₀ (hT x hx).2 this

/-! ### functions of variables in their place -/

theorem WrittenIn.side {ops : Ops V} {w : String → Expr V → Expr V} {T : String → V → V} (hT : Computes ops w T)
    {σ : String → Option V} {m m' : ModelFile V} (h : WrittenIn w σ m m') {ym y yp u : String → V} {e : Expr V} :
    ∀ {v : V}, SideValue ops m σ (named m ym y yp u) (inPlace (m'.names "var") w e) v →
    SideValue ops m' σ (named m' (fun x => T x (ym x)) (fun x => T x (y x)) (fun x => T x (yp x)) u) e v := by
  unfold SideValue
  rw [h.vars, h.shocks]
  have hP : ∀ x v v', NameNow σ (m'.names "var") (m'.names "varexo") (named m ym y yp u) x v →
      NameNow σ (m'.names "var") (m'.names "varexo") (named m ym y yp u) x v' → v = v' := by
    unfold named
    rw [h.vars, h.shocks]
    exact nameNow_unique h.apart
  have hQ : ∀ x o v v', NameAt (m'.names "var") (named m ym y yp u) x o v →
      NameAt (m'.names "var") (named m ym y yp u) x o v' → v = v' := by
    unfold named
    rw [h.vars, h.shocks]
    exact nameAt_unique
  induction e with
  | num v =>
    intro v he
    simp only [inPlace] at he
    cases he
    exact .num
  | var x =>
    intro v he
    simp only [inPlace] at he
    split at he
    · rename_i hx
      obtain ⟨b, hb, rfl⟩ := hT _ _ hP hQ _ _ _ he
      obtain ⟨a1, a2⟩ := h.apart x hx
      cases hb with
      | var hb =>
        cases hb with
        | param hs => rw [a2] at hs; cases hs
        | shock _ hj => exact absurd (List.mem_of_getElem? hj) a1
        | endog hs hc =>
          refine .var ?_
          have := NameNow.endog (exo := m'.names "varexo")
            (L := named m' (fun x => T x (ym x)) (fun x => T x (y x)) (fun x => T x (yp x)) u) hs hc
          simp only [named, byName_get hc, h.vars] at this ⊢
          exact this
    · rename_i hx
      cases he with
      | var hb =>
        cases hb with
        | param hs => exact .var (.param hs)
        | endog _ hc => exact absurd (List.mem_of_getElem? hc) hx
        | shock hs hc =>
          refine .var ?_
          have := NameNow.shock (endo := m'.names "var")
            (L := named m' (fun x => T x (ym x)) (fun x => T x (y x)) (fun x => T x (yp x)) u) hs hc
          simp only [named, byName_get hc, h.shocks] at this ⊢
          exact this
  | pvar x o =>
    intro v he
    simp only [inPlace] at he
    split at he
    · obtain ⟨b, hb, rfl⟩ := hT _ _ hP hQ _ _ _ he
      cases hb with
      | pvar hb =>
        refine .pvar ?_
        cases hb with
        | before hc =>
          have := NameAt.before (L := named m' (fun x => T x (ym x)) (fun x => T x (y x)) (fun x => T x (yp x)) u) hc
          simp only [named, byName_get hc, h.vars] at this ⊢
          exact this
        | after hc =>
          have := NameAt.after (L := named m' (fun x => T x (ym x)) (fun x => T x (y x)) (fun x => T x (yp x)) u) hc
          simp only [named, byName_get hc, h.vars] at this ⊢
          exact this
    · rename_i hx
      cases he with
      | pvar hb =>
        cases hb with
        | before hc => exact absurd (List.mem_of_getElem? hc) hx
        | after hc => exact absurd (List.mem_of_getElem? hc) hx
  | un op e ih =>
    intro v he
    simp only [inPlace] at he
    cases he with
    | un h1 h2 => exact .un (ih h1) h2
  | bin op l r ihl ihr =>
    intro v he
    simp only [inPlace] at he
    cases he with
    | bin h1 h2 h3 => exact .bin (ihl h1) (ihr h2) h3
  | cmp op l r ihl ihr =>
    intro v he
    simp only [inPlace] at he
    cases he with
    | cmp h1 h2 h3 => exact .cmp (ihl h1) (ihr h2) h3
  | fn f e ih =>
    intro v he
    simp only [inPlace] at he
    cases he with
    | fn hA h1 h2 => exact .fn hA (ih h1) h2

theorem WrittenIn.restated {ops : Ops V} {w : String → Expr V → Expr V} {T : String → V → V} (hT : Computes ops w T)
    {σ : String → Option V} {m m' : ModelFile V} (h : WrittenIn w σ m m') (a : String → V) :
    RestatedNear ops m σ m' σ a T fun _ v => v := by
  refine ⟨1, 1, one_pos, fun ym y yp u _ _ η hg l r hlr => ?_⟩
  obtain ⟨v, ⟨p, q, hp, hq, e⟩, hv⟩ := hg _ _ (by rw [h.equations]; exact List.mem_map.mpr ⟨_, hlr, rfl⟩)
  exact ⟨v, ⟨p, q, h.side hT hp, h.side hT hq, e⟩, by rwa [one_mul]⟩

theorem slope_self (a : V) : HasSlope (fun v => v) a 1 := by
  intro ε hε
  refine ⟨1, one_pos, fun h _ => ?_⟩
  have : a + h - a - 1 * h = 0 := by ring
  rw [this, abs_zero]
  positivity

/-- **C175** (partial as above).  Writing a function of every variable, say `exp(x)` or `100*x`, in its place in all
equations of a file makes a file whose solution is that of the first in other units: deviations of a variable from the
steady state are multiplied by the derivative of the function there. -/
theorem C175_written_partial {SS S : Type} (φ : V →+* ℂ) (r : ReadEnv V SS S) (lib lib' : Libs V) (ex : lib.la.Exact)
    (ex' : lib'.la.Exact) (had : lib.ad.Exact) (had' : lib'.ad.Exact) (hopt : FindsMinimum lib.opt)
    (hopt' : FindsMinimum lib'.opt) (hsub : ∀ a b, r.env.ops.bin .sub a b = .ok (a - b)) {text text' : List Char}
    {m m' : ModelFile V} (hw : WellPosed m) (hw' : WellPosed m') {ρ σ ρ' : String → Option V}
    (hσ : FileVals r.env.ops m ρ σ) (hσ' : FileVals r.env.ops m' ρ' σ) {w : String → Expr V → Expr V}
    (hwr : WrittenIn w σ m m') {a k : String → V} {T : String → V → V} (hcomp : Computes r.env.ops w T)
    (hT : ∀ x ∈ m'.names "var", HasSlope (T x) (a x) (k x) ∧ k x ≠ 0)
    (hone : OneRest r.env.ops m σ a) (hone' : OneRest r.env.ops m' σ fun x => T x (a x))
    {md md₁ md' md₁' : MState V (ModelSpace V) (Arr V × Arr V)}
    (h : ReadFrom (r.first lib) text m ρ md) (h' : ReadFrom (r.first lib') text' m' ρ' md')
    {gy gu gy' gu' : Arr V} (hsol : md.solve (r.env.first lib) = (md₁, .ok (gy, gu)))
    (hsol' : md'.solve (r.env.first lib') = (md₁', .ok (gy', gu')))
    (hc : PassesCheck φ lib.la md) (hc' : PassesCheck φ lib'.la md') :
    md.statespace.steady = (m.names "var").map a ∧ md'.statespace.steady = (m'.names "var").map (fun x => T x (a x)) ∧
    ∀ ym u y : String → V,
      FollowsPolicy md.indexes.toTyper (m.names "varexo").length gy gu (byName (m.names "var") ym)
          (byName (m.names "varexo") u) (byName (m.names "var") y) ↔
        FollowsPolicy md'.indexes.toTyper (m'.names "varexo").length gy' gu' (byName (m'.names "var") fun x => k x * ym x)
          (byName (m'.names "varexo") u) (byName (m'.names "var") fun x => k x * y x) := by
  have := C175_same_partial φ r lib lib' ex ex' had had' hopt hopt' hsub hw hw' hσ hσ' hone hone' h h' hsol hsol' hc hc'
    (fun x => by rw [hwr.vars]) (by rw [hwr.shocks]; exact fun _ h => h) (hwr.restated hcomp a) hT
    (j := fun _ => 1) fun x _ => ⟨rfl, slope_self 0⟩
  simpa only [one_mul] using this

end

/-! ### logarithms -/

/-- the exponential function of some variables -/
def expOf (xs : List String) (x : String) (e : Expr ℝ) : Expr ℝ := if x ∈ xs then .fn .exp e else e

theorem computes_exp {ops : Ops ℝ} (h : ∀ b, ops.fn .exp b = .ok (Real.exp b)) (xs : List String) :
    Computes ops (expOf xs) fun x b => if x ∈ xs then Real.exp b else b := by
  intro P Q _ _ x e v hv
  unfold expOf at hv
  split at hv
  · rename_i hx
    cases hv with
    | fn hA h1 h2 =>
      cases hA
      rw [h] at h2
      cases h2
      exact ⟨_, h1, by simp [hx]⟩
  · rename_i hx
    exact ⟨v, hv, by simp [hx]⟩

theorem slope_exp (a : ℝ) : HasSlope Real.exp a (Real.exp a) := by
  intro ε hε
  have := (hasDerivAt_iff_isLittleO_nhds_zero.mp (Real.hasDerivAt_exp a)).def hε
  obtain ⟨δ, hδ, h⟩ := Metric.eventually_nhds_iff.mp this
  refine ⟨δ / 2, by positivity, fun t ht => ?_⟩
  have := h (y := t) (by rw [Real.dist_eq, sub_zero]; linarith)
  simpa [Real.norm_eq_abs, smul_eq_mul, mul_comm] using this

/-- **C175** (partial as above).  Of two files, one has `exp(x)` where the other has `x`, for the variables in `xs`.  The
solution of the first is that of the second with proportional deviations of these variables: the deviations in the second
are those in the first times the steady value in the second. -/
theorem C175_logs_partial {SS S : Type} (φ : ℝ →+* ℂ) (r : ReadEnv ℝ SS S) (lib lib' : Libs ℝ) (ex : lib.la.Exact)
    (ex' : lib'.la.Exact) (had : lib.ad.Exact) (had' : lib'.ad.Exact) (hopt : FindsMinimum lib.opt)
    (hopt' : FindsMinimum lib'.opt) (hsub : ∀ a b, r.env.ops.bin .sub a b = .ok (a - b))
    (hexp : ∀ b, r.env.ops.fn .exp b = .ok (Real.exp b)) {text text' : List Char}
    {m m' : ModelFile ℝ} (hw : WellPosed m) (hw' : WellPosed m') {ρ σ ρ' : String → Option ℝ}
    (hσ : FileVals r.env.ops m ρ σ) (hσ' : FileVals r.env.ops m' ρ' σ) {xs : List String}
    (hwr : WrittenIn (expOf xs) σ m m') {a a' : String → ℝ} (ha : ∀ x, a' x = if x ∈ xs then Real.exp (a x) else a x)
    (hone : OneRest r.env.ops m σ a) (hone' : OneRest r.env.ops m' σ a')
    {md md₁ md' md₁' : MState ℝ (ModelSpace ℝ) (Arr ℝ × Arr ℝ)}
    (h : ReadFrom (r.first lib) text m ρ md) (h' : ReadFrom (r.first lib') text' m' ρ' md')
    {gy gu gy' gu' : Arr ℝ} (hsol : md.solve (r.env.first lib) = (md₁, .ok (gy, gu)))
    (hsol' : md'.solve (r.env.first lib') = (md₁', .ok (gy', gu')))
    (hc : PassesCheck φ lib.la md) (hc' : PassesCheck φ lib'.la md') :
    md.statespace.steady = (m.names "var").map a ∧ md'.statespace.steady = (m'.names "var").map a' ∧
    ∀ ym u y : String → ℝ,
      FollowsPolicy md.indexes.toTyper (m.names "varexo").length gy gu (byName (m.names "var") ym)
          (byName (m.names "varexo") u) (byName (m.names "var") y) ↔
        FollowsPolicy md'.indexes.toTyper (m'.names "varexo").length gy' gu'
          (byName (m'.names "var") fun x => if x ∈ xs then a' x * ym x else ym x)
          (byName (m'.names "varexo") u) (byName (m'.names "var") fun x => if x ∈ xs then a' x * y x else y x) := by
  obtain rfl : a' = fun x => if x ∈ xs then Real.exp (a x) else a x := funext ha
  have := C175_written_partial φ r lib lib' ex ex' had had' hopt hopt' hsub hw hw' hσ hσ' hwr
    (T := fun x b => if x ∈ xs then Real.exp b else b) (k := fun x => if x ∈ xs then Real.exp (a x) else 1)
    (computes_exp hexp xs) (by
      intro x _
      by_cases hx : x ∈ xs
      · simp only [hx, if_true]
        exact ⟨slope_exp _, (Real.exp_pos _).ne'⟩
      · simp only [hx, if_false]
        exact ⟨slope_self _, one_ne_zero⟩) hone hone' h h' hsol hsol' hc hc'
  refine ⟨this.1, this.2.1, fun ym u y => ?_⟩
  rw [this.2.2 ym u y]
  have e : ∀ z : String → ℝ, (fun x => (if x ∈ xs then Real.exp (a x) else 1) * z x) =
      fun x => if x ∈ xs then (if x ∈ xs then Real.exp (a x) else a x) * z x else z x := by
    intro z
    funext x
    split <;> simp
  rw [e, e]

#print axioms C175_restated_partial
#print axioms C175_same_partial
#print axioms C175_written_partial
#print axioms C175_logs_partial

end Pynare
