import Verif.Lemmas.Order
import Verif.Examples.Order
import Verif.Lemmas.OccBinPolicy
/-!
# C149 – C151: models written in another order

`SolvedModel` – the model with endogenous variables `endo`, shocks `exo` and equations `es`, with everything the
code makes of them up to the first-order solution `gy`, `gu`; primed names belong to the same model with its
declarations and its equations in another order, differentiated and decomposed by possibly other exact
routines.
-/

namespace Pynare

set_option linter.unusedSectionVars false

variable {V : Type} [Field V] [LinearOrder V] [IsStrictOrderedRing V]

/-! ### C149: the solution -/

/-- **C149** (partial: for models that pass the check and have no eigenvalue of modulus one, and whose
equations are as in C33).  The same equations in any order, with variables and shocks declared in any order,
have the same policy functions: values of last period `ym`, shocks `u` and present values `y`, all given by
name, are related by one solution if and only if they are by the other. -/
theorem C149_policy_partial (φ : V →+* ℂ) (ops : Ops V) (okName okName' : String → Bool) (ad ad' : Autograd V)
    (hex : ad.Exact) (hex' : ad'.Exact) (la la' : LinAlg V) (ex : la.Exact) (ex' : la'.Exact)
    (σ : String → Option V) (endo exo endo' exo' : List String) (es es' : List (Expr V))
    (ss ss' : List V) (t t' : Llx) (J gy gu J' gy' gu' : Arr V) (s s' : Space V) (q q' : QZ V)
    (ev ev' : Nat → Option ℂ)
    (h : SolvedModel φ ops okName ad la σ endo exo es ss t J gy gu s q ev)
    (h' : SolvedModel φ ops okName' ad' la' σ endo' exo' es' ss' t' J' gy' gu' s' q' ev')
    (pe : endo'.Perm endo) (px : exo'.Perm exo) (pq : es'.Perm es)
    (hss : SameByName endo endo' (vecEntry ss) (vecEntry ss')) (ym u y : String → V) :
    FollowsPolicy t.toTyper exo.length gy gu (byName endo ym) (byName exo u) (byName endo y) ↔
      FollowsPolicy t'.toTyper exo'.length gy' gu' (byName endo' ym) (byName exo' u) (byName endo' y) :=
  ⟨solved_implies hex hex' ex ex' h h' pe px pq hss ym u y,
    solved_implies hex' hex ex' ex h' h pe.symm px.symm pq.symm
      (fun i i' x h1 h2 => (hss i' i x h2 h1).symm) ym u y⟩

/-- what the policy functions say about one variable, by name -/
theorem followsPolicy_entry {t : Typer} (hp : t.drOrder.Perm (List.range t.n)) {endo exo : List String}
    (hn : t.n = endo.length) {gy gu : Arr V} {ym u y : String → V}
    (h : FollowsPolicy t exo.length gy gu (byName endo ym) (byName exo u) (byName endo y)) {i : Nat} {x : String}
    (hi : (ruleNames t endo)[i]? = some x) :
    y x = (sumTo (stateNames t endo).length fun j => gy.e i j * byName (stateNames t endo) ym j) +
      sumTo exo.length fun k => gu.e i k * byName exo u k := by
  obtain ⟨l1, l2, l3⟩ := drState_length hp
  unfold ruleNames at hi
  rw [List.getElem?_map, Option.map_eq_some_iff] at hi
  obtain ⟨c, hc, hx⟩ := hi
  have := h i c hc
  rw [show byName endo y c = y x by unfold byName; rw [hx]] at this
  rw [this]
  congr 1
  have hl : (stateNames t endo).length = t.nBackward := by simp [stateNames, l1]
  rw [hl]
  refine sumTo_congr fun j hj => ?_
  have hr := drState_row hp hj
  show gy.e i j * byName endo ym (t.drOrder[stRow t j]?.getD 0) = _
  rw [hr, Option.getD_some]
  unfold byName stateNames
  rw [List.getElem?_map, List.getElem?_eq_getElem (by omega : j < t.drState.length)]
  rfl

theorem ruleNames_perm {t : Typer} (hp : t.drOrder.Perm (List.range t.n)) {endo : List String}
    (hn : t.n = endo.length) : (ruleNames t endo).Perm endo := by
  have : endo = (List.range t.n).map fun c => endo[c]?.getD "" := by
    apply List.ext_getElem
    · simp [hn]
    · intro i h1 h2
      simp [List.getElem?_eq_getElem h1]
  unfold ruleNames
  exact (hp.map _).trans (by rw [← this])

theorem stateNames_nodup {t : Typer} (hp : t.drOrder.Perm (List.range t.n)) {endo : List String}
    (hn : t.n = endo.length) (hd : endo.Nodup) : (stateNames t endo).Nodup := by
  have hg := (C30_permutation_iff_partial t).mp hp
  have hs := drState_perm hg
  unfold stateNames
  refine List.Nodup.map_on ?_ (hs.symm.nodup ((List.nodup_range).sublist List.filter_sublist))
  intro a ha b hb hab
  have hal : a < endo.length := by rw [← hn]; exact state_mem_lt a (hs.mem_iff.mp ha)
  have hbl : b < endo.length := by rw [← hn]; exact state_mem_lt b (hs.mem_iff.mp hb)
  rw [List.getElem?_eq_getElem hal, List.getElem?_eq_getElem hbl, Option.getD_some, Option.getD_some] at hab
  exact (List.Nodup.getElem_inj_iff hd).mp hab

theorem stateNames_mem {t : Typer} (hp : t.drOrder.Perm (List.range t.n)) {endo : List String}
    (hn : t.n = endo.length) {x : String} :
    x ∈ stateNames t endo ↔ ∃ (c : Nat), endo[c]? = some x ∧ ∃ k, t.cell 0 c = some k := by
  have hg := (C30_permutation_iff_partial t).mp hp
  have hs := drState_perm hg
  unfold stateNames
  rw [List.mem_map]
  constructor
  · rintro ⟨c, hc, rfl⟩
    have hc := hs.mem_iff.mp hc
    obtain ⟨h1, h2⟩ := Typer.mem_sel.mp hc
    exact ⟨c, by rw [List.getElem?_eq_getElem (by omega)]; rfl, Option.isSome_iff_exists.mp h2⟩
  · rintro ⟨c, hc, hk⟩
    have hcl := (List.getElem?_eq_some_iff.mp hc).1
    exact ⟨c, hs.mem_iff.mpr (Typer.mem_sel.mpr ⟨by omega, Option.isSome_iff_exists.mpr hk⟩), by rw [hc]; rfl⟩

theorem stateNames_perm {endo exo endo' exo' : List String} {t t' : Llx} (L : Layouts endo exo endo' exo' t t')
    (hp : t.drOrder.Perm (List.range t.n)) (hp' : t'.drOrder.Perm (List.range t'.n)) :
    (stateNames t'.toTyper endo').Perm (stateNames t.toTyper endo) := by
  refine (List.perm_ext_iff_of_nodup (stateNames_nodup hp' L.size' L.nodup') (stateNames_nodup hp L.size L.nodup)).mpr ?_
  intro x
  rw [stateNames_mem hp' L.size', stateNames_mem hp L.size]
  constructor
  · rintro ⟨c, hc, hk⟩
    obtain ⟨c', x', e1, e2⟩ := L.symm.other (List.getElem?_eq_some_iff.mp hc).1
    rw [hc] at e1; cases e1
    exact ⟨c', e2, (L.same 0 c' c x e2 hc).mpr hk⟩
  · rintro ⟨c, hc, hk⟩
    obtain ⟨c', x', e1, e2⟩ := L.other (List.getElem?_eq_some_iff.mp hc).1
    rw [hc] at e1; cases e1
    exact ⟨c', e2, (L.same 0 c c' x hc e2).mp hk⟩

/-- a value for every variable that the policy functions accept -/
theorem policy_defined {φ : V →+* ℂ} {la : LinAlg V} (ex : la.Exact) {pss : List (List Int)} {t : Llx}
    {endo exo : List String} (hn : t.n = endo.length) (hd : endo.Nodup)
    {J gy gu : Arr V} {s : Space V} {q : QZ V} {ev : Nat → Option ℂ}
    (h : Determinate φ la pss t exo.length J gy gu s q ev) (ym u : String → V) :
    ∃ y : String → V, FollowsPolicy t.toTyper exo.length gy gu (byName endo ym) (byName exo u) (byName endo y) := by
  obtain ⟨hdd, -⟩ := h.det ex
  obtain ⟨-, g2, -⟩ := solution_rows ex hdd.cur hdd.static hdd.square hdd.space (hdd.separated ex) hdd.solved
  have hp := (groups hdd.cur).perm
  have hf := stepFirst_follows hp (nExog := exo.length) (gy := gy) (gu := gu) (prev := byName endo ym)
    (u := byName exo u) (innov := fun i => sumTo exo.length fun j => gu.e i j * byName exo u j)
    (by rw [g2]; exact (drState_length hp).1.symm) (fun _ _ => rfl)
  refine ⟨fun x => stepFirst t.toTyper gy (fun i => sumTo exo.length fun j => gu.e i j * byName exo u j)
    (byName endo ym) (endo.idxOf x), followsPolicy_congr hp hf (fun _ _ => rfl) (fun _ _ => rfl) fun c hc => ?_⟩
  rw [byName_get (List.getElem?_eq_getElem (by omega : c < endo.length)), hd.idxOf_getElem]

theorem sum_pick {names : List String} (hd : names.Nodup) (f : Nat → V) {j : Nat} {z : String}
    (hj : names[j]? = some z) :
    (sumTo names.length fun k => f k * byName names (fun w => if w = z then 1 else 0) k) = f j := by
  have hjl := (List.getElem?_eq_some_iff.mp hj).1
  rw [sumTo_eq, Finset.sum_eq_single j]
  · rw [byName_get hj, if_pos rfl, mul_one]
  · intro k hk hne
    have hkl := Finset.mem_range.mp hk
    rw [byName_get (List.getElem?_eq_getElem hkl), if_neg, mul_zero]
    intro he
    exact hne (Layouts.nodup_get hd (by rw [List.getElem?_eq_getElem hkl, he]) hj)
  · intro hk; exact absurd (Finset.mem_range.mpr hjl) hk

theorem sum_none {names : List String} (f : Nat → V) :
    (sumTo names.length fun k => f k * byName names (fun _ => 0) k) = 0 := by
  rw [sumTo_eq]
  exact Finset.sum_eq_zero fun k _ => by simp [byName]

/-- **C149, coefficient by coefficient** (partial: as `C149_policy_partial`).  The two solutions list the same
variables and the same state variables, and the response of every variable to every state variable and to
every shock is the same number. -/
theorem C149_coefficients_partial (φ : V →+* ℂ) (ops : Ops V) (okName okName' : String → Bool) (ad ad' : Autograd V)
    (hex : ad.Exact) (hex' : ad'.Exact) (la la' : LinAlg V) (ex : la.Exact) (ex' : la'.Exact)
    (σ : String → Option V) (endo exo endo' exo' : List String) (es es' : List (Expr V))
    (ss ss' : List V) (t t' : Llx) (J gy gu J' gy' gu' : Arr V) (s s' : Space V) (q q' : QZ V)
    (ev ev' : Nat → Option ℂ)
    (h : SolvedModel φ ops okName ad la σ endo exo es ss t J gy gu s q ev)
    (h' : SolvedModel φ ops okName' ad' la' σ endo' exo' es' ss' t' J' gy' gu' s' q' ev')
    (pe : endo'.Perm endo) (px : exo'.Perm exo) (pq : es'.Perm es)
    (hss : SameByName endo endo' (vecEntry ss) (vecEntry ss')) :
    (ruleNames t'.toTyper endo').Perm (ruleNames t.toTyper endo) ∧
    (stateNames t'.toTyper endo').Perm (stateNames t.toTyper endo) ∧
    ∀ (i i' : Nat) x, (ruleNames t.toTyper endo)[i]? = some x → (ruleNames t'.toTyper endo')[i']? = some x →
      SameByName (stateNames t.toTyper endo) (stateNames t'.toTyper endo') (gy.e i) (gy'.e i') ∧
      SameByName exo exo' (gu.e i) (gu'.e i') := by
  have L := layouts_of h.plain h.table h'.plain h'.table pe px pq
  obtain ⟨-, hn, pss, -, hd⟩ := h.determinate hex
  obtain ⟨-, hn', pss', -, hd'⟩ := h'.determinate hex'
  have hp := (groups (hd.det ex).1.cur).perm
  have hp' := (groups (hd'.det ex').1.cur).perm
  refine ⟨((ruleNames_perm hp' hn').trans pe).trans (ruleNames_perm hp hn).symm, stateNames_perm L hp hp', ?_⟩
  intro i i' x hi hi'
  have both : ∀ ym u : String → V,
      (sumTo (stateNames t.toTyper endo).length fun j => gy.e i j * byName (stateNames t.toTyper endo) ym j) +
        (sumTo exo.length fun k => gu.e i k * byName exo u k) =
      (sumTo (stateNames t'.toTyper endo').length fun j => gy'.e i' j * byName (stateNames t'.toTyper endo') ym j) +
        sumTo exo'.length fun k => gu'.e i' k * byName exo' u k := by
    intro ym u
    obtain ⟨y, hy⟩ := policy_defined ex hn h.plain.distinct hd ym u
    rw [← followsPolicy_entry hp hn hy hi]
    exact followsPolicy_entry hp' hn' (solved_implies hex hex' ex ex' h h' pe px pq hss ym u y hy) hi'
  constructor
  · intro j j' z hj hj'
    have := both (fun w => if w = z then 1 else 0) (fun _ => 0)
    rwa [sum_pick (stateNames_nodup hp hn h.plain.distinct) _ hj,
      sum_pick (stateNames_nodup hp' hn' h'.plain.distinct) _ hj', sum_none, sum_none, add_zero, add_zero] at this
  · intro k k' z hk hk'
    have := both (fun _ => 0) (fun w => if w = z then 1 else 0)
    rwa [sum_pick h.plain.shocks _ hk, sum_pick h'.plain.shocks _ hk', sum_none, sum_none, zero_add, zero_add] at this

/-! ### C150: moments -/

/-- a process that follows the policy functions of one model follows those of the other -/
theorem process_relay {t t' : Llx} {endo exo endo' exo' : List String} (L : Layouts endo exo endo' exo' t t')
    (hp : t.drOrder.Perm (List.range t.n)) (hp' : t'.drOrder.Perm (List.range t'.n))
    {gy gu gy' gu' sigma sigma' : Arr V}
    (hco : ∀ (i i' : Nat) x, (ruleNames t.toTyper endo)[i]? = some x → (ruleNames t'.toTyper endo')[i']? = some x →
      SameByName (stateNames t.toTyper endo) (stateNames t'.toTyper endo') (gy.e i) (gy'.e i') ∧
      SameByName exo exo' (gu.e i) (gu'.e i'))
    (hsig : SameSquare exo exo' sigma sigma')
    {M : Type} [AddCommGroup M] [Module V M] {cov : M →ₗ[V] M →ₗ[V] V} {y u : Nat → Nat → M}
    (p : LinearProcess t.toTyper exo.length gy gu sigma cov y u) :
    LinearProcess t'.toTyper exo'.length gy' gu' sigma' cov (fun k c => y k (endo.idxOf (endo'[c]?.getD "")))
      (fun k l => u k (exo.idxOf (exo'[l]?.getD ""))) := by
  have hx : ∀ l < exo'.length, ∃ z, exo'[l]? = some z ∧ exo[exo.idxOf (exo'[l]?.getD "")]? = some z ∧
      exo.idxOf (exo'[l]?.getD "") < exo.length := by
    intro l hl
    have hm : exo'[l] ∈ exo := L.permx.mem_iff.mp (List.getElem_mem hl)
    rw [List.getElem?_eq_getElem hl, Option.getD_some]
    exact ⟨_, rfl, List.getElem?_idxOf hm, List.idxOf_lt_length_iff.mpr hm⟩
  refine ⟨?_, p.symm, ?_, ?_, ?_⟩
  · intro k i' c' hi'
    have hcl : c' < endo'.length := by
      rw [← L.size']; exact List.mem_range.mp (hp'.mem_iff.mp (List.mem_of_getElem? hi'))
    have hm : endo'[c'] ∈ endo := L.perm.mem_iff.mp (List.getElem_mem hcl)
    set c := endo.idxOf endo'[c'] with hc
    have hec : endo[c]? = some endo'[c'] := List.getElem?_idxOf hm
    have hcl0 : c < endo.length := List.idxOf_lt_length_iff.mpr hm
    obtain ⟨i, hi, hic⟩ := List.getElem_of_mem (hp.mem_iff.mpr (List.mem_range.mpr (by rw [L.size]; exact hcl0)))
    have hi0 : t.drOrder[i]? = some c := by rw [List.getElem?_eq_getElem hi, hic]
    obtain ⟨h1, h2⟩ := hco i i' endo'[c'] (by simp [ruleNames, hi0, hec])
      (by simp [ruleNames, hi', List.getElem?_eq_getElem hcl])
    have hpol := p.policy k i c hi0
    simp only [List.getElem?_eq_getElem hcl, Option.getD_some]
    rw [hpol]
    obtain ⟨l1, -, -⟩ := drState_length hp
    obtain ⟨l1', -, -⟩ := drState_length hp'
    congr 1
    · have e1 : t.nBackward = (stateNames t.toTyper endo).length := by simp [stateNames, l1]
      have e1' : t'.nBackward = (stateNames t'.toTyper endo').length := by simp [stateNames, l1']
      rw [e1, e1']
      refine sum_sameByName (stateNames_nodup hp L.size L.nodup) (stateNames_perm L hp hp') ?_
      intro j j' z hj hj'
      show gy.e i j • _ = gy'.e i' j' • _
      rw [h1 j j' z hj hj']
      congr 2
      have hjl : j < t.drState.length := by
        have := (List.getElem?_eq_some_iff.mp hj).1; simpa [stateNames] using this
      have hjl' : j' < t'.drState.length := by
        have := (List.getElem?_eq_some_iff.mp hj').1; simpa [stateNames] using this
      have hd : ∀ {t : Llx} {endo : List String}, t.drOrder.Perm (List.range t.n) → t.n = endo.length →
          ∀ {j : Nat} (h : j < t.drState.length), t.drState[j] < endo.length := by
        intro t endo hp hn j h
        have := (drState_perm ((C30_permutation_iff_partial t.toTyper).mp hp)).mem_iff.mp (List.getElem_mem h)
        rw [← hn]
        exact state_mem_lt _ this
      simp only [stateNames, List.getElem?_map, List.getElem?_eq_getElem hjl, Option.map_some, Option.some.injEq] at hj
      simp only [stateNames, List.getElem?_map, List.getElem?_eq_getElem hjl', Option.map_some, Option.some.injEq] at hj'
      simp only [List.getElem?_eq_getElem hjl, List.getElem?_eq_getElem hjl', Option.getD_some]
      rw [hj', ← hj, List.getElem?_eq_getElem (hd hp L.size hjl), Option.getD_some, L.nodup.idxOf_getElem]
    · refine sum_sameByName L.nodupx L.permx ?_
      intro j j' z hj hj'
      show gu.e i j • _ = gu'.e i' j' • _
      rw [h2 j j' z hj hj', hj', Option.getD_some]
      congr 2
      have hjl := (List.getElem?_eq_some_iff.mp hj)
      rw [← hjl.2, L.nodupx.idxOf_getElem]
  · intro k l hl l' hl'
    obtain ⟨z, z1, z2, z3⟩ := hx l hl
    obtain ⟨w, w1, w2, w3⟩ := hx l' hl'
    rw [p.within k _ z3 _ w3]
    exact hsig _ _ _ _ z w z2 z1 w2 w1
  · intro k k' hk l hl l' hl'
    obtain ⟨z, z1, z2, z3⟩ := hx l hl
    obtain ⟨w, w1, w2, w3⟩ := hx l' hl'
    exact p.across k k' hk _ z3 _ w3
  · intro k c l hl
    obtain ⟨z, z1, z2, z3⟩ := hx l hl
    exact p.start k _ _ z3

theorem longRun_unique {M : Type} [AddCommGroup M] [Module V M] {cov : M →ₗ[V] M →ₗ[V] V} {y : Nat → Nat → M}
    {c d : Nat} {v w : V} (h1 : LongRun cov y c d v) (h2 : LongRun cov y c d w) : v = w := by
  have : v - w = 0 := by
    refine zero_of_small fun ε hε => ?_
    obtain ⟨k1, h1⟩ := h1 (ε / 2) (by positivity)
    obtain ⟨k2, h2⟩ := h2 (ε / 2) (by positivity)
    have a := h1 (max k1 k2) (le_max_left ..)
    have b := h2 (max k1 k2) (le_max_right ..)
    rw [abs_lt] at a b ⊢
    constructor <;> linarith
  exact sub_eq_zero.mp this

/-- **C150** (partial: as C149).  If both models report a covariance matrix of their variables, with the same
covariances of the shocks, the covariance of any two variables is the same number. -/
theorem C150_moments_partial (ψ : V →+* ℝ) (hψ : Monotone ψ) (ops : Ops V) (okName okName' : String → Bool)
    (ad ad' : Autograd V) (hex : ad.Exact) (hex' : ad'.Exact) (la la' : LinAlg V) (ex : la.Exact) (ex' : la'.Exact)
    (lyap lyap' : Lyap V) (ly : LyapExact lyap) (ly' : LyapExact lyap')
    (σ : String → Option V) (endo exo endo' exo' : List String) (es es' : List (Expr V))
    (ss ss' : List V) (t t' : Llx) (J gy gu J' gy' gu' sigma sigma' C C' : Arr V) (s s' : Space V) (q q' : QZ V)
    (ev ev' : Nat → Option ℂ)
    (h : SolvedModel (Complex.ofRealHom.comp ψ) ops okName ad la σ endo exo es ss t J gy gu s q ev)
    (h' : SolvedModel (Complex.ofRealHom.comp ψ) ops okName' ad' la' σ endo' exo' es' ss' t' J' gy' gu' s' q' ev')
    (pe : endo'.Perm endo) (px : exo'.Perm exo) (pq : es'.Perm es)
    (hss : SameByName endo endo' (vecEntry ss) (vecEntry ss'))
    (hsym : ∀ i j, sigma.e i j = sigma.e j i) (hsig : SameSquare exo exo' sigma sigma')
    (hC : covArr la lyap t.toTyper s gy gu sigma = .ok C)
    (hC' : covArr la' lyap' t'.toTyper s' gy' gu' sigma' = .ok C') : SameSquare endo endo' C C' := by
  have L := layouts_of h.plain h.table h'.plain h'.table pe px pq
  obtain ⟨-, hn, pss, hl, hd⟩ := h.determinate hex
  obtain ⟨-, hn', pss', hl', hd'⟩ := h'.determinate hex'
  have hdd := (hd.det ex).1
  have hdd' := (hd'.det ex').1
  have hp := (groups hdd.cur).perm
  have hp' := (groups hdd'.cur).perm
  obtain ⟨sh, hg, -⟩ := hdd.stable hψ ex
  obtain ⟨-, -, hco⟩ := C149_coefficients_partial _ ops okName okName' ad ad' hex hex' la la' ex ex' σ endo exo endo' exo'
    es es' ss ss' t t' J gy gu J' gy' gu' s s' q q' ev ev' h h' pe px pq hss
  obtain ⟨M, _, _, cov, y, u, p, -⟩ := C62_exists (t := t.toTyper) (gy := gy) (gu := gu) (sigma := sigma) sh
    (X := ⟨0, 0, fun _ _ => 0⟩) (fun _ _ => rfl) hsym
  rw [hg] at p
  have p' := process_relay L hp hp' hco hsig p
  have m := (C146_moments_partial ψ hψ la ex lyap ly pss t exo.length J gy gu sigma C s q ev hd hC).1 p
  have m' := (C146_moments_partial ψ hψ la' ex' lyap' ly' pss' t' exo'.length J' gy' gu' sigma' C' s' q' ev' hd' hC').1 p'
  intro i i' j j' x z hx hx' hz hz'
  have il := List.getElem?_eq_some_iff.mp hx
  have jl := List.getElem?_eq_some_iff.mp hz
  have il' := List.getElem?_eq_some_iff.mp hx'
  have jl' := List.getElem?_eq_some_iff.mp hz'
  have a := m i (by rw [hl]; exact il.1) j (by rw [hl]; exact jl.1)
  have b := m' i' (by rw [hl']; exact il'.1) j' (by rw [hl']; exact jl'.1)
  refine longRun_unique a ?_
  have ei : endo.idxOf (endo'[i']?.getD "") = i := by
    rw [hx', Option.getD_some, ← il.2, h.plain.distinct.idxOf_getElem]
  have ej : endo.idxOf (endo'[j']?.getD "") = j := by
    rw [hz', Option.getD_some, ← jl.2, h.plain.distinct.idxOf_getElem]
  intro ε hε
  obtain ⟨k0, hk⟩ := b ε hε
  refine ⟨k0, fun k hkk => ?_⟩
  have := hk k hkk
  simp only [ei, ej] at this
  exact this

/-! ### C151: simulations and impulse responses -/

/-- the entries of an upper factor with a positive diagonal -/
theorem chol_step {chol : Chol V} (hch : CholUpper chol) {s u : Arr V} (h : chol s = .ok u) {i j : Nat}
    (hi : i < s.r) (hj : j < s.r) : (sumTo i fun k => u.e k i * u.e k j) + u.e i i * u.e i j = s.e i j := by
  obtain ⟨h1, h2, h3, -, -, -, h4⟩ := hch.exact s u h
  have := h4 i (by rw [show u.tr.r = u.c from rfl]; omega) j (by omega)
  rw [show u.tr.c = u.r from rfl, h1] at this
  rw [← this, sumTo_eq, sumTo_eq, ← Finset.sum_range_succ (fun k => u.e k i * u.e k j)]
  refine Finset.sum_subset (Finset.range_subset_range.mpr hi) ?_
  intro k hk hk'
  rw [Finset.mem_range] at hk hk'
  show u.e k i * u.e k j = 0
  rw [hch.upper s u h k hk i (by omega), zero_mul]

/-- the factor is determined by the entries of the matrix -/
theorem chol_unique {chol chol' : Chol V} (hch : CholUpper chol) (hch' : CholUpper chol') {s s' u u' : Arr V}
    (h : chol s = .ok u) (h' : chol' s' = .ok u') (hr : s.r = s'.r) (he : ∀ i < s.r, ∀ j < s.r, s.e i j = s'.e i j) :
    ∀ i < s.r, ∀ j < s.r, u.e i j = u'.e i j := by
  intro i
  induction i using Nat.strong_induction_on with
  | _ i ih =>
    intro hi
    have diag : u.e i i = u'.e i i := by
      have a := chol_step hch h hi hi
      have b := chol_step hch' h' (i := i) (j := i) (by omega) (by omega)
      rw [← he i hi i hi, ← a] at b
      have e : (sumTo i fun k => u'.e k i * u'.e k i) = sumTo i fun k => u.e k i * u.e k i :=
        sumTo_congr fun k hk => by rw [ih k hk (by omega) i hi]
      rw [e] at b
      have b := add_left_cancel b
      exact (mul_self_inj (hch.positive s u h i hi).le (hch'.positive s' u' h' i (by omega)).le).mp b.symm
    intro j hj
    have a := chol_step hch h hi hj
    have b := chol_step hch' h' (i := i) (j := j) (by omega) (by omega)
    rw [← he i hi j hj, ← a] at b
    have e : (sumTo i fun k => u'.e k i * u'.e k j) = sumTo i fun k => u.e k i * u.e k j :=
      sumTo_congr fun k hk => by rw [ih k hk (by omega) i hi, ih k hk (by omega) j hj]
    rw [e, ← diag] at b
    exact (mul_left_cancel₀ (hch.positive s u h i hi).ne' (add_left_cancel b)).symm

/-- the factor for uncorrelated shocks -/
theorem chol_diagonal {chol : Chol V} (hch : CholUpper chol) {s u : Arr V} (h : chol s = .ok u)
    (hun : Uncorrelated s) : ∀ i < s.r, u.e i i * u.e i i = s.e i i ∧ ∀ j < s.r, i ≠ j → u.e i j = 0 := by
  intro i
  induction i using Nat.strong_induction_on with
  | _ i ih =>
    intro hi
    have hz : ∀ j < s.r, (sumTo i fun k => u.e k i * u.e k j) = 0 := by
      intro j _
      rw [sumTo_eq]
      exact Finset.sum_eq_zero fun k hk => by
        rw [(ih k (Finset.mem_range.mp hk) (by have := Finset.mem_range.mp hk; omega)).2 i hi
          (by have := Finset.mem_range.mp hk; omega), zero_mul]
    constructor
    · have := chol_step hch h hi hi
      rwa [hz i hi, zero_add] at this
    · intro j hj hij
      have := chol_step hch h hi hj
      rw [hz j hj, zero_add, hun i hi j hj hij] at this
      exact (mul_eq_zero.mp this).resolve_left (hch.positive s u h i hi).ne'

/-- the same shocks, after they have been made correlated -/
theorem shocks_relay {chol chol' : Chol V} (hch : CholUpper chol) (hch' : CholUpper chol') {exo exo' : List String}
    (hd : exo.Nodup) (px : exo'.Perm exo) {sigma sigma' given given' shocks shocks' : Arr V}
    (hr : sigma.r = exo.length) (hr' : sigma'.r = exo'.length) (hsig : SameSquare exo exo' sigma sigma')
    (hor : exo' = exo ∨ Uncorrelated sigma) (h : simulShocks chol sigma given = .ok shocks)
    (h' : simulShocks chol' sigma' given' = .ok shocks')
    (hg : ∀ k, SameByName exo exo' (given.e k) (given'.e k)) :
    shocks.r = given.r ∧ shocks.c = exo.length ∧ shocks'.r = given'.r ∧ shocks'.c = exo'.length ∧
      ∀ k, SameByName exo exo' (shocks.e k) (shocks'.e k) := by
  unfold simulShocks at h h'
  obtain ⟨u, hu, h⟩ := Except.bind_eq_ok h
  obtain ⟨u', hu', h'⟩ := Except.bind_eq_ok h'
  obtain ⟨d1, d2, d3, d4⟩ := dot_entry h
  obtain ⟨d1', d2', d3', d4'⟩ := dot_entry h'
  obtain ⟨e1, e2, -⟩ := hch.exact _ _ hu
  obtain ⟨e1', e2', -⟩ := hch'.exact _ _ hu'
  have hlen := px.length_eq
  refine ⟨d2, by omega, d2', by omega, ?_⟩
  intro k j j' x hj hj'
  have hjl := (List.getElem?_eq_some_iff.mp hj).1
  have hjl' := (List.getElem?_eq_some_iff.mp hj').1
  rw [d4, d4', d1, d1', e1, e1', hr, hr']
  rcases hor with rfl | hun
  · have hjj := Layouts.nodup_get hd hj hj'
    subst hjj
    refine sumTo_congr fun l hl => ?_
    have hl' := List.getElem?_eq_getElem hl
    rw [hg k l l _ hl' hl', chol_unique hch hch' hu hu' (by omega) (fun a ha b hb => hsig a a b b _ _
      (List.getElem?_eq_getElem (by omega)) (List.getElem?_eq_getElem (by omega))
      (List.getElem?_eq_getElem (by omega)) (List.getElem?_eq_getElem (by omega))) l (by omega) j (by omega)]
  · have hun' : Uncorrelated sigma' := by
      intro a ha b hb hab
      obtain ⟨a0, ha0⟩ := List.getElem?_of_mem (px.mem_iff.mp (List.getElem_mem (l := exo') (n := a) (by omega)))
      obtain ⟨b0, hb0⟩ := List.getElem?_of_mem (px.mem_iff.mp (List.getElem_mem (l := exo') (n := b) (by omega)))
      rw [← hsig a0 a b0 b _ _ ha0 (List.getElem?_eq_getElem (by omega)) hb0 (List.getElem?_eq_getElem (by omega))]
      refine hun a0 (by have := (List.getElem?_eq_some_iff.mp ha0).1; omega) b0
        (by have := (List.getElem?_eq_some_iff.mp hb0).1; omega) ?_
      rintro rfl
      rw [ha0] at hb0
      exact hab (Layouts.nodup_get (px.symm.nodup hd) (List.getElem?_eq_getElem (by omega))
        (by rw [List.getElem?_eq_getElem (by omega : b < exo'.length), Option.some.inj hb0]))
    have one : ∀ {chol : Chol V}, CholUpper chol → ∀ {s u : Arr V} {n : Nat}, chol s = .ok u → Uncorrelated s → s.r = n →
        ∀ (g : Nat → V), ∀ j < n, (sumTo n fun l => g l * u.e l j) = g j * u.e j j := by
      intro chol hch s u n hu hun hn g j hj
      rw [sumTo_eq, Finset.sum_eq_single j]
      · intro l hl hlj
        rw [(chol_diagonal hch hu hun l (by have := Finset.mem_range.mp hl; omega)).2 j (by omega) hlj, mul_zero]
      · intro hh; exact absurd (Finset.mem_range.mpr hj) hh
    rw [one hch hu hun hr (given.e k) j hjl, one hch' hu' hun' hr' (given'.e k) j' hjl', hg k j j' x hj hj']
    congr 1
    have a := (chol_diagonal hch hu hun j (by omega)).1
    have b := (chol_diagonal hch' hu' hun' j' (by omega)).1
    rw [← hsig j j' j j' x x hj hj' hj hj', ← a] at b
    exact (mul_self_inj (hch.positive _ _ hu j (by omega)).le (hch'.positive _ _ hu' j' (by omega)).le).mp b.symm

/-- two paths that follow the policy functions from the same values agree -/
theorem followsPolicy_fun {t : Typer} (hp : t.drOrder.Perm (List.range t.n)) {m : Nat} {gy gu : Arr V}
    {ym u y y' : Nat → V} (h : FollowsPolicy t m gy gu ym u y) (h' : FollowsPolicy t m gy gu ym u y') :
    ∀ c < t.n, y c = y' c := by
  intro c hc
  obtain ⟨i, hi, hic⟩ := List.getElem_of_mem (hp.mem_iff.mpr (List.mem_range.mpr hc))
  have hi0 : t.drOrder[i]? = some c := by rw [List.getElem?_eq_getElem hi, hic]
  rw [h i c hi0, h' i c hi0]

/-- simulations of the two models with the same shocks -/
theorem paths_relay {φ : V →+* ℂ} {ops : Ops V} {okName okName' : String → Bool} {ad ad' : Autograd V}
    (hex : ad.Exact) (hex' : ad'.Exact) {la la' : LinAlg V} (ex : la.Exact) (ex' : la'.Exact)
    {σ : String → Option V} {endo exo endo' exo' : List String} {es es' : List (Expr V)}
    {ss ss' : List V} {t t' : Llx} {J gy gu J' gy' gu' : Arr V} {s s' : Space V} {q q' : QZ V}
    {ev ev' : Nat → Option ℂ}
    (h : SolvedModel φ ops okName ad la σ endo exo es ss t J gy gu s q ev)
    (h' : SolvedModel φ ops okName' ad' la' σ endo' exo' es' ss' t' J' gy' gu' s' q' ev')
    (pe : endo'.Perm endo) (px : exo'.Perm exo) (pq : es'.Perm es)
    (hss : SameByName endo endo' (vecEntry ss) (vecEntry ss')) (hl : ss.length = endo.length)
    (hl' : ss'.length = endo'.length) {shocks shocks' p p' : Arr V} {init init' : List V}
    (hp : simulateFirst t.toTyper gy gu ss shocks init = .ok p)
    (hp' : simulateFirst t'.toTyper gy' gu' ss' shocks' init' = .ok p')
    (hc : shocks.c = exo.length) (hc' : shocks'.c = exo'.length) (hr : shocks.r = shocks'.r)
    (hsh : ∀ k, SameByName exo exo' (shocks.e k) (shocks'.e k))
    (hi : SameByName endo endo' (vecEntry init) (vecEntry init')) :
    p.r = shocks.r ∧ p'.r = shocks.r ∧ ∀ k < shocks.r, SameByName endo endo' (p.e k) (p'.e k) := by
  obtain ⟨-, hn, pss, -, hd⟩ := h.determinate hex
  obtain ⟨-, hn', pss', -, hd'⟩ := h'.determinate hex'
  have hdd := (hd.det ex).1
  have hdd' := (hd'.det ex').1
  obtain ⟨r1, f1⟩ := simulated_follows ex hdd hc hp
  obtain ⟨r1', f1'⟩ := simulated_follows ex' hdd' hc' hp'
  have pp := (groups hdd.cur).perm
  have pp' := (groups hdd'.cur).perm
  have z := (C49_first_row _ _ _ _ _ _ _ hp).2.2
  have z' := (C49_first_row _ _ _ _ _ _ _ hp').2.2
  refine ⟨r1, by omega, ?_⟩
  have key : ∀ k < shocks.r, SameByName endo endo' (dev ss p k) (dev ss' p' k) := by
    intro k
    induction k with
    | zero =>
      intro _ c c' x hcx hcx'
      have a := z c (by rw [hl]; exact (List.getElem?_eq_some_iff.mp hcx).1)
      have b := z' c' (by rw [hl']; exact (List.getElem?_eq_some_iff.mp hcx').1)
      have e := hi c c' x hcx hcx'
      unfold vecEntry at e
      rw [a, b] at e
      have e2 := hss c c' x hcx hcx'
      unfold vecEntry at e2
      unfold dev
      rw [e2]
      simp only [Option.getD_some] at e
      rw [e]
    | succ k ih =>
      intro hk
      have ih := ih (by omega)
      let N : Nat → String → V := fun k x => dev ss p k (endo.idxOf x)
      let U : String → V := fun x => shocks.e k (exo.idxOf x)
      have back : ∀ {l : List String} (w : Nat → V), l.Nodup → ∀ c < l.length,
          w c = byName l (fun x => w (l.idxOf x)) c := by
        intro l w hl c hc
        rw [byName_get (List.getElem?_eq_getElem hc), hl.idxOf_getElem]
      have g := followsPolicy_congr pp (f1 k (by omega)) (ym' := byName endo (N k)) (u' := byName exo U)
        (y' := byName endo (N (k + 1))) (fun c hc => back _ h.plain.distinct c (by omega))
        (fun j hj => back _ h.plain.shocks j hj) (fun c hc => back _ h.plain.distinct c (by omega))
      have g' := solved_implies hex hex' ex ex' h h' pe px pq hss (N k) U (N (k + 1)) g
      have read : ∀ {l l' : List String} (w w' : Nat → V), l'.Perm l → SameByName l l' w w' → ∀ c < l'.length,
          byName l' (fun x => w (l.idxOf x)) c = w' c := by
        intro l l' w w' p hw c hc
        rw [byName_get (List.getElem?_eq_getElem hc)]
        exact hw _ c _ (List.getElem?_idxOf (p.mem_iff.mp (List.getElem_mem hc))) (List.getElem?_eq_getElem hc)
      have g2 := followsPolicy_congr pp' g' (ym' := dev ss' p' k) (u' := fun j => shocks'.e k j)
        (y' := byName endo' (N (k + 1))) (fun c hc => read _ _ pe ih c (by omega))
        (fun j hj => read _ _ px (hsh k) j hj) (fun _ _ => rfl)
      have e := followsPolicy_fun pp' g2 (f1' k (by omega))
      intro c c' x hcx hcx'
      have a := e c' (by rw [hn']; exact (List.getElem?_eq_some_iff.mp hcx').1)
      rw [byName_get hcx'] at a
      rw [← a]
      show _ = dev ss p (k + 1) (endo.idxOf x)
      obtain ⟨w1, w2⟩ := List.getElem?_eq_some_iff.mp hcx
      rw [← w2, h.plain.distinct.idxOf_getElem]
  intro k hk c c' x hcx hcx'
  have a := key k hk c c' x hcx hcx'
  have e2 := hss c c' x hcx hcx'
  unfold vecEntry at e2
  unfold dev at a
  rw [e2] at a
  exact sub_left_injective a

/-- **C151, partially**: a simulation does not depend on the order in which the variables, the shocks and the
equations are written: given the same starting values and the same draws for every shock, two versions of a
model that are checked and have no unit root return the same path for every variable, provided that the
shocks are uncorrelated or are listed in the same order.  Partial: to first order, and with exact arithmetic
(`SolvedModel` and the exactness of the routines of linear algebra). -/
theorem C151_simulation_partial (φ : V →+* ℂ) (ops : Ops V) (okName okName' : String → Bool)
    (ad ad' : Autograd V) (hex : ad.Exact) (hex' : ad'.Exact) (la la' : LinAlg V) (ex : la.Exact) (ex' : la'.Exact)
    (chol chol' : Chol V) (hch : CholUpper chol) (hch' : CholUpper chol') (half half' : V)
    (σ : String → Option V) (endo exo endo' exo' : List String) (es es' : List (Expr V))
    (ss ss' : List V) (t t' : Llx) (J gy gu J' gy' gu' : Arr V) (s s' : Space V) (q q' : QZ V)
    (ev ev' : Nat → Option ℂ)
    (h : SolvedModel φ ops okName ad la σ endo exo es ss t J gy gu s q ev)
    (h' : SolvedModel φ ops okName' ad' la' σ endo' exo' es' ss' t' J' gy' gu' s' q' ev')
    (pe : endo'.Perm endo) (px : exo'.Perm exo) (pq : es'.Perm es)
    (hss : SameByName endo endo' (vecEntry ss) (vecEntry ss')) (hl : ss.length = endo.length)
    (hl' : ss'.length = endo'.length) (sigma sigma' given given' p p' : Arr V) (init init' : Option (List V))
    (hr : sigma.r = exo.length) (hr' : sigma'.r = exo'.length) (hsig : SameSquare exo exo' sigma sigma')
    (hor : exo' = exo ∨ Uncorrelated sigma) (hg : ∀ k, SameByName exo exo' (given.e k) (given'.e k))
    (hgr : given.r = given'.r)
    (hi : SameByName endo endo' (vecEntry (init.getD ss)) (vecEntry (init'.getD ss')))
    (hp : simulate chol half t.toTyper (.first gy gu) ss sigma given init = .ok p)
    (hp' : simulate chol' half' t'.toTyper (.first gy' gu') ss' sigma' given' init' = .ok p') :
    p.r = given.r ∧ p'.r = given.r ∧ ∀ k < given.r, SameByName endo endo' (p.e k) (p'.e k) := by
  unfold simulate at hp hp'
  obtain ⟨shocks, hs, hp⟩ := Except.bind_eq_ok hp
  obtain ⟨shocks', hs', hp'⟩ := Except.bind_eq_ok hp'
  obtain ⟨a1, a2, a3, a4, a5⟩ := shocks_relay hch hch' h.plain.shocks px hr hr' hsig hor hs hs' hg
  have := paths_relay hex hex' ex ex' h h' pe px pq hss hl hl' hp hp' a2 a4 (by omega) a5 hi
  rwa [a1] at this

/-- **C151, partially**: nor do the responses to a shock, under the same conditions. -/
theorem C151_impulse_partial (φ : V →+* ℂ) (ops : Ops V) (okName okName' : String → Bool)
    (ad ad' : Autograd V) (hex : ad.Exact) (hex' : ad'.Exact) (la la' : LinAlg V) (ex : la.Exact) (ex' : la'.Exact)
    (chol chol' : Chol V) (hch : CholUpper chol) (hch' : CholUpper chol') (half half' : V)
    (σ : String → Option V) (endo exo endo' exo' : List String) (es es' : List (Expr V))
    (ss ss' : List V) (t t' : Llx) (J gy gu J' gy' gu' : Arr V) (s s' : Space V) (q q' : QZ V)
    (ev ev' : Nat → Option ℂ)
    (h : SolvedModel φ ops okName ad la σ endo exo es ss t J gy gu s q ev)
    (h' : SolvedModel φ ops okName' ad' la' σ endo' exo' es' ss' t' J' gy' gu' s' q' ev')
    (pe : endo'.Perm endo) (px : exo'.Perm exo) (pq : es'.Perm es)
    (hss : SameByName endo endo' (vecEntry ss) (vecEntry ss')) (hl : ss.length = endo.length)
    (hl' : ss'.length = endo'.length) (sigma sigma' p p' : Arr V) (periods idx idx' : Nat) (size : V) (x : String)
    (hr : sigma.r = exo.length) (hr' : sigma'.r = exo'.length) (hsig : SameSquare exo exo' sigma sigma')
    (hor : exo' = exo ∨ Uncorrelated sigma) (hx : exo[idx]? = some x) (hx' : exo'[idx']? = some x)
    (hp : impulseResponse chol half t.toTyper (.first gy gu) ss sigma periods idx size = .ok p)
    (hp' : impulseResponse chol' half' t'.toTyper (.first gy' gu') ss' sigma' periods idx' size = .ok p') :
    p.r = periods ∧ p'.r = periods ∧ ∀ k < periods, SameByName endo endo' (p.e k) (p'.e k) := by
  unfold impulseResponse at hp hp'
  obtain ⟨given, hg, hp⟩ := Except.bind_eq_ok hp
  obtain ⟨given', hg', hp'⟩ := Except.bind_eq_ok hp'
  obtain ⟨r, hs, hpr⟩ := Except.bind_eq_ok hp
  obtain ⟨r', hs', hpr'⟩ := Except.bind_eq_ok hp'
  have shape : ∀ {n i : Nat} {g : Arr V}, impulseShocks periods n i size = .ok g →
      g = ⟨periods, n, fun k j => if k = 0 ∧ j = i then size else 0⟩ := by
    intro n i g hg
    unfold impulseShocks at hg
    split at hg
    · cases hg
    · exact (Except.ok.inj hg).symm
  have hg := shape hg
  have hg' := shape hg'
  subst hg hg'
  have hd' := px.symm.nodup h.plain.shocks
  obtain ⟨b1, b2, b3⟩ := C151_simulation_partial φ ops okName okName' ad ad' hex hex' la la' ex ex' chol chol' hch hch' half half'
    σ endo exo endo' exo' es es' ss ss' t t' J gy gu J' gy' gu' s s' q q' ev ev' h h' pe px pq hss hl hl' sigma sigma'
    ⟨periods, sigma.r, fun k j => if k = 0 ∧ j = idx then size else 0⟩
    ⟨periods, sigma'.r, fun k j => if k = 0 ∧ j = idx' then size else 0⟩ r r' none none hr hr' hsig hor (by
      intro k j j' y hy hy'
      show (if k = 0 ∧ j = idx then size else 0) = if k = 0 ∧ j' = idx' then size else 0
      have : j = idx ↔ j' = idx' := by
        constructor
        · rintro rfl
          rw [hx] at hy
          rw [Option.some.inj hy] at hx'
          exact Layouts.nodup_get hd' hy' hx'
        · rintro rfl
          rw [hx'] at hy'
          rw [Option.some.inj hy'] at hx
          exact Layouts.nodup_get h.plain.shocks hy hx
      simp only [this]) rfl hss hs hs'
  obtain rfl := Except.ok.inj hpr
  obtain rfl := Except.ok.inj hpr'
  refine ⟨b1, b2, ?_⟩
  intro k hk c c' y hc hc'
  show r.e k c - vecEntry ss c = r'.e k c' - vecEntry ss' c'
  rw [b3 k hk c c' y hc hc', hss c c' y hc hc']

/-! ### examples -/

/-- is `u` the upper factor of `s`? -/
def cholB (u s : Arr ℚ) : Bool :=
  decide (u.r = s.r ∧ u.c = s.r ∧ s.c = s.r) && (List.range s.r).all fun i => decide (0 < u.e i i) &&
    (List.range s.r).all fun j => decide (j < i → u.e i j = 0) &&
      decide ((sumTo s.r fun k => u.e k i * u.e k j) = s.e i j)

/-- the factor of a matrix, if it is in a list -/
def listChol (us : List (Arr ℚ)) : Chol ℚ := fun s => match us.find? (cholB · s) with
  | some u => .ok u
  | none => .error .valueError

theorem listChol_upper (us : List (Arr ℚ)) : CholUpper (listChol us) := by
  have key : ∀ s u, listChol us s = .ok u → (u.r = s.r ∧ u.c = s.r ∧ s.c = s.r) ∧ ∀ i < s.r, 0 < u.e i i ∧
      ∀ j < s.r, (j < i → u.e i j = 0) ∧ (sumTo s.r fun k => u.e k i * u.e k j) = s.e i j := by
    intro s u h
    unfold listChol at h
    split at h
    · rename_i v hv
      obtain rfl := Except.ok.inj h
      have := List.find?_some hv
      simp only [cholB, Bool.and_eq_true, decide_eq_true_eq, List.all_eq_true, List.mem_range] at this
      exact this
    · cases h
  refine ⟨?_, ?_, ?_⟩
  · intro s u h
    obtain ⟨⟨h1, h2, h3⟩, h4⟩ := key s u h
    refine ⟨h1, h2, h3, rfl, by show s.r = u.c; omega, by omega, ?_⟩
    intro i hi j hj
    have hi : i < u.c := hi
    show (sumTo u.r fun k => u.e k i * u.e k j) = _
    rw [h1]
    exact ((h4 i (by omega)).2 j (by omega)).2
  · intro s u h i hi j hj
    exact (((key s u h).2 i hi).2 j (by omega)).1 hj
  · intro s u h i hi
    exact ((key s u h).2 i hi).1

/-- the model of the example in its two orders meets the hypotheses of C149 and C150 -/
example : ∃ (s s' : Space ℚ) (gy gu gy' gu' C C' : Arr ℚ),
    SolvedModel (Complex.ofRealHom.comp (Rat.castHom ℝ)) ratOps (fun _ => true) idealAd (sbLa (1/2) 2) odσ ["z", "x", "w"]
      ["e", "f"] [odW, odX, odZ] [0, 0, 0] exT (rowsArr 7 odRows) gy gu s (sbQz (1/2) 2) (sbEv (1/2) 2) ∧
    SolvedModel (Complex.ofRealHom.comp (Rat.castHom ℝ)) ratOps (fun _ => true) idealAd (ratLa 1 odQz') odσ ["x", "z", "w"]
      ["f", "e"] [odW, odZ, odX] [0, 0, 0] odT' (rowsArr 7 odRows') gy' gu' s' odQz' (sbEv (1/2) 2) ∧
    ["x", "z", "w"].Perm ["z", "x", "w"] ∧ ["f", "e"].Perm ["e", "f"] ∧ [odW, odZ, odX].Perm [odW, odX, odZ] ∧
    covArr (sbLa (1/2) 2) (ratLyap [listArr [[4/3 * 17]] 1]) exT.toTyper s gy gu (listArr [[1, 0], [0, 4]] 2) = .ok C ∧
    covArr (ratLa 1 odQz') (ratLyap [listArr [[4/3 * 17]] 1]) odT'.toTyper s' gy' gu' (listArr [[4, 0], [0, 1]] 2) = .ok C' ∧
    C.e 1 1 = 4/3 * 17 ∧ C'.e 0 0 = 4/3 * 17 := by
  obtain ⟨s, gy, gu, h, -⟩ := od_solved
  obtain ⟨s', gy', gu', h', -⟩ := od_solved'
  have hφ : Complex.ofRealHom.comp (Rat.castHom ℝ) = Rat.castHom ℂ := RingHom.ext_rat _ _
  obtain ⟨r, hr, c⟩ := ok_of_check (x := Space.create (sbLa (1/2) 2) exT.toTyper (rowsArr 7 odRows))
    (p := fun s => okAnd (solveFirstOrder (sbLa (1/2) 2) exT 2 s) fun g =>
      okAnd (covArr (sbLa (1/2) 2) (ratLyap [listArr [[4/3 * 17]] 1]) exT.toTyper s g.1 g.2 (listArr [[1, 0], [0, 4]] 2)) fun C =>
        decide (C.e 1 1 = 4/3 * 17)) (by decide +kernel)
  obtain ⟨r', hr', c'⟩ := ok_of_check (x := Space.create (ratLa 1 odQz') odT'.toTyper (rowsArr 7 odRows'))
    (p := fun s => okAnd (solveFirstOrder (ratLa 1 odQz') odT' 2 s) fun g =>
      okAnd (covArr (ratLa 1 odQz') (ratLyap [listArr [[4/3 * 17]] 1]) odT'.toTyper s g.1 g.2 (listArr [[4, 0], [0, 1]] 2)) fun C =>
        decide (C.e 0 0 = 4/3 * 17)) (by decide +kernel)
  rw [h.space] at hr
  rw [h'.space] at hr'
  obtain rfl := Except.ok.inj hr
  obtain rfl := Except.ok.inj hr'
  obtain ⟨g, hg, c⟩ := ok_of_check c
  obtain ⟨g', hg', c'⟩ := ok_of_check c'
  obtain rfl := Except.ok.inj (h.solved.symm.trans hg)
  obtain rfl := Except.ok.inj (h'.solved.symm.trans hg')
  obtain ⟨C, hC, c⟩ := ok_of_check c
  obtain ⟨C', hC', c'⟩ := ok_of_check c'
  exact ⟨s, s', gy, gu, gy', gu', C, C', hφ ▸ h, hφ ▸ h', od_perm.1, od_perm.2.1, od_perm.2.2, hC, hC',
    of_decide_eq_true c, of_decide_eq_true c'⟩

/-- the responses of the example to the shock `f`, in the two orders -/
theorem od_impulse (us : List (Arr ℚ)) (sigma sigma' : Arr ℚ) (v v' : ℚ)
    (c : okAnd (Space.create (sbLa (1/2) 2) exT.toTyper (rowsArr 7 odRows)) (fun s =>
      okAnd (solveFirstOrder (sbLa (1/2) 2) exT 2 s) fun g =>
      okAnd (impulseResponse (listChol us) (1/2) exT.toTyper (.first g.1 g.2) [0, 0, 0] sigma 2 1 1) fun p =>
        decide (p.e 1 1 = v)) = true)
    (c' : okAnd (Space.create (ratLa 1 odQz') odT'.toTyper (rowsArr 7 odRows')) (fun s =>
      okAnd (solveFirstOrder (ratLa 1 odQz') odT' 2 s) fun g =>
      okAnd (impulseResponse (listChol us) (1/2) odT'.toTyper (.first g.1 g.2) [0, 0, 0] sigma' 2 0 1) fun p =>
        decide (p.e 1 0 = v')) = true) :
    ∃ (s s' : Space ℚ) (gy gu gy' gu' p p' : Arr ℚ),
    SolvedModel (Rat.castHom ℂ) ratOps (fun _ => true) idealAd (sbLa (1/2) 2) odσ ["z", "x", "w"]
      ["e", "f"] [odW, odX, odZ] [0, 0, 0] exT (rowsArr 7 odRows) gy gu s (sbQz (1/2) 2) (sbEv (1/2) 2) ∧
    SolvedModel (Rat.castHom ℂ) ratOps (fun _ => true) idealAd (ratLa 1 odQz') odσ ["x", "z", "w"]
      ["f", "e"] [odW, odZ, odX] [0, 0, 0] odT' (rowsArr 7 odRows') gy' gu' s' odQz' (sbEv (1/2) 2) ∧
    impulseResponse (listChol us) (1/2) exT.toTyper (.first gy gu) [0, 0, 0] sigma 2 1 1 = .ok p ∧
    impulseResponse (listChol us) (1/2) odT'.toTyper (.first gy' gu') [0, 0, 0] sigma' 2 0 1 = .ok p' ∧
    p.e 1 1 = v ∧ p'.e 1 0 = v' := by
  obtain ⟨s, gy, gu, h, -⟩ := od_solved
  obtain ⟨s', gy', gu', h', -⟩ := od_solved'
  obtain ⟨r, hr, c⟩ := ok_of_check c
  obtain ⟨r', hr', c'⟩ := ok_of_check c'
  rw [h.space] at hr
  rw [h'.space] at hr'
  obtain rfl := Except.ok.inj hr
  obtain rfl := Except.ok.inj hr'
  obtain ⟨g, hg, c⟩ := ok_of_check c
  obtain ⟨g', hg', c'⟩ := ok_of_check c'
  obtain rfl := Except.ok.inj (h.solved.symm.trans hg)
  obtain rfl := Except.ok.inj (h'.solved.symm.trans hg')
  obtain ⟨p, hp, c⟩ := ok_of_check c
  obtain ⟨p', hp', c'⟩ := ok_of_check c'
  exact ⟨s, s', gy, gu, gy', gu', p, p', h, h', hp, hp', of_decide_eq_true c, of_decide_eq_true c'⟩

/-- with uncorrelated shocks the two responses of the example agree -/
example := od_impulse [listArr [[1, 0], [0, 3]] 2, listArr [[3, 0], [0, 1]] 2] (listArr [[1, 0], [0, 9]] 2)
  (listArr [[9, 0], [0, 1]] 2) 6 6 (by decide +kernel) (by decide +kernel)

/-- **C151 is false for correlated shocks**: the responses to a shock depend on the order in which the shocks
are declared.  Two shocks with variance one and covariance 3/5: the response of `x` to `f` is 8/5 when `f` is
declared second and 13/5 when it is declared first. -/
theorem C151_false : ∃ (la la' : LinAlg ℚ) (chol : Chol ℚ) (σ : String → Option ℚ) (endo exo endo' exo' : List String)
    (es es' : List (Expr ℚ)) (ss : List ℚ) (t t' : Llx) (J gy gu J' gy' gu' sigma p p' : Arr ℚ) (s s' : Space ℚ)
    (q q' : QZ ℚ) (ev ev' : Nat → Option ℂ) (x : String) (k k' i i' : Nat),
    la.Exact ∧ la'.Exact ∧ CholUpper chol ∧ endo'.Perm endo ∧ exo'.Perm exo ∧ es'.Perm es ∧
    SolvedModel (Rat.castHom ℂ) ratOps (fun _ => true) idealAd la σ endo exo es ss t J gy gu s q ev ∧
    SolvedModel (Rat.castHom ℂ) ratOps (fun _ => true) idealAd la' σ endo' exo' es' ss t' J' gy' gu' s' q' ev' ∧
    SameByName endo endo' (vecEntry ss) (vecEntry ss) ∧ SameSquare exo exo' sigma sigma ∧
    exo[k]? = some x ∧ exo'[k']? = some x ∧ endo[i]? = endo'[i']? ∧ (endo[i]?).isSome ∧
    impulseResponse chol (1/2) t.toTyper (.first gy gu) ss sigma 2 k 1 = .ok p ∧
    impulseResponse chol (1/2) t'.toTyper (.first gy' gu') ss sigma 2 k' 1 = .ok p' ∧
    p.e 1 i = 8/5 ∧ p'.e 1 i' = 13/5 := by
  obtain ⟨s, s', gy, gu, gy', gu', p, p', h, h', hp, hp', v, v'⟩ := od_impulse [listArr [[1, 3/5], [0, 4/5]] 2]
    (listArr [[1, 3/5], [3/5, 1]] 2) (listArr [[1, 3/5], [3/5, 1]] 2) (8/5) (13/5) (by decide +kernel) (by decide +kernel)
  refine ⟨_, _, _, _, _, _, _, _, _, _, _, _, _, _, _, _, _, _, _, _, p, p', s, s', _, _, _, _, "f", 1, 0, 1, 0,
    ratLa_exact _ _, ratLa_exact _ _, listChol_upper _, od_perm.1, od_perm.2.1, od_perm.2.2, h, h', ?_, ?_,
    rfl, rfl, rfl, rfl, hp, hp', v, v'⟩
  · intro i i' x hi hi'
    have a := (List.getElem?_eq_some_iff.mp hi).1
    have b := (List.getElem?_eq_some_iff.mp hi').1
    have a : i < 3 := a
    have b : i' < 3 := b
    interval_cases i <;> interval_cases i' <;> rfl
  · intro i i' j j' x y hi hi' hj hj'
    have a := (List.getElem?_eq_some_iff.mp hi).1
    have b := (List.getElem?_eq_some_iff.mp hi').1
    have c := (List.getElem?_eq_some_iff.mp hj).1
    have d := (List.getElem?_eq_some_iff.mp hj').1
    have a : i < 2 := a
    have b : i' < 2 := b
    have c : j < 2 := c
    have d : j' < 2 := d
    rw [← hi'] at hi
    rw [← hj'] at hj
    interval_cases i <;> interval_cases i' <;> interval_cases j <;> interval_cases j' <;>
      first | rfl | exact absurd hi (by decide) | exact absurd hj (by decide)

#print axioms C149_policy_partial
#print axioms C149_coefficients_partial
#print axioms C150_moments_partial
#print axioms C151_simulation_partial
#print axioms C151_impulse_partial
#print axioms C151_false

end Pynare
