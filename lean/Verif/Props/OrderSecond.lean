import Verif.Lemmas.OrderSecond
import Verif.Props.Order
import Verif.Props.SecondUnique
import Verif.Props.StabilitySecond
import Verif.Examples.OrderSecond
/-!
# Second-order solutions and the order in which a model is written (C154)
-/

namespace Pynare

variable {V : Type} [Field V] [LinearOrder V] [IsStrictOrderedRing V]

set_option linter.unusedSectionVars false

/-- numbers in the order of one list, in the order of another -/
def reorder (names names' : List String) (a : Nat → V) : Nat → V := byName names' fun x => a (names.idxOf x)

theorem reorder_self {names : List String} (h : names.Nodup) (a : Nat → V) {c : Nat} (hc : c < names.length) :
    reorder names names a c = a c := by
  unfold reorder
  rw [byName_get (List.getElem?_eq_getElem hc), h.idxOf_getElem]

theorem reorder_back {names names' : List String} (h : names.Nodup) (p : names'.Perm names) (a : Nat → V) {c : Nat}
    (hc : c < names.length) : reorder names' names (reorder names names' a) c = a c := by
  unfold reorder
  have hm : names[c] ∈ names' := p.mem_iff.mpr (List.getElem_mem hc)
  rw [byName_get (List.getElem?_eq_getElem hc), byName_get (List.getElem?_idxOf hm), h.idxOf_getElem]

theorem reorder_byName {names names' : List String} (p : names'.Perm names) (a : String → V) {c : Nat}
    (hc : c < names'.length) : reorder names names' (byName names a) c = byName names' a c := by
  unfold reorder
  have hm : names'[c] ∈ names := p.mem_iff.mp (List.getElem_mem hc)
  rw [byName_get (List.getElem?_eq_getElem hc), byName_get (List.getElem?_eq_getElem hc),
    byName_get (List.getElem?_idxOf hm)]

/-- two first-order solutions that are the same by name -/
structure OnePolicy (endo exo endo' exo' : List String) (t t' : Llx) (gy gu gy' gu' : Arr V) : Prop where
  size : t.n = endo.length
  size' : t'.n = endo'.length
  nodup : endo.Nodup
  nodupx : exo.Nodup
  permNames : endo'.Perm endo
  permShocks : exo'.Perm exo
  perm : t.drOrder.Perm (List.range t.n)
  perm' : t'.drOrder.Perm (List.range t'.n)
  policy : ∀ ym u y : String → V,
    FollowsPolicy t.toTyper exo.length gy gu (byName endo ym) (byName exo u) (byName endo y) ↔
      FollowsPolicy t'.toTyper exo'.length gy' gu' (byName endo' ym) (byName exo' u) (byName endo' y)

/-- a direction in the other order -/
def Around.reorder (endo exo endo' exo' : List String) (a : Around V) : Around V :=
  ⟨Pynare.reorder endo endo' a.before, Pynare.reorder endo endo' a.now, Pynare.reorder endo endo' a.after,
    Pynare.reorder exo exo' a.shock⟩

/-- a function of the variables and the shocks in the other order -/
def reorderFun (endo exo endo' exo' : List String) (F' : (Nat → V) → (Nat → V) → Nat → V) :
    (Nat → V) → (Nat → V) → Nat → V := fun ym u =>
  reorder endo' endo (F' (reorder endo endo' ym) (reorder exo exo' u))

namespace OnePolicy
variable {φ : V →+* ℂ} {half : V} {endo exo endo' exo' : List String} {t t' : Llx}
    {J H gy gu J' H' gy' gu' : Arr V}

/-- a policy in the other order -/
theorem follows (P : OnePolicy endo exo endo' exo' t t' gy gu gy' gu')
    {ym u y : Nat → V} (h : FollowsPolicy t.toTyper exo.length gy gu ym u y) :
    FollowsPolicy t'.toTyper exo'.length gy' gu' (reorder endo endo' ym) (reorder exo exo' u) (reorder endo endo' y) := by
  have e := P.size
  exact (P.policy (fun x => ym (endo.idxOf x)) (fun x => u (exo.idxOf x)) (fun x => y (endo.idxOf x))).mp
    (followsPolicy_congr P.perm h (fun c hc => (reorder_self P.nodup ym (by omega)).symm)
      (fun k hk => (reorder_self P.nodupx u hk).symm)
      (fun c hc => (reorder_self P.nodup y (by omega)).symm))

/-- a sum over the states, in the other order -/
theorem respond (P : OnePolicy endo exo endo' exo' t t' gy gu gy' gu')
    {w r r' e : Nat → V} (hr : ∀ c < t'.n, reorder endo endo' r c = r' c)
    (h : ∀ (i c : Nat), t.drOrder[i]? = some c →
      e c = (sumTo t.nBackward fun b => gy.e i b * stateVals t.toTyper w b) + r c) :
    ∀ (i c : Nat), t'.drOrder[i]? = some c → reorder endo endo' e c =
      (sumTo t'.nBackward fun b => gy'.e i b * stateVals t'.toTyper (reorder endo endo' w) b) + r' c := by
  intro i c hic
  have hc : c < t'.n := by simpa using P.perm'.mem_iff.mp (List.mem_of_getElem? hic)
  have h0 : FollowsPolicy t.toTyper exo.length gy gu w (fun _ => 0) (fun c => e c - r c) := by
    intro i c hic
    have e0 : (sumTo exo.length fun k => gu.e i k * (0 : V)) = 0 := by
      rw [sumTo_eq]; exact Finset.sum_eq_zero fun k _ => mul_zero _
    show e c - r c = _ + sumTo exo.length fun k => gu.e i k * (0 : V)
    rw [e0, h i c hic, add_zero, add_sub_cancel_right]
    rfl
  have h1 := P.follows h0 i c hic
  have e1 : (sumTo exo'.length fun k => gu'.e i k * reorder exo exo' (fun _ => (0 : V)) k) = 0 := by
    rw [sumTo_eq]; exact Finset.sum_eq_zero fun k _ => mul_zero _
  rw [e1, add_zero] at h1
  have h2 : reorder endo endo' (fun c => e c - r c) c = reorder endo endo' e c - reorder endo endo' r c := rfl
  rw [h2, hr c hc] at h1
  rw [← sub_eq_iff_eq_add]
  exact h1

/-- a function that completes the solution of one model completes that of another if the second-order conditions of the
former imply those of the latter -/
theorem solves (P : OnePolicy endo exo endo' exo' t t' gy gu gy' gu')
    {F' : (Nat → V) → (Nat → V) → Nat → V} (hF : SolvesSecond t' exo'.length half J' H' gy' gu' F')
    (himp : ∀ ym u y yp w w' : Nat → V, FollowsPolicy t.toTyper exo.length gy gu ym u y →
      FollowsPolicy t.toTyper exo.length gy gu y (fun _ => 0) yp →
      (∀ i < t'.n, half * curvature t' exo'.length H' i ((⟨ym, y, yp, u⟩ : Around V).reorder endo exo endo' exo')
          ((⟨ym, y, yp, u⟩ : Around V).reorder endo exo endo' exo') +
        linearised t' exo'.length J' i (fun _ => 0) (reorder endo endo' w) (reorder endo endo' w') (fun _ => 0) = 0) →
      ∀ i < t.n, half * curvature t exo.length H i ⟨ym, y, yp, u⟩ ⟨ym, y, yp, u⟩ +
        linearised t exo.length J i (fun _ => 0) w w' (fun _ => 0) = 0) :
    SolvesSecond t exo.length half J H gy gu (reorderFun endo exo endo' exo' F') := by
  intro ym u y yp q' hy hyp hq'
  have en' := P.size'
  have nodup' := P.permNames.nodup_iff.mpr P.nodup
  have back : ∀ (w : Nat → V), ∀ c < t'.n, reorder endo endo' (reorder endo' endo w) c = w c := fun w c hc =>
    reorder_back nodup' P.permNames.symm w (by omega)
  have hz : reorder exo exo' (fun _ => (0 : V)) = fun _ => 0 := rfl
  refine himp ym u y yp _ q' hy hyp fun i hi => ?_
  have key := hF _ _ _ _ (reorder endo endo' q') (P.follows hy) (by rw [← hz]; exact P.follows hyp) (by
    intro i c hic
    have := P.respond (w := reorderFun endo exo endo' exo' F' ym u)
      (r := reorderFun endo exo endo' exo' F' y (fun _ => 0)) (r' := F' (reorder endo endo' y) (fun _ => 0))
      (fun c hc => back _ c hc) hq' i c hic
    rw [this]
    congr 1
    refine sumTo_congr fun b hb => ?_
    congr 1
    unfold stateVals
    refine back _ _ ?_
    have hst := (drState_row P.perm' hb)
    have : t'.drOrder[stRow t'.toTyper b]?.getD 0 < t'.n := by
      rw [hst, Option.getD_some]
      have := P.perm'.mem_iff.mp (List.mem_of_getElem? hst)
      simpa using this
    exact this) i hi
  refine Eq.trans ?_ key
  congr 1
  exact linearised_within (fun _ _ => rfl) (fun c hc => back _ c hc) (fun _ _ => rfl) (fun _ _ => rfl)

theorem bounded (P : OnePolicy endo exo endo' exo' t t' gy gu gy' gu')
    {F' : (Nat → V) → (Nat → V) → Nat → V} (hF : BoundedOnBounded φ t'.n exo'.length F') :
    BoundedOnBounded φ t.n exo.length (reorderFun endo exo endo' exo' F') := by
  have en := P.size
  have en' := P.size'
  have hlt : ∀ {l l' : List String}, l'.Perm l → ∀ (w : Nat → V) (X : ℝ), (∀ c < l.length, ‖φ (w c)‖ ≤ X) →
      ∀ c < l'.length, ‖φ (reorder l l' w c)‖ ≤ X := by
    intro l l' p w X hw c hc
    unfold reorder
    rw [byName_get (List.getElem?_eq_getElem hc)]
    exact hw _ (List.idxOf_lt_length_iff.mpr (p.mem_iff.mp (List.getElem_mem hc)))
  intro X
  obtain ⟨B, hB⟩ := hF X
  refine ⟨B, fun x u hx hu c hc => hlt P.permNames.symm _ B (fun c hc => hB _ _ ?_ ?_ c (by omega)) c (by omega)⟩
  · intro c hc
    exact hlt P.permNames x X (fun c hc => hx c (by omega)) c (by omega)
  · intro k hk
    exact hlt P.permShocks u X hu k hk

end OnePolicy

/-- two second-order solutions of the same model -/
structure TwoOrders (endo exo endo' exo' : List String) (t t' : Llx) (J H gy gu J' H' gy' gu' : Arr V) : Prop where
  layouts : Layouts endo exo endo' exo' t t'
  perm : t.drOrder.Perm (List.range t.n)
  perm' : t'.drOrder.Perm (List.range t'.n)
  policy : ∀ ym u y : String → V,
    FollowsPolicy t.toTyper exo.length gy gu (byName endo ym) (byName exo u) (byName endo y) ↔
      FollowsPolicy t'.toTyper exo'.length gy' gu' (byName endo' ym) (byName exo' u) (byName endo' y)
  row : ∀ i < t.n, ∃ i' < t'.n,
    (∀ k k', k < t.count + exo.length → SameArg endo exo endo' exo' t t' k k' → J.e i k = J'.e i' k') ∧
    ∀ k k' l l', k < t.count + exo.length → SameArg endo exo endo' exo' t t' k k' →
      l < t.count + exo.length → SameArg endo exo endo' exo' t t' l l' →
      H.e i (k * (t.count + exo.length) + l) = H'.e i' (k' * (t'.count + exo'.length) + l')

namespace TwoOrders
variable {φ : V →+* ℂ} {half : V} {endo exo endo' exo' : List String} {t t' : Llx}
    {J H gy gu J' H' gy' gu' : Arr V}

/-- the first-order solutions -/
theorem one (T : TwoOrders endo exo endo' exo' t t' J H gy gu J' H' gy' gu') :
    OnePolicy endo exo endo' exo' t t' gy gu gy' gu' :=
  ⟨T.layouts.size, T.layouts.size', T.layouts.nodup, T.layouts.nodupx, T.layouts.perm, T.layouts.permx, T.perm, T.perm',
    T.policy⟩

/-- what the linearised equations say in the other order -/
theorem linear (T : TwoOrders endo exo endo' exo' t t' J H gy gu J' H' gy' gu') {i i' : Nat}
    (hJ : ∀ k k', k < t.count + exo.length → SameArg endo exo endo' exo' t t' k k' → J.e i k = J'.e i' k')
    (ym y yp u : Nat → V) : linearised t exo.length J i ym y yp u =
      linearised t' exo'.length J' i' (reorder endo endo' ym) (reorder endo endo' y) (reorder endo endo' yp)
        (reorder exo exo' u) := by
  have e := T.layouts.size
  refine Eq.trans ?_ (linearised_same T.layouts hJ (fun x => ym (endo.idxOf x)) (fun x => y (endo.idxOf x))
    (fun x => yp (endo.idxOf x)) (fun x => u (exo.idxOf x)))
  exact linearised_within (fun c hc => (reorder_self T.layouts.nodup ym (by omega)).symm)
    (fun c hc => (reorder_self T.layouts.nodup y (by omega)).symm)
    (fun c hc => (reorder_self T.layouts.nodup yp (by omega)).symm)
    (fun k hk => (reorder_self T.layouts.nodupx u hk).symm)

/-- second derivatives in the other order -/
theorem curve (T : TwoOrders endo exo endo' exo' t t' J H gy gu J' H' gy' gu') {i i' : Nat}
    (hH : ∀ k k' l l', k < t.count + exo.length → SameArg endo exo endo' exo' t t' k k' →
      l < t.count + exo.length → SameArg endo exo endo' exo' t t' l l' →
      H.e i (k * (t.count + exo.length) + l) = H'.e i' (k' * (t'.count + exo'.length) + l'))
    (a b : Around V) : curvature t exo.length H i a b =
      curvature t' exo'.length H' i' (a.reorder endo exo endo' exo') (b.reorder endo exo endo' exo') := by
  have e := T.layouts.size
  refine Eq.trans ?_ (curvature_same T.layouts hH (fun x => a.before (endo.idxOf x)) (fun x => a.now (endo.idxOf x))
    (fun x => a.after (endo.idxOf x)) (fun x => a.shock (exo.idxOf x)) (fun x => b.before (endo.idxOf x))
    (fun x => b.now (endo.idxOf x)) (fun x => b.after (endo.idxOf x)) (fun x => b.shock (exo.idxOf x)))
  exact curvature_within (fun c hc => (reorder_self T.layouts.nodup _ (by omega)).symm)
    (fun c hc => (reorder_self T.layouts.nodup _ (by omega)).symm)
    (fun c hc => (reorder_self T.layouts.nodup _ (by omega)).symm)
    (fun k hk => (reorder_self T.layouts.nodupx _ hk).symm)
    (fun c hc => (reorder_self T.layouts.nodup _ (by omega)).symm)
    (fun c hc => (reorder_self T.layouts.nodup _ (by omega)).symm)
    (fun c hc => (reorder_self T.layouts.nodup _ (by omega)).symm)
    (fun k hk => (reorder_self T.layouts.nodupx _ hk).symm)

/-- a function that completes the solution in one order completes it in the other -/
theorem solves (T : TwoOrders endo exo endo' exo' t t' J H gy gu J' H' gy' gu')
    {F' : (Nat → V) → (Nat → V) → Nat → V} (hF : SolvesSecond t' exo'.length half J' H' gy' gu' F') :
    SolvesSecond t exo.length half J H gy gu (reorderFun endo exo endo' exo' F') := by
  refine T.one.solves hF fun ym u y yp w w' _ _ h i hi => ?_
  obtain ⟨i', hi', hJ, hH⟩ := T.row i hi
  rw [T.curve hH, T.linear hJ]
  exact h i' hi'

end TwoOrders

/-- expectations over the shocks, in the other order -/
theorem overShocks_relay {exo exo' : List String} (hd : exo.Nodup) (px : exo'.Perm exo) {sigma sigma' : Arr V}
    (hs : SameSquare exo exo' sigma sigma') {f f' : Nat → Nat → V}
    (hf : ∀ (j j' k k' : Nat) x y, exo[j]? = some x → exo'[j']? = some x → exo[k]? = some y → exo'[k']? = some y →
      f j k = f' j' k') : overShocks exo.length sigma f = overShocks exo'.length sigma' f' := by
  unfold overShocks
  refine sum_sameByName hd px fun j j' x hj hj' => ?_
  refine sum_sameByName hd px fun k k' y hk hk' => ?_
  show sigma.e k j * f j k = sigma'.e k' j' * f' j' k'
  rw [hs k k' j j' y x hk hk' hj hj', hf j j' k k' x y hj hj' hk hk']

theorem get_unique {l : List String} (h : l.Nodup) {i j : Nat} {x : String} (hi : l[i]? = some x) (hj : l[j]? = some x) :
    i = j := by
  obtain ⟨a, rfl⟩ := List.getElem?_eq_some_iff.mp hi
  obtain ⟨b, e⟩ := List.getElem?_eq_some_iff.mp hj
  exact ((h.getElem_inj_iff).mp e).symm

namespace OnePolicy
variable {φ : V →+* ℂ} {half : V} {endo exo endo' exo' : List String} {t t' : Llx}
    {J H gy gu J' H' gy' gu' : Arr V}

theorem state_reorder (P : OnePolicy endo exo endo' exo' t t' gy gu gy' gu') {a b : Nat → V}
    (h : ∀ c < t'.n, a c = b c) {j : Nat} (hj : j < t'.nBackward) : stateVals t'.toTyper a j = stateVals t'.toTyper b j := by
  unfold stateVals
  refine h _ ?_
  have hst := drState_row P.perm' hj
  have : t'.drOrder[stRow t'.toTyper j]?.getD 0 < t'.n := by
    rw [hst, Option.getD_some]
    have := P.perm'.mem_iff.mp (List.mem_of_getElem? hst)
    simpa using this
  exact this

/-- a constant that makes up for risk in one order does so in the other -/
theorem risk (P : OnePolicy endo exo endo' exo' t t' gy gu gy' gu') {sigma sigma' : Arr V}
    (hs : SameSquare exo exo' sigma sigma')
    {F' : (Nat → V) → (Nat → V) → Nat → V} (hext : ∀ x u u', (∀ k < exo'.length, u k = u' k) → F' x u = F' x u')
    {c' : Nat → V} (hc : SolvesRisk t' exo'.length half J' H' sigma' gy' gu' F' c')
    (himp : ∀ (lead : Nat → Nat → V) (c e : Nat → V), (∀ i' < t'.n, half * (overShocks exo.length sigma fun j k =>
        curvature t' exo'.length H' i'
          ((⟨fun _ => 0, fun _ => 0, lead j, fun _ => 0⟩ : Around V).reorder endo exo endo' exo')
          ((⟨fun _ => 0, fun _ => 0, lead k, fun _ => 0⟩ : Around V).reorder endo exo endo' exo')) +
        linearised t' exo'.length J' i' (fun _ => 0) (reorder endo endo' c) (reorder endo endo' e) (fun _ => 0) = 0) →
      ∀ i < t.n, half * (overShocks exo.length sigma fun j k => curvature t exo.length H i
          ⟨fun _ => 0, fun _ => 0, lead j, fun _ => 0⟩ ⟨fun _ => 0, fun _ => 0, lead k, fun _ => 0⟩) +
        linearised t exo.length J i (fun _ => 0) c e (fun _ => 0) = 0) :
    SolvesRisk t exo.length half J H sigma gy gu (reorderFun endo exo endo' exo' F') (reorder endo' endo c') := by
  intro lead e hlead he
  refine himp lead _ e fun i' hi' => ?_
  have en' := P.size'
  have back : ∀ (w : Nat → V), ∀ c < t'.n, reorder endo endo' (reorder endo' endo w) c = w c := fun w c hc =>
    reorder_back (P.permNames.nodup_iff.mpr P.nodup) P.permNames.symm w (by omega)
  have hidx : ∀ {j j' : Nat} {x : String}, exo[j]? = some x → exo'[j']? = some x → exo.idxOf (exo'[j']?.getD "") = j := by
    intro j j' x hj hj'
    obtain ⟨a, b⟩ := List.getElem?_eq_some_iff.mp hj
    rw [hj', Option.getD_some, ← b, P.nodupx.idxOf_getElem]
  have hmem : ∀ j' < exo'.length, ∃ (j : Nat) (x : String), exo[j]? = some x ∧ exo'[j']? = some x := by
    intro j' hj'
    exact ⟨_, _, List.getElem?_idxOf (P.permShocks.mem_iff.mp (List.getElem_mem hj')), List.getElem?_eq_getElem hj'⟩
  have hunit : ∀ {j j' : Nat} {x : String}, exo[j]? = some x → exo'[j']? = some x → ∀ k' < exo'.length,
      reorder exo exo' (unitShock (V := V) j) k' = unitShock j' k' := by
    intro j j' x hj hj' k' hk'
    obtain ⟨k, y, hk, hk2⟩ := hmem k' hk'
    have e1 := hidx hk hk2
    have : k = j ↔ k' = j' := by
      constructor
      · rintro rfl
        rw [hk] at hj
        cases hj
        exact get_unique (P.permShocks.nodup_iff.mpr P.nodupx) hk2 hj'
      · rintro rfl
        rw [hk2] at hj'
        cases hj'
        exact get_unique P.nodupx hk hj
    unfold reorder byName unitShock
    simp only [e1, this]
  let lead' : Nat → Nat → V := fun j' => reorder endo endo' (lead (exo.idxOf (exo'[j']?.getD "")))
  have hlead' : ∀ {j j' : Nat} {x : String}, exo[j]? = some x → exo'[j']? = some x →
      lead' j' = reorder endo endo' (lead j) := by
    intro j j' x hj hj'
    simp only [lead']
    rw [hidx hj hj']
  have key := hc lead' (reorder endo endo' e) (by
    intro j' hj'
    obtain ⟨j, x, hj, hj2⟩ := hmem j' hj'
    have h1 := P.follows (hlead j (List.getElem?_eq_some_iff.mp hj).1)
    rw [hlead' hj hj2]
    exact followsPolicy_congr P.perm' h1 (fun _ _ => rfl) (fun k hk => hunit hj hj2 k hk) (fun _ _ => rfl)) (by
    intro i v hiv
    have := P.respond (w := reorder endo' endo c') (e := e)
      (r := fun v => reorder endo' endo c' v +
        overShocks exo.length sigma fun j k => pairEffect half (reorderFun endo exo endo' exo' F') v j k)
      (r' := fun v => c' v + overShocks exo'.length sigma' fun j k => pairEffect half F' v j k) (by
        intro v hv
        have e1 : ∀ (a b : Nat → V), reorder endo endo' (fun v => a v + b v) v =
          reorder endo endo' a v + reorder endo endo' b v := fun _ _ => rfl
        rw [e1, back c' v hv]
        congr 1
        show overShocks exo.length sigma (fun j k => pairEffect half (reorderFun endo exo endo' exo' F')
          (endo.idxOf (endo'[v]?.getD "")) j k) = _
        refine overShocks_relay P.nodupx P.permShocks hs ?_
        intro j j' k k' x y hj hj' hk hk'
        have hF : ∀ (u u' : Nat → V), (∀ l < exo'.length, reorder exo exo' u l = u' l) →
            reorderFun endo exo endo' exo' F' (fun _ => 0) u (endo.idxOf (endo'[v]?.getD "")) = F' (fun _ => 0) u' v := by
          intro u u' hu
          refine Eq.trans ?_ (back (F' (fun _ => 0) u') v hv)
          unfold reorderFun
          rw [hext _ _ u' hu]
          rfl
        unfold pairEffect
        rw [hF _ (fun l => unitShock j' l + unitShock k' l) (fun l hl => by
            rw [← hunit hj hj' l hl, ← hunit hk hk' l hl]; rfl),
          hF _ _ (hunit hj hj'), hF _ _ (hunit hk hk')]) (by
        intro i v hiv
        rw [he i v hiv]
        ring) i v hiv
    rw [this]
    have e2 : (sumTo t'.nBackward fun b => gy'.e i b * stateVals t'.toTyper (reorder endo endo' (reorder endo' endo c')) b) =
        sumTo t'.nBackward fun b => gy'.e i b * stateVals t'.toTyper c' b := by
      refine sumTo_congr fun b hb => ?_
      rw [P.state_reorder (back c') hb]
    rw [e2]
    ring) i' hi'
  refine Eq.trans ?_ key
  congr 1
  · congr 1
    refine overShocks_relay P.nodupx P.permShocks hs ?_
    intro j j' k k' x y hj hj' hk hk'
    rw [hlead' hj hj', hlead' hk hk']
    rfl
  · exact linearised_within (fun _ _ => rfl) (fun c hc => back _ c hc) (fun _ _ => rfl) (fun _ _ => rfl)

end OnePolicy

namespace TwoOrders
variable {φ : V →+* ℂ} {half : V} {endo exo endo' exo' : List String} {t t' : Llx}
    {J H gy gu J' H' gy' gu' : Arr V}

/-- a constant that makes up for risk in one order does so in the other -/
theorem risk (T : TwoOrders endo exo endo' exo' t t' J H gy gu J' H' gy' gu') {sigma sigma' : Arr V}
    (hs : SameSquare exo exo' sigma sigma')
    {F' : (Nat → V) → (Nat → V) → Nat → V} (hext : ∀ x u u', (∀ k < exo'.length, u k = u' k) → F' x u = F' x u')
    {c' : Nat → V} (hc : SolvesRisk t' exo'.length half J' H' sigma' gy' gu' F' c') :
    SolvesRisk t exo.length half J H sigma gy gu (reorderFun endo exo endo' exo' F') (reorder endo' endo c') := by
  refine T.one.risk hs hext hc fun lead c e h i hi => ?_
  obtain ⟨i', hi', hJ, hH⟩ := T.row i hi
  refine Eq.trans ?_ (h i' hi')
  congr 1
  · congr 1
    congr 1
    funext j k
    exact T.curve hH _ _
  · exact T.linear hJ _ _ _ _

end TwoOrders

/-- two versions of a model -/
theorem twoOrders_of {φ : V →+* ℂ} {ops : Ops V} {okName okName' : String → Bool} {ad ad' : Autograd V}
    (hex : ad.Exact) (hex' : ad'.Exact) {la la' : LinAlg V} (ex : la.Exact) (ex' : la'.Exact)
    {qz qz' : Arr V → Arr V → Except Err (GQZ V)} {half : V}
    {σ : String → Option V} {endo exo endo' exo' : List String} {es es' : List (Expr V)} {ss ss' : List V}
    {t t' : Llx} {J H sigma gy gu J' H' sigma' gy' gu' : Arr V} {so so' : SecondNd V} {s s' : Space V} {q q' : QZ V}
    {ev ev' : Nat → Option ℂ}
    (h : SecondModel φ ops okName ad la qz half σ endo exo es ss t J H sigma gy gu so s q ev)
    (h' : SecondModel φ ops okName' ad' la' qz' half σ endo' exo' es' ss' t' J' H' sigma' gy' gu' so' s' q' ev')
    (pe : endo'.Perm endo) (px : exo'.Perm exo) (pq : es'.Perm es)
    (hss : SameByName endo endo' (vecEntry ss) (vecEntry ss')) :
    TwoOrders endo exo endo' exo' t t' J H gy gu J' H' gy' gu' := by
  have L := layouts_of h.plain h.table h'.plain h'.table pe px pq
  obtain ⟨hr, hn, pss, hp, hd⟩ := h.determinate hex
  obtain ⟨hr', hn', pss', hp', hd'⟩ := h'.determinate hex'
  have hsq := h.plain.square
  have hsq' := h'.plain.square
  obtain ⟨fs, hfs, hH⟩ := h.hessian
  obtain ⟨fs', hfs', hH'⟩ := h'.hessian
  refine ⟨L, (groups (hd.det ex).1.cur).perm, (groups (hd'.det ex').1.cur).perm,
    C149_policy_partial φ ops okName okName' ad ad' hex hex' la la' ex ex' σ endo exo endo' exo' es es' ss ss' t t' J gy gu
      J' gy' gu' s s' q q' ev ev' h.toSolvedModel h'.toSolvedModel pe px pq hss, ?_⟩
  intro i hi
  have hi : i < es.length := by omega
  obtain ⟨i', hi'⟩ := List.getElem?_of_mem (pq.mem_iff.mpr (List.getElem_mem hi))
  have hi0 := (List.getElem?_eq_some_iff.mp hi').1
  exact ⟨i', by omega,
    fun k k' hk hs => jacobian_relay hex hex' h.toJacobianOf h'.toJacobianOf L hss (List.getElem?_eq_getElem hi) hi' hk hs,
    fun k k' l l' hk hkk hl hll => hessian_relay hex hex' h.plain h.table h'.plain h'.table hfs hfs' hH hH' L hss
      (List.getElem?_eq_getElem hi) hi' hk hkk hl hll⟩

theorem secondFun_ext {t : Typer} {m : Nat} {so : SecondNd V} (x u u' : Nat → V) (h : ∀ k < m, u k = u' k) :
    secondFun t m so x u = secondFun t m so x u' := by
  funext c
  unfold secondFun quadForm
  congr 1
  · congr 1
    refine sumTo_congr fun a _ => sumTo_congr fun b hb => by rw [h b hb]
  · refine sumTo_congr fun a ha => sumTo_congr fun b hb => by rw [h a ha, h b hb]

theorem secondTerms_within {t : Typer} (hp : t.drOrder.Perm (List.range t.n)) {m : Nat} {so : SecondNd V}
    {x u w x' u' w' : Nat → V} (h : SecondTerms t m so x u w) (h1 : ∀ c < t.n, x c = x' c) (h2 : ∀ k < m, u k = u' k)
    (h3 : ∀ c < t.n, w c = w' c) : SecondTerms t m so x' u' w' := by
  have hs : ∀ b < t.nBackward, stateVals t x b = stateVals t x' b := by
    intro b hb
    unfold stateVals
    refine h1 _ ?_
    have hst := drState_row hp hb
    have : t.drOrder[stRow t b]?.getD 0 < t.n := by
      rw [hst, Option.getD_some]
      have := hp.mem_iff.mp (List.mem_of_getElem? hst)
      simpa using this
    exact this
  intro i c hic
  have hc : c < t.n := by simpa using hp.mem_iff.mp (List.mem_of_getElem? hic)
  rw [← h3 c hc, h i c hic]
  unfold quadForm
  congr 1
  · congr 1
    · refine sumTo_congr fun a ha => sumTo_congr fun b hb => by rw [hs a ha, hs b hb]
    · refine sumTo_congr fun a ha => sumTo_congr fun b hb => by rw [hs a ha, h2 b hb]
  · refine sumTo_congr fun a ha => sumTo_congr fun b hb => by rw [h2 a ha, h2 b hb]

/-- the solution in one order, rewritten in the other, is the solution there -/
theorem second_relay {φ : V →+* ℂ} {ops : Ops V} {okName okName' : String → Bool} {ad ad' : Autograd V}
    (hex : ad.Exact) (hex' : ad'.Exact) {la la' : LinAlg V} (ex : la.Exact) (ex' : la'.Exact)
    {qz qz' : Arr V → Arr V → Except Err (GQZ V)} (hqz : GQZExact qz) (hqz' : GQZExact qz') {half : V}
    (hhalf : 2 * half = 1)
    {σ : String → Option V} {endo exo endo' exo' : List String} {es es' : List (Expr V)} {ss ss' : List V}
    {t t' : Llx} {J H sigma gy gu J' H' sigma' gy' gu' : Arr V} {so so' : SecondNd V} {s s' : Space V} {q q' : QZ V}
    {ev ev' : Nat → Option ℂ}
    (h : SecondModel φ ops okName ad la qz half σ endo exo es ss t J H sigma gy gu so s q ev)
    (h' : SecondModel φ ops okName' ad' la' qz' half σ endo' exo' es' ss' t' J' H' sigma' gy' gu' so' s' q' ev')
    (pe : endo'.Perm endo) (px : exo'.Perm exo) (pq : es'.Perm es)
    (hss : SameByName endo endo' (vecEntry ss) (vecEntry ss')) :
    (∀ ym u, SecondTerms t.toTyper exo.length (so.stored half) ym u
      (reorderFun endo exo endo' exo' (secondFun t'.toTyper exo'.length (so'.stored half)) ym u)) ∧
    (SameSquare exo exo' sigma sigma' → ∀ c', RiskTerm t'.toTyper (so'.stored half) c' →
      RiskTerm t.toTyper (so.stored half) (reorder endo' endo c')) := by
  have T := twoOrders_of hex hex' ex ex' h h' pe px pq hss
  obtain ⟨hr, hn, pss, hp, hd⟩ := h.determinate hex
  obtain ⟨hr', hn', pss', hp', hd'⟩ := h'.determinate hex'
  have hsq := h.plain.square
  have hsq' := h'.plain.square
  obtain ⟨fs, hfs, hH⟩ := h.hessian
  obtain ⟨fs', hfs', hH'⟩ := h'.hessian
  have hHr : H.r = pss.length := by
    have := (modelHessian_get hex hH).1
    have := (dynamicFuncs_get hfs).1
    omega
  have hHr' : H'.r = pss'.length := by
    have := (modelHessian_get hex' hH').1
    have := (dynamicFuncs_get hfs').1
    omega
  have hF' := secondFun_terms T.perm' exo'.length (so'.stored half)
  obtain ⟨f1, f2⟩ := (C153_unique_partial φ la' ex' qz' hqz' half hhalf pss' t' exo'.length J' H' sigma' gy' gu' s' q' ev'
    hd' hHr' h'.symmetric ⟨h'.sigma_rows, h'.sigma_cols⟩ so' h'.second _).mpr hF'
  rw [hp', ← hn'] at f2
  have hF := (C153_unique_partial φ la ex qz hqz half hhalf pss t exo.length J H sigma gy gu s q ev
    hd hHr h.symmetric ⟨h.sigma_rows, h.sigma_cols⟩ so h.second _).mp
    ⟨T.solves f1, by rw [hp, ← hn]; exact T.one.bounded f2⟩
  refine ⟨hF, fun hs c' hc' => ?_⟩
  have r' := (C153_risk_partial φ la' ex' qz' hqz' half hhalf pss' t' exo'.length J' H' sigma' gy' gu' s' q' ev'
    hd' hHr' ⟨h'.sigma_rows, h'.sigma_cols⟩ h'.sigma_symm so' h'.second _ hF' c').mpr hc'
  exact (C153_risk_partial φ la ex qz hqz half hhalf pss t exo.length J H sigma gy gu s q ev
    hd hHr ⟨h.sigma_rows, h.sigma_cols⟩ h.sigma_symm so h.second _ hF _).mp (T.risk hs secondFun_ext r')

/-- one direction of C154 -/
theorem second_implies {φ : V →+* ℂ} {ops : Ops V} {okName okName' : String → Bool} {ad ad' : Autograd V}
    (hex : ad.Exact) (hex' : ad'.Exact) {la la' : LinAlg V} (ex : la.Exact) (ex' : la'.Exact)
    {qz qz' : Arr V → Arr V → Except Err (GQZ V)} (hqz : GQZExact qz) (hqz' : GQZExact qz') {half : V}
    (hhalf : 2 * half = 1)
    {σ : String → Option V} {endo exo endo' exo' : List String} {es es' : List (Expr V)} {ss ss' : List V}
    {t t' : Llx} {J H sigma gy gu J' H' sigma' gy' gu' : Arr V} {so so' : SecondNd V} {s s' : Space V} {q q' : QZ V}
    {ev ev' : Nat → Option ℂ}
    (h : SecondModel φ ops okName ad la qz half σ endo exo es ss t J H sigma gy gu so s q ev)
    (h' : SecondModel φ ops okName' ad' la' qz' half σ endo' exo' es' ss' t' J' H' sigma' gy' gu' so' s' q' ev')
    (pe : endo'.Perm endo) (px : exo'.Perm exo) (pq : es'.Perm es)
    (hss : SameByName endo endo' (vecEntry ss) (vecEntry ss')) (ym u w : String → V)
    (hw : SecondTerms t'.toTyper exo'.length (so'.stored half) (byName endo' ym) (byName exo' u) (byName endo' w)) :
    SecondTerms t.toTyper exo.length (so.stored half) (byName endo ym) (byName exo u) (byName endo w) := by
  have T := twoOrders_of hex hex' ex ex' h h' pe px pq hss
  have en := T.layouts.size
  have en' := T.layouts.size'
  have hF := (second_relay hex hex' ex ex' hqz hqz' hhalf h h' pe px pq hss).1 (byName endo ym) (byName exo u)
  refine secondTerms_within T.perm hF (fun _ _ => rfl) (fun _ _ => rfl) ?_
  intro c hc
  refine Eq.trans ?_ (reorder_byName pe.symm w (by omega))
  unfold reorderFun
  have hin : ∀ v < t'.n, secondFun t'.toTyper exo'.length (so'.stored half) (reorder endo endo' (byName endo ym))
      (reorder exo exo' (byName exo u)) v = byName endo' w v := by
    intro v hv
    obtain ⟨i, hi⟩ := List.getElem?_of_mem (T.perm'.mem_iff.mpr (List.mem_range.mpr hv))
    have e1 := secondTerms_within T.perm' (secondFun_terms T.perm' exo'.length (so'.stored half)
      (reorder endo endo' (byName endo ym)) (reorder exo exo' (byName exo u)))
      (fun c hc => reorder_byName pe ym (by omega)) (fun k hk => reorder_byName px u hk) (fun _ _ => rfl)
    rw [e1 i v hi, hw i v hi]
  have hm : endo[c]'(by omega) ∈ endo' := pe.mem_iff.mpr (List.getElem_mem _)
  unfold reorder
  rw [byName_get (List.getElem?_eq_getElem (by omega)), byName_get (List.getElem?_eq_getElem (by omega))]
  exact hin _ (by rw [en']; exact List.idxOf_lt_length_iff.mpr hm)

/-! ### C154 -/

/-- **C154** (partial: for models that can be solved to second order, see C87, with the equations as
`SecondModel` says).  Two people write the same model, the variables, shocks and equations in different
orders.  For given values of last period's variables and shocks, the second-order part that `solve` finds
adds the same to every variable. -/
theorem C154_second_partial (φ : V →+* ℂ) (ops : Ops V) (okName okName' : String → Bool) (ad ad' : Autograd V)
    (hex : ad.Exact) (hex' : ad'.Exact) (la la' : LinAlg V) (ex : la.Exact) (ex' : la'.Exact)
    (qz qz' : Arr V → Arr V → Except Err (GQZ V)) (hqz : GQZExact qz) (hqz' : GQZExact qz') (half : V)
    (hhalf : 2 * half = 1)
    (σ : String → Option V) (endo exo endo' exo' : List String) (es es' : List (Expr V)) (ss ss' : List V)
    (t t' : Llx) (J H sigma gy gu J' H' sigma' gy' gu' : Arr V) (so so' : SecondNd V) (s s' : Space V) (q q' : QZ V)
    (ev ev' : Nat → Option ℂ)
    (h : SecondModel φ ops okName ad la qz half σ endo exo es ss t J H sigma gy gu so s q ev)
    (h' : SecondModel φ ops okName' ad' la' qz' half σ endo' exo' es' ss' t' J' H' sigma' gy' gu' so' s' q' ev')
    (pe : endo'.Perm endo) (px : exo'.Perm exo) (pq : es'.Perm es)
    (hss : SameByName endo endo' (vecEntry ss) (vecEntry ss')) (ym u w : String → V) :
    SecondTerms t.toTyper exo.length (so.stored half) (byName endo ym) (byName exo u) (byName endo w) ↔
      SecondTerms t'.toTyper exo'.length (so'.stored half) (byName endo' ym) (byName exo' u) (byName endo' w) :=
  ⟨second_implies hex' hex ex' ex hqz' hqz hhalf h' h pe.symm px.symm pq.symm
      (fun i i' x h1 h2 => (hss i' i x h2 h1).symm) ym u w,
    second_implies hex hex' ex ex' hqz hqz' hhalf h h' pe px pq hss ym u w⟩

theorem risk_implies {φ : V →+* ℂ} {ops : Ops V} {okName okName' : String → Bool} {ad ad' : Autograd V}
    (hex : ad.Exact) (hex' : ad'.Exact) {la la' : LinAlg V} (ex : la.Exact) (ex' : la'.Exact)
    {qz qz' : Arr V → Arr V → Except Err (GQZ V)} (hqz : GQZExact qz) (hqz' : GQZExact qz') {half : V}
    (hhalf : 2 * half = 1)
    {σ : String → Option V} {endo exo endo' exo' : List String} {es es' : List (Expr V)} {ss ss' : List V}
    {t t' : Llx} {J H sigma gy gu J' H' sigma' gy' gu' : Arr V} {so so' : SecondNd V} {s s' : Space V} {q q' : QZ V}
    {ev ev' : Nat → Option ℂ}
    (h : SecondModel φ ops okName ad la qz half σ endo exo es ss t J H sigma gy gu so s q ev)
    (h' : SecondModel φ ops okName' ad' la' qz' half σ endo' exo' es' ss' t' J' H' sigma' gy' gu' so' s' q' ev')
    (pe : endo'.Perm endo) (px : exo'.Perm exo) (pq : es'.Perm es)
    (hss : SameByName endo endo' (vecEntry ss) (vecEntry ss')) (hsig : SameSquare exo exo' sigma sigma')
    (c : String → V) (hc : RiskTerm t'.toTyper (so'.stored half) (byName endo' c)) :
    RiskTerm t.toTyper (so.stored half) (byName endo c) := by
  have T := twoOrders_of hex hex' ex ex' h h' pe px pq hss
  have en := T.layouts.size
  have := (second_relay hex hex' ex ex' hqz hqz' hhalf h h' pe px pq hss).2 hsig _ hc
  intro i v hiv
  have hv : v < t.n := by simpa using T.perm.mem_iff.mp (List.mem_of_getElem? hiv)
  rw [← this i v hiv]
  exact (reorder_byName pe.symm c (by omega)).symm

/-- **C154**, the correction for risk (partial, as above): if the covariances of the shocks are the same by
name, so is the constant that corrects for risk. -/
theorem C154_risk_partial (φ : V →+* ℂ) (ops : Ops V) (okName okName' : String → Bool) (ad ad' : Autograd V)
    (hex : ad.Exact) (hex' : ad'.Exact) (la la' : LinAlg V) (ex : la.Exact) (ex' : la'.Exact)
    (qz qz' : Arr V → Arr V → Except Err (GQZ V)) (hqz : GQZExact qz) (hqz' : GQZExact qz') (half : V)
    (hhalf : 2 * half = 1)
    (σ : String → Option V) (endo exo endo' exo' : List String) (es es' : List (Expr V)) (ss ss' : List V)
    (t t' : Llx) (J H sigma gy gu J' H' sigma' gy' gu' : Arr V) (so so' : SecondNd V) (s s' : Space V) (q q' : QZ V)
    (ev ev' : Nat → Option ℂ)
    (h : SecondModel φ ops okName ad la qz half σ endo exo es ss t J H sigma gy gu so s q ev)
    (h' : SecondModel φ ops okName' ad' la' qz' half σ endo' exo' es' ss' t' J' H' sigma' gy' gu' so' s' q' ev')
    (pe : endo'.Perm endo) (px : exo'.Perm exo) (pq : es'.Perm es)
    (hss : SameByName endo endo' (vecEntry ss) (vecEntry ss')) (hsig : SameSquare exo exo' sigma sigma')
    (c : String → V) :
    RiskTerm t.toTyper (so.stored half) (byName endo c) ↔ RiskTerm t'.toTyper (so'.stored half) (byName endo' c) :=
  ⟨risk_implies hex' hex ex' ex hqz' hqz hhalf h' h pe.symm px.symm pq.symm
      (fun i i' x h1 h2 => (hss i' i x h2 h1).symm)
      (fun i i' j j' x y h1 h2 h3 h4 => (hsig i' i j' j x y h2 h1 h4 h3).symm) c,
    risk_implies hex hex' ex ex' hqz hqz' hhalf h h' pe px pq hss hsig c⟩

/-! ### second-order simulations -/

/-- one period of a simulation of a second-order solution, in terms of what the solution says -/
def SecondPeriod (half : V) (t : Typer) (m : Nat) (gy gu : Arr V) (so : SecondNd V) (x u z : Nat → V) : Prop :=
  ∃ y wx wu w r : Nat → V, FollowsPolicy t m gy gu x u y ∧ SecondTerms t m so x (fun _ => 0) wx ∧
    SecondTerms t m so (fun _ => 0) u wu ∧ SecondTerms t m so x u w ∧ RiskTerm t so r ∧
    ∀ c < t.n, z c = y c + half * r c + half * wx c + half * wu c + (w c - wx c - wu c)

theorem riskTerm_within {t : Typer} (hp : t.drOrder.Perm (List.range t.n)) {so : SecondNd V} {r r' : Nat → V}
    (h : RiskTerm t so r) (e : ∀ c < t.n, r c = r' c) : RiskTerm t so r' := by
  intro i c hic
  rw [← e c (by simpa using hp.mem_iff.mp (List.mem_of_getElem? hic)), h i c hic]

theorem SecondPeriod.congr {half : V} {t : Typer} (hp : t.drOrder.Perm (List.range t.n)) {m : Nat} {gy gu : Arr V}
    {so : SecondNd V} {x u z x' u' z' : Nat → V} (h : SecondPeriod half t m gy gu so x u z) (h1 : ∀ c < t.n, x c = x' c)
    (h2 : ∀ k < m, u k = u' k) (h3 : ∀ c < t.n, z c = z' c) : SecondPeriod half t m gy gu so x' u' z' := by
  obtain ⟨y, wx, wu, w, r, a1, a2, a3, a4, a5, a6⟩ := h
  exact ⟨y, wx, wu, w, r, followsPolicy_congr hp a1 h1 h2 (fun _ _ => rfl),
    secondTerms_within hp a2 h1 (fun _ _ => rfl) (fun _ _ => rfl),
    secondTerms_within hp a3 (fun _ _ => rfl) h2 (fun _ _ => rfl), secondTerms_within hp a4 h1 h2 (fun _ _ => rfl), a5,
    fun c hc => by rw [← h3 c hc, a6 c hc]⟩

theorem SecondPeriod.fun {half : V} {t : Typer} (hp : t.drOrder.Perm (List.range t.n)) {m : Nat} {gy gu : Arr V}
    {so : SecondNd V} {x u z z' : Nat → V} (h : SecondPeriod half t m gy gu so x u z)
    (h' : SecondPeriod half t m gy gu so x u z') : ∀ c < t.n, z c = z' c := by
  obtain ⟨y, wx, wu, w, r, a1, a2, a3, a4, a5, a6⟩ := h
  obtain ⟨y', wx', wu', w', r', b1, b2, b3, b4, b5, b6⟩ := h'
  intro c hc
  obtain ⟨i, hi⟩ := List.getElem?_of_mem (hp.mem_iff.mpr (List.mem_range.mpr hc))
  rw [a6 c hc, b6 c hc, followsPolicy_fun hp a1 b1 c hc, a2 i c hi, a3 i c hi, a4 i c hi, a5 i c hi, b2 i c hi, b3 i c hi,
    b4 i c hi, b5 i c hi]

/-- the shapes of the arrays, and the rows of a simulation -/
theorem simulatedSecond_step {φ : V →+* ℂ} {ops : Ops V} {okName : String → Bool} {ad : Autograd V}
    (hex : ad.Exact) {la : LinAlg V} (ex : la.Exact) {qz : Arr V → Arr V → Except Err (GQZ V)} (hqz : GQZExact qz) {half : V}
    {σ : String → Option V} {endo exo : List String} {es : List (Expr V)} {ss : List V}
    {t : Llx} {J H sigma gy gu : Arr V} {so : SecondNd V} {s : Space V} {q : QZ V} {ev : Nat → Option ℂ}
    (h : SecondModel φ ops okName ad la qz half σ endo exo es ss t J H sigma gy gu so s q ev)
    (h1 : 1 < t.nBackward) (h2 : 1 < exo.length) {shocks p : Arr V} {ys init : List V} (hc : shocks.c = exo.length)
    (hs : simulateSecond half t.toTyper gy gu (so.arrays.stored half) ys shocks init = .ok p) :
    p.r = shocks.r ∧ (∀ c < ys.length, init[c]? = some (p.e 0 c)) ∧
    ∀ k, k + 1 < p.r → SecondPeriod half t.toTyper exo.length gy gu (so.stored half) (dev ys p k) (fun j => shocks.e k j)
      (dev ys p (k + 1)) := by
  obtain ⟨-, hn, pss, hl, hd⟩ := h.determinate hex
  obtain ⟨hdd, hn2⟩ := hd.det ex
  obtain ⟨fs, hfs, hH⟩ := h.hessian
  have hsq := h.plain.square
  have hHr : H.r = t.n := by
    have := (modelHessian_get hex hH).1
    have := (dynamicFuncs_get hfs).1
    omega
  obtain ⟨g1, g2, g3, g4, -⟩ := solution_rows ex hdd.cur hdd.static hdd.square hdd.space (hdd.separated ex) hdd.solved
  have hp := (groups hdd.cur).perm
  obtain ⟨o1, o2, o3⟩ := drState_length hp
  have hstate : t.state ≠ [] := by
    intro h0
    have := (C31_sizes t.toTyper).2.1
    rw [h0] at this
    rw [this] at h1
    cases h1
  obtain ⟨P⟩ := secondParts ex hqz hd.table hdd.cur hstate ⟨g1, g2⟩ ⟨g3, g4⟩ hHr ⟨h.sigma_rows, h.sigma_cols⟩ h.second
  have hnb : t.nBackward = t.nT := (C31_sizes t.toTyper).2.2.2.1
  have fits : so.arrays.Fits t.n t.nBackward shocks.c := by
    rw [hc, hnb]
    exact ⟨⟨P.isX.to2.1, P.isX.to2.2.1⟩, ⟨P.isW.to2.1, P.isW.to2.2.1⟩, P.isY.to2.1, P.isY.to2.2.1⟩
  obtain ⟨z1, z2⟩ := C53_step_partial half t.toTyper hp gy gu so.arrays ys init shocks p fits h1 (by omega) hs
  refine ⟨(simulateSecond_ok hs).2.2.2.1, z1, fun k hk => ?_⟩
  have hx : ∀ i j, (so.stored half).ghxx.to2.e i j = half * so.arrays.ghxx.e i j := by
    intro i j
    simp only [SecondNd.stored, SecondNd.arrays]
    cases so.ghxx <;> rfl
  have hu : ∀ i j, (so.stored half).ghuu.to2.e i j = half * so.arrays.ghuu.e i j := by
    intro i j
    simp only [SecondNd.stored, SecondNd.arrays]
    cases so.ghuu <;> rfl
  refine ⟨fun c => (sumTo t.nBackward fun b => gy.e (t.drOrder.idxOf c) b * stateVals t.toTyper (dev ys p k) b) +
      sumTo exo.length fun j => gu.e (t.drOrder.idxOf c) j * shocks.e k j, _, _, _,
    fun c => (so.stored half).del2.to2.e (t.drOrder.idxOf c) 0, ?_, secondFun_terms hp _ _ _ _, secondFun_terms hp _ _ _ _,
    secondFun_terms hp _ _ _ _, ?_, ?_⟩
  · intro i c hic
    simp only [idxOf_dr hp hic]
    rfl
  · intro i c hic
    simp only [idxOf_dr hp hic]
  · intro c hc'
    obtain ⟨i, hic⟩ := List.getElem?_of_mem (hp.mem_iff.mpr (List.mem_range.mpr hc'))
    show p.e (k + 1) c - ys[c]?.getD 0 = _
    rw [z2 k hk i c hic]
    unfold taylor2 secondFun
    simp only [idxOf_dr hp hic]
    have l1 : (t.drState.map (dev ys p k)).length = t.nBackward := by rw [List.length_map, o1]
    have l2 : ((List.range shocks.c).map fun j => shocks.e k j).length = exo.length := by simp [hc]
    have v1 : ∀ j < t.nBackward, (t.drState.map (dev ys p k))[j]?.getD 0 = stateVals t.toTyper (dev ys p k) j := by
      intro j hj
      have hj' : j < t.drState.length := by omega
      unfold stateVals
      have hst := drState_row hp hj
      unfold stRow at hst
      rw [List.getElem?_map, List.getElem?_eq_getElem hj', Option.map_some, Option.getD_some, hst,
        List.getElem?_eq_getElem hj', Option.getD_some, Option.getD_some]
    have v2 : ∀ j < exo.length, ((List.range shocks.c).map fun j => shocks.e k j)[j]?.getD 0 = shocks.e k j := by
      intro j hj
      simp [List.getElem?_range (show j < shocks.c by omega)]
    rw [l1, l2]
    have s1 : (sumTo t.nBackward fun j => gy.e i j * (t.drState.map (dev ys p k))[j]?.getD 0) =
        sumTo t.nBackward fun b => gy.e i b * stateVals t.toTyper (dev ys p k) b :=
      sumTo_congr fun j hj => by rw [v1 j hj]
    have s2 : (sumTo exo.length fun j => gu.e i j * ((List.range shocks.c).map fun j => shocks.e k j)[j]?.getD 0) =
        sumTo exo.length fun j => gu.e i j * shocks.e k j :=
      sumTo_congr fun j hj => by rw [v2 j hj]
    have s3 : (sumTo t.nBackward fun j => sumTo t.nBackward fun l => (so.arrays.ghxx.scale half).e i (j * t.nBackward + l) *
        ((t.drState.map (dev ys p k))[j]?.getD 0 * (t.drState.map (dev ys p k))[l]?.getD 0)) =
        quadForm (so.stored half).ghxx.to2 i t.nBackward (stateVals t.toTyper (dev ys p k)) t.nBackward
          (stateVals t.toTyper (dev ys p k)) :=
      sumTo_congr fun j hj => sumTo_congr fun l hl => by rw [v1 j hj, v1 l hl, hx]; rfl
    have s4 : (sumTo exo.length fun j => sumTo exo.length fun l => (so.arrays.ghuu.scale half).e i (j * exo.length + l) *
        (((List.range shocks.c).map fun j => shocks.e k j)[j]?.getD 0 *
          ((List.range shocks.c).map fun j => shocks.e k j)[l]?.getD 0)) =
        quadForm (so.stored half).ghuu.to2 i exo.length (fun j => shocks.e k j) exo.length (fun j => shocks.e k j) :=
      sumTo_congr fun j hj => sumTo_congr fun l hl => by rw [v2 j hj, v2 l hl, hu]; rfl
    have s5 : (sumTo t.nBackward fun j => sumTo exo.length fun l => so.arrays.ghxu.e i (j * exo.length + l) *
        ((t.drState.map (dev ys p k))[j]?.getD 0 * ((List.range shocks.c).map fun j => shocks.e k j)[l]?.getD 0)) =
        quadForm (so.stored half).ghxu.to2 i t.nBackward (stateVals t.toTyper (dev ys p k)) exo.length
          (fun j => shocks.e k j) :=
      sumTo_congr fun j hj => sumTo_congr fun l hl => by rw [v1 j hj, v2 l hl]; rfl
    have z0 : ∀ (X : Arr V) (r r' : Nat) (v : Nat → V), quadForm X i r v r' (fun _ => (0 : V)) = 0 := by
      intro X r r' v
      unfold quadForm
      rw [sumTo_eq]
      refine Finset.sum_eq_zero fun a _ => ?_
      rw [sumTo_eq]
      exact Finset.sum_eq_zero fun b _ => by simp
    have z1 : ∀ (X : Arr V) (r r' : Nat) (v : Nat → V), quadForm X i r (stateVals t.toTyper fun _ => (0 : V)) r' v = 0 := by
      intro X r r' v
      unfold quadForm
      rw [sumTo_eq]
      refine Finset.sum_eq_zero fun a _ => ?_
      rw [sumTo_eq]
      exact Finset.sum_eq_zero fun b _ => by simp [stateVals]
    simp only [s1, s2, s3, s4, s5, z0, z1]
    have hdel : (so.arrays.del2.scale half).e i 0 = half * (so.stored half).del2.to2.e i 0 := rfl
    rw [hdel]
    ring

/-- a step of a simulation in the other order -/
theorem SecondPeriod.relay {φ : V →+* ℂ} {ops : Ops V} {okName okName' : String → Bool} {ad ad' : Autograd V}
    (hex : ad.Exact) (hex' : ad'.Exact) {la la' : LinAlg V} (ex : la.Exact) (ex' : la'.Exact)
    {qz qz' : Arr V → Arr V → Except Err (GQZ V)} (hqz : GQZExact qz) (hqz' : GQZExact qz') {half : V}
    (hhalf : 2 * half = 1)
    {σ : String → Option V} {endo exo endo' exo' : List String} {es es' : List (Expr V)} {ss ss' : List V}
    {t t' : Llx} {J H sigma gy gu J' H' sigma' gy' gu' : Arr V} {so so' : SecondNd V} {s s' : Space V} {q q' : QZ V}
    {ev ev' : Nat → Option ℂ}
    (h : SecondModel φ ops okName ad la qz half σ endo exo es ss t J H sigma gy gu so s q ev)
    (h' : SecondModel φ ops okName' ad' la' qz' half σ endo' exo' es' ss' t' J' H' sigma' gy' gu' so' s' q' ev')
    (pe : endo'.Perm endo) (px : exo'.Perm exo) (pq : es'.Perm es)
    (hss : SameByName endo endo' (vecEntry ss) (vecEntry ss')) (hsig : SameSquare exo exo' sigma sigma')
    {x u z : String → V}
    (hz : SecondPeriod half t.toTyper exo.length gy gu (so.stored half) (byName endo x) (byName exo u) (byName endo z)) :
    SecondPeriod half t'.toTyper exo'.length gy' gu' (so'.stored half) (byName endo' x) (byName exo' u) (byName endo' z) := by
  have T := twoOrders_of hex hex' ex ex' h h' pe px pq hss
  have en := T.layouts.size
  have en' := T.layouts.size'
  obtain ⟨y, wx, wu, w, r, a1, a2, a3, a4, a5, a6⟩ := hz
  have back : ∀ (w : Nat → V), ∀ c < t.n, w c = byName endo (fun x => w (endo.idxOf x)) c := fun w c hc =>
    (reorder_self T.layouts.nodup w (by omega)).symm
  have same : ∀ (u w' : String → V) (w : Nat → V),
      SecondTerms t.toTyper exo.length (so.stored half) (byName endo w') (byName exo u) w →
      SecondTerms t'.toTyper exo'.length (so'.stored half) (byName endo' w') (byName exo' u)
        (byName endo' fun x => w (endo.idxOf x)) := by
    intro u w' w hw
    exact (C154_second_partial φ ops okName okName' ad ad' hex hex' la la' ex ex' qz qz' hqz hqz' half hhalf σ endo exo endo'
      exo' es es' ss ss' t t' J H sigma gy gu J' H' sigma' gy' gu' so so' s s' q q' ev ev' h h' pe px pq hss w' u _).mp
      (secondTerms_within T.perm hw (fun _ _ => rfl) (fun _ _ => rfl) (back w))
  refine ⟨_, _, _, _, _, (T.policy x u fun x => y (endo.idxOf x)).mp
      (followsPolicy_congr T.perm a1 (fun _ _ => rfl) (fun _ _ => rfl) (back y)),
    same (fun _ => 0) x wx a2, same u (fun _ => 0) wu a3, same u x w a4,
    (C154_risk_partial φ ops okName okName' ad ad' hex hex' la la' ex ex' qz qz' hqz hqz' half hhalf σ endo exo endo'
      exo' es es' ss ss' t t' J H sigma gy gu J' H' sigma' gy' gu' so so' s s' q q' ev ev' h h' pe px pq hss hsig
      (fun x => r (endo.idxOf x))).mp (riskTerm_within T.perm a5 (back r)), ?_⟩
  intro c hc
  have hc0 : c < endo'.length := by omega
  have hm : endo'[c] ∈ endo := pe.mem_iff.mp (List.getElem_mem hc0)
  have hi : endo.idxOf endo'[c] < t.n := by rw [en]; exact List.idxOf_lt_length_iff.mpr hm
  have hg : ∀ f : String → V, byName endo' f c = f endo'[c] := fun f => byName_get (List.getElem?_eq_getElem hc0)
  have := a6 _ hi
  rw [byName_get (List.getElem?_idxOf hm)] at this
  simp only [hg]
  exact this

/-- **C154**, simulations (partial, as above, and with two or more state variables and shocks, see C74): given
the same starting values and the same draws for every shock, simulations of the second-order solutions of
the two versions of the model return the same path for every variable, provided that the shocks are
uncorrelated or are listed in the same order. -/
theorem C154_simulation_partial (φ : V →+* ℂ) (ops : Ops V) (okName okName' : String → Bool) (ad ad' : Autograd V)
    (hex : ad.Exact) (hex' : ad'.Exact) (la la' : LinAlg V) (ex : la.Exact) (ex' : la'.Exact)
    (qz qz' : Arr V → Arr V → Except Err (GQZ V)) (hqz : GQZExact qz) (hqz' : GQZExact qz')
    (chol chol' : Chol V) (hch : CholUpper chol) (hch' : CholUpper chol') (half : V) (hhalf : 2 * half = 1)
    (σ : String → Option V) (endo exo endo' exo' : List String) (es es' : List (Expr V)) (ss ss' : List V)
    (t t' : Llx) (J H sigma gy gu J' H' sigma' gy' gu' : Arr V) (so so' : SecondNd V) (s s' : Space V) (q q' : QZ V)
    (ev ev' : Nat → Option ℂ)
    (h : SecondModel φ ops okName ad la qz half σ endo exo es ss t J H sigma gy gu so s q ev)
    (h' : SecondModel φ ops okName' ad' la' qz' half σ endo' exo' es' ss' t' J' H' sigma' gy' gu' so' s' q' ev')
    (pe : endo'.Perm endo) (px : exo'.Perm exo) (pq : es'.Perm es)
    (hss : SameByName endo endo' (vecEntry ss) (vecEntry ss')) (hl : ss.length = endo.length)
    (hl' : ss'.length = endo'.length) (hsig : SameSquare exo exo' sigma sigma')
    (hor : exo' = exo ∨ Uncorrelated sigma) (h1 : 1 < t.nBackward) (h2 : 1 < exo.length)
    (given given' p p' : Arr V) (init init' : Option (List V)) (hg : ∀ k, SameByName exo exo' (given.e k) (given'.e k))
    (hgr : given.r = given'.r)
    (hi : SameByName endo endo' (vecEntry (init.getD ss)) (vecEntry (init'.getD ss')))
    (hp : simulate chol half t.toTyper (.second gy gu (so.arrays.stored half)) ss sigma given init = .ok p)
    (hp' : simulate chol' half t'.toTyper (.second gy' gu' (so'.arrays.stored half)) ss' sigma' given' init' = .ok p') :
    p.r = given.r ∧ p'.r = given.r ∧ ∀ k < given.r, SameByName endo endo' (p.e k) (p'.e k) := by
  unfold simulate at hp hp'
  obtain ⟨shocks, hs, hp⟩ := Except.bind_eq_ok hp
  obtain ⟨shocks', hs', hp'⟩ := Except.bind_eq_ok hp'
  obtain ⟨a1, a2, a3, a4, a5⟩ := shocks_relay hch hch' h.plain.shocks px h.sigma_rows h'.sigma_rows hsig hor hs hs' hg
  have T := twoOrders_of hex hex' ex ex' h h' pe px pq hss
  have en := T.layouts.size
  have en' := T.layouts.size'
  have h1' : 1 < t'.nBackward := by
    have := (stateNames_perm T.layouts T.perm T.perm').length_eq
    unfold stateNames at this
    rw [List.length_map, List.length_map, (drState_length T.perm').1, (drState_length T.perm).1] at this
    omega
  have h2' : 1 < exo'.length := by rw [px.length_eq]; exact h2
  obtain ⟨r1, z, f1⟩ := simulatedSecond_step hex ex hqz h h1 h2 a2 hp
  obtain ⟨r1', z', f1'⟩ := simulatedSecond_step hex' ex' hqz' h' h1' h2' a4 hp'
  refine ⟨by omega, by omega, ?_⟩
  have key : ∀ k < given.r, SameByName endo endo' (dev ss p k) (dev ss' p' k) := by
    intro k
    induction k with
    | zero =>
      intro _ c c' x hcx hcx'
      have a := z c (by rw [hl]; exact (List.getElem?_eq_some_iff.mp hcx).1)
      have b := z' c' (by rw [hl']; exact (List.getElem?_eq_some_iff.mp hcx').1)
      have e := hi c c' x hcx hcx'
      unfold vecEntry at e
      rw [a, b] at e
      have e2 := hss c c' x hcx hcx'
      unfold vecEntry at e2
      unfold dev
      rw [e2]
      simp only [Option.getD_some] at e
      rw [e]
    | succ k ih =>
      intro hk
      have ih := ih (by omega)
      let N : Nat → String → V := fun k x => dev ss p k (endo.idxOf x)
      let U : String → V := fun x => shocks.e k (exo.idxOf x)
      have g := (f1 k (by omega)).congr T.perm (x' := byName endo (N k)) (u' := byName exo U)
        (z' := byName endo (N (k + 1))) (fun c hc => (reorder_self T.layouts.nodup _ (by omega)).symm)
        (fun j hj => (reorder_self T.layouts.nodupx _ hj).symm)
        (fun c hc => (reorder_self T.layouts.nodup _ (by omega)).symm)
      have g' := g.relay hex hex' ex ex' hqz hqz' hhalf h h' pe px pq hss hsig
      have read : ∀ {l l' : List String} (w w' : Nat → V), l'.Perm l → SameByName l l' w w' → ∀ c < l'.length,
          byName l' (fun x => w (l.idxOf x)) c = w' c := by
        intro l l' w w' p hw c hc
        rw [byName_get (List.getElem?_eq_getElem hc)]
        exact hw _ c _ (List.getElem?_idxOf (p.mem_iff.mp (List.getElem_mem hc))) (List.getElem?_eq_getElem hc)
      have g2 := g'.congr T.perm' (x' := dev ss' p' k) (u' := fun j => shocks'.e k j)
        (z' := byName endo' (N (k + 1))) (fun c hc => read _ _ pe ih c (by omega))
        (fun j hj => read _ _ px (a5 k) j hj) (fun _ _ => rfl)
      have e := g2.fun T.perm' (f1' k (by omega))
      intro c c' x hcx hcx'
      have a := e c' (by rw [en']; exact (List.getElem?_eq_some_iff.mp hcx').1)
      rw [byName_get hcx'] at a
      rw [← a]
      show _ = dev ss p (k + 1) (endo.idxOf x)
      obtain ⟨w1, w2⟩ := List.getElem?_eq_some_iff.mp hcx
      rw [← w2, T.layouts.nodup.idxOf_getElem]
  intro k hk c c' x hcx hcx'
  have a := key k hk c c' x hcx hcx'
  have e2 := hss c c' x hcx hcx'
  unfold vecEntry at e2
  unfold dev at a
  rw [e2] at a
  exact sub_left_injective a

/-- the two versions of the example are solved, and simulated for three periods -/
theorem xq_two : ∃ (s s' : Space ℚ) (gy gu gy' gu' : Arr ℚ) (so so' : SecondNd ℚ) (p p' : Arr ℚ),
    SecondModel (Rat.castHom ℂ) ratOps (fun _ => true) idealAd (xqLa [1/2, 1/4, 2]) triQz (1/2) odσ ["x", "z", "w"]
      ["e1", "e2"] [xqX, xqZ, xqW] [0, 0, 0] xqT (rowsArr 8 xqRows) (rowsArr (8 ^ 2) xqHess) (listArr [[1, 0], [0, 1/4]] 2)
      gy gu so s (diagQz [1/2, 1/4, 2]) (diagEv [1/2, 1/4, 2]) ∧
    SecondModel (Rat.castHom ℂ) ratOps (fun _ => true) idealAd (xqLa [1/4, 1/2, 2]) triQz (1/2) odσ ["w", "z", "x"]
      ["e2", "e1"] [xqZ, xqX, xqW] [0, 0, 0] xqT' (rowsArr 8 xqRows') (rowsArr (8 ^ 2) xqHess')
      (listArr [[1/4, 0], [0, 1]] 2) gy' gu' so' s' (diagQz [1/4, 1/2, 2]) (diagEv [1/4, 1/2, 2]) ∧
    simulate (listChol [listArr [[1, 0], [0, 1/2]] 2]) (1/2) xqT.toTyper (.second gy gu (so.arrays.stored (1/2))) [0, 0, 0]
      (listArr [[1, 0], [0, 1/4]] 2) (listArr [[2, 4], [0, 0], [0, 0]] 2) none = .ok p ∧
    simulate (listChol [listArr [[1/2, 0], [0, 1]] 2]) (1/2) xqT'.toTyper (.second gy' gu' (so'.arrays.stored (1/2)))
      [0, 0, 0] (listArr [[1/4, 0], [0, 1]] 2) (listArr [[4, 2], [0, 0], [0, 0]] 2) none = .ok p' ∧
    p.e 2 0 = 3 ∧ p'.e 2 2 = 3 ∧ p.e 2 1 = 1/2 ∧ p'.e 2 1 = 1/2 := by
  obtain ⟨s, gy, gu, so, h, c⟩ := xq_second (ls := [1/2, 1/4, 2]) (sigma := listArr [[1, 0], [0, 1/4]] 2) rfl xq_derivs
    (by unfold SymmetricHessian; decide +kernel) (by decide +kernel) (by
      intro i j hij hj
      have hj : j < 3 := hj
      interval_cases j <;> interval_cases i <;> norm_num [abs_lt]) (by
      simp only [List.mem_cons, List.not_mem_nil, or_false, forall_eq_or_imp, forall_eq]
      norm_num [abs_lt])
    (fun so gy gu => okAnd (simulate (listChol [listArr [[1, 0], [0, 1/2]] 2]) (1/2) xqT.toTyper
      (.second gy gu (so.arrays.stored (1/2))) [0, 0, 0] (listArr [[1, 0], [0, 1/4]] 2)
      (listArr [[2, 4], [0, 0], [0, 0]] 2) none) fun p => decide (p.e 2 0 = 3 ∧ p.e 2 1 = 1/2)) (by decide +kernel)
  obtain ⟨s', gy', gu', so', h', c'⟩ := xq_second (ls := [1/4, 1/2, 2]) (sigma := listArr [[1/4, 0], [0, 1]] 2) rfl xq_derivs'
    (by unfold SymmetricHessian; decide +kernel) (by decide +kernel) (by
      intro i j hij hj
      have hj : j < 3 := hj
      interval_cases j <;> interval_cases i <;> norm_num [abs_lt]) (by
      simp only [List.mem_cons, List.not_mem_nil, or_false, forall_eq_or_imp, forall_eq]
      norm_num [abs_lt])
    (fun so gy gu => okAnd (simulate (listChol [listArr [[1/2, 0], [0, 1]] 2]) (1/2) xqT'.toTyper
      (.second gy gu (so.arrays.stored (1/2))) [0, 0, 0] (listArr [[1/4, 0], [0, 1]] 2)
      (listArr [[4, 2], [0, 0], [0, 0]] 2) none) fun p => decide (p.e 2 2 = 3 ∧ p.e 2 1 = 1/2)) (by decide +kernel)
  obtain ⟨p, hp, c⟩ := ok_of_check c
  obtain ⟨p', hp', c'⟩ := ok_of_check c'
  obtain ⟨c1, c2⟩ := of_decide_eq_true c
  obtain ⟨c1', c2'⟩ := of_decide_eq_true c'
  exact ⟨s, s', gy, gu, gy', gu', so, so', p, p', h, h', hp, hp', c1, c1', c2, c2'⟩

/-- C154 is about something: the example meets the conditions, and its second-order part is not zero -/
example : ∃ (s s' : Space ℚ) (gy gu gy' gu' : Arr ℚ) (so so' : SecondNd ℚ) (p p' : Arr ℚ),
    SecondModel (Rat.castHom ℂ) ratOps (fun _ => true) idealAd (xqLa [1/2, 1/4, 2]) triQz (1/2) odσ ["x", "z", "w"]
      ["e1", "e2"] [xqX, xqZ, xqW] [0, 0, 0] xqT (rowsArr 8 xqRows) (rowsArr (8 ^ 2) xqHess) (listArr [[1, 0], [0, 1/4]] 2)
      gy gu so s (diagQz [1/2, 1/4, 2]) (diagEv [1/2, 1/4, 2]) ∧
    SecondModel (Rat.castHom ℂ) ratOps (fun _ => true) idealAd (xqLa [1/4, 1/2, 2]) triQz (1/2) odσ ["w", "z", "x"]
      ["e2", "e1"] [xqZ, xqX, xqW] [0, 0, 0] xqT' (rowsArr 8 xqRows') (rowsArr (8 ^ 2) xqHess')
      (listArr [[1/4, 0], [0, 1]] 2) gy' gu' so' s' (diagQz [1/4, 1/2, 2]) (diagEv [1/4, 1/2, 2]) ∧
    (xqLa [1/2, 1/4, 2]).Exact ∧ (xqLa [1/4, 1/2, 2]).Exact ∧ GQZExact triQz ∧
    ["w", "z", "x"].Perm ["x", "z", "w"] ∧ ["e2", "e1"].Perm ["e1", "e2"] ∧ [xqZ, xqX, xqW].Perm [xqX, xqZ, xqW] ∧
    SameSquare ["e1", "e2"] ["e2", "e1"] (listArr [[1, 0], [0, 1/4]] 2) (listArr [[1/4, 0], [0, (1 : ℚ)]] 2) ∧
    Uncorrelated (listArr [[1, 0], [0, (1/4 : ℚ)]] 2) ∧ 1 < xqT.nBackward ∧
    simulate (listChol [listArr [[1, 0], [0, 1/2]] 2]) (1/2) xqT.toTyper (.second gy gu (so.arrays.stored (1/2))) [0, 0, 0]
      (listArr [[1, 0], [0, 1/4]] 2) (listArr [[2, 4], [0, 0], [0, 0]] 2) none = .ok p ∧
    simulate (listChol [listArr [[1/2, 0], [0, 1]] 2]) (1/2) xqT'.toTyper (.second gy' gu' (so'.arrays.stored (1/2)))
      [0, 0, 0] (listArr [[1/4, 0], [0, 1]] 2) (listArr [[4, 2], [0, 0], [0, 0]] 2) none = .ok p' ∧
    p.e 2 0 = 3 ∧ p'.e 2 2 = 3 := by
  obtain ⟨s, s', gy, gu, gy', gu', so, so', p, p', h, h', hp, hp', c1, c2, -, -⟩ := xq_two
  refine ⟨s, s', gy, gu, gy', gu', so, so', p, p', h, h', xqLa_exact _, xqLa_exact _, triQz_exact, xq_perm.1, xq_perm.2.1,
    xq_perm.2.2, ?_, ?_, by decide, hp, hp', c1, c2⟩
  · intro i i' j j' x y hi hi' hj hj'
    have a := (List.getElem?_eq_some_iff.mp hi).1
    have b := (List.getElem?_eq_some_iff.mp hi').1
    have c := (List.getElem?_eq_some_iff.mp hj).1
    have d := (List.getElem?_eq_some_iff.mp hj').1
    have a : i < 2 := a
    have b : i' < 2 := b
    have c : j < 2 := c
    have d : j' < 2 := d
    rw [← hi'] at hi
    rw [← hj'] at hj
    interval_cases i <;> interval_cases i' <;> interval_cases j <;> interval_cases j' <;>
      first | rfl | exact absurd hi (by decide) | exact absurd hj (by decide)
  · unfold Uncorrelated
    decide +kernel

#print axioms C154_second_partial
#print axioms C154_risk_partial
#print axioms C154_simulation_partial

end Pynare
