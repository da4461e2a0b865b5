import Verif.Props.Order
import Verif.Props.Check
/-!
# The check of a model and the order in which it is written (C152)
-/

namespace Pynare

variable {V : Type} [Field V] [LinearOrder V] [IsStrictOrderedRing V]

/-- a bounded path, with the variables in the order of the other model -/
theorem boundedPath_relay {φ : V →+* ℂ} {ops : Ops V} {okName okName' : String → Bool} {ad ad' : Autograd V}
    (hex : ad.Exact) (hex' : ad'.Exact) {σ : String → Option V} {endo exo endo' exo' : List String}
    {es es' : List (Expr V)} {ss ss' : List V} {t t' : Llx} {J J' : Arr V}
    (h : JacobianOf ops okName ad σ endo exo es ss t J) (h' : JacobianOf ops okName' ad' σ endo' exo' es' ss' t' J')
    (pe : endo'.Perm endo) (px : exo'.Perm exo) (pq : es'.Perm es)
    (hss : SameByName endo endo' (vecEntry ss) (vecEntry ss')) (hr : J.r = es.length) (hr' : J'.r = es'.length)
    {y y' : Nat → Nat → V} (hs : ∀ τ, SameByName endo endo' (y τ) (y' τ))
    (hy : BoundedPath φ t exo.length J y) : BoundedPath φ t' exo'.length J' y' := by
  have L := layouts_of h.plain h.table h'.plain h'.table pe px pq
  have hsq := h.plain.square
  have hsq' := h'.plain.square
  have back : ∀ τ, ∀ c < endo.length, byName endo (fun x => y τ (endo.idxOf x)) c = y τ c := by
    intro τ c hc
    rw [byName_get (List.getElem?_eq_getElem hc), h.plain.distinct.idxOf_getElem]
  have back' : ∀ τ, ∀ c < endo'.length, byName endo' (fun x => y τ (endo.idxOf x)) c = y' τ c := by
    intro τ c hc
    rw [byName_get (List.getElem?_eq_getElem hc)]
    exact hs τ _ c _ (List.getElem?_idxOf (pe.mem_iff.mp (List.getElem_mem hc))) (List.getElem?_eq_getElem hc)
  obtain ⟨h1, B, h2⟩ := hy
  refine ⟨?_, B, ?_⟩
  · intro τ i' hi'
    rw [hr'] at hi'
    obtain ⟨i, hi, hie⟩ := List.getElem_of_mem (pq.mem_iff.mp (List.getElem_mem hi'))
    have hi0 : es[i]? = some es'[i'] := by rw [List.getElem?_eq_getElem hi, hie]
    have := linearised_relay hex hex' h h' L hss hi0 (List.getElem?_eq_getElem hi')
      (fun x => y τ (endo.idxOf x)) (fun x => y (τ + 1) (endo.idxOf x)) (fun x => y (τ + 2) (endo.idxOf x)) (fun _ => 0)
    have e := L.size
    have e' := L.size'
    have e0 := (linearised_within (t := t) (m := exo.length) (J := J) (i := i) (ym := y τ) (y := y (τ + 1))
      (yp := y (τ + 2)) (u := fun _ => 0) (u' := byName exo fun _ => 0)
      (fun c hc => (back _ c (by omega)).symm) (fun c hc => (back _ c (by omega)).symm)
      (fun c hc => (back _ c (by omega)).symm) (fun _ _ => rfl)).trans this
    rw [h1 τ i (by omega)] at e0
    refine Eq.trans ?_ e0.symm
    exact linearised_within (fun c hc => (back' _ c (by omega)).symm) (fun c hc => (back' _ c (by omega)).symm)
      (fun c hc => (back' _ c (by omega)).symm) (fun _ _ => rfl)
  · intro τ c hc
    rw [← back' τ c (by omega), byName_get (List.getElem?_eq_getElem (by omega : c < endo'.length))]
    exact h2 τ _ (by
      rw [hr, hsq]
      exact List.idxOf_lt_length_iff.mpr (pe.mem_iff.mp (List.getElem_mem _)))

/-- if there is always exactly one bounded path in one order, then in the other -/
theorem oneBoundedPath_relay {φ : V →+* ℂ} {ops : Ops V} {okName okName' : String → Bool} {ad ad' : Autograd V}
    (hex : ad.Exact) (hex' : ad'.Exact) {σ : String → Option V} {endo exo endo' exo' : List String}
    {es es' : List (Expr V)} {ss ss' : List V} {t t' : Llx} {J J' : Arr V}
    (h : JacobianOf ops okName ad σ endo exo es ss t J) (h' : JacobianOf ops okName' ad' σ endo' exo' es' ss' t' J')
    (pe : endo'.Perm endo) (px : exo'.Perm exo) (pq : es'.Perm es)
    (hss : SameByName endo endo' (vecEntry ss) (vecEntry ss')) (hr : J.r = es.length) (hr' : J'.r = es'.length)
    (ho : OneBoundedPath φ t exo.length J) : OneBoundedPath φ t' exo'.length J' := by
  have hd := h.plain.distinct
  have hd' := h'.plain.distinct
  have hsq := h.plain.square
  have hsq' := h'.plain.square
  have at' : ∀ (w : Nat → V), SameByName endo endo' w (fun c => w (endo.idxOf (endo'[c]?.getD ""))) := by
    intro w i i' x hi hi'
    show w i = w (endo.idxOf (endo'[i']?.getD ""))
    rw [hi', Option.getD_some]
    obtain ⟨a, b⟩ := List.getElem?_eq_some_iff.mp hi
    rw [← b, hd.idxOf_getElem]
  have at1 : ∀ (w : Nat → V), SameByName endo endo' (fun c => w (endo'.idxOf (endo[c]?.getD ""))) w := by
    intro w i i' x hi hi'
    show w (endo'.idxOf (endo[i]?.getD "")) = w i'
    rw [hi, Option.getD_some]
    obtain ⟨a, b⟩ := List.getElem?_eq_some_iff.mp hi'
    rw [← b, hd'.idxOf_getElem]
  have hss' : SameByName endo' endo (vecEntry ss') (vecEntry ss) := fun i i' x h1 h2 => (hss i' i x h2 h1).symm
  intro y0
  obtain ⟨y, hy0, hy, hun⟩ := ho fun c => y0 (endo'.idxOf (endo[c]?.getD ""))
  -- the path, and the given values where there is no variable
  have hy' := boundedPath_relay hex hex' h h' pe px pq hss hr hr' (y' := fun τ c =>
    if c < endo'.length then y τ (endo.idxOf (endo'[c]?.getD "")) else y0 c) (fun τ i i' x hi hi' => by
      show y τ i = if i' < endo'.length then y τ (endo.idxOf (endo'[i']?.getD "")) else y0 i'
      rw [if_pos (List.getElem?_eq_some_iff.mp hi').1]
      exact at' (y τ) i i' x hi hi') hy
  refine ⟨_, ?_, hy', ?_⟩
  · funext c
    show (if c < endo'.length then y 0 (endo.idxOf (endo'[c]?.getD "")) else y0 c) = y0 c
    split
    · rename_i hc
      have hm := pe.mem_iff.mp (List.getElem_mem hc)
      rw [hy0, List.getElem?_eq_getElem hc, Option.getD_some]
      show y0 (endo'.idxOf (endo[endo.idxOf endo'[c]]?.getD "")) = _
      rw [List.getElem?_idxOf hm, Option.getD_some, hd'.idxOf_getElem]
    · rfl
  · intro z hz0 hz τ c hc
    have hc' : c < endo'.length := by omega
    have hb := boundedPath_relay hex' hex h' h pe.symm px.symm pq.symm hss' hr' hr
      (y' := fun τ c => z τ (endo'.idxOf (endo[c]?.getD ""))) (fun τ i i' x hi hi' => (at1 (z τ) i' i x hi' hi).symm) hz
    have hm := pe.mem_iff.mp (List.getElem_mem hc')
    have := hun _ (by rw [hz0]) hb τ (endo.idxOf endo'[c]) (by rw [hr, hsq]; exact List.idxOf_lt_length_iff.mpr hm)
    simp only [List.getElem?_idxOf hm, Option.getD_some, hd'.idxOf_getElem] at this
    show z τ c = if c < endo'.length then y τ (endo.idxOf (endo'[c]?.getD "")) else y0 c
    rw [if_pos hc', this, List.getElem?_eq_getElem hc', Option.getD_some]

/-- **C152, partially**: whether a model passes the check of its state space does not depend on the order in
which the variables, the shocks and the equations are written.  Partial: under the conditions of C148
(`ExaminedModel`: exact arithmetic, no eigenvalue of modulus one; a forward-looking variable; explosive
eigenvalues have real parts above one). -/
theorem C152_check_partial (φ : V →+* ℂ) (ops : Ops V) (okName okName' : String → Bool) (ad ad' : Autograd V)
    (hex : ad.Exact) (hex' : ad'.Exact) (la la' : LinAlg V) (ex : la.Exact) (ex' : la'.Exact) (rk : la.RankExact)
    (rk' : la'.RankExact) (σ : String → Option V) (endo exo endo' exo' : List String) (es es' : List (Expr V))
    (ss ss' : List V) (t t' : Llx) (J J' : Arr V) (s s' : Space V) (q q' : QZ V) (ev ev' : Nat → Option ℂ)
    (h : ExaminedModel φ ops okName ad la σ endo exo es ss t J s q ev)
    (h' : ExaminedModel φ ops okName' ad' la' σ endo' exo' es' ss' t' J' s' q' ev')
    (pe : endo'.Perm endo) (px : exo'.Perm exo) (pq : es'.Perm es)
    (hss : SameByName endo endo' (vecEntry ss) (vecEntry ss')) (hf : 0 < t.nForward) (hf' : 0 < t'.nForward)
    (hre : ∀ i < q.eigs.length, ∀ z, ev i = some z → 1 < ‖z‖ → 1 < z.re)
    (hre' : ∀ i < q'.eigs.length, ∀ z, ev' i = some z → 1 < ‖z‖ → 1 < z.re) :
    s.verify la t.toTyper = .ok () ↔ s'.verify la' t'.toTyper = .ok () := by
  have rows : ∀ {okName : String → Bool} {ad : Autograd V} {la : LinAlg V} {endo exo : List String} {es : List (Expr V)}
      {ss : List V} {t : Llx} {J : Arr V} {s : Space V} {q : QZ V} {ev : Nat → Option ℂ}, ad.Exact →
      ExaminedModel φ ops okName ad la σ endo exo es ss t J s q ev →
      J.r = es.length ∧ ∃ pss, Examined φ la pss t J s q ev := by
    intro okName ad la endo exo es ss t J s q ev hex h
    obtain ⟨pss, h1, h2, h3, h4, -⟩ := h.plain.periods h.table
    obtain ⟨fs, hfs, hJ⟩ := h.jacobian
    have hr := (C109_jacobian ad hex h2 _ fs ss J hJ).1
    have hl := (dynamicFuncs_get hfs).1
    have hsq := h.plain.square
    exact ⟨by omega, pss, h3, h2, by omega, h.space, h.decomposed, h.eigen, h.noUnit⟩
  obtain ⟨hr, pss, he⟩ := rows hex h
  obtain ⟨hr', pss', he'⟩ := rows hex' h'
  rw [C148_check_iff_partial φ la ex rk pss t exo.length J s q ev he hf hre,
    C148_check_iff_partial φ la' ex' rk' pss' t' exo'.length J' s' q' ev' he' hf' hre']
  constructor
  · exact oneBoundedPath_relay hex hex' h.toJacobianOf h'.toJacobianOf pe px pq hss hr hr'
  · exact oneBoundedPath_relay hex' hex h'.toJacobianOf h.toJacobianOf pe.symm px.symm pq.symm
      (fun i i' x h1 h2 => (hss i' i x h2 h1).symm) hr' hr

/-! ### examples -/

/-- with a single static variable the exact rank is one -/
theorem rankLa_create (q : QZ ℚ) {t : Typer} {J : Arr ℚ}
    (h : okAnd (J.cols (t.timed t.static 1)) (fun js => decide (0 < js.r ∧ js.c = 1 ∧ js.e 0 0 ≠ 0)) = true)
    (h1 : t.nStatic = 1) : Space.create (rankLa q) t J = Space.create (ratLa 1 q) t J := by
  obtain ⟨js, hj, hc⟩ := ok_of_check h
  obtain ⟨c1, c2, c3⟩ := of_decide_eq_true hc
  have hrk : (rankLa q).rank js = 1 := by
    show (Matrix.of fun (i : Fin js.r) (j : Fin js.c) => js.e i j).rank = 1
    rw [← c2]
    refine (rank_inj _).mpr fun v hv => ?_
    funext j
    have hj0 : j = ⟨0, by omega⟩ := Fin.ext (by have := j.2; simp only; omega)
    have := congrFun hv ⟨0, c1⟩
    rw [Matrix.mulVec, dotProduct] at this
    rw [Finset.sum_eq_single (⟨0, by omega⟩ : Fin js.c)] at this
    · rw [hj0]
      exact (mul_eq_zero.mp this).resolve_left c3
    · intro b _ hb
      exact absurd (Fin.ext (by have := b.2; simp only; omega)) hb
    · intro hh; exact absurd (Finset.mem_univ _) hh
  have hrot : rotated (rankLa q) t J = rotated (ratLa 1 q) t J := by
    unfold rotated
    dsimp only
    split
    · rfl
    · rw [hj]
      dsimp only [Bind.bind, Except.bind]
      rw [show (rankLa q).qr js = (ratLa 1 q).qr js from rfl]
      cases hq : (ratLa 1 q).qr js with
      | error e => rfl
      | ok v =>
        have hv : v.2 = js := by
          simp only [ratLa] at hq
          split at hq
          · rw [← Except.ok.inj hq]
          · cases hq
        dsimp only
        rw [hv, hrk, h1]
        rfl
  unfold Space.create structSpace
  rw [hrot]
  rfl

/-- the two versions of the example, with exact ranks, meet the hypotheses -/
example : ∃ (s s' : Space ℚ),
    ExaminedModel (Rat.castHom ℂ) ratOps (fun _ => true) idealAd (rankLa (sbQz (1/2) 2)) odσ ["z", "x", "w"] ["e", "f"]
      [odW, odX, odZ] [0, 0, 0] exT (rowsArr 7 odRows) s (sbQz (1/2) 2) (sbEv (1/2) 2) ∧
    ExaminedModel (Rat.castHom ℂ) ratOps (fun _ => true) idealAd (rankLa odQz') odσ ["x", "z", "w"] ["f", "e"]
      [odW, odZ, odX] [0, 0, 0] odT' (rowsArr 7 odRows') s' odQz' (sbEv (1/2) 2) ∧
    0 < exT.nForward ∧ 0 < odT'.nForward ∧
    ∀ i < 2, ∀ z, sbEv (1/2) 2 i = some z → 1 < ‖z‖ → 1 < z.re := by
  obtain ⟨s, gy, gu, h, -⟩ := od_solved
  obtain ⟨s', gy', gu', h', -⟩ := od_solved'
  refine ⟨s, s', ⟨h.toJacobianOf, (rankLa_create _ (by decide +kernel) (by decide)).trans h.space, h.decomposed, h.eigen, h.noUnit⟩,
    ⟨h'.toJacobianOf, (rankLa_create _ (by decide +kernel) (by decide)).trans h'.space, h'.decomposed, h'.eigen, h'.noUnit⟩, by decide, by decide, ?_⟩
  intro i hi z hz h1
  interval_cases i
  · have hz := Option.some.inj hz
    subst hz
    rw [Complex.norm_ratCast] at h1
    norm_num [abs_of_pos] at h1
  · have hz := Option.some.inj hz
    subst hz
    simp

#print axioms C152_check_partial

end Pynare
