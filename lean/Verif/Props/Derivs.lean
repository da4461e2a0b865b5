import Verif.Lemmas.Taylor
import Verif.Lemmas.Stats
import Verif.Props.Exprs
import Verif.Props.Steady
/-!
# C109 and C112: the arrays of derivatives

Reading guide: `modelJacobian`, `modelHessian`, `steadyJacobian` – the arrays a model reports, computed by
`autograd` (`ad`) from the functions of its equations; `linPoint` – the point at which they are computed.
-/

namespace Pynare

variable {V : Type}

theorem assignRow_len {n : Nat} {row : List V} (h : row.length = n) : assignRow n row = .ok row := by
  unfold assignRow
  exact if_pos h

theorem assignRows_get {n : Nat} {p : List V} : ∀ {fs : List (List V → Except Err (List V))} {rows : List (List V)},
    assignRows n p fs = .ok rows → rows.length = fs.length ∧ ∀ (i : Nat) f, fs[i]? = some f →
      ∃ row row', f p = .ok row ∧ assignRow n row = .ok row' ∧ rows[i]? = some row' := by
  intro fs
  induction fs with
  | nil => intro rows h; cases h; simp
  | cons f fs ih =>
    intro rows h
    unfold assignRows at h
    obtain ⟨row, h1, h⟩ := Except.bind_eq_ok h
    obtain ⟨row', h2, h⟩ := Except.bind_eq_ok h
    obtain ⟨rows', h3, h⟩ := Except.bind_eq_ok h
    cases h
    obtain ⟨hl, hg⟩ := ih h3
    refine ⟨by simp [hl], fun i f' hf => ?_⟩
    cases i with
    | zero =>
      have : f = f' := by simpa using hf
      subst this
      exact ⟨row, row', h1, h2, rfl⟩
    | succ i => exact hg i f' (by simpa using hf)

theorem assignRows_of {n : Nat} {p : List V} : ∀ {fs : List (List V → Except Err (List V))},
    (∀ f ∈ fs, ∃ row, f p = .ok row ∧ row.length = n) → ∃ rows, assignRows n p fs = .ok rows := by
  intro fs
  induction fs with
  | nil => intro _; exact ⟨[], rfl⟩
  | cons f fs ih =>
    intro h
    obtain ⟨row, h1, h2⟩ := h f (by simp)
    obtain ⟨rows, h3⟩ := ih fun g hg => h g (by simp [hg])
    refine ⟨row :: rows, ?_⟩
    simp [assignRows, h1, assignRow_len h2, h3, bind, Except.bind]

section
variable [Field V] [LinearOrder V]

/-- the rows of an array of first derivatives -/
theorem jacobianArray_get {ad : Autograd V} (hex : ad.Exact) {fs : List (List V → Except Err V)} {p : List V}
    {J : Arr V} (h : jacobianArray ad fs p = .ok J) :
    J.r = fs.length ∧ J.c = p.length ∧ ∀ (i : Nat) f, fs[i]? = some f → ∃ g, ad.grad f p = .ok g ∧
      g.length = p.length ∧ J.e i = vecEntry g := by
  unfold jacobianArray at h
  obtain ⟨rows, h1, h⟩ := Except.bind_eq_ok h
  cases h
  obtain ⟨hl, hg⟩ := assignRows_get h1
  refine ⟨by simpa [rowsArr] using hl, rfl, fun i f hf => ?_⟩
  obtain ⟨row, row', e1, e2, e3⟩ := hg i (ad.grad f) (by simp [hf])
  have hlen := (hex.grad f p row e1).1
  rw [assignRow_len hlen] at e2
  cases e2
  refine ⟨row, e1, hlen, ?_⟩
  funext k
  simp [rowsArr, e3, vecEntry]

/-- **C109, first derivatives.**  If `autograd` is exact, the jacobian a model reports has a row for each
equation and a column for each of its arguments, and holds their partial derivatives at the steady state. -/
theorem C109_jacobian (ad : Autograd V) (hex : ad.Exact) {pss : List (List Int)} {t : Llx}
    (ht : buildLlx pss = .ok t) (nExog : Nat) (fs : List (List V → Except Err V)) (ss : List V) (J : Arr V)
    (h : modelJacobian ad t.toTyper nExog fs ss = .ok J) :
    J.r = fs.length ∧ J.c = t.count + nExog ∧
      ∀ (i : Nat) f, fs[i]? = some f → IsDerivAt f (linPoint t.toTyper nExog ss) (J.e i) := by
  obtain ⟨h1, h2, h3⟩ := jacobianArray_get hex h
  refine ⟨h1, by rw [h2, linPoint_length ht], fun i f hf => ?_⟩
  obtain ⟨g, hg, -, he⟩ := h3 i f hf
  rw [he]
  exact (hex.grad f _ g hg).2

end

theorem entry_flatten [Field V] [LinearOrder V] {n : Nat} : ∀ {h : List (List V)}, (∀ row ∈ h, row.length = n) → ∀ {k l : Nat}, k < h.length →
    l < n → vecEntry h.flatten (k * n + l) = vecEntry (h[k]?.getD []) l := by
  intro h
  induction h with
  | nil => intro _ k l hk; simp at hk
  | cons r h ih =>
    intro hr k l hk hl
    have hrl := hr r (by simp)
    cases k with
    | zero =>
      simp only [vecEntry, List.flatten_cons, Nat.zero_mul, Nat.zero_add, List.getElem?_cons_zero, Option.getD_some]
      rw [List.getElem?_append_left (by omega)]
    | succ k =>
      have := ih (fun row hrow => hr row (by simp [hrow])) (k := k) (l := l) (by simpa using hk) hl
      simp only [vecEntry, List.flatten_cons, List.getElem?_cons_succ] at this ⊢
      rw [← this, List.getElem?_append_right (by rw [hrl, Nat.succ_mul]; omega), hrl]
      congr 2
      rw [Nat.succ_mul]; omega

/-- the second derivatives of a model, if differentiating twice is exact -/
theorem hessian_taylor [Field V] [LinearOrder V] [IsStrictOrderedRing V] (ad : Autograd V) (hex : ad.Exact)
    {pss : List (List Int)} {t : Llx}
    (ht : buildLlx pss = .ok t) (nExog : Nat) (fs : List (List V → Except Err V)) (ss : List V)
    (h2 : ∀ f ∈ fs, ad.SecondExactAt f (linPoint t.toTyper nExog ss)) (H : Arr V) (h : modelHessian ad t.toTyper nExog fs ss = .ok H) :
    H.r = fs.length ∧ H.c = (t.count + nExog) ^ 2 ∧
    (∀ i < fs.length, ∀ p < t.count + nExog, ∀ q < t.count + nExog,
      H.e i (p * (t.count + nExog) + q) = H.e i (q * (t.count + nExog) + p)) ∧
    ∃ J, modelJacobian ad t.toTyper nExog fs ss = .ok J ∧
      ∀ (i : Nat) f, fs[i]? = some f → IsTaylorAt f (linPoint t.toTyper nExog ss) (J.e i) (H.e i) := by
  have hlp := linPoint_length ht nExog ss
  unfold modelHessian hessianArray at h
  obtain ⟨rows, h1, h⟩ := Except.bind_eq_ok h
  cases h
  obtain ⟨hl, hg⟩ := assignRows_get h1
  have key : ∀ (i : Nat) f, fs[i]? = some f → ∃ h g, ad.jacobian (ad.grad f) (linPoint t.toTyper nExog ss) = .ok h ∧
      ad.grad f (linPoint t.toTyper nExog ss) = .ok g ∧ g.length = t.count + nExog ∧
      (∀ k < t.count + nExog, ∀ l < t.count + nExog, vecEntry h.flatten (k * (t.count + nExog) + l) =
        vecEntry h.flatten (l * (t.count + nExog) + k)) ∧
      IsTaylorAt f (linPoint t.toTyper nExog ss) (vecEntry g) (vecEntry h.flatten) ∧
      rows[i]? = some h.flatten := by
    intro i f hf
    obtain ⟨row, row', e1, e2, e3⟩ := hg i _ (by rw [List.getElem?_map, hf]; rfl)
    obtain ⟨h, hh, e1⟩ := Except.bind_eq_ok e1
    cases e1
    have hrows := (hex.jacobian _ _ _ hh).1
    obtain ⟨g, hgr, hhl, hsym, htay⟩ := h2 f (List.mem_of_getElem? hf) _ hh
    have hgl := (hex.grad f _ g hgr).1
    have hflat : ∀ k < (linPoint t.toTyper nExog ss).length, ∀ l < (linPoint t.toTyper nExog ss).length,
        vecEntry h.flatten (k * (linPoint t.toTyper nExog ss).length + l) = vecEntry (h[k]?.getD []) l :=
      fun k hk l hl => entry_flatten hrows (by omega) hl
    have hfl : h.flatten.length = (linPoint t.toTyper nExog ss).length ^ 2 := by
      rw [List.length_flatten, List.map_congr_left hrows, List.map_const', List.sum_replicate, hhl, sq]
      simp
    rw [assignRow_len hfl] at e2
    cases e2
    refine ⟨h, g, hh, hgr, by omega, ?_, htay _ hflat, e3⟩
    intro k hk l hl
    rw [← hlp] at hk hl ⊢
    rw [hflat k hk l hl, hflat l hl k hk, hsym k hk l hl]
  have hE : ∀ (i : Nat) (x : List V), rows[i]? = some x →
      (rowsArr ((linPoint t.toTyper nExog ss).length ^ 2) rows).e i = vecEntry x := by
    intro i x hx
    funext k
    simp [rowsArr, hx, vecEntry]
  refine ⟨by simpa [rowsArr] using hl, by simp [rowsArr, hlp], fun i hi p hp q hq => ?_, ?_⟩
  · obtain ⟨h, g, -, -, -, hs, -, hr⟩ := key i fs[i] (List.getElem?_eq_getElem hi)
    rw [hE i _ hr]
    exact hs p hp q hq
  · obtain ⟨jr, hj⟩ := assignRows_of (n := (linPoint t.toTyper nExog ss).length)
      (p := linPoint t.toTyper nExog ss) (fs := fs.map ad.grad) (by
        intro f hf
        obtain ⟨f', hf', rfl⟩ := List.mem_map.mp hf
        obtain ⟨i, hi⟩ := List.getElem?_of_mem hf'
        obtain ⟨h, g, -, hgr, hgl, -⟩ := key i f' hi
        exact ⟨g, hgr, by omega⟩)
    have hJ : modelJacobian ad t.toTyper nExog fs ss =
        .ok (rowsArr (linPoint t.toTyper nExog ss).length jr) := by
      unfold modelJacobian jacobianArray
      rw [hj]; rfl
    refine ⟨_, hJ, fun i f hf => ?_⟩
    obtain ⟨h, g, -, hgr, hgl, hs, htay, hr⟩ := key i f hf
    obtain ⟨g', hgr', -, he⟩ := (jacobianArray_get hex hJ).2.2 i f hf
    rw [hgr] at hgr'
    cases hgr'
    rw [he, hE i _ hr]
    exact htay

/-- **C109, second derivatives.**  If `autograd` is exact, then a model that reports second derivatives reports
first derivatives too; the second derivatives are symmetric, and with both the equations are approximated to
second order at the steady state. -/
theorem C109_hessian (ad : Autograd ℝ) (hex : ad.Exact) {pss : List (List Int)} {t : Llx}
    (ht : buildLlx pss = .ok t) (nExog : Nat) (fs : List (List ℝ → Except Err ℝ)) (ss : List ℝ) (H : Arr ℝ)
    (h : modelHessian ad t.toTyper nExog fs ss = .ok H) :
    H.r = fs.length ∧ H.c = (t.count + nExog) ^ 2 ∧
    (∀ i < fs.length, ∀ p < t.count + nExog, ∀ q < t.count + nExog,
      H.e i (p * (t.count + nExog) + q) = H.e i (q * (t.count + nExog) + p)) ∧
    ∃ J, modelJacobian ad t.toTyper nExog fs ss = .ok J ∧
      ∀ (i : Nat) f, fs[i]? = some f → IsTaylorAt f (linPoint t.toTyper nExog ss) (J.e i) (H.e i) :=
  hessian_taylor ad hex ht nExog fs ss (fun _ _ _ hj => autograd_taylor hex hj) H h

/-! ### C112: the jacobian of the steady-state equations -/

section
variable [Field V] [LinearOrder V] [IsStrictOrderedRing V]

theorem rowPart_cell (t : Typer) (J : Arr V) (i r : Nat) (y : Nat → V) :
    rowPart t J i r y = sumTo t.n fun c => ((t.cell r c).map (J.e i)).getD 0 * y c := by
  unfold rowPart
  refine sumTo_congr fun c _ => ?_
  cases t.cell r c <;> simp

/-- the chain rule for the vector of arguments at rest -/
theorem isDeriv_rest {pss : List (List Int)} {t : Llx} (ht : buildLlx pss = .ok t) {nExog : Nat}
    {f g : List V → Except Err V} {ss : List V} (hss : ss.length = t.n) {J : Arr V} {i : Nat}
    (hf : IsDerivAt f (linPoint t.toTyper nExog ss) (J.e i))
    (hfg : ∀ x : List V, x.length = ss.length → f (linPoint t.toTyper nExog x) = g x) :
    IsDerivAt g ss fun c => sumTo 3 fun r => ((t.cell r c).map (J.e i)).getD 0 := by
  obtain ⟨v₀, hv, hf⟩ := hf
  refine ⟨v₀, by rw [← hfg ss rfl, hv], fun ε hε => ?_⟩
  obtain ⟨δ, hδ, hf⟩ := hf ε hε
  refine ⟨δ, hδ, fun r h0 hr x hx => ?_⟩
  let d : Around V := ⟨fun c => vecEntry x c - vecEntry ss c, fun c => vecEntry x c - vecEntry ss c,
    fun c => vecEntry x c - vecEntry ss c, fun _ => 0⟩
  have hget : ∀ rr c k, t.cell rr c = some k →
      (linPoint t.toTyper nExog x)[k]? = some (vecEntry ss c + (vecEntry x c - vecEntry ss c)) := by
    intro rr c k hk
    have hp := (places_get ht).mp hk
    have hl : k < t.places.length := (List.getElem?_eq_some_iff.mp hp).1
    unfold linPoint
    rw [List.getElem?_append_left (by simpa using hl), List.getElem?_map, hp]
    simp [vecEntry]
  have ha : Assembled t nExog ss d (linPoint t.toTyper nExog x) := by
    refine ⟨linPoint_length ht nExog x, fun c k hk => hget 0 c k hk, fun c k hk => hget 1 c k hk,
      fun c k hk => hget 2 c k hk, fun j hj => ?_⟩
    unfold linPoint
    rw [List.getElem?_append_right (by simp [places_length ht])]
    simp [places_length ht, hj, d]
  have hb : ∀ c < t.n, |vecEntry x c - vecEntry ss c| ≤ r := fun c hc => hx.2 c (by omega)
  have hnear := assembled_near ht ha hb hb hb (fun k _ => by simp [d, h0])
  obtain ⟨v, h1, h2⟩ := hf r h0 hr _ hnear
  refine ⟨v, by rw [← hfg x hx.1, h1], le_trans (le_of_eq ?_) h2⟩
  congr 2
  have hlin := linearised_flat ht (assembled_flat ht ha) J i
  rw [linPoint_length ht]
  unfold argDev at hlin
  rw [← hlin]
  unfold linearised
  rw [rowPart_cell, rowPart_cell, rowPart_cell, hss]
  simp only [sumTo_eq, Finset.sum_range_succ, Finset.sum_range_zero]
  rw [← Finset.sum_add_distrib, ← Finset.sum_add_distrib]
  rw [Finset.sum_eq_zero (s := Finset.range nExog) fun k _ => by simp [d], add_zero]
  refine Finset.sum_congr rfl fun c _ => ?_
  show _ = ((t.cell 2 c).map (J.e i)).getD 0 * (vecEntry x c - vecEntry ss c) +
    ((t.cell 1 c).map (J.e i)).getD 0 * (vecEntry x c - vecEntry ss c) +
    ((t.cell 0 c).map (J.e i)).getD 0 * (vecEntry x c - vecEntry ss c)
  ring

theorem modelLlx_n {endo : List String} {es : List (Expr V)} {t : Llx} (h : modelLlx endo es = .ok t) :
    ∃ pss, buildLlx pss = .ok t ∧ t.n = endo.length := by
  simp only [modelLlx, Except.bind_ok_iff] at h
  obtain ⟨d, _, hb⟩ := h
  exact ⟨_, hb, by rw [(buildLlx_spec hb).1]; simp⟩

/-- **C112, under the conditions of C35.**  For equations without comparisons, whose period variables are
endogenous variables other than parameters at periods -1 or 1 and whose plain names are parameters, endogenous
variables or shocks: if `autograd` is exact, the jacobian of the steady-state equations has a row for each
equation and a column for each variable, and each entry is the sum of the derivatives for last, current and next
period in the jacobian of the model at the same values. -/
theorem C112_columns_partial (ad : Autograd V) (hex : ad.Exact) (ops : Ops V) (okName okName' : String → Bool)
    (endo exo : List String) (es : List (Expr V)) (t : Llx) (σ : String → Option V)
    (ht : modelLlx endo es = .ok t) (hc : ∀ e ∈ es, e.hasCmp = false)
    (hstd : ∀ x ∈ endo, ∀ q, ∀ e ∈ es, OccursAt x q e → q = -1 ∨ q = 0 ∨ q = 1)
    (hcp : ∀ e ∈ es, e.compound = true)
    (hvar : ∀ e ∈ es, ∀ x ∈ e.vars, σ x ≠ none ∨ x ∈ endo ∨ x ∈ exo)
    (hper : ∀ e ∈ es, ∀ x o, (x, o) ∈ e.pvars → x ∈ endo ∧ σ x = none ∧ (o = -1 ∨ o = 1))
    (fs gs : List (List V → Except Err V))
    (hf : dynamicFuncs ops okName endo exo t.toTyper σ es = .ok fs)
    (hg : steadyFuncs ops okName' endo σ es = .ok gs) (ss : List V) (hss : ss.length = endo.length)
    (J K : Arr V) (hJ : modelJacobian ad t.toTyper exo.length fs ss = .ok J)
    (hK : steadyJacobian ad gs ss = .ok K) :
    K.r = es.length ∧ K.c = endo.length ∧ ∀ i < es.length, ∀ c < endo.length,
      K.e i c = sumTo 3 fun r => ((t.cell r c).map (J.e i)).getD 0 := by
  obtain ⟨pss, hb, hn⟩ := modelLlx_n ht
  obtain ⟨hgl, hgget⟩ := steadyFuncs_get hg
  obtain ⟨hfl, hfget⟩ := dynamicFuncs_get hf
  obtain ⟨k1, k2, k3⟩ := jacobianArray_get hex hK
  refine ⟨by omega, by omega, fun i hi c hcn => ?_⟩
  have he := List.getElem?_eq_getElem hi
  obtain ⟨f, hfi, hff⟩ := hfget i _ he
  obtain ⟨g, hgi, hgg⟩ := hgget i _ he
  obtain ⟨row, hrow, -, hKe⟩ := k3 i g hgi
  have hmem : es[i] ∈ es := List.getElem_mem hi
  have h1 := isDeriv_rest (g := g) hb (by omega) ((C109_jacobian ad hex hb _ fs ss J hJ).2.2 i f hfi)
    (fun x hx => C35_agree_at_rest_partial ops okName okName' endo exo es t σ ht hc hstd (hcp _ hmem) hmem
      (hvar _ hmem) (hper _ hmem) hff hgg (by omega))
  have h2 := (hex.grad g ss row hrow).2
  rw [hKe]
  exact isDeriv_unique h2 h1 c (by omega)

end

/-! ### the hypotheses are met -/

section ideal
open Classical
variable [Field V] [LinearOrder V]

/-- an exact `autograd`: it answers whenever there is an answer -/
noncomputable def idealAd : Autograd V where
  grad f p := if h : ∃ g : List V, g.length = p.length ∧ IsDerivAt f p (vecEntry g) then .ok h.choose
    else .error .typeError
  jacobian G p := if h : ∃ h : List (List V), (∀ row ∈ h, row.length = p.length) ∧ IsJacobianAt G p h then .ok h.choose
    else .error .typeError

theorem idealAd_exact : (idealAd : Autograd V).Exact where
  grad f p g h := by
    unfold idealAd at h
    dsimp only at h
    split at h
    · rename_i hx
      cases h
      exact hx.choose_spec
    · cases h
  jacobian G p h' h := by
    unfold idealAd at h
    dsimp only at h
    split at h
    · rename_i hx
      cases h
      exact hx.choose_spec
    · cases h

theorem idealAd_grad {f : List V → Except Err V} {p g : List V} (hl : g.length = p.length)
    (h : IsDerivAt f p (vecEntry g)) : ∃ g', idealAd.grad f p = .ok g' :=
  ⟨_, dif_pos ⟨g, hl, h⟩⟩

theorem idealAd_jacobian {G : List V → Except Err (List V)} {p : List V} {h : List (List V)}
    (hl : ∀ row ∈ h, row.length = p.length) (hj : IsJacobianAt G p h) : ∃ h', idealAd.jacobian G p = .ok h' :=
  ⟨_, dif_pos ⟨h, hl, hj⟩⟩

theorem entry_ofRange {n : Nat} (g : Nat → V) {k : Nat} (hk : k < n) : vecEntry ((List.range n).map g) k = g k := by
  simp [vecEntry, hk]

theorem idealAd_modelJacobian {t : Typer} {nExog : Nat} {fs : List (List V → Except Err V)} {ss : List V}
    (h : ∀ f ∈ fs, ∃ g : List V, g.length = (linPoint t nExog ss).length ∧ IsDerivAt f (linPoint t nExog ss) (vecEntry g)) :
    ∃ J, modelJacobian idealAd t nExog fs ss = .ok J := by
  obtain ⟨rows, hr⟩ := assignRows_of (n := (linPoint t nExog ss).length)
      (p := linPoint t nExog ss) (fs := fs.map (idealAd : Autograd V).grad) (by
        intro f hf
        obtain ⟨f', hf', rfl⟩ := List.mem_map.mp hf
        obtain ⟨g, hl, hg⟩ := h f' hf'
        obtain ⟨g', hg'⟩ := idealAd_grad hl hg
        exact ⟨g', hg', (idealAd_exact.grad _ _ _ hg').1⟩)
  exact ⟨_, by unfold modelJacobian jacobianArray; rw [hr]; rfl⟩

variable [IsStrictOrderedRing V]

theorem quadFun_grad (g h : Nat → V) (p : List V) : ∃ x, (idealAd : Autograd V).grad (quadFun p.length g h) p = .ok x ∧
    x.length = p.length ∧ ∀ k < p.length, vecEntry x k = quadGrad p.length g h p k := by
  have hd := isTaylor_isDeriv (quadFun_taylor g h p)
  obtain ⟨x, hx⟩ := idealAd_grad (f := quadFun p.length g h) (p := p)
    (g := (List.range p.length).map (quadGrad p.length g h p)) (by simp)
    (isDeriv_congr hd fun k hk => (entry_ofRange _ hk).symm)
  have := idealAd_exact.grad _ _ _ hx
  exact ⟨x, hx, this.1, isDeriv_unique this.2 hd⟩

/-- there are second derivatives of quadratic functions -/
theorem quadFun_hessian (g h : Nat → V) (p : List V) :
    ∃ x, (idealAd : Autograd V).jacobian ((idealAd : Autograd V).grad (quadFun p.length g h)) p = .ok x := by
  refine idealAd_jacobian (h := (List.range p.length).map fun k => (List.range p.length).map fun l =>
    1 / 2 * (h (k * p.length + l) + h (l * p.length + k))) ?_ ?_
  · intro row hrow
    obtain ⟨k, -, rfl⟩ := List.mem_map.mp hrow
    simp
  · obtain ⟨g₀, h0, hl0, he0⟩ := quadFun_grad g h p
    refine ⟨g₀, h0, by simp [hl0], fun ε hε => ⟨1, one_pos, fun r hr _ x hx => ?_⟩⟩
    obtain ⟨gx, hgx, hlx, hex⟩ := quadFun_grad g h x
    rw [hx.1] at hgx hlx hex
    refine ⟨gx, hgx, fun k hk => ?_⟩
    rw [hl0] at hk
    rw [hex k hk, he0 k hk]
    refine le_trans (le_of_eq (abs_eq_zero.mpr ?_)) (mul_nonneg hε.le hr)
    unfold quadGrad
    have : (((List.range p.length).map fun k => (List.range p.length).map fun l =>
        1 / 2 * (h (k * p.length + l) + h (l * p.length + k)))[k]?.getD []) = (List.range p.length).map fun l =>
        1 / 2 * (h (k * p.length + l) + h (l * p.length + k)) := by simp [hk]
    rw [this]
    simp only [sumTo_eq]
    rw [add_sub_add_left_eq_sub, ← Finset.sum_sub_distrib, ← Finset.sum_sub_distrib]
    refine Finset.sum_eq_zero fun l hl => ?_
    rw [entry_ofRange _ (Finset.mem_range.mp hl)]
    ring

end ideal

/-- C109 is not about nothing: for any model whose equations are quadratic there are exact derivatives -/
example {pss : List (List Int)} {t : Llx} (ht : buildLlx pss = .ok t) (nExog : Nat) (ss : List ℝ)
    (g h : Nat → Nat → ℝ) (m : Nat) : ∃ H, modelHessian (idealAd : Autograd ℝ) t.toTyper nExog
      ((List.range m).map fun i => quadFun (t.count + nExog) (g i) (h i)) ss = .ok H := by
  have hl := linPoint_length ht nExog ss
  obtain ⟨rows, hr⟩ := assignRows_of (n := (linPoint t.toTyper nExog ss).length ^ 2) (p := linPoint t.toTyper nExog ss)
    (fs := ((List.range m).map fun i => quadFun (t.count + nExog) (g i) (h i)).map fun f x => do
      let h ← (idealAd : Autograd ℝ).jacobian ((idealAd : Autograd ℝ).grad f) x
      .ok h.flatten) (by
        intro f hf
        rw [List.map_map] at hf
        obtain ⟨i, -, rfl⟩ := List.mem_map.mp hf
        obtain ⟨x, hx⟩ := quadFun_hessian (g i) (h i) (linPoint t.toTyper nExog ss)
        rw [hl] at hx
        have hxe := idealAd_exact.jacobian _ _ _ hx
        obtain ⟨-, -, hxl, -⟩ := autograd_taylor idealAd_exact hx
        refine ⟨x.flatten, ?_, ?_⟩
        · simp only [Function.comp, hx]; rfl
        · rw [List.length_flatten, List.map_congr_left hxe.1, List.map_const', List.sum_replicate, hxl, sq]
          simp)
  exact ⟨_, by unfold modelHessian hessianArray; rw [hr]; rfl⟩

/-- arithmetic over the rationals for the example -/
def ratOps : Ops ℚ where
  bin op a b := match op with
    | .add => .ok (a + b)
    | .sub => .ok (a - b)
    | .mul => .ok (a * b)
    | _ => .error .zeroDivision
  un op a := match op with
    | .pos => .ok a
    | .neg => .ok (-a)
  cmp _ _ _ := .error .typeError
  fn _ _ := .error .typeError

/-- the equation `3*x - x(-1)` -/
def adEq : Expr ℚ := .bin .sub (.bin .mul (.num 3) (.var "x")) (.pvar "x" (-1))

theorem lin_deriv {n : Nat} (f : List ℚ → Except Err ℚ) (p : List ℚ) (hp : p.length = n) (g : Nat → ℚ)
    (hf : ∀ x : List ℚ, x.length = n → f x = .ok (sumTo n fun k => g k * vecEntry x k)) :
    IsDerivAt f p (vecEntry ((List.range n).map g)) := by
  refine ⟨_, hf p hp, fun ε hε => ⟨1, one_pos, fun r h0 _ x hx => ⟨_, hf x (by rw [hx.1, hp]), ?_⟩⟩⟩
  refine le_trans (le_of_eq (abs_eq_zero.mpr ?_)) (mul_nonneg hε.le h0)
  rw [hp]
  simp only [sumTo_eq]
  rw [← Finset.sum_sub_distrib, ← Finset.sum_sub_distrib]
  refine Finset.sum_eq_zero fun k hk => ?_
  rw [entry_ofRange _ (Finset.mem_range.mp hk)]
  ring

/-- the hypotheses of C112 are met by the model `3*x = x(-1)` at `x = 5` -/
example : ∃ t fs gs J K, modelLlx ["x"] [adEq] = .ok t ∧
    dynamicFuncs ratOps (fun _ => true) ["x"] [] t.toTyper (fun _ => none) [adEq] = .ok fs ∧
    steadyFuncs ratOps (fun _ => true) ["x"] (fun _ => none) [adEq] = .ok gs ∧
    modelJacobian (idealAd : Autograd ℚ) t.toTyper 0 fs [5] = .ok J ∧ steadyJacobian (idealAd : Autograd ℚ) gs [5] = .ok K ∧
    adEq.hasCmp = false ∧ adEq.compound = true ∧ adEq.vars = ["x"] ∧ adEq.pvars = [("x", -1)] := by
  have hd : ∀ f : List ℚ → Except Err ℚ, (∀ x : List ℚ, x.length = 2 → f x = .ok (3 * vecEntry x 1 - vecEntry x 0)) →
      IsDerivAt f [5, 5] (vecEntry ((List.range 2).map fun k => if k = 0 then -1 else 3)) := by
    intro f hf
    refine lin_deriv f _ rfl _ fun x hx => ?_
    rw [hf x hx]
    simp [sumTo]
    ring
  have hs : ∀ f : List ℚ → Except Err ℚ, (∀ x : List ℚ, x.length = 1 → f x = .ok (3 * vecEntry x 0 - vecEntry x 0)) →
      IsDerivAt f [5] (vecEntry ((List.range 1).map fun _ => 2)) := by
    intro f hf
    refine lin_deriv f _ rfl _ fun x hx => ?_
    rw [hf x hx]
    simp [sumTo]
    ring
  obtain ⟨t, ht, htp⟩ : ∃ t, modelLlx ["x"] [adEq] = .ok t ∧ t.places = [(0, 0), (1, 0)] := ⟨_, rfl, by decide⟩
  have hp : linPoint t.toTyper 0 ([5] : List ℚ) = [5, 5] := by unfold linPoint; rw [htp]; rfl
  have hv : dynVars ["x"] [] t.toTyper = ["xm1", "x"] := by unfold dynVars; rw [htp]; rfl
  obtain ⟨J, hJ⟩ := idealAd_modelJacobian (t := t.toTyper) (nExog := 0) (ss := [5])
    (fs := [runDynamic ratOps ["xm1", "x"] ["x", "xm1"] adEq]) (by
      intro f hf
      obtain rfl := List.mem_singleton.mp hf
      rw [hp]
      refine ⟨_, by simp, hd _ fun x hx => ?_⟩
      match x, hx with
      | [a, b], _ => rfl)
  obtain ⟨K, hK⟩ : ∃ K, steadyJacobian (idealAd : Autograd ℚ) [runSteady ratOps ["x"] ["x", "x"] adEq] [5] = .ok K := by
    have h1 := hs (runSteady ratOps ["x"] ["x", "x"] adEq) fun x hx => by
      match x, hx with
      | [a], _ => rfl
    obtain ⟨g', hg'⟩ := idealAd_grad (by rfl) h1
    have hl := (idealAd_exact.grad _ _ _ hg').1
    obtain ⟨rows, hr⟩ := assignRows_of (n := 1) (p := [5]) (fs := [(idealAd : Autograd ℚ).grad
      (runSteady ratOps ["x"] ["x", "x"] adEq)]) (by
        intro f hf
        obtain rfl := List.mem_singleton.mp hf
        exact ⟨g', hg', hl⟩)
    refine ⟨rowsArr 1 rows, ?_⟩
    · show (assignRows 1 [5] [(idealAd : Autograd ℚ).grad (runSteady ratOps ["x"] ["x", "x"] adEq)] >>= _) = _
      rw [hr]
      rfl
  refine ⟨t, _, _, J, K, ht, ?_, ?_, hJ, hK, rfl, rfl, rfl, rfl⟩
  · simp [dynamicFuncs, dynamicFunc, hv, subTree, dynMaybe, adEq, modelSignature, offsetName, bind, Except.bind]
  · simp [steadyFuncs, steadyFunc, subTree, steadyMaybe, adEq, modelSignature, bind, Except.bind]

#print axioms C109_jacobian
#print axioms C109_hessian
#print axioms C112_columns_partial

end Pynare
