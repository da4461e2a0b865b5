import Verif.Spec.OrderSecond
import Verif.Lemmas.Order
import Verif.Props.SecondUnique
/-!
# Models written in another order, at second order
-/

namespace Pynare

variable {V : Type}

section deriv
variable [Field V] [LinearOrder V] [IsStrictOrderedRing V]

/-- the rows of an array of second derivatives -/
theorem modelHessian_get {ad : Autograd V} (hex : ad.Exact) {t : Typer} {m : Nat} {fs : List (List V → Except Err V)}
    {ss : List V} {H : Arr V} (h : modelHessian ad t m fs ss = .ok H) :
    H.r = fs.length ∧ ∀ (i : Nat) f, fs[i]? = some f → ∃ hh : List (List V),
      ad.jacobian (ad.grad f) (linPoint t m ss) = .ok hh ∧ hh.length = (linPoint t m ss).length ∧
      ∀ k < (linPoint t m ss).length, ∀ l < (linPoint t m ss).length,
        H.e i (k * (linPoint t m ss).length + l) = vecEntry (hh[k]?.getD []) l := by
  unfold modelHessian hessianArray at h
  obtain ⟨rows, h1, h⟩ := Except.bind_eq_ok h
  cases h
  obtain ⟨hl, hg⟩ := assignRows_get h1
  refine ⟨by simpa [rowsArr] using hl, fun i f hf => ?_⟩
  obtain ⟨row, row', e1, e2, e3⟩ := hg i _ (by rw [List.getElem?_map, hf]; rfl)
  obtain ⟨hh, hj, e1⟩ := Except.bind_eq_ok e1
  cases e1
  obtain ⟨hrows, g₀, hg0, hlen, -⟩ := hex.jacobian _ _ _ hj
  have hgl := (hex.grad f _ g₀ hg0).1
  have hfl : hh.flatten.length = (linPoint t m ss).length ^ 2 := by
    rw [List.length_flatten, List.map_congr_left hrows, List.map_const', List.sum_replicate, hlen, hgl, sq]
    simp
  rw [assignRow_len hfl] at e2
  cases e2
  refine ⟨hh, hj, by omega, fun k hk l hl' => ?_⟩
  rw [← entry_flatten hrows (by omega : k < hh.length) hl']
  simp [rowsArr, e3, vecEntry]

/-- the linearised equations only depend on the coefficients, by name -/
theorem linearised_same {endo exo endo' exo' : List String} {t t' : Llx} (L : Layouts endo exo endo' exo' t t')
    {J J' : Arr V} {i i' : Nat}
    (hJ : ∀ k k', k < t.count + exo.length → SameArg endo exo endo' exo' t t' k k' → J.e i k = J'.e i' k')
    (ym y yp u : String → V) :
    linearised t exo.length J i (byName endo ym) (byName endo y) (byName endo yp) (byName exo u) =
      linearised t' exo'.length J' i' (byName endo' ym) (byName endo' y) (byName endo' yp) (byName exo' u) := by
  have hrow : ∀ (r : Nat) (w : String → V), rowPart t.toTyper J i r (byName endo w) =
      rowPart t'.toTyper J' i' r (byName endo' w) := by
    intro r w
    unfold rowPart
    rw [L.size, L.size']
    refine sum_sameByName L.nodup L.perm ?_
    intro c c' x hc hc'
    have hsame := L.same r c c' x hc hc'
    show (match t.cell r c with
      | some k => J.e i k * byName endo w c
      | none => 0) = match t'.cell r c' with
      | some k => J'.e i' k * byName endo' w c'
      | none => 0
    cases hk : t.cell r c with
    | none =>
      cases hk' : t'.cell r c' with
      | none => rfl
      | some k' => obtain ⟨k, h2⟩ := hsame.mpr ⟨k', hk'⟩; rw [hk] at h2; cases h2
    | some k =>
      obtain ⟨k', hk'⟩ := hsame.mp ⟨k, hk⟩
      rw [hk']
      simp only
      rw [byName_get hc, byName_get hc', hJ k k'
        (Nat.lt_of_lt_of_le (L.cell_lt hk).2.2 (Nat.le_add_right ..)) (.inl ⟨r, c, c', x, hc, hc', hk, hk'⟩)]
  unfold linearised
  rw [hrow, hrow, hrow]
  congr 1
  refine sum_sameByName L.nodupx L.permx ?_
  intro j j' x hj hj'
  have hjl : j < exo.length := (List.getElem?_eq_some_iff.mp hj).1
  show J.e i (t.count + j) * byName exo u j = J'.e i' (t'.count + j') * byName exo' u j'
  rw [byName_get hj, byName_get hj', hJ _ _ (by omega) (.inr ⟨j, j', x, hj, hj', rfl, rfl⟩)]

/-- the points at which derivatives are taken -/
theorem linPoint_relay {σ : String → Option V} {endo exo endo' exo' : List String} {es es' : List (Expr V)}
    {ss ss' : List V} {t t' : Llx} (h : PlainModel σ endo exo es) (ht : modelLlx endo es = .ok t)
    (h' : PlainModel σ endo' exo' es') (ht' : modelLlx endo' es' = .ok t')
    (L : Layouts endo exo endo' exo' t t') (hss : SameByName endo endo' (vecEntry ss) (vecEntry ss')) :
    L.relay (linPoint t'.toTyper exo'.length ss') = linPoint t.toTyper exo.length ss := by
  obtain ⟨pss, -, hb, -⟩ := h.periods ht
  obtain ⟨pss', -, hb', -⟩ := h'.periods ht'
  have hlp := linPoint_length hb exo.length ss
  have hlp' := linPoint_length hb' exo'.length ss'
  apply List.ext_getElem?
  intro m
  by_cases hm : m < t.count + exo.length
  · have hpl := L.place_spec hm
    rw [L.relay_get hlp' hpl.2 hm, List.getElem?_eq_getElem (by omega), List.getElem?_eq_getElem (by omega)]
    have ent : ∀ (l : List V) (a : Nat) (ha : a < l.length), l[a] = vecEntry l a := by
      intro l a ha; unfold vecEntry; rw [List.getElem?_eq_getElem ha]; rfl
    rw [ent, ent]
    congr 1
    rcases hpl.2 with ⟨r, c, c', x, a1, a2, a3, a4⟩ | ⟨j, j', x, a1, a2, a3, a4⟩
    · rw [linPoint_endog hb' _ _ a4, linPoint_endog hb _ _ a3]
      exact (hss c c' x a1 a2).symm
    · rw [a4, a3, linPoint_shock hb' _ (List.getElem?_eq_some_iff.mp a2).1,
        linPoint_shock hb _ (List.getElem?_eq_some_iff.mp a1).1]
  · rw [List.getElem?_eq_none (by rw [L.relay_length]; omega), List.getElem?_eq_none (by omega)]

/-- **the second derivatives of two models with the same equations** are the same -/
theorem hessian_relay {ops : Ops V} {okName okName' : String → Bool} {ad ad' : Autograd V} (hex : ad.Exact)
    (hex' : ad'.Exact) {σ : String → Option V} {endo exo endo' exo' : List String} {es es' : List (Expr V)}
    {ss ss' : List V} {t t' : Llx} {H H' : Arr V} {fs fs' : List (List V → Except Err V)}
    (h : PlainModel σ endo exo es) (ht : modelLlx endo es = .ok t)
    (h' : PlainModel σ endo' exo' es') (ht' : modelLlx endo' es' = .ok t')
    (hfs : dynamicFuncs ops okName endo exo t.toTyper σ es = .ok fs)
    (hfs' : dynamicFuncs ops okName' endo' exo' t'.toTyper σ es' = .ok fs')
    (hH : modelHessian ad t.toTyper exo.length fs ss = .ok H)
    (hH' : modelHessian ad' t'.toTyper exo'.length fs' ss' = .ok H')
    (L : Layouts endo exo endo' exo' t t') (hss : SameByName endo endo' (vecEntry ss) (vecEntry ss'))
    {i i' : Nat} {e : Expr V} (hi : es[i]? = some e) (hi' : es'[i']? = some e) {k k' l l' : Nat}
    (hk : k < t.count + exo.length) (hkk : SameArg endo exo endo' exo' t t' k k')
    (hl : l < t.count + exo.length) (hll : SameArg endo exo endo' exo' t t' l l') :
    H.e i (k * (t.count + exo.length) + l) = H'.e i' (k' * (t'.count + exo'.length) + l') := by
  obtain ⟨pss, -, hb, -⟩ := h.periods ht
  obtain ⟨pss', -, hb', -⟩ := h'.periods ht'
  obtain ⟨f, hf, hf2⟩ := (dynamicFuncs_get hfs).2 i e hi
  obtain ⟨f', hf', hf2'⟩ := (dynamicFuncs_get hfs').2 i' e hi'
  have hlp := linPoint_length hb exo.length ss
  have hlp' := linPoint_length hb' exo'.length ss'
  have hpp := linPoint_relay h ht h' ht' L hss
  obtain ⟨hh, hj, hhl, he⟩ := (modelHessian_get hex hH).2 i f hf
  obtain ⟨hh', hj', hhl', he'⟩ := (modelHessian_get hex' hH').2 i' f' hf'
  clear hH hH'
  generalize linPoint t.toTyper exo.length ss = p at *
  generalize linPoint t'.toTyper exo'.length ss' = p' at *
  rw [hlp] at he hhl
  rw [hlp'] at he' hhl'
  have hk' : k' < t'.count + exo'.length := by rw [← L.place_eq hk hkk]; exact (L.place_spec hk).1
  have hl' : l' < t'.count + exo'.length := by rw [← L.place_eq hl hll]; exact (L.place_spec hl).1
  rw [he k hk l hl, he' k' hk' l' hl']
  obtain ⟨-, g₀, hg0, hgl0, hd⟩ := hex.jacobian _ _ _ hj
  obtain ⟨-, g₀', hg0', hgl0', hd'⟩ := hex'.jacobian _ _ _ hj'
  -- where both have a gradient, it is the same
  have hgrad : ∀ x' : List V, x'.length = t'.count + exo'.length → ∀ g g', ad.grad f (L.relay x') = .ok g →
      ad'.grad f' x' = .ok g' → vecEntry g k = vecEntry g' k' := by
    intro x' hx' g g' hg hg'
    have d := (hex.grad f _ g hg).2
    have d' := (hex'.grad f' _ g' hg').2
    have d2 := isDeriv_relay L (L.relay_length x') hx' rfl (fun vec' hl v => residual_relay h ht h' ht' L
      (List.mem_of_getElem? hi) (List.mem_of_getElem? hi') hf2 hf2' hl v) d
    have := isDeriv_unique d2 d' k' (by rw [hx']; exact hk')
    rw [← this, L.symm.place_eq hk' hkk.symm]
  -- one entry of the gradient of the second model
  let F' : List V → Except Err V := fun x' => (ad'.grad f' x').map fun g => vecEntry g k'
  have hF' : IsDerivAt F' p' (vecEntry (hh'[k']?.getD [])) := by
    refine ⟨vecEntry g₀' k', by show Except.map _ (ad'.grad f' p') = _; rw [show ad'.grad f' p' = .ok g₀' from hg0']; rfl, fun ε hε => ?_⟩
    obtain ⟨δ, hδ, hd'⟩ := hd' ε hε
    refine ⟨δ, hδ, fun r h0 hr x hx => ?_⟩
    obtain ⟨g, hg, hb⟩ := hd' r h0 hr x hx
    exact ⟨vecEntry g k', by simp only [F', hg]; rfl, hb k' (by omega)⟩
  have hF : IsDerivAt F' p' (fun l' => vecEntry (hh[k]?.getD []) (L.symm.place l')) := by
    refine ⟨vecEntry g₀' k', by show Except.map _ (ad'.grad f' p') = _; rw [show ad'.grad f' p' = .ok g₀' from hg0']; rfl, fun ε hε => ?_⟩
    obtain ⟨δ, hδ, hd⟩ := hd ε hε
    obtain ⟨δ', hδ', hd'⟩ := hd' 1 one_pos
    refine ⟨min δ δ', lt_min hδ hδ', fun r h0 hr x' hx' => ?_⟩
    have hxl : x'.length = t'.count + exo'.length := hx'.1.trans hlp'
    have hent : ∀ k < t.count + exo.length, ∀ w' : List V, w'.length = t'.count + exo'.length →
        vecEntry (L.relay w') k = vecEntry w' (L.place k) := by
      intro k hk w' hw
      unfold vecEntry
      rw [L.relay_get hw (L.place_spec hk).2 hk]
    obtain ⟨g, hg, hb⟩ := hd r h0 (hr.trans (min_le_left _ _)) (L.relay x') ⟨by rw [L.relay_length, hlp], fun k hk => by
      rw [hlp] at hk
      rw [hent k hk x' hxl, ← hpp, hent k hk p' hlp']
      exact hx'.2 _ (by rw [hlp']; exact (L.place_spec hk).1)⟩
    obtain ⟨g', hg', -⟩ := hd' r h0 (hr.trans (min_le_right _ _)) x' hx'
    refine ⟨vecEntry g' k', by simp only [F', hg']; rfl, le_trans (le_of_eq ?_) (hb k (by omega))⟩
    rw [hgrad x' hxl g g' hg hg', hgrad p' hlp' g₀ g₀' (by rw [hpp]; exact hg0) hg0']
    congr 2
    rw [hlp, hlp', ← L.sum_places]
    refine sumTo_congr fun l hl => ?_
    show vecEntry _ (L.symm.place (L.place l)) * _ = _
    rw [L.place_back hl, hent l hl x' hxl, ← hpp, hent l hl p' hlp']
  have := isDeriv_unique hF hF' l' (by rw [hlp']; exact hl')
  rw [← this, L.symm.place_eq hl' hll.symm]


theorem curvature_within {t : Llx} {m : Nat} {H : Arr V} {i : Nat} {a b a' b' : Around V}
    (h1 : ∀ c < t.n, a.before c = a'.before c) (h2 : ∀ c < t.n, a.now c = a'.now c)
    (h3 : ∀ c < t.n, a.after c = a'.after c) (h4 : ∀ k < m, a.shock k = a'.shock k)
    (k1 : ∀ c < t.n, b.before c = b'.before c) (k2 : ∀ c < t.n, b.now c = b'.now c)
    (k3 : ∀ c < t.n, b.after c = b'.after c) (k4 : ∀ k < m, b.shock k = b'.shock k) :
    curvature t m H i a b = curvature t m H i a' b' := by
  unfold curvature
  rw [linearised_within h1 h2 h3 h4]
  congr 2
  funext _ p
  exact linearised_within k1 k2 k3 k4

/-- the second derivative in a direction that is given by name -/
theorem curvature_same {endo exo endo' exo' : List String} {t t' : Llx} (L : Layouts endo exo endo' exo' t t')
    {H H' : Arr V} {i i' : Nat}
    (hH : ∀ k k' l l', k < t.count + exo.length → SameArg endo exo endo' exo' t t' k k' →
      l < t.count + exo.length → SameArg endo exo endo' exo' t t' l l' →
      H.e i (k * (t.count + exo.length) + l) = H'.e i' (k' * (t'.count + exo'.length) + l'))
    (ym y yp u ym₂ y₂ yp₂ u₂ : String → V) :
    curvature t exo.length H i ⟨byName endo ym, byName endo y, byName endo yp, byName exo u⟩
        ⟨byName endo ym₂, byName endo y₂, byName endo yp₂, byName exo u₂⟩ =
      curvature t' exo'.length H' i' ⟨byName endo' ym, byName endo' y, byName endo' yp, byName exo' u⟩
        ⟨byName endo' ym₂, byName endo' y₂, byName endo' yp₂, byName exo' u₂⟩ := by
  unfold curvature
  refine linearised_same L ?_ ym y yp u
  intro k k' hk hkk
  exact linearised_same L (fun l l' hl hll => hH k k' l l' hk hkk hl hll) ym₂ y₂ yp₂ u₂

end deriv

end Pynare
