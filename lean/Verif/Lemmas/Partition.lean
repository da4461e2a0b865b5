import Verif.Lemmas.FirstOrder
/-!
# What the partition of the decomposition gives
-/

namespace Pynare

open Matrix

variable {V : Type} [CommRing V]

set_option linter.unusedSectionVars false

theorem findFirst_spec {es : List Eig} {i : Int}
    (h : findFirst (es.map fun x => x.gt1 || x.inf) = .ok i) :
    es ≠ [] ∧ ((i = -1 ∧ ∀ e ∈ es, (e.gt1 || e.inf) = false) ∨
      ∃ k : Nat, i = k ∧ k < es.length ∧ (∃ e, es[k]? = some e ∧ (e.gt1 || e.inf) = true) ∧
        ∀ j < k, ∀ e, es[j]? = some e → (e.gt1 || e.inf) = false) := by
  unfold findFirst at h
  by_cases he : es.map (fun x => x.gt1 || x.inf) = []
  · rw [if_pos he] at h; cases h
  rw [if_neg he] at h
  refine ⟨by intro h0; apply he; rw [h0]; rfl, ?_⟩
  cases hf : (es.map fun x => x.gt1 || x.inf).findIdx? id with
  | none =>
    rw [hf] at h
    left
    refine ⟨(Except.ok.inj h).symm, ?_⟩
    rw [List.findIdx?_eq_none_iff] at hf
    intro e hm
    have := hf (e.gt1 || e.inf) (List.mem_map_of_mem hm)
    simpa using this
  | some k =>
    rw [hf] at h
    right
    refine ⟨k, (Except.ok.inj h).symm, ?_⟩
    rw [List.findIdx?_eq_some_iff_getElem] at hf
    obtain ⟨hk, h1, h2⟩ := hf
    have hk' : k < es.length := by simpa using hk
    refine ⟨hk', ⟨es[k], List.getElem?_eq_getElem hk', by simpa using h1⟩, ?_⟩
    intro j hj e hje
    have hj' : j < es.length := by omega
    rw [List.getElem?_eq_getElem hj'] at hje
    have := h2 j hj
    have e' := Option.some.inj hje
    rw [← e']
    simpa using this

/-- no entry of the nearly triangular factor connects the two sides of the cut -/
theorem cut_clean {q : QZ V} {b a : Arr V} (hd : q.Decomposes b a) {i : Int}
    (h : findFirst (q.eigs.map fun x => x.gt1 || x.inf) = .ok i)
    (hsep : (∃ e ∈ q.eigs, (e.gt1 || e.inf) = true) ∨
      q.eigs[q.eigs.length - 2]? ≠ q.eigs[q.eigs.length - 1]?) :
    cutAt q.Zt.r i < b.r ∧ ∀ x y, cutAt q.Zt.r i ≤ x → x < b.r → y < cutAt q.Zt.r i → q.S.e x y = 0 := by
  obtain ⟨hne, hc⟩ := findFirst_spec h
  have hZ : q.Zt.r = b.r := (hd.shape _ (by simp)).1
  have hl := hd.count
  have hpos : 0 < q.eigs.length := List.length_pos_iff.mpr hne
  have hcut : cutAt q.Zt.r i < b.r ∧ ∀ k, k + 1 = cutAt q.Zt.r i → q.eigs[k]? ≠ q.eigs[k + 1]? := by
    rcases hc with ⟨rfl, hall⟩ | ⟨k, rfl, hk, ⟨e, he1, he2⟩, hbefore⟩
    · have hcut : cutAt q.Zt.r (-1) = b.r - 1 := by rw [cutAt, if_pos (by decide), hZ]
      refine ⟨by omega, ?_⟩
      intro k hk
      rcases hsep with ⟨e, hm, he⟩ | hsep
      · rw [hall e hm] at he; cases he
      · have e1 : q.eigs.length - 2 = k := by omega
        have e2 : q.eigs.length - 1 = k + 1 := by omega
        rwa [e1, e2] at hsep
    · have hcut : cutAt q.Zt.r (k : Int) = k := by
        rw [cutAt, if_neg (by omega)]; rfl
      rw [hcut]
      refine ⟨by omega, ?_⟩
      intro j hj heq
      rw [hj, he1] at heq
      have := hbefore j (by omega) e heq
      rw [he2] at this; cases this
  refine ⟨hcut.1, ?_⟩
  intro x y hx hxb hy
  by_cases hxy : y + 1 < x
  · exact hd.triS x y hxy hxb
  · have : x = y + 1 := by omega
    subst this
    by_contra hS
    exact hcut.2 y (by omega) (hd.pairs y hxb hS)

theorem blk_sum {α β γ δ : Type} (a : Arr V) (ρ : α → Nat) (r : Nat) (ρ' : β → Nat) (κ : γ → Nat) (k : Nat)
    (κ' : δ → Nat) : a.blk (sumIdx ρ r ρ') (sumIdx κ k κ') =
      fromBlocks (a.blk ρ κ) (a.blk ρ fun j => k + κ' j) (a.blk (fun i => r + ρ' i) κ)
        (a.blk (fun i => r + ρ' i) fun j => k + κ' j) := by
  ext (i | i) (j | j) <;> rfl

theorem slice_blk {α β : Type} (a : Arr V) (r0 r1 c0 c1 : Nat) (ρ : α → Nat) (κ : β → Nat) :
    (a.slice r0 r1 c0 c1).blk ρ κ = a.blk (fun i => r0 + ρ i) fun j => c0 + κ j := by
  ext i j
  simp only [Arr.blk_apply, Arr.slice, Nat.add_comm]

/-- where the cut is, and the shapes of the responses -/
theorem partition_shapes {la : LinAlg V} (ex : la.Exact) {D E : Arr V} {parts : QZParts V}
    {gym gyp : Arr V} (hp : partitionedQZ la D E = .ok parts)
    (hs : solveNonstatic la parts = .ok (gym, gyp)) :
    E.r = E.c ∧ D.r = D.c ∧ E.r = D.r ∧ parts.eigs.length = E.r ∧ gym.r < E.r ∧ gyp.r = E.r - gym.r ∧
    ∃ expl, findFirst (parts.eigs.map fun x => x.gt1 || x.inf) = .ok expl ∧ gym.r = cutAt E.r expl := by
  unfold partitionedQZ at hp
  obtain ⟨q, hq, hp⟩ := Except.bind_eq_ok hp
  obtain ⟨expl, hx, hp⟩ := Except.bind_eq_ok hp
  unfold LinAlg.ordqzChecked at hq
  split at hq
  case isFalse => cases hq
  rename_i hshape
  obtain ⟨sh1, sh2, sh3⟩ := hshape
  have hd := ex.ordqz _ _ _ sh1 sh2 sh3 hq
  have hparts := Except.ok.inj hp
  have heigs : parts.eigs = q.eigs := by rw [← hparts]
  have hZr : q.Zt.r = E.r := (hd.shape _ (by simp)).1
  have hk : cutAt E.r expl < E.r := by
    obtain ⟨hne, hc⟩ := findFirst_spec hx
    have hpos : 0 < q.eigs.length := List.length_pos_iff.mpr hne
    have hl := hd.count
    rcases hc with ⟨rfl, _⟩ | ⟨k, rfl, hk, _⟩
    · rw [cutAt, if_pos (by decide)]; omega
    · rw [cutAt, if_neg (by omega)]
      have : (k : Int).toNat = k := rfl
      omega
  rw [hZr] at hparts
  unfold solveNonstatic at hs
  obtain ⟨x, hxs, hs⟩ := Except.bind_eq_ok hs
  obtain ⟨T11i, hTi, hs⟩ := Except.bind_eq_ok hs
  obtain ⟨l, hl, hs⟩ := Except.bind_eq_ok hs
  obtain ⟨W, hW, hs⟩ := Except.bind_eq_ok hs
  obtain ⟨r, hr, hs⟩ := Except.bind_eq_ok hs
  obtain ⟨g, hg, hs⟩ := Except.bind_eq_ok hs
  have := Except.ok.inj hs
  simp only [Prod.mk.injEq] at this
  obtain ⟨rfl, rfl⟩ := this
  unfold LinAlg.solveChecked at hxs
  split at hxs
  case isFalse => cases hxs
  rename_i hsq
  obtain ⟨hx1, _⟩ := ex.solve _ _ _ hsq.1 hsq.2 hxs
  obtain ⟨l1, l2, l3, l4⟩ := Arr.dot_ok hl
  obtain ⟨g1, g2, g3, g4⟩ := Arr.dot_ok hg
  have hgr : g.r = cutAt E.r expl := by rw [g2, l2, ← hparts]; simp [Arr.tr, Arr.slice]
  have hxr : x.r = E.r - cutAt E.r expl := by
    have := hx1.1
    rw [← hparts] at this
    simpa [Arr.slice] using this.symm
  refine ⟨sh1, sh2, sh3, by rw [heigs, hd.count], by omega, by rw [hgr]; exact hxr, expl, ?_, hgr⟩
  rw [heigs]; exact hx

/-- the two blocks of responses solve the pencil -/
theorem partition_core {la : LinAlg V} (ex : la.Exact) {D E : Arr V} {parts : QZParts V}
    {gym gyp : Arr V} (hp : partitionedQZ la D E = .ok parts) (hsep : parts.Separated)
    (hs : solveNonstatic la parts = .ok (gym, gyp)) :
    E.r = E.c ∧ D.r = D.c ∧ E.r = D.r ∧ gym.r < E.r ∧ gym.c = gym.r ∧ gyp.r = E.r - gym.r ∧
    gyp.c = gym.r ∧
    ∀ {P Q R : Type} [Fintype P] [Fintype Q] [DecidableEq P] [DecidableEq Q] (κ : P → Nat) (σ : Q → Nat)
      (ρ : R → Nat), IsEnum κ gym.r → IsEnum σ (E.r - gym.r) → (∀ i, ρ i < E.r) →
      (D.blk ρ κ + D.blk ρ (fun j => gym.r + σ j) * gyp.blk σ κ) * gym.blk κ κ =
        E.blk ρ κ + E.blk ρ (fun j => gym.r + σ j) * gyp.blk σ κ := by
  unfold partitionedQZ at hp
  obtain ⟨q, hq, hp⟩ := Except.bind_eq_ok hp
  obtain ⟨expl, hx, hp⟩ := Except.bind_eq_ok hp
  unfold LinAlg.ordqzChecked at hq
  split at hq
  case isFalse => cases hq
  rename_i hshape
  obtain ⟨sh1, sh2, sh3⟩ := hshape
  have hd := ex.ordqz _ _ _ sh1 sh2 sh3 hq
  have hparts := Except.ok.inj hp
  have heigs : parts.eigs = q.eigs := by rw [← hparts]
  unfold QZParts.Separated at hsep
  rw [heigs] at hsep
  obtain ⟨hk, hS0⟩ := cut_clean hd hx hsep
  have hZr : q.Zt.r = E.r := (hd.shape _ (by simp)).1
  have hZc : q.Zt.c = E.r := (hd.shape _ (by simp)).2
  rw [hZr] at hp hk hS0 hparts
  generalize cutAt E.r expl = k at *
  unfold solveNonstatic at hs
  obtain ⟨x, hxs, hs⟩ := Except.bind_eq_ok hs
  obtain ⟨T11i, hTi, hs⟩ := Except.bind_eq_ok hs
  obtain ⟨l, hl, hs⟩ := Except.bind_eq_ok hs
  obtain ⟨W, hW, hs⟩ := Except.bind_eq_ok hs
  obtain ⟨r, hr, hs⟩ := Except.bind_eq_ok hs
  obtain ⟨g, hg, hs⟩ := Except.bind_eq_ok hs
  have := Except.ok.inj hs
  simp only [Prod.mk.injEq] at this
  obtain ⟨rfl, rfl⟩ := this
  subst hparts
  unfold LinAlg.solveChecked at hxs
  split at hxs
  case isFalse => cases hxs
  rename_i hsq
  obtain ⟨hx1, i22, hi22⟩ := ex.solve _ _ _ hsq.1 hsq.2 hxs
  unfold LinAlg.invChecked at hTi hW
  split at hTi
  case isFalse => cases hTi
  rename_i hsqT
  split at hW
  case isFalse => cases hW
  rename_i hsqW
  have hTinv := ex.inv _ _ hsqT hTi
  have hWinv := ex.inv _ _ hsqW hW
  obtain ⟨l1, l2, l3, l4⟩ := Arr.dot_ok hl
  obtain ⟨r1, r2, r3, r4⟩ := Arr.dot_ok hr
  obtain ⟨g1, g2, g3, g4⟩ := Arr.dot_ok hg
  have hgr : g.r = k := by rw [g2, l2]; simp [Arr.tr, Arr.slice]
  have hWc : W.c = k := by
    have := hWinv.1.2.2.1
    simpa [Arr.eye, Arr.tr, Arr.slice] using this.symm
  have hgc : g.c = k := by rw [g3, r3, hWc]
  have hxr : x.r = E.r - k := by
    have := hx1.1
    simpa [Arr.slice] using this.symm
  have hxc : x.c = k := by
    have := hx1.2.2.1
    simpa [Arr.slice] using this.symm
  refine ⟨sh1, sh2, sh3, by omega, by omega, by rw [hgr]; exact hxr, by rw [hgr]; exact hxc, ?_⟩
  intro P Q R _ _ _ _ κ σ ρ hκ hσ hρ
  rw [hgr] at hκ hσ ⊢
  have hτ : IsEnum (sumIdx κ k σ) E.r := by
    have := hκ.sum hσ
    rwa [Nat.add_sub_cancel' (Nat.le_of_lt hk)] at this
  have hσ' : ∀ b, k + σ b < E.r := fun b => by have := hσ.lt b; omega
  -- the orthogonal factor
  have oz := hd.orthZ.mul (κ := sumIdx κ k σ) (hZr ▸ hτ)
  have hZZ : q.Zt.tr.blk (sumIdx κ k σ) (sumIdx κ k σ) *
      (q.Zt.tr.blk (sumIdx κ k σ) (sumIdx κ k σ))ᵀ = 1 := by
    simpa [Arr.tr_blk] using oz.2
  rw [blk_sum] at hZZ
  have hfac : ∀ (M X : Arr V), (∀ i < E.r, ∀ j < E.r,
      (sumTo E.r fun k => (sumTo E.r fun l => q.Q.e i l * X.e l k) * q.Zt.e j k) = M.e i j) →
      fromCols (M.blk ρ κ) (M.blk ρ fun j => k + σ j) = q.Q.blk ρ (sumIdx κ k σ) *
        X.blk (sumIdx κ k σ) (sumIdx κ k σ) * q.Zt.tr.blk (sumIdx κ k σ) (sumIdx κ k σ) := by
    intro M X hM
    have hcol : fromCols (M.blk ρ κ) (M.blk ρ fun j => k + σ j) = M.blk ρ (sumIdx κ k σ) := by
      ext i (j | j) <;> rfl
    rw [hcol]
    ext i j
    simp only [Matrix.mul_apply, Arr.blk_apply, Arr.tr]
    rw [← hM _ (hρ i) _ (hτ.lt j), sumTo_enum hτ]
    refine Finset.sum_congr rfl fun y _ => ?_
    rw [sumTo_enum hτ]
  have hD := hfac D q.T hd.right
  have hE := hfac E q.S hd.left
  have hT : q.T.blk (sumIdx κ k σ) (sumIdx κ k σ) = fromBlocks (q.T.blk κ κ)
      (q.T.blk κ fun j => k + σ j) 0 (q.T.blk (fun i => k + σ i) fun j => k + σ j) := by
    rw [blk_sum]
    congr 1
    ext i j
    exact hd.triT _ _ (Nat.lt_of_lt_of_le (hκ.lt j) (Nat.le_add_right ..)) (hσ' i)
  have hS : q.S.blk (sumIdx κ k σ) (sumIdx κ k σ) = fromBlocks (q.S.blk κ κ)
      (q.S.blk κ fun j => k + σ j) 0 (q.S.blk (fun i => k + σ i) fun j => k + σ j) := by
    rw [blk_sum]
    congr 1
    ext i j
    exact hS0 _ _ (Nat.le_add_right ..) (hσ' i) (hκ.lt j)
  rw [hT, blk_sum] at hD
  rw [hS, blk_sum] at hE
  -- the solved blocks
  have hx2 := hx1.mul (ρ := σ) (κ := σ) (σ := κ) (by simpa [Arr.slice] using hσ.lt)
    (by simpa [Arr.slice] using hσ) (by rw [hxc]; exact hκ.lt)
  simp only [slice_blk, Nat.zero_add] at hx2
  have hi2 := (hi22.mul (κ := σ) (by simpa [Arr.slice] using hσ)).2
  simp only [slice_blk] at hi2
  have hT2 := (hTinv.mul (κ := κ) (by simpa [Arr.slice] using hκ)).1
  simp only [slice_blk, Nat.zero_add] at hT2
  have hW2 := hWinv.mul (κ := κ) (by simpa [Arr.slice, Arr.tr] using hκ)
  simp only [Arr.tr_blk, slice_blk, Nat.zero_add] at hW2
  have hg2 : g.blk κ κ = ((q.Zt.tr.blk κ κ)ᵀ * T11i.blk κ κ) * (q.S.blk κ κ * W.blk κ κ) := by
    have hlc : l.c = k := by
      rw [l3]
      have := hTinv.1.2.2.1
      simpa [Arr.eye, Arr.slice] using this.symm
    rw [g4 κ κ κ (by rw [hlc]; exact hκ), l4 κ κ κ (by simpa [Arr.tr, Arr.slice] using hκ),
      r4 κ κ κ (by simpa [Arr.slice] using hκ)]
    simp only [Arr.tr_blk, slice_blk, Nat.zero_add]
  simp only [Arr.tr_blk] at hg2 hZZ hD hE hx2 hi2
  have := qz_core hZZ hD hE hx2 hi2 hW2.1 hW2.2 hT2 hg2
  simpa only [Arr.neg_blk] using this

end Pynare
