import Verif.Examples.Order
import Verif.Examples.StabilitySecond
import Verif.Spec.OrderSecond
/-!
# A model with a square, written in two orders

`x = x(-1)/2 + x(-1)^2 + e1`, `z = z(-1)/4 + e2`, `w(+1) = 2*w`.
-/

namespace Pynare

section
variable {V : Type} [Field V] [LinearOrder V] [IsStrictOrderedRing V]

theorem isDeriv_fun {f f' : List V → Except Err V} {p : List V} {g : Nat → V}
    (h : ∀ x : List V, x.length = p.length → f x = f' x) (hd : IsDerivAt f' p g) : IsDerivAt f p g := by
  obtain ⟨v, hv, hd⟩ := hd
  refine ⟨v, by rw [h p rfl, hv], fun ε hε => ?_⟩
  obtain ⟨δ, hδ, hd⟩ := hd ε hε
  refine ⟨δ, hδ, fun r h0 hr x hx => ?_⟩
  rw [h x hx.1]
  exact hd r h0 hr x hx

/-- the derivatives of a vector that are returned, when they are known -/
theorem idealAd_jacobian_eq {G : List V → Except Err (List V)} {p : List V} {h : List (List V)}
    (hl : ∀ row ∈ h, row.length = p.length) (hj : IsJacobianAt G p h) : (idealAd : Autograd V).jacobian G p = .ok h := by
  obtain ⟨h', hh⟩ := idealAd_jacobian hl hj
  obtain ⟨hl', hj'⟩ := idealAd_exact.jacobian _ _ _ hh
  rw [hh]
  congr 1
  have entry : ∀ {h : List (List V)}, IsJacobianAt G p h → ∃ g₀, G p = .ok g₀ ∧ h.length = g₀.length ∧
      ∀ k < g₀.length, IsDerivAt (fun x => (G x).map fun g => vecEntry g k) p (vecEntry (h[k]?.getD [])) := by
    rintro h ⟨g₀, h0, hlen, hd⟩
    refine ⟨g₀, h0, hlen, fun k hk => ⟨vecEntry g₀ k, by simp only [h0]; rfl, fun ε hε => ?_⟩⟩
    obtain ⟨δ, hδ, hd⟩ := hd ε hε
    refine ⟨δ, hδ, fun r hr0 hr x hx => ?_⟩
    obtain ⟨g, hg, hb⟩ := hd r hr0 hr x hx
    exact ⟨vecEntry g k, by simp only [hg]; rfl, hb k hk⟩
  obtain ⟨g₀, h0, n1, d1⟩ := entry hj
  obtain ⟨g₁, h1, n2, d2⟩ := entry hj'
  rw [h0] at h1
  obtain rfl := Except.ok.inj h1
  refine List.ext_getElem (by omega) fun i a b => ?_
  have e := isDeriv_unique (d2 i (by omega)) (d1 i (by omega))
  rw [List.getElem?_eq_getElem a, List.getElem?_eq_getElem b] at e
  have r1 := hl' _ (List.getElem_mem a)
  have r2 := hl _ (List.getElem_mem b)
  refine List.ext_getElem (by omega) fun j c d => ?_
  have := e j (by omega)
  simp only [Option.getD_some] at this
  unfold vecEntry at this
  rwa [List.getElem?_eq_getElem c, List.getElem?_eq_getElem d] at this

/-- the second derivatives of a quadratic function -/
def quadHess (n : Nat) (h : Nat → V) : List (List V) :=
  (List.range n).map fun k => (List.range n).map fun l => 1 / 2 * (h (k * n + l) + h (l * n + k))

theorem quad_grad_eq {f : List V → Except Err V} {g h : Nat → V} {n : Nat}
    (hf : ∀ x : List V, x.length = n → f x = quadFun n g h x) (p : List V) (hp : p.length = n) :
    (idealAd : Autograd V).grad f p = .ok ((List.range n).map (quadGrad n g h p)) := by
  subst hp
  refine idealAd_grad_eq (by simp) ?_
  exact isDeriv_fun hf (isDeriv_congr (isTaylor_isDeriv (quadFun_taylor g h p)) fun k hk => (entry_ofRange _ hk).symm)

theorem quad_hess_eq {f : List V → Except Err V} {g h : Nat → V} {n : Nat}
    (hf : ∀ x : List V, x.length = n → f x = quadFun n g h x) (p : List V) (hp : p.length = n) :
    (idealAd : Autograd V).jacobian ((idealAd : Autograd V).grad f) p = .ok (quadHess n h) := by
  refine idealAd_jacobian_eq ?_ ?_
  · intro row hrow
    obtain ⟨k, -, rfl⟩ := List.mem_map.mp hrow
    simp [hp]
  · refine ⟨_, quad_grad_eq hf p hp, by simp [quadHess], fun ε hε => ⟨1, one_pos, fun r hr _ x hx => ?_⟩⟩
    refine ⟨_, quad_grad_eq hf x (hx.1.trans hp), fun k hk => ?_⟩
    have hk : k < n := by simpa using hk
    rw [entry_ofRange _ hk, entry_ofRange _ hk]
    refine le_trans (le_of_eq (abs_eq_zero.mpr ?_)) (mul_nonneg hε.le hr)
    have : ((quadHess n h)[k]?.getD []) = (List.range n).map fun l => 1 / 2 * (h (k * n + l) + h (l * n + k)) := by
      simp [quadHess, hk]
    unfold quadGrad
    rw [this, hp]
    simp only [sumTo_eq]
    rw [add_sub_add_left_eq_sub, ← Finset.sum_sub_distrib, ← Finset.sum_sub_distrib]
    refine Finset.sum_eq_zero fun l hl => ?_
    rw [entry_ofRange _ (Finset.mem_range.mp hl)]
    ring

/-- the second derivatives that are returned, when the equations are quadratic -/
theorem idealAd_hessian {p : List V} {n : Nat} (hn : p.length = n) :
    ∀ {fs : List (List V → Except Err V)} {hs : List (List V)},
    List.Forall₂ (fun f hh => ∃ g h : Nat → V, (∀ x : List V, x.length = n → f x = quadFun n g h x) ∧
      (quadHess n h).flatten = hh ∧ hh.length = n ^ 2) fs hs →
    hessianArray idealAd fs p = .ok (rowsArr (n ^ 2) hs) := by
  intro fs hs h
  have : assignRows (p.length ^ 2) p (fs.map fun f x => do
      let h ← (idealAd : Autograd V).jacobian ((idealAd : Autograd V).grad f) x
      .ok h.flatten) = .ok hs := by
    induction h with
    | nil => rfl
    | cons h _ ih =>
      obtain ⟨g, h, h1, h2, h3⟩ := h
      simp only [bind, Except.bind] at ih
      simp only [List.map_cons, assignRows, quad_hess_eq h1 p hn, bind, Except.bind, h2]
      simp only [assignRow, if_pos (show _ = p.length ^ 2 from h3.trans (by rw [hn])), ih]
  unfold hessianArray
  rw [this, hn]
  rfl

end

/-- `x = 1/2*x(-1) + x(-1)*x(-1) + e1` -/
def xqX : Expr ℚ := .bin .sub (.var "x") (.bin .add (.bin .add (.bin .mul (.num (1/2)) (.pvar "x" (-1)))
  (.bin .mul (.pvar "x" (-1)) (.pvar "x" (-1)))) (.var "e1"))

/-- `z = 1/4*z(-1) + e2` -/
def xqZ : Expr ℚ := .bin .sub (.var "z") (.bin .add (.bin .mul (.num (1/4)) (.pvar "z" (-1))) (.var "e2"))

/-- `w(+1) = 2*w` -/
def xqW : Expr ℚ := .bin .sub (.pvar "w" 1) (.bin .mul (.num 2) (.var "w"))

/-- the jacobian in the first order: variables `x`, `z`, `w`, shocks `e1`, `e2` -/
def xqRows : List (List ℚ) := [[-(1/2), 0, 1, 0, 0, 0, -1, 0], [0, -(1/4), 0, 1, 0, 0, 0, -1], [0, 0, 0, 0, -2, 1, 0, 0]]

/-- the second derivatives in the first order -/
def xqHess : List (List ℚ) := [-2 :: List.replicate 63 0, List.replicate 64 0, List.replicate 64 0]

/-- the jacobian in the second order: variables `w`, `z`, `x`, shocks `e2`, `e1`, the equations in another
order -/
def xqRows' : List (List ℚ) := [[-(1/4), 0, 0, 1, 0, 0, -1, 0], [0, -(1/2), 0, 0, 1, 0, 0, -1], [0, 0, -2, 0, 0, 1, 0, 0]]

/-- the second derivatives in the second order -/
def xqHess' : List (List ℚ) := [List.replicate 64 0, List.replicate 9 0 ++ -2 :: List.replicate 54 0, List.replicate 64 0]

/-- the table in the second order -/
def xqT' : Llx := match buildLlx [[0, 1], [0, -1], [0, -1]] with
  | .ok t => t
  | .error _ => ⟨⟨0, fun _ _ => none⟩, 0⟩

/-- the table in the first order -/
def xqT : Llx := match buildLlx [[0, -1], [0, -1], [0, 1]] with
  | .ok t => t
  | .error _ => ⟨⟨0, fun _ _ => none⟩, 0⟩

/-- the routines of linear algebra -/
def xqLa (ls : List ℚ) : LinAlg ℚ := { chLa with
  rank := fun _ => 1
  ordqz := fun b a => if qzB (diagQz ls) b a then .ok (diagQz ls) else .error .valueError }

theorem xqLa_exact (ls : List ℚ) : (xqLa ls).Exact where
  qr := chLa_exact.qr
  solve := chLa_exact.solve
  inv := chLa_exact.inv
  ordqz b a q _ _ _ h := by
    simp only [xqLa] at h
    split at h
    · rename_i hi
      rw [← Except.ok.inj h]; exact qzB_spec hi
    · cases h

theorem xq_plain : PlainModel odσ ["x", "z", "w"] ["e1", "e2"] [xqX, xqZ, xqW] where
  distinct := by decide
  shocks := by decide
  square := rfl
  form := by
    intro e he
    simp only [List.mem_cons, List.not_mem_nil, or_false] at he
    rcases he with rfl | rfl | rfl
    · exact ⟨_, _, rfl⟩
    · exact ⟨_, _, rfl⟩
    · exact ⟨_, _, rfl⟩
  noCmp := by
    intro e he
    simp only [List.mem_cons, List.not_mem_nil, or_false] at he
    rcases he with rfl | rfl | rfl <;> rfl
  current := by
    intro x hx
    simp only [List.mem_cons, List.not_mem_nil, or_false] at hx
    rcases hx with rfl | rfl | rfl
    · exact ⟨xqX, by simp, .inl ⟨rfl, by decide⟩⟩
    · exact ⟨xqZ, by simp, .inl ⟨rfl, by decide⟩⟩
    · exact ⟨xqW, by simp, .inl ⟨rfl, by decide⟩⟩
  std := by
    intro x _ q e he hq
    simp only [List.mem_cons, List.not_mem_nil, or_false] at he
    rcases hq with ⟨h, -⟩ | hq
    · exact .inr (.inl h)
    · rcases he with rfl | rfl | rfl
      · rw [show xqX.pvars = [("x", -1), ("x", -1), ("x", -1)] from rfl] at hq
        simp at hq
        exact .inl hq.2
      · rw [show xqZ.pvars = [("z", -1)] from rfl] at hq
        simp at hq
        exact .inl hq.2
      · rw [show xqW.pvars = [("w", 1)] from rfl] at hq
        simp at hq
        exact .inr (.inr hq.2)
  names := by
    intro e he x hx
    refine .inr ?_
    simp only [List.mem_cons, List.not_mem_nil, or_false] at he
    rcases he with rfl | rfl | rfl
    · rw [show xqX.vars = ["x", "e1"] from rfl] at hx
      simp only [List.mem_cons, List.not_mem_nil, or_false] at hx ⊢
      tauto
    · rw [show xqZ.vars = ["z", "e2"] from rfl] at hx
      simp only [List.mem_cons, List.not_mem_nil, or_false] at hx ⊢
      tauto
    · rw [show xqW.vars = ["w"] from rfl] at hx
      simp only [List.mem_cons, List.not_mem_nil, or_false] at hx ⊢
      tauto
  offsets := by
    intro e he x o hx
    simp only [List.mem_cons, List.not_mem_nil, or_false] at he
    rcases he with rfl | rfl | rfl
    · rw [show xqX.pvars = [("x", -1), ("x", -1), ("x", -1)] from rfl] at hx
      simp at hx
      obtain ⟨rfl, rfl⟩ := hx
      simp
    · rw [show xqZ.pvars = [("z", -1)] from rfl] at hx
      simp at hx
      obtain ⟨rfl, rfl⟩ := hx
      simp
    · rw [show xqW.pvars = [("w", 1)] from rfl] at hx
      simp at hx
      obtain ⟨rfl, rfl⟩ := hx
      simp

theorem xq_perm : ["w", "z", "x"].Perm ["x", "z", "w"] ∧ ["e2", "e1"].Perm ["e1", "e2"] ∧
    [xqZ, xqX, xqW].Perm [xqX, xqZ, xqW] :=
  ⟨by decide, by decide, List.Perm.swap _ _ _⟩

/-- an equation with eight arguments and a square -/
theorem xq_quad {f : List ℚ → Except Err ℚ} {g : List ℚ} {c : ℚ} {j : Nat} (hg : g.length = 8) (hj : j < 2)
    (hf : ∀ a0 a1 a2 a3 a4 a5 a6 a7 : ℚ, f [a0, a1, a2, a3, a4, a5, a6, a7] = .ok (vecEntry g 0 * a0 + vecEntry g 1 * a1 +
      vecEntry g 2 * a2 + vecEntry g 3 * a3 + vecEntry g 4 * a4 + vecEntry g 5 * a5 + vecEntry g 6 * a6 +
      vecEntry g 7 * a7 + c * (([a0, a1][j]?.getD 0) * ([a0, a1][j]?.getD 0)))) :
    ∀ x : List ℚ, x.length = 8 → f x = quadFun 8 (vecEntry g) (fun m => if m = j * 8 + j then 2 * c else 0) x := by
  intro x hx
  match x, hx with
  | [a0, a1, a2, a3, a4, a5, a6, a7], hx =>
    rw [hf]
    unfold quadFun
    rw [if_pos hx]
    congr 1
    unfold quadVal
    interval_cases j <;> simp [sumTo, vecEntry] <;> ring

theorem xq_hess {f : List ℚ → Except Err ℚ} {g hh : List ℚ} {c : ℚ} {j : Nat}
    (hf : ∀ x : List ℚ, x.length = 8 → f x = quadFun 8 (vecEntry g) (fun m => if m = j * 8 + j then 2 * c else 0) x)
    (h1 : (quadHess 8 fun m => if m = j * 8 + j then 2 * c else 0).flatten = hh) (h2 : hh.length = 8 ^ 2) :
    ∃ g h : Nat → ℚ, (∀ x : List ℚ, x.length = 8 → f x = quadFun 8 g h x) ∧ (quadHess 8 h).flatten = hh ∧
      hh.length = 8 ^ 2 := ⟨_, _, hf, h1, h2⟩

theorem xq_row {f : List ℚ → Except Err ℚ} {g : List ℚ} {c : ℚ} {j : Nat} (hg : g.length = 8)
    (hf : ∀ x : List ℚ, x.length = 8 → f x = quadFun 8 (vecEntry g) (fun m => if m = j * 8 + j then 2 * c else 0) x) :
    g.length = 8 ∧ IsDerivAt f [0, 0, 0, 0, 0, 0, 0, 0] (vecEntry g) := by
  refine ⟨hg, isDeriv_fun hf ?_⟩
  refine isDeriv_congr (isTaylor_isDeriv (quadFun_taylor (vecEntry g) _ [0, 0, 0, 0, 0, 0, 0, 0])) ?_
  intro k hk
  unfold quadGrad
  have : ∀ l, vecEntry ([0, 0, 0, 0, 0, 0, 0, 0] : List ℚ) l = 0 := by
    intro l
    unfold vecEntry
    by_cases hl : l < 8
    · interval_cases l <;> rfl
    · rw [List.getElem?_eq_none (by simpa using hl)]; rfl
  rw [sumTo_eq, Finset.sum_eq_zero fun l _ => by rw [this, mul_zero], add_zero]

theorem xq_derivs : JacobianOf ratOps (fun _ => true) idealAd odσ ["x", "z", "w"] ["e1", "e2"] [xqX, xqZ, xqW] [0, 0, 0] xqT
      (rowsArr 8 xqRows) ∧
    ∃ fs, dynamicFuncs ratOps (fun _ => true) ["x", "z", "w"] ["e1", "e2"] xqT.toTyper odσ [xqX, xqZ, xqW] = .ok fs ∧
      modelHessian idealAd xqT.toTyper 2 fs [0, 0, 0] = .ok (rowsArr (8 ^ 2) xqHess) := by
  have htp : xqT.places = [(0, 0), (0, 1), (1, 0), (1, 1), (1, 2), (2, 2)] := by decide
  have hv : dynVars ["x", "z", "w"] ["e1", "e2"] xqT.toTyper = ["xm1", "zm1", "x", "z", "w", "wp1", "e1", "e2"] := by
    unfold dynVars; rw [htp]; rfl
  have hp : linPoint xqT.toTyper 2 ([0, 0, 0] : List ℚ) = [0, 0, 0, 0, 0, 0, 0, 0] := by unfold linPoint; rw [htp]; rfl
  obtain ⟨fs, hfs, q⟩ : ∃ fs, dynamicFuncs ratOps (fun _ => true) ["x", "z", "w"] ["e1", "e2"] xqT.toTyper odσ
      [xqX, xqZ, xqW] = .ok fs ∧ ∃ f1 f2 f3, fs = [f1, f2, f3] ∧
      (∀ x : List ℚ, x.length = 8 → f1 x = quadFun 8 (vecEntry [-(1/2), 0, 1, 0, 0, 0, -1, 0])
        (fun m => if m = 0 * 8 + 0 then 2 * -1 else 0) x) ∧
      (∀ x : List ℚ, x.length = 8 → f2 x = quadFun 8 (vecEntry [0, -(1/4), 0, 1, 0, 0, 0, -1])
        (fun m => if m = 0 * 8 + 0 then 2 * 0 else 0) x) ∧
      (∀ x : List ℚ, x.length = 8 → f3 x = quadFun 8 (vecEntry [0, 0, 0, 0, -2, 1, 0, 0])
        (fun m => if m = 0 * 8 + 0 then 2 * 0 else 0) x) := by
    refine ⟨_, by simp [dynamicFuncs, dynamicFunc, hv, subTree, dynMaybe, xqW, xqX, xqZ, odσ, modelSignature, offsetName, bind, Except.bind]; rfl, ?_⟩
    refine ⟨_, _, _, rfl, ?_, ?_, ?_⟩
    · refine xq_quad rfl (by decide) ?_
      intro a0 a1 a2 a3 a4 a5 a6 a7
      refine (show _ = Except.ok (a2 - (2⁻¹ * a0 + a0 * a0 + a6)) from rfl).trans ?_
      simp [vecEntry]
      ring
    · refine xq_quad rfl (by decide) ?_
      intro a0 a1 a2 a3 a4 a5 a6 a7
      refine (show _ = Except.ok (a3 - (4⁻¹ * a1 + a7)) from rfl).trans ?_
      simp [vecEntry]
      ring
    · refine xq_quad rfl (by decide) ?_
      intro a0 a1 a2 a3 a4 a5 a6 a7
      refine (show _ = Except.ok (a5 - 2 * a4) from rfl).trans ?_
      simp [vecEntry]
      ring
  obtain ⟨f1, f2, f3, rfl, q1, q2, q3⟩ := q
  refine ⟨⟨xq_plain, rfl, _, hfs, ?_⟩, _, hfs, ?_⟩
  · unfold modelJacobian
    rw [show (["e1", "e2"] : List String).length = 2 from rfl, hp]
    exact idealAd_rows rfl (.cons (xq_row rfl q1) (.cons (xq_row rfl q2) (.cons (xq_row rfl q3) .nil)))
  · unfold modelHessian
    rw [hp]
    exact idealAd_hessian rfl (.cons (xq_hess q1 (by decide +kernel) (by decide)) (.cons (xq_hess q2 (by decide +kernel) (by decide))
      (.cons (xq_hess q3 (by decide +kernel) (by decide)) .nil)))

theorem xq_derivs' : JacobianOf ratOps (fun _ => true) idealAd odσ ["w", "z", "x"] ["e2", "e1"] [xqZ, xqX, xqW] [0, 0, 0] xqT'
      (rowsArr 8 xqRows') ∧
    ∃ fs, dynamicFuncs ratOps (fun _ => true) ["w", "z", "x"] ["e2", "e1"] xqT'.toTyper odσ [xqZ, xqX, xqW] = .ok fs ∧
      modelHessian idealAd xqT'.toTyper 2 fs [0, 0, 0] = .ok (rowsArr (8 ^ 2) xqHess') := by
  have htp : xqT'.places = [(0, 1), (0, 2), (1, 0), (1, 1), (1, 2), (2, 0)] := by decide
  have hv : dynVars ["w", "z", "x"] ["e2", "e1"] xqT'.toTyper = ["zm1", "xm1", "w", "z", "x", "wp1", "e2", "e1"] := by
    unfold dynVars; rw [htp]; rfl
  have hp : linPoint xqT'.toTyper 2 ([0, 0, 0] : List ℚ) = [0, 0, 0, 0, 0, 0, 0, 0] := by unfold linPoint; rw [htp]; rfl
  obtain ⟨fs, hfs, q⟩ : ∃ fs, dynamicFuncs ratOps (fun _ => true) ["w", "z", "x"] ["e2", "e1"] xqT'.toTyper odσ
      [xqZ, xqX, xqW] = .ok fs ∧ ∃ f1 f2 f3, fs = [f1, f2, f3] ∧
      (∀ x : List ℚ, x.length = 8 → f1 x = quadFun 8 (vecEntry [-(1/4), 0, 0, 1, 0, 0, -1, 0])
        (fun m => if m = 1 * 8 + 1 then 2 * 0 else 0) x) ∧
      (∀ x : List ℚ, x.length = 8 → f2 x = quadFun 8 (vecEntry [0, -(1/2), 0, 0, 1, 0, 0, -1])
        (fun m => if m = 1 * 8 + 1 then 2 * -1 else 0) x) ∧
      (∀ x : List ℚ, x.length = 8 → f3 x = quadFun 8 (vecEntry [0, 0, -2, 0, 0, 1, 0, 0])
        (fun m => if m = 1 * 8 + 1 then 2 * 0 else 0) x) := by
    refine ⟨_, by simp [dynamicFuncs, dynamicFunc, hv, subTree, dynMaybe, xqW, xqX, xqZ, odσ, modelSignature, offsetName, bind, Except.bind]; rfl, ?_⟩
    refine ⟨_, _, _, rfl, ?_, ?_, ?_⟩
    · refine xq_quad rfl (by decide) ?_
      intro a0 a1 a2 a3 a4 a5 a6 a7
      refine (show _ = Except.ok (a3 - (4⁻¹ * a0 + a6)) from rfl).trans ?_
      simp [vecEntry]
      ring
    · refine xq_quad rfl (by decide) ?_
      intro a0 a1 a2 a3 a4 a5 a6 a7
      refine (show _ = Except.ok (a4 - (2⁻¹ * a1 + a1 * a1 + a7)) from rfl).trans ?_
      simp [vecEntry]
      ring
    · refine xq_quad rfl (by decide) ?_
      intro a0 a1 a2 a3 a4 a5 a6 a7
      refine (show _ = Except.ok (a5 - 2 * a2) from rfl).trans ?_
      simp [vecEntry]
      ring
  obtain ⟨f1, f2, f3, rfl, q1, q2, q3⟩ := q
  refine ⟨⟨xq_plain.perm xq_perm.1 xq_perm.2.1 xq_perm.2.2, rfl, _, hfs, ?_⟩, _, hfs, ?_⟩
  · unfold modelJacobian
    rw [show (["e2", "e1"] : List String).length = 2 from rfl, hp]
    exact idealAd_rows rfl (.cons (xq_row rfl q1) (.cons (xq_row rfl q2) (.cons (xq_row rfl q3) .nil)))
  · unfold modelHessian
    rw [hp]
    exact idealAd_hessian rfl (.cons (xq_hess q1 (by decide +kernel) (by decide)) (.cons (xq_hess q2 (by decide +kernel) (by decide))
      (.cons (xq_hess q3 (by decide +kernel) (by decide)) .nil)))

/-- all steps of the solution -/
def xqAll (ls : List ℚ) (t : Llx) (J H sigma : Arr ℚ) : Except Err (Space ℚ × Arr ℚ × Arr ℚ × SecondNd ℚ) := do
  let s ← Space.create (xqLa ls) t.toTyper J
  let (gy, gu) ← solveFirstOrder (xqLa ls) t 2 s
  let so ← solveSecondOrder (xqLa ls) triQz (1/2) t.toTyper 2 J H sigma (Nd.mat gy).squeeze (Nd.mat gu).squeeze
  .ok (s, gy, gu, so)

/-- the model is solved to second order -/
theorem xq_second {ls : List ℚ} {endo exo : List String} {es : List (Expr ℚ)} {t : Llx} {J H sigma : Arr ℚ}
    (hex : exo.length = 2) (hd : JacobianOf ratOps (fun _ => true) idealAd odσ endo exo es [0, 0, 0] t J ∧
      ∃ fs, dynamicFuncs ratOps (fun _ => true) endo exo t.toTyper odσ es = .ok fs ∧
        modelHessian idealAd t.toTyper 2 fs [0, 0, 0] = .ok H)
    (hsym : SymmetricHessian t 2 H) (h1 : sigma.r = 2 ∧ sigma.c = 2 ∧ ∀ j < 2, ∀ k < 2, sigma.e j k = sigma.e k j)
    (e1 : ∀ i j : Nat, i ≤ j → j < ls.length → |ls[j]?.getD 0| < 1 → |ls[i]?.getD 0| < 1)
    (e2 : ∀ l ∈ ls, |l| < 1 ∨ 1 < |l|) (p : SecondNd ℚ → Arr ℚ → Arr ℚ → Bool)
    (c : okAnd (xqAll ls t J H sigma) (fun r => qzB (diagQz ls) r.1.rhs r.1.lhs &&
      okAnd (r.1.verify (xqLa ls) t.toTyper) (fun _ => true) && p r.2.2.2 r.2.1 r.2.2.1) = true) :
    ∃ (s : Space ℚ) (gy gu : Arr ℚ) (so : SecondNd ℚ),
      SecondModel (Rat.castHom ℂ) ratOps (fun _ => true) idealAd (xqLa ls) triQz (1/2) odσ endo exo es [0, 0, 0] t J H sigma
        gy gu so s (diagQz ls) (diagEv ls) ∧ p so gy gu = true := by
  obtain ⟨⟨s, gy, gu, so⟩, h0, h⟩ := ok_of_check c
  unfold xqAll at h0
  obtain ⟨s', hs, h0⟩ := Except.bind_eq_ok h0
  obtain ⟨⟨gy', gu'⟩, hg, h0⟩ := Except.bind_eq_ok h0
  obtain ⟨so', hso, h0⟩ := Except.bind_eq_ok h0
  have e := Except.ok.inj h0
  simp only [Prod.mk.injEq] at e
  obtain ⟨rfl, rfl, rfl, rfl⟩ := e
  simp only [Bool.and_eq_true] at h
  obtain ⟨⟨q1, q2⟩, q3⟩ := h
  obtain ⟨⟨⟩, hv, -⟩ := ok_of_check q2
  refine ⟨s', gy', gu', so', ⟨⟨hd.1, hs, by rw [hex]; exact hg, hv, ?_, diag_eigen _ e1, ?_⟩, by rw [hex]; exact hd.2, by rw [hex]; exact hsym,
    by rw [hex]; exact h1.1, by rw [hex]; exact h1.2.1, by rw [hex]; exact h1.2.2, by rw [hex]; exact hso⟩, q3⟩
  · show (if qzB _ _ _ then _ else _) = _
    rw [if_pos q1]
  · have := diag_noUnit e2
    simpa [diagQz] using this

end Pynare
