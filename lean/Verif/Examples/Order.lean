import Verif.Props.Derivs
import Verif.Spec.Order
import Verif.Examples.Stability
import Mathlib.Tactic.NormNum
/-!
# A small model, written in two orders

A state `x = x(-1)/2 + e + 2 f`, a forward-looking variable `z(+1) = 2 z`, and their sum `w`.
-/

namespace Pynare

section
variable {V : Type} [Field V] [LinearOrder V] [IsStrictOrderedRing V]

/-- the derivatives that are returned, when they are known -/
theorem idealAd_grad_eq {f : List V → Except Err V} {p g : List V} (hl : g.length = p.length)
    (h : IsDerivAt f p (vecEntry g)) : (idealAd : Autograd V).grad f p = .ok g := by
  obtain ⟨g', hg'⟩ := idealAd_grad hl h
  obtain ⟨a, b⟩ := idealAd_exact.grad _ _ _ hg'
  rw [hg']
  congr 1
  refine List.ext_getElem (by omega) fun i h1 h2 => ?_
  have := isDeriv_unique b h i (by omega)
  unfold vecEntry at this
  rwa [List.getElem?_eq_getElem h1, List.getElem?_eq_getElem h2] at this

/-- the jacobian that is returned, when the derivatives are known -/
theorem idealAd_rows {p : List V} {n : Nat} (hn : p.length = n) : ∀ {fs : List (List V → Except Err V)} {gs : List (List V)},
    List.Forall₂ (fun f g => g.length = n ∧ IsDerivAt f p (vecEntry g)) fs gs →
    jacobianArray idealAd fs p = .ok (rowsArr n gs) := by
  intro fs gs h
  have : assignRows p.length p (fs.map (idealAd : Autograd V).grad) = .ok gs := by
    induction h with
    | nil => rfl
    | cons h _ ih =>
      simp only [List.map_cons, assignRows, idealAd_grad_eq (h.1.trans hn.symm) h.2, bind, Except.bind]
      simp only [assignRow, if_pos (h.1.trans hn.symm), ih]
  unfold jacobianArray
  rw [this, hn]
  rfl

end

/-- `w = z + x` -/
def odW : Expr ℚ := .bin .sub (.var "w") (.bin .add (.var "z") (.var "x"))

/-- `x = 1/2*x(-1) + e + 2*f` -/
def odX : Expr ℚ := .bin .sub (.var "x") (.bin .add (.bin .mul (.num (1/2)) (.pvar "x" (-1)))
  (.bin .add (.var "e") (.bin .mul (.num 2) (.var "f"))))

/-- `z(+1) = 2*z` -/
def odZ : Expr ℚ := .bin .sub (.pvar "z" 1) (.bin .mul (.num 2) (.var "z"))

/-- no parameters -/
def odσ : String → Option ℚ := fun _ => none

/-- the jacobian in the first order: variables `z`, `x`, `w`, shocks `e`, `f` -/
def odRows : List (List ℚ) := [[0, -1, -1, 1, 0, 0, 0], [-(1/2), 0, 1, 0, 0, -1, -2], [0, -2, 0, 0, 1, 0, 0]]

/-- the jacobian in the second order: variables `x`, `z`, `w`, shocks `f`, `e`, the last two equations
exchanged -/
def odRows' : List (List ℚ) := [[0, -1, -1, 1, 0, 0, 0], [0, 0, -2, 0, 1, 0, 0], [-(1/2), 1, 0, 0, 0, -2, -1]]

/-- the table in the second order -/
def odT' : Llx := match buildLlx [[0, -1], [0, 1], [0]] with
  | .ok t => t
  | .error _ => ⟨⟨0, fun _ _ => none⟩, 0⟩

/-- the decomposition in the second order -/
def odQz' : QZ ℚ := { sbQz (1/2) 2 with Q := listArr [[0, 1], [1, 0]] 2 }

theorem od_plain : PlainModel odσ ["z", "x", "w"] ["e", "f"] [odW, odX, odZ] where
  distinct := by decide
  shocks := by decide
  square := rfl
  form := by
    intro e he
    simp only [List.mem_cons, List.not_mem_nil, or_false] at he
    rcases he with rfl | rfl | rfl
    · exact ⟨_, _, rfl⟩
    · exact ⟨_, _, rfl⟩
    · exact ⟨_, _, rfl⟩
  noCmp := by
    intro e he
    simp only [List.mem_cons, List.not_mem_nil, or_false] at he
    rcases he with rfl | rfl | rfl <;> rfl
  current := by
    intro x hx
    refine ⟨odW, by simp, .inl ⟨rfl, ?_⟩⟩
    rw [show odW.vars = ["w", "z", "x"] from rfl]
    simp only [List.mem_cons, List.not_mem_nil, or_false] at hx ⊢
    tauto
  std := by
    intro x _ q e he hq
    simp only [List.mem_cons, List.not_mem_nil, or_false] at he
    rcases hq with ⟨h, -⟩ | hq
    · exact .inr (.inl h)
    · rcases he with rfl | rfl | rfl
      · cases hq
      · rw [show odX.pvars = [("x", -1)] from rfl] at hq
        exact .inl (Prod.mk.inj (List.mem_singleton.mp hq)).2
      · rw [show odZ.pvars = [("z", 1)] from rfl] at hq
        exact .inr (.inr (Prod.mk.inj (List.mem_singleton.mp hq)).2)
  names := by
    intro e he x hx
    refine .inr ?_
    simp only [List.mem_cons, List.not_mem_nil, or_false] at he
    rcases he with rfl | rfl | rfl
    · rw [show odW.vars = ["w", "z", "x"] from rfl] at hx
      simp only [List.mem_cons, List.not_mem_nil, or_false] at hx ⊢
      tauto
    · rw [show odX.vars = ["x", "e", "f"] from rfl] at hx
      simp only [List.mem_cons, List.not_mem_nil, or_false] at hx ⊢
      tauto
    · rw [show odZ.vars = ["z"] from rfl] at hx
      simp only [List.mem_cons, List.not_mem_nil, or_false] at hx ⊢
      tauto
  offsets := by
    intro e he x o hx
    simp only [List.mem_cons, List.not_mem_nil, or_false] at he
    rcases he with rfl | rfl | rfl
    · cases hx
    · rw [show odX.pvars = [("x", -1)] from rfl] at hx
      obtain ⟨rfl, rfl⟩ := Prod.mk.inj (List.mem_singleton.mp hx)
      simp
    · rw [show odZ.pvars = [("z", 1)] from rfl] at hx
      obtain ⟨rfl, rfl⟩ := Prod.mk.inj (List.mem_singleton.mp hx)
      simp

/-- the conditions do not depend on the order -/
theorem PlainModel.perm {V : Type} {σ : String → Option V} {endo exo endo' exo' : List String} {es es' : List (Expr V)}
    (h : PlainModel σ endo exo es) (pe : endo'.Perm endo) (px : exo'.Perm exo) (pq : es'.Perm es) :
    PlainModel σ endo' exo' es' where
  distinct := pe.symm.nodup h.distinct
  shocks := px.symm.nodup h.shocks
  square := by rw [pe.length_eq, pq.length_eq]; exact h.square
  form e he := h.form e (pq.mem_iff.mp he)
  noCmp e he := h.noCmp e (pq.mem_iff.mp he)
  current x hx := by
    obtain ⟨e, he, ho⟩ := h.current x (pe.mem_iff.mp hx)
    exact ⟨e, pq.mem_iff.mpr he, ho⟩
  std x hx q e he := h.std x (pe.mem_iff.mp hx) q e (pq.mem_iff.mp he)
  names e he x hx := by
    rw [pe.mem_iff, px.mem_iff]
    exact h.names e (pq.mem_iff.mp he) x hx
  offsets e he x o hx := by
    rw [pe.mem_iff]
    exact h.offsets e (pq.mem_iff.mp he) x o hx

theorem od_perm : ["x", "z", "w"].Perm ["z", "x", "w"] ∧ ["f", "e"].Perm ["e", "f"] ∧
    [odW, odZ, odX].Perm [odW, odX, odZ] :=
  ⟨List.Perm.swap .., List.Perm.swap .., (List.Perm.swap ..).cons _⟩

/-- a linear equation, differentiated -/
theorem od_row {f : List ℚ → Except Err ℚ} {p g : List ℚ} (hp : p.length = 7) (hg : g.length = 7)
    (hf : ∀ a0 a1 a2 a3 a4 a5 a6 : ℚ, f [a0, a1, a2, a3, a4, a5, a6] = .ok (vecEntry g 0 * a0 + vecEntry g 1 * a1 +
      vecEntry g 2 * a2 + vecEntry g 3 * a3 + vecEntry g 4 * a4 + vecEntry g 5 * a5 + vecEntry g 6 * a6)) :
    g.length = 7 ∧ IsDerivAt f p (vecEntry g) := by
  refine ⟨hg, ?_⟩
  have := lin_deriv f p hp (vecEntry g) (by
    intro x hx
    match x, hx with
    | [a0, a1, a2, a3, a4, a5, a6], _ =>
      rw [hf]
      simp [sumTo, vecEntry])
  have e : (List.range 7).map (vecEntry g) = g := by
    match g, hg with
    | [a0, a1, a2, a3, a4, a5, a6], _ => rfl
  rwa [e] at this

theorem od_jacobian : JacobianOf ratOps (fun _ => true) idealAd odσ ["z", "x", "w"] ["e", "f"] [odW, odX, odZ] [0, 0, 0] exT
    (rowsArr 7 odRows) where
  plain := od_plain
  table := rfl
  jacobian := by
    have htp : exT.places = [(0, 1), (1, 0), (1, 1), (1, 2), (2, 0)] := by decide
    have hv : dynVars ["z", "x", "w"] ["e", "f"] exT.toTyper = ["xm1", "z", "x", "w", "zp1", "e", "f"] := by
      unfold dynVars; rw [htp]; rfl
    have hp : linPoint exT.toTyper 2 ([0, 0, 0] : List ℚ) = [0, 0, 0, 0, 0, 0, 0] := by unfold linPoint; rw [htp]; rfl
    refine ⟨_, by simp [dynamicFuncs, dynamicFunc, hv, subTree, dynMaybe, odW, odX, odZ, odσ, modelSignature, offsetName, bind, Except.bind]; rfl, ?_⟩
    unfold modelJacobian
    rw [show (["e", "f"] : List String).length = 2 from rfl, hp]
    refine idealAd_rows rfl (.cons (od_row rfl rfl ?_) (.cons (od_row rfl rfl ?_) (.cons (od_row rfl rfl ?_) .nil)))
    · intro a0 a1 a2 a3 a4 a5 a6
      refine (show _ = Except.ok (a3 - (a1 + a2)) from rfl).trans ?_
      simp [vecEntry]
      ring
    · intro a0 a1 a2 a3 a4 a5 a6
      refine (show _ = Except.ok (a2 - (2⁻¹ * a0 + (a5 + 2 * a6))) from rfl).trans ?_
      simp [vecEntry]
      ring
    · intro a0 a1 a2 a3 a4 a5 a6
      refine (show _ = Except.ok (a4 - 2 * a1) from rfl).trans ?_
      simp [vecEntry]
      ring

theorem od_jacobian' : JacobianOf ratOps (fun _ => true) idealAd odσ ["x", "z", "w"] ["f", "e"] [odW, odZ, odX] [0, 0, 0] odT'
    (rowsArr 7 odRows') where
  plain := od_plain.perm od_perm.1 od_perm.2.1 od_perm.2.2
  table := rfl
  jacobian := by
    have htp : odT'.places = [(0, 0), (1, 0), (1, 1), (1, 2), (2, 1)] := by decide
    have hv : dynVars ["x", "z", "w"] ["f", "e"] odT'.toTyper = ["xm1", "x", "z", "w", "zp1", "f", "e"] := by
      unfold dynVars; rw [htp]; rfl
    have hp : linPoint odT'.toTyper 2 ([0, 0, 0] : List ℚ) = [0, 0, 0, 0, 0, 0, 0] := by unfold linPoint; rw [htp]; rfl
    refine ⟨_, by simp [dynamicFuncs, dynamicFunc, hv, subTree, dynMaybe, odW, odX, odZ, odσ, modelSignature, offsetName, bind, Except.bind]; rfl, ?_⟩
    unfold modelJacobian
    rw [show (["f", "e"] : List String).length = 2 from rfl, hp]
    refine idealAd_rows rfl (.cons (od_row rfl rfl ?_) (.cons (od_row rfl rfl ?_) (.cons (od_row rfl rfl ?_) .nil)))
    · intro a0 a1 a2 a3 a4 a5 a6
      refine (show _ = Except.ok (a3 - (a2 + a1)) from rfl).trans ?_
      simp [vecEntry]
      ring
    · intro a0 a1 a2 a3 a4 a5 a6
      refine (show _ = Except.ok (a4 - 2 * a2) from rfl).trans ?_
      simp [vecEntry]
      ring
    · intro a0 a1 a2 a3 a4 a5 a6
      refine (show _ = Except.ok (a1 - (2⁻¹ * a0 + (a6 + 2 * a5))) from rfl).trans ?_
      simp [vecEntry]
      ring

theorem od_eigen' : odQz'.Eigen (Rat.castHom ℂ) (sbEv (1/2) 2) :=
  have h := sb_eigen (1/2) 2 (by norm_num)
  ⟨h.infinite, h.big, h.gt1, h.sorted, h.blocks⟩

/-- the model is solved, in the first order -/
theorem od_solved : ∃ (s : Space ℚ) (gy gu : Arr ℚ),
    SolvedModel (Rat.castHom ℂ) ratOps (fun _ => true) idealAd (sbLa (1/2) 2) odσ ["z", "x", "w"] ["e", "f"] [odW, odX, odZ]
      [0, 0, 0] exT (rowsArr 7 odRows) gy gu s (sbQz (1/2) 2) (sbEv (1/2) 2) ∧
    sameArr gy (listArr [[1/2], [1/2], [0]] 1) = true ∧ sameArr gu (listArr [[1, 2], [1, 2], [0, 0]] 2) = true := by
  obtain ⟨s, hs, h⟩ := ok_of_check (x := Space.create (sbLa (1/2) 2) exT.toTyper (rowsArr 7 odRows))
    (p := fun s => qzB (sbQz (1/2) 2) s.rhs s.lhs && okAnd (s.verify (sbLa (1/2) 2) exT.toTyper) (fun _ => true) &&
      okAnd (solveFirstOrder (sbLa (1/2) 2) exT 2 s) fun g => sameArr g.1 (listArr [[1/2], [1/2], [0]] 1) &&
        sameArr g.2 (listArr [[1, 2], [1, 2], [0, 0]] 2)) (by decide +kernel)
  simp only [Bool.and_eq_true] at h
  obtain ⟨⟨h1, h2⟩, h3⟩ := h
  obtain ⟨⟨⟩, hv, -⟩ := ok_of_check h2
  obtain ⟨⟨gy, gu⟩, hg, h4⟩ := ok_of_check h3
  simp only [Bool.and_eq_true] at h4
  refine ⟨s, gy, gu, ⟨od_jacobian, hs, hg, hv, ?_, sb_eigen _ _ (by norm_num), ?_⟩, h4.1, h4.2⟩
  · show (if qzB _ _ _ then _ else _) = _
    rw [if_pos h1]
  · exact sb_noUnit (by rw [abs_of_pos (by norm_num)]; norm_num) (by norm_num)

/-- the model is solved, in the second order -/
theorem od_solved' : ∃ (s : Space ℚ) (gy gu : Arr ℚ),
    SolvedModel (Rat.castHom ℂ) ratOps (fun _ => true) idealAd (ratLa 1 odQz') odσ ["x", "z", "w"] ["f", "e"] [odW, odZ, odX]
      [0, 0, 0] odT' (rowsArr 7 odRows') gy gu s odQz' (sbEv (1/2) 2) ∧
    sameArr gy (listArr [[1/2], [1/2], [0]] 1) = true ∧ sameArr gu (listArr [[2, 1], [2, 1], [0, 0]] 2) = true := by
  obtain ⟨s, hs, h⟩ := ok_of_check (x := Space.create (ratLa 1 odQz') odT'.toTyper (rowsArr 7 odRows'))
    (p := fun s => qzB odQz' s.rhs s.lhs && okAnd (s.verify (ratLa 1 odQz') odT'.toTyper) (fun _ => true) &&
      okAnd (solveFirstOrder (ratLa 1 odQz') odT' 2 s) fun g => sameArr g.1 (listArr [[1/2], [1/2], [0]] 1) &&
        sameArr g.2 (listArr [[2, 1], [2, 1], [0, 0]] 2)) (by decide +kernel)
  simp only [Bool.and_eq_true] at h
  obtain ⟨⟨h1, h2⟩, h3⟩ := h
  obtain ⟨⟨⟩, hv, -⟩ := ok_of_check h2
  obtain ⟨⟨gy, gu⟩, hg, h4⟩ := ok_of_check h3
  simp only [Bool.and_eq_true] at h4
  refine ⟨s, gy, gu, ⟨od_jacobian', hs, hg, hv, ?_, od_eigen', ?_⟩, h4.1, h4.2⟩
  · show (if qzB _ _ _ then _ else _) = _
    rw [if_pos h1]
  · exact sb_noUnit (by rw [abs_of_pos (by norm_num)]; norm_num) (by norm_num)

end Pynare
