import Verif.Examples.RewrittenSecond
import Verif.Props.Combined
/-!
# Two files, one with the sides of an equation of the other exchanged, for C170

The first file is the second one of C169.
-/

namespace Pynare

/-- the second file -/
def cbText : String :=
  "var x z w ; varexo e1 e2 ; model ; x = 0.5 * x ( - 1 ) + x ( - 1 ) * x ( - 1 ) + e1 ; " ++
  "z = 0.25 * z ( - 1 ) + e2 ; " ++
  "2 * w + e1 = w ( + 1 ) + ( w ( + 1 ) - 2 * w - e1 ) * ( w ( + 1 ) - 2 * w - e1 ) ; end ; " ++
  "shocks ; var e2 ; stderr 0.25 ; var e1 ; stderr 1 ; end ;"
@[inherit_doc cbText]
def cbFile : ModelFile ℚ where
  decls := [("x", "var"), ("z", "var"), ("w", "var"), ("e1", "varexo"), ("e2", "varexo")]
  params := []
  args := []
  stmts := [
    .eqn (.var "x") (.bin .add (.bin .add (.bin .mul (.num (1 / 2)) (.pvar "x" (-1)))
      (.bin .mul (.pvar "x" (-1)) (.pvar "x" (-1)))) (.var "e1")) none,
    .eqn (.var "z") (.bin .add (.bin .mul (.num (1 / 4)) (.pvar "z" (-1))) (.var "e2")) none,
    .eqn rsRight rsLeft none]
  actions := ⟨none, none, none, some ⟨[], [.stderr "e2" (.num (1 / 4)), .stderr "e1" (.num 1)]⟩⟩

theorem cb_file : FileOf ratPC ((wordsOf cbText.toList).map ratTok) cbFile :=
  fileOf_check (noCall_of_check _ (by decide +kernel)) (by decide +kernel) (by decide +kernel)

theorem cb_written : Written ratCfg ((wordsOf cbText.toList).map ratTok) (exText cbText) [] := by
  have := written_spaced charOk_rat ((wordsOf cbText.toList).map fun w => (ratTok w, w)) (by
    intro p hp
    obtain ⟨w, hw, rfl⟩ := List.mem_map.mp hp
    have h : ((wordsOf cbText.toList).all fun w => spelled ratCfg (ratTok w) w) = true := by decide +kernel
    exact List.all_eq_true.mp h w hw)
  simpa [List.map_map, Function.comp_def, exText] using this

theorem cb_exchanged : SidesExchanged rsFile' cbFile :=
  ⟨rfl, rfl, rfl, .cons (.inl rfl) (.cons (.inl rfl) (.cons (.inr rfl) .nil))⟩

theorem cb_params : PlainParams cbFile := by
  refine ⟨fun x h => ?_, fun pre x e post h => ?_⟩
  · simp [ModelFile.DeclaredAs, cbFile] at h
  · simp [cbFile] at h

theorem cb_equations : PlainEquations cbFile := by
  have e := rs_equations rs_left.1 rs_left.2
  constructor
  · intro l r h x hx
    rcases cb_exchanged.mem h with h | h
    · exact e.vars l r h x hx
    · exact e.vars r l h x hx.symm
  · intro l r h x o hx
    rcases cb_exchanged.mem h with h | h
    · exact e.pvars l r h x o hx
    · exact e.pvars r l h x o hx.symm

/-- the third equation -/
def cbW : Expr ℚ := .bin .sub rsRight rsLeft

theorem cb_plain : PlainModel odσ ["x", "z", "w"] ["e1", "e2"] [xqX, xqZ, cbW] := by
  have e := rs_plain (l := rsLeft) rfl rs_left.1 rs_left.2
  have mv : ∀ {P : Expr ℚ → Prop}, (∀ e ∈ [xqX, xqZ, rsW rsLeft], P e) → (P (rsW rsLeft) → P cbW) →
      ∀ e ∈ [xqX, xqZ, cbW], P e := by
    intro P h h' e he
    simp only [List.mem_cons, List.not_mem_nil, or_false] at he
    rcases he with rfl | rfl | rfl
    · exact h _ (.head _)
    · exact h _ (.tail _ (.head _))
    · exact h' (h _ (.tail _ (.tail _ (.head _))))
  have hv : ∀ x, x ∈ cbW.vars ↔ x ∈ (rsW rsLeft).vars := by
    intro x
    simp only [cbW, rsW, Expr.vars, List.mem_append]
    exact or_comm
  have hp : ∀ x, x ∈ cbW.pvars ↔ x ∈ (rsW rsLeft).pvars := by
    intro x
    simp only [cbW, rsW, Expr.pvars, List.mem_append]
    exact or_comm
  have hq : ∀ {x q}, OccursAt x q cbW ↔ OccursAt x q (rsW rsLeft) := by
    intro x q
    unfold OccursAt
    rw [hv, hp]
  refine ⟨e.distinct, e.shocks, rfl, mv e.form fun _ => ⟨_, _, rfl⟩, mv e.noCmp fun _ => rfl, ?_, ?_, ?_, ?_⟩
  · intro x hx
    obtain ⟨e, he, ho⟩ := e.current x hx
    simp only [List.mem_cons, List.not_mem_nil, or_false] at he
    rcases he with rfl | rfl | rfl
    · exact ⟨_, .head _, ho⟩
    · exact ⟨_, .tail _ (.head _), ho⟩
    · exact ⟨_, .tail _ (.tail _ (.head _)), hq.mpr ho⟩
  · intro x hx q
    exact mv (P := fun e => OccursAt x q e → _) (e.std x hx q) fun h ho => h (hq.mp ho)
  · exact mv e.names fun h x hx => h x ((hv x).mp hx)
  · exact mv e.offsets fun h x o hx => h x o ((hp _).mp hx)

/-! ### the solution -/

/-- the decomposition of a state space that is diagonal but for the sign of its last row -/
def cbQz : QZ ℚ := { diagQz [1/2, 1/4, 2] with Q := diagArr [1, 1, -1] }

/-- linear algebra for the second file -/
def cbLa : LinAlg ℚ := { chLa with
  rank := fun _ => 1
  ordqz := fun b a => if qzB cbQz b a then .ok cbQz else .error .valueError }

theorem cbLa_exact : cbLa.Exact where
  qr := chLa_exact.qr
  solve := chLa_exact.solve
  inv := chLa_exact.inv
  ordqz b a q _ _ _ h := by
    simp only [cbLa] at h
    split at h
    · rename_i hi
      rw [← Except.ok.inj h]; exact qzB_spec hi
    · cases h

/-- the libraries for the second file -/
noncomputable def cbLib : Libs ℚ := ⟨cbLa, triQz, idealAd, zeroMin, 0⟩

/-- all steps of the solution -/
def cbAll (t : Llx) (J H sigma : Arr ℚ) : Except Err (Space ℚ × Arr ℚ × Arr ℚ × SecondNd ℚ) := do
  let s ← Space.create cbLa t.toTyper J
  let (gy, gu) ← solveFirstOrder cbLa t 2 s
  let so ← solveSecondOrder cbLa triQz (1/2) t.toTyper 2 J H sigma (Nd.mat gy).squeeze (Nd.mat gu).squeeze
  .ok (s, gy, gu, so)

theorem cb_solved {endo exo : List String} {es : List (Expr ℚ)} {t : Llx} {J H sigma : Arr ℚ}
    (hex : exo.length = 2) (hd : JacobianOf ratOps (fun _ => true) idealAd odσ endo exo es [0, 0, 0] t J ∧
      ∃ fs, dynamicFuncs ratOps (fun _ => true) endo exo t.toTyper odσ es = .ok fs ∧
        modelHessian idealAd t.toTyper 2 fs [0, 0, 0] = .ok H)
    (hsym : SymmetricHessian t 2 H) (h1 : sigma.r = 2 ∧ sigma.c = 2 ∧ ∀ j < 2, ∀ k < 2, sigma.e j k = sigma.e k j)
    (p : SecondNd ℚ → Arr ℚ → Arr ℚ → Bool)
    (c : okAnd (cbAll t J H sigma) (fun r => qzB cbQz r.1.rhs r.1.lhs &&
      okAnd (r.1.verify cbLa t.toTyper) (fun _ => true) && p r.2.2.2 r.2.1 r.2.2.1) = true) :
    ∃ (s : Space ℚ) (gy gu : Arr ℚ) (so : SecondNd ℚ),
      SecondModel (Rat.castHom ℂ) ratOps (fun _ => true) idealAd cbLa triQz (1/2) odσ endo exo es [0, 0, 0] t J H sigma
        gy gu so s cbQz (diagEv [1/2, 1/4, 2]) ∧ p so gy gu = true := by
  obtain ⟨⟨s, gy, gu, so⟩, h0, h⟩ := ok_of_check c
  unfold cbAll at h0
  obtain ⟨s', hs, h0⟩ := Except.bind_eq_ok h0
  obtain ⟨⟨gy', gu'⟩, hg, h0⟩ := Except.bind_eq_ok h0
  obtain ⟨so', hso, h0⟩ := Except.bind_eq_ok h0
  have e := Except.ok.inj h0
  simp only [Prod.mk.injEq] at e
  obtain ⟨rfl, rfl, rfl, rfl⟩ := e
  simp only [Bool.and_eq_true] at h
  obtain ⟨⟨q1, q2⟩, q3⟩ := h
  obtain ⟨⟨⟩, hv, -⟩ := ok_of_check q2
  have hei := diag_eigen [1/2, 1/4, 2] (by
      intro i j hij hj
      have hj : j < 3 := hj
      interval_cases j <;> interval_cases i <;> norm_num [abs_lt])
  refine ⟨s', gy', gu', so', ⟨⟨hd.1, hs, by rw [hex]; exact hg, hv, ?_, ⟨hei.1, hei.2, hei.3, hei.4, hei.5⟩, ?_⟩,
    by rw [hex]; exact hd.2, by rw [hex]; exact hsym,
    by rw [hex]; exact h1.1, by rw [hex]; exact h1.2.1, by rw [hex]; exact h1.2.2, by rw [hex]; exact hso⟩, q3⟩
  · show (if qzB _ _ _ then _ else _) = _
    rw [if_pos q1]
  · have := diag_noUnit (ls := [1/2, 1/4, 2]) (by
      simp only [List.mem_cons, List.not_mem_nil, or_false, forall_eq_or_imp, forall_eq]
      norm_num [abs_lt])
    simpa [cbQz, diagQz] using this

/-- the gradient of the third equation -/
def cbG : List ℚ := [0, 0, 0, 0, 2, -1, 1, 0]
/-- the second derivatives of the third equation -/
def cbD : Nat → ℚ := fun m => -rsD₃ m

theorem cb_third {f : List ℚ → Except Err ℚ}
    (h : ∀ xm zm x z w wp e1 e2 : ℚ, f [xm, zm, x, z, w, wp, e1, e2] =
      .ok ((2 * w + e1) - (wp + (wp - 2 * w - e1) * (wp - 2 * w - e1)))) :
    ∀ x : List ℚ, x.length = 8 → f x = quadFun 8 (vecEntry cbG) cbD x := by
  intro x hx
  match x, hx with
  | [a0, a1, a2, a3, a4, a5, a6, a7], hx =>
    rw [h]
    unfold quadFun
    rw [if_pos hx]
    congr 1
    simp [quadVal, sumTo, vecEntry, rsG, rsD₃, cbG, cbD]
    ring

/-- the jacobian -/
def cbRows : List (List ℚ) := [[-(1/2), 0, 1, 0, 0, 0, -1, 0], [0, -(1/4), 0, 1, 0, 0, 0, -1], cbG]

/-- the derivatives, from the functions -/
theorem cb_derivs {D : Nat → ℚ} {f₁ f₂ f₃ : ResFun ℚ} (htab : modelLlx ["x", "z", "w"] [xqX, xqZ, cbW] = .ok xqT)
    (hfs : dynamicFuncs ratOps (fun _ => true) ["x", "z", "w"] ["e1", "e2"] xqT.toTyper odσ [xqX, xqZ, cbW] =
      .ok [f₁, f₂, f₃])
    (q1 : ∀ x : List ℚ, x.length = 8 → f₁ x = quadFun 8 (vecEntry [-(1/2), 0, 1, 0, 0, 0, -1, 0]) rsD₁ x)
    (q2 : ∀ x : List ℚ, x.length = 8 → f₂ x = quadFun 8 (vecEntry [0, -(1/4), 0, 1, 0, 0, 0, -1]) (fun _ => 0) x)
    (q3 : ∀ x : List ℚ, x.length = 8 → f₃ x = quadFun 8 (vecEntry cbG) D x) :
    JacobianOf ratOps (fun _ => true) idealAd odσ ["x", "z", "w"] ["e1", "e2"] [xqX, xqZ, cbW] [0, 0, 0] xqT
      (rowsArr 8 cbRows) ∧
    ∃ fs, dynamicFuncs ratOps (fun _ => true) ["x", "z", "w"] ["e1", "e2"] xqT.toTyper odσ [xqX, xqZ, cbW] = .ok fs ∧
      modelHessian idealAd xqT.toTyper 2 fs [0, 0, 0] = .ok (rowsArr (8 ^ 2) (rsHess D)) := by
  have htp : xqT.places = [(0, 0), (0, 1), (1, 0), (1, 1), (1, 2), (2, 2)] := by decide
  have hp : linPoint xqT.toTyper 2 ([0, 0, 0] : List ℚ) = [0, 0, 0, 0, 0, 0, 0, 0] := by unfold linPoint; rw [htp]; rfl
  have hlen : ∀ h : Nat → ℚ, (quadHess 8 h).flatten.length = 8 ^ 2 := fun _ => rfl
  refine ⟨⟨cb_plain, htab, _, hfs, ?_⟩, _, hfs, ?_⟩
  · unfold modelJacobian
    rw [show (["e1", "e2"] : List String).length = 2 from rfl, hp]
    exact idealAd_rows rfl (.cons (rs_row rfl q1) (.cons (rs_row rfl q2) (.cons (rs_row rfl q3) .nil)))
  · unfold modelHessian
    rw [hp]
    exact idealAd_hessian rfl (.cons (rs_hess q1 rfl (hlen _)) (.cons (rs_hess q2 rfl (hlen _))
      (.cons (rs_hess q3 rfl (hlen _)) .nil)))

/-- what is made from the file -/
theorem cb_read : ∃ (o : Outline ℚ) (m : MState ℚ Unit Unit), createOutline ratOps .ok cbFile = .ok o ∧
    fromOutline whRead.env o "dynare" "m" = .ok m ∧ m.endog.length = 3 ∧
    m.stoch = [⟨"e1", "", some 1, none, none⟩, ⟨"e2", "", some (1 / 4), none, none⟩] ∧
    m.indexes = xqT ∧ m.endogNames = ["x", "z", "w"] ∧ m.stochNames = ["e1", "e2"] ∧ m.scope = odσ ∧
    m.exprs.exprs = [xqX, xqZ, cbW] ∧
    (∃ f₁ f₂ f₃, m.steady = [f₁, f₂, f₃] ∧ ∀ x z w : ℚ, f₁ [x, z, w] = .ok (x - (1 / 2 * x + x * x + 0)) ∧
      f₂ [x, z, w] = .ok (z - (1 / 4 * z + 0)) ∧
      f₃ [x, z, w] = .ok ((2 * w + 0) - (w + (w - 2 * w - 0) * (w - 2 * w - 0)))) ∧
    ∃ g₁ g₂ g₃, m.dynamic = [g₁, g₂, g₃] ∧ ∀ xm zm x z w wp e1 e2,
      g₁ [xm, zm, x, z, w, wp, e1, e2] = .ok (x - (1 / 2 * xm + xm * xm + e1)) ∧
      g₂ [xm, zm, x, z, w, wp, e1, e2] = .ok (z - (1 / 4 * zm + e2)) ∧
      g₃ [xm, zm, x, z, w, wp, e1, e2] =
        .ok ((2 * w + e1) - (wp + (wp - 2 * w - e1) * (wp - 2 * w - e1))) :=
  ⟨_, _, rfl, rfl, rfl, rfl, rfl, rfl, rfl, rfl, rfl, ⟨_, _, _, rfl, fun _ _ _ => ⟨rfl, rfl, rfl⟩⟩,
    _, _, _, rfl, fun _ _ _ _ _ _ _ _ => ⟨rfl, rfl, rfl⟩⟩

theorem cb_second : ∃ (md md' : MState ℚ (ModelSpace ℚ) ((Arr ℚ × Arr ℚ) × SecondNd ℚ)) (gy gu : Arr ℚ) (so : SecondNd ℚ),
    ReadFrom (whRead.second cbLib (1 / 2)) (exText cbText) cbFile noValues md ∧
    (∀ f ∈ md.dynamic,
      cbLib.ad.SecondExactAt f (linPoint md.indexes.toTyper (cbFile.names "varexo").length md.statespace.steady)) ∧
    md.solve (whRead.env.second cbLib (1 / 2)) = (md', .ok ((gy, gu), so)) ∧ md.statespace.steady = [0, 0, 0] ∧
    PassesCheck (Rat.castHom ℂ) cbLib.la md ∧ md.indexes = xqT ∧ (List.range 3).map (so.del2.to2.e · 0) = [0, 0, 1 / 4] := by
  obtain ⟨o, m, h1, h2, h3, h4, h5, h6, h7, h8, h9, ⟨f₁, f₂, f₃, hf, hfv⟩, g₁, g₂, g₃, hg, hgv⟩ := cb_read
  obtain ⟨q1, q2⟩ := rs_quad fun a0 a1 a2 a3 a4 a5 a6 a7 =>
    ⟨(hgv a0 a1 a2 a3 a4 a5 a6 a7).1, (hgv a0 a1 a2 a3 a4 a5 a6 a7).2.1⟩
  have q3 := cb_third fun a0 a1 a2 a3 a4 a5 a6 a7 => (hgv a0 a1 a2 a3 a4 a5 a6 a7).2.2
  obtain ⟨-, _, _, _, _, _, _, _, _, _, hb⟩ := fromOutline_inv h2
  have hd := (create_fresh hb).1.dynamic
  rw [h5, h6, h7, h8, h9, hg] at hd
  obtain ⟨s, gy, gu, so, hm, hp⟩ := cb_solved
    (sigma := ⟨2, 2, sigmaDiag [⟨"e1", "", some 1, none, none⟩, ⟨"e2", "", some (1 / 4), none, none⟩]⟩) rfl
    (cb_derivs rfl hd q1 q2 q3)
    (by unfold SymmetricHessian; decide +kernel) (by decide +kernel)
    (fun so _ _ => decide ((List.range 3).map ((so.stored (1 / 2)).del2.to2.e · 0) = [0, 0, 1 / 4])) (by decide +kernel)
  obtain ⟨md, md', a1, a2, a3, a4, a5, a6, -⟩ := run_second (lib := cbLib) rfl h1 h2 cb_file cb_written rfl cb_params
    cb_equations h3 (sg := sigmaDiag m.stoch) (by rw [h5, h4]; exact hm)
    h6 h7 h8 h9 (by
      obtain ⟨k1, k2, k3⟩ := hfv 0 0 0
      rw [hf]; simp [callAll, k1, k2, k3, bind, Except.bind]) (by rw [h5]; rfl) (by rw [h4]; rfl)
  refine ⟨md, md', gy, gu, _, a4, ?_, a5, a3, a6, a2.trans h5, of_decide_eq_true hp⟩
  have hlen : (linPoint md.indexes.toTyper (cbFile.names "varexo").length md.statespace.steady).length = 8 := by
    rw [a2, a3, h5]; decide +kernel
  rw [a1, hg]
  intro f hf
  simp only [List.mem_cons, List.not_mem_nil, or_false] at hf
  rcases hf with rfl | rfl | rfl
  · exact rs_exact (by decide +kernel) q1 hlen
  · exact rs_exact (fun _ _ _ _ => rfl) q2 hlen
  · exact rs_exact (by decide +kernel) q3 hlen

end Pynare
