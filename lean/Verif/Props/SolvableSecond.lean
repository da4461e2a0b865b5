import Verif.Props.Solvable
import Verif.Props.StabilitySecond
import Verif.Lemmas.SecondAccepted
/-!
# C47, C87, C164: which equations and which models the second-order solver solves
-/

namespace Pynare

variable {V : Type} [Field V] [DecidableEq V]

set_option linter.unusedSectionVars false

/-- **C47, solvability.**  For a library that decomposes the two pairs of arrays and solves every regular
system, `generalized_sylvester` returns a solution if and only if the shapes fit and the equation with zero on
the right-hand side has no solution but zero. -/
theorem C47_iff (la : LinAlg V) (ex : la.Exact) (iv : la.Inverts) (qz : Arr V → Arr V → Except Err (GQZ V))
    (hqz : GQZExact qz) (A B C D E : Arr V) (hE : E.c ≠ 0)
    (ans : E.r ≠ 1 → E.c ≠ 1 → (∃ g, qz A C = .ok g) ∧ ∃ g, qz D B = .ok g) :
    (∃ X, generalizedSylvester la qz A B C D E = .ok (some X)) ↔
      (A.r = E.r ∧ A.c = E.r ∧ C.r = E.r ∧ C.c = E.r ∧ B.r = E.c ∧ B.c = E.c ∧ D.r = E.c ∧ D.c = E.c) ∧
      ∀ X, SolvesSylvester A B C D (Arr.zeros E.r E.c) X → ∀ i < E.r, ∀ j < E.c, X.e i j = 0 := by
  constructor
  · rintro ⟨X, h⟩
    refine ⟨?_, fun K hK => ?_⟩
    · by_contra hsh
      rw [C47_shapes la qz A B C D E hsh] at h
      cases h
    obtain ⟨X0, hX0, hX⟩ := C47_solves la ex qz hqz A B C D E _ h
    have := Option.some.inj hX0
    subst this
    have hsum : SolvesSylvester A B C D E ⟨E.r, E.c, fun i j => X.e i j + K.e i j⟩ := by
      refine ⟨rfl, rfl, fun i hi j hj => ?_⟩
      have e1 := hX.2.2 i hi j hj
      have e2 := hK.2.2 i hi j hj
      have e2 : (sumTo E.r fun k => sumTo E.c fun l => A.e i k * K.e k l * B.e j l) +
        (sumTo E.r fun k => sumTo E.c fun l => C.e i k * K.e k l * D.e j l) = 0 := e2
      rw [← add_zero (E.e i j), ← e1]
      refine Eq.trans ?_ (congrArg (_ + ·) e2)
      simp only [sumTo_eq, mul_add, add_mul, Finset.sum_add_distrib]
      ring
    obtain ⟨-, -, e⟩ := C47_unique la ex qz hqz A B C D E X _ h hsum
    intro i hi j hj
    have := e i (by rw [hX.1]; exact hi) j (by rw [hX.2.1]; exact hj)
    exact left_eq_add.mp this.symm
  · rintro ⟨⟨a1, a2, c1, c2, b1, b2, d1, d2⟩, inj⟩
    obtain ⟨r, hr⟩ := generalizedSylvester_some iv hqz ⟨a1, a2⟩ ⟨c1, c2⟩ ⟨b1, b2⟩ ⟨d1, d2⟩ (E := E) ⟨rfl, rfl⟩ hE
      (fun h1 h2 => (ans h1 h2).1) (fun h1 h2 => (ans h1 h2).2) inj
    obtain ⟨X, rfl, -⟩ := C47_solves la ex qz hqz _ _ _ _ _ _ hr
    exact ⟨X, hr⟩

/-- how many variables have a lag, and how many a lead -/
theorem group_sizes {pss : List (List Int)} {t : Llx}
    (hps : ∀ ps ∈ pss, 0 ∈ ps ∧ ∀ p ∈ ps, p = -1 ∨ p = 0 ∨ p = 1) (ht : buildLlx pss = .ok t) :
    t.n = pss.length ∧ t.state.length = pss.countP (fun ps => decide (-1 ∈ ps)) ∧
      t.forward.length = pss.countP fun ps => decide (1 ∈ ps) := by
  obtain ⟨t', ht', hn, hcell, -⟩ := C28_numbering pss (fun ps h h0 => by
    have := (hps ps h).1; rw [h0] at this; cases this) (fun ps h => (hps ps h).2)
  rw [ht] at ht'
  have := Except.ok.inj ht'
  subst this
  refine ⟨hn, sel_countP hn fun i ps hi => ?_, sel_countP hn fun i ps hi => ?_⟩
  · have := hcell i ps (-1) hi (by omega)
    rw [Bool.eq_iff_iff, decide_eq_true_eq, ← this]
    exact Option.isSome_iff_exists
  · have := hcell i ps 1 hi (by omega)
    rw [Bool.eq_iff_iff, decide_eq_true_eq, ← this]
    exact Option.isSome_iff_exists

/-- **C87** (partial: the library inverts every regular array and decomposes the two pairs of arrays of this
model; some variable has a lag).  A solved model that passes the check and has no eigenvalue of modulus one
has a second-order solution if and only if the numbers of its variables, states, forward-looking variables
and shocks are supported. -/
theorem C87_iff_partial (φ : V →+* ℂ) (la : LinAlg V) (ex : la.Exact) (iv : la.Inverts)
    (qz : Arr V → Arr V → Except Err (GQZ V)) (hqz : GQZExact qz) (half : V) (pss : List (List Int)) (t : Llx)
    (nExog : Nat) (J H sigma gy gu : Arr V) (s : Space V) (q : QZ V) (ev : Nat → Option ℂ)
    (hdet : Determinate φ la pss t nExog J gy gu s q ev) (hlag : ∃ ps ∈ pss, -1 ∈ ps)
    (hJ : J.c = t.count + nExog) (hH : H.r = pss.length ∧ H.c = (t.count + nExog) * (t.count + nExog))
    (hsig : sigma.r = nExog ∧ sigma.c = nExog) (ans : AnswersSecond qz t.toTyper J gy) :
    (∃ so, solveSecondOrder la qz half t.toTyper nExog J H sigma (Nd.mat gy).squeeze (Nd.mat gu).squeeze = .ok so) ↔
      SupportedShape pss.length (pss.countP fun ps => decide (-1 ∈ ps)) (pss.countP fun ps => decide (1 ∈ ps))
        nExog := by
  obtain ⟨h, hn⟩ := hdet.det ex
  have g := groups h.cur
  obtain ⟨-, gS, gF⟩ := group_sizes hdet.periods hdet.table
  obtain ⟨z1, z2, -, z4, z5, -⟩ := C31_sizes t.toTyper
  have eS : t.state.length = t.nT := by rw [← z2, z4]; rfl
  have eF : t.forward.length = t.nF := by rw [← z1, z5]; exact Nat.add_comm _ _
  have ht0 : t.nT ≠ 0 := by
    rw [← eS, gS]
    have : 0 < pss.countP fun ps => decide (-1 ∈ ps) := by
      rw [List.countP_pos_iff]
      obtain ⟨ps, h1, h2⟩ := hlag
      exact ⟨ps, h1, decide_eq_true h2⟩
    omega
  have hstate : t.state ≠ [] := by
    intro h0
    rw [h0] at eS
    exact ht0 eS.symm
  obtain ⟨s1, s2, s3, s4, -⟩ := solution_rows ex h.cur h.static h.square h.space (h.separated ex) h.solved
  rw [← hn] at hH
  rw [← gS, ← gF, ← hn, eS, eF]
  constructor
  · rintro ⟨so, hso⟩
    obtain ⟨P⟩ := secondParts ex hqz hdet.table h.cur hstate ⟨s1, s2⟩ ⟨s3, s4⟩ hH.1 hsig hso
    obtain ⟨p1, p2, p3, p4⟩ := P.shapes
    have := P.n1
    exact ⟨this, p2, fun h1 h2 => by omega, fun h1 h2 => by omega, p4⟩
  · rintro ⟨q1, q2, q3, q4, q5⟩
    refine second_some ex iv hqz h (count_eq hdet.table h.cur) ?_ hJ ht0 q1 q2 (by
      by_cases h1 : t.nT = 1
      · exact .inl (q3 h1)
      · exact .inr h1) (by
      by_cases h1 : t.nT = 1
      · exact .inl h1
      · exact .inr (q4 (by omega))) q5 ⟨s1, s2⟩ ⟨s3, s4⟩ hH.1 hH.2 hsig ans
    obtain ⟨-, -, -, -, b5⟩ := buildLlx_spec hdet.table
    exact fun r c v hv => (b5 v).mpr ⟨r, c, hv⟩

/-- **C164** (partial: the library inverts every regular array and decomposes the arrays of this model; no
eigenvalue has modulus one, and finite ones outside the unit circle have a real part above one; there is at
least one shock).  A model with exactly one bounded path whose mix of variables is supported passes the check
and is solved to first order, and it is solved to second order if and only if the numbers of its variables,
states, forward-looking variables and shocks are supported as well. -/
theorem C164_iff_partial (φ : V →+* ℂ) (la : LinAlg V) (ex : la.Exact) (rk : la.RankExact) (iv : la.Inverts)
    (qz : Arr V → Arr V → Except Err (GQZ V)) (hqz : GQZExact qz) (half : V)
    (pss : List (List Int)) (hps : ∀ ps ∈ pss, 0 ∈ ps ∧ ∀ p ∈ ps, p = -1 ∨ p = 0 ∨ p = 1)
    (mix : SupportedMix pss) (t : Llx) (ht : buildLlx pss = .ok t) (nExog : Nat) (hx : 0 < nExog)
    (J H sigma : Arr V) (hJ : J.r = pss.length) (hJc : J.c = t.count + nExog)
    (hH : H.r = pss.length ∧ H.c = (t.count + nExog) * (t.count + nExog))
    (hsig : sigma.r = nExog ∧ sigma.c = nExog) (ans : la.Answers φ t J)
    (ans2 : ∀ s gy gu, Space.create la t.toTyper J = .ok s → solveFirstOrder la t nExog s = .ok (gy, gu) →
      AnswersSecond qz t.toTyper J gy)
    (hone : OneBoundedPath φ t nExog J) :
    ∃ s gy gu, Space.create la t.toTyper J = .ok s ∧ s.verify la t.toTyper = .ok () ∧
      solveFirstOrder la t nExog s = .ok (gy, gu) ∧
      ((∃ so, solveSecondOrder la qz half t.toTyper nExog J H sigma (Nd.mat gy).squeeze (Nd.mat gu).squeeze = .ok so) ↔
        SupportedShape pss.length (pss.countP fun ps => decide (-1 ∈ ps)) (pss.countP fun ps => decide (1 ∈ ps))
          nExog) := by
  obtain ⟨s, gy, gu, hs, hv, hg⟩ := C73_accepted_partial φ la ex rk iv pss hps mix t ht nExog hx J hJ hJc ans hone
  refine ⟨s, gy, gu, hs, hv, hg, ?_⟩
  have hs' := hs
  unfold Space.create at hs'
  obtain ⟨⟨D, E, A⟩, hst, hs'⟩ := Except.bind_eq_ok hs'
  obtain ⟨q, hq⟩ := ans.qz D E A hst
  obtain ⟨p, hp, hs'⟩ := Except.bind_eq_ok hs'
  have he := Except.ok.inj hs'
  have hq : la.ordqz s.rhs s.lhs = .ok q := by rw [← he]; exact hq
  obtain ⟨ev, hev, hu, -⟩ := ans.eigen s q hs hq
  refine C87_iff_partial φ la ex iv qz hqz half pss t nExog J H sigma gy gu s q ev
    ⟨hps, ht, hJ, hs, hg, hv, hq, hev, hu⟩ ?_ hJc hH hsig (ans2 s gy gu hs hg)
  obtain ⟨-, hmix⟩ := mix
  rcases hmix with ⟨ps, h1, h2, -⟩ | h
  · exact ⟨ps, h1, h2⟩
  · have : 0 < pss.countP fun ps => decide (-1 ∈ ps ∧ 1 ∈ ps) := by omega
    rw [List.countP_pos_iff] at this
    obtain ⟨ps, h1, h2⟩ := this
    exact ⟨ps, h1, (of_decide_eq_true h2).1⟩

/-! ### examples -/

open Classical in
/-- a library that, where the given one has no answer, still finds every inverse -/
noncomputable def LinAlg.completed (la : LinAlg ℚ) : LinAlg ℚ := { la with
  inv := fun a => match la.inv a with
    | .ok x => .ok x
    | .error _ => (fullLa (diagQz [])).inv a
  solve := fun a b => match la.solve a b with
    | .ok x => .ok x
    | .error _ => (fullLa (diagQz [])).solve a b }

theorem completed_exact {la : LinAlg ℚ} (ex : la.Exact) : la.completed.Exact := by
  have e := fullLa_exact (diagQz [])
  refine ⟨ex.qr, ?_, ?_, ex.ordqz⟩
  · intro a b hsq h
    simp only [LinAlg.completed] at h
    split at h
    · rename_i x hx
      rw [← Except.ok.inj h]
      exact ex.inv a x hsq hx
    · exact e.inv a b hsq h
  · intro a b x hsq hr h
    simp only [LinAlg.completed] at h
    split at h
    · rename_i y hy
      rw [← Except.ok.inj h]
      exact ex.solve a b y hsq hr hy
    · exact e.solve a b x hsq hr h

theorem completed_inverts (la : LinAlg ℚ) : la.completed.Inverts := by
  have e := fullLa_inverts (diagQz [])
  refine ⟨fun a b hsq h => ?_, fun a b i hsq hr h => ?_⟩
  · simp only [LinAlg.completed]
    split
    · exact ⟨_, rfl⟩
    · exact e.inv a b hsq h
  · simp only [LinAlg.completed]
    split
    · exact ⟨_, rfl⟩
    · exact e.solve a b i hsq hr h

/-- an equation with complex eigenvalues meets the hypotheses of `C47_iff`, and it is solvable -/
example : syLa.completed.Exact ∧ syLa.completed.Inverts ∧ GQZExact syQz ∧
    ((∃ g, syQz syA (Arr.eye 2 2 0) = .ok g) ∧ ∃ g, syQz syD (Arr.eye 2 2 0) = .ok g) ∧
    ∃ X, generalizedSylvester syLa.completed syQz syA (Arr.eye 2 2 0) (Arr.eye 2 2 0) syD
      (listArr [[1, 0], [0, 10]] 2) = .ok (some X) ∧ X.e 1 1 = 3 := by
  refine ⟨completed_exact syLa_exact, completed_inverts _, syQz_exact, ⟨⟨_, rfl⟩, _, rfl⟩, ?_⟩
  obtain ⟨r, hr, h⟩ := ok_of_check (x := generalizedSylvester syLa.completed syQz syA (Arr.eye 2 2 0)
    (Arr.eye 2 2 0) syD (listArr [[1, 0], [0, 10]] 2))
    (p := fun r => match r with
      | some X => decide (X.e 1 1 = 3)
      | none => false) (by decide +kernel)
  cases r with
  | none => cases h
  | some X => exact ⟨X, hr, of_decide_eq_true h⟩

/-- `x = x(-1)/2 + x(-1)^2 + e1`, `z = z(-1)/4 + e2`, `w(+1) = 2*w` meets the hypotheses of C87 -/
example : ∃ (s : Space ℚ) (gy gu : Arr ℚ),
    xpLa.completed.Exact ∧ xpLa.completed.Inverts ∧ GQZExact triQz ∧
    Determinate (Rat.castHom ℂ) xpLa.completed [[-1, 0], [-1, 0], [0, 1]] so2T 2 xpJ gy gu s
      (diagQz [1/2, 1/4, 2]) (diagEv [1/2, 1/4, 2]) ∧
    xpJ.c = so2T.count + 2 ∧ (xpH.r = 3 ∧ xpH.c = (so2T.count + 2) * (so2T.count + 2)) ∧
    AnswersSecond triQz so2T.toTyper xpJ gy ∧ SupportedShape 3 2 1 2 := by
  obtain ⟨⟨s, gy, gu⟩, h0, h⟩ := ok_of_check (x := (do
      let s ← Space.create xpLa.completed so2T.toTyper xpJ
      let (gy, gu) ← solveFirstOrder xpLa.completed so2T 2 s
      .ok (s, gy, gu) : Except Err (Space ℚ × Arr ℚ × Arr ℚ)))
    (p := fun r => qzB (diagQz [1/2, 1/4, 2]) r.1.rhs r.1.lhs &&
      okAnd (r.1.verify xpLa.completed so2T.toTyper) (fun _ => true) &&
      okAnd (setupSystem so2T.toTyper xpJ (Nd.mat r.2.1).squeeze) fun S =>
        okAnd (triQz S.1 S.2.1) (fun _ => true) &&
        okAnd (triQz S.2.2.to2 (Arr.eye (so2T.nBackward * so2T.nBackward) (so2T.nBackward * so2T.nBackward) 0))
          fun _ => true) (by decide +kernel)
  obtain ⟨s', hs, h0⟩ := Except.bind_eq_ok h0
  obtain ⟨⟨gy', gu'⟩, hg, h0⟩ := Except.bind_eq_ok h0
  have e := Except.ok.inj h0
  simp only [Prod.mk.injEq] at e
  obtain ⟨rfl, rfl, rfl⟩ := e
  simp only [Bool.and_eq_true] at h
  obtain ⟨⟨h1, h2⟩, h3⟩ := h
  obtain ⟨⟨⟩, hv, -⟩ := ok_of_check h2
  obtain ⟨S, hS, h3⟩ := ok_of_check h3
  simp only [Bool.and_eq_true] at h3
  obtain ⟨g1, hg1, -⟩ := ok_of_check h3.1
  obtain ⟨g2, hg2, -⟩ := ok_of_check h3.2
  refine ⟨s', gy', gu', completed_exact xpLa_exact, completed_inverts _, triQz_exact,
    ⟨by decide, rfl, rfl, hs, hg, hv, ?_, diag_eigen _ ?_, ?_⟩, rfl, ⟨rfl, rfl⟩, ?_, by
      unfold SupportedShape; decide⟩
  · show (if qzB _ _ _ then _ else _) = _
    rw [if_pos h1]
  · intro i j hij hj
    have hj : j < 3 := hj
    interval_cases j <;> interval_cases i <;> norm_num [abs_lt]
  · refine diag_noUnit (ls := [1/2, 1/4, 2]) ?_
    simp only [List.mem_cons, List.not_mem_nil, or_false, forall_eq_or_imp, forall_eq]
    norm_num [abs_lt]
  · intro _ A C D hsys
    rw [hS] at hsys
    have := Except.ok.inj hsys
    subst this
    exact ⟨⟨g1, hg1⟩, g2, hg2⟩

/-- the same library, with exact ranks -/
noncomputable def xpFull : LinAlg ℚ := { xpLa.completed with
  rank := fun a => (Matrix.of fun (i : Fin a.r) (j : Fin a.c) => a.e i j).rank }

/-- the same model meets the hypotheses of C164 -/
theorem xp_meets : xpFull.Exact ∧ xpFull.RankExact ∧ xpFull.Inverts ∧ GQZExact triQz ∧
    SupportedMix [[-1, 0], [-1, 0], [0, 1]] ∧ buildLlx [[-1, 0], [-1, 0], [0, 1]] = .ok so2T ∧ xpJ.r = 3 ∧
    xpJ.c = so2T.count + 2 ∧ (xpH.r = 3 ∧ xpH.c = (so2T.count + 2) * (so2T.count + 2)) ∧
    xpFull.Answers (Rat.castHom ℂ) so2T xpJ ∧
    (∀ s gy gu, Space.create xpFull so2T.toTyper xpJ = .ok s → solveFirstOrder xpFull so2T 2 s = .ok (gy, gu) →
      AnswersSecond triQz so2T.toTyper xpJ gy) ∧
    OneBoundedPath (Rat.castHom ℂ) so2T 2 xpJ ∧ SupportedShape 3 2 1 2 := by
  have ex : xpFull.Exact := by
    have e := completed_exact xpLa_exact
    exact ⟨e.qr, e.inv, e.solve, e.ordqz⟩
  have iv : xpFull.Inverts := by
    have e := completed_inverts xpLa
    exact ⟨e.inv, e.solve⟩
  obtain ⟨⟨s, gy, gu⟩, h0, h⟩ := ok_of_check (x := (do
      let s ← Space.create xpFull so2T.toTyper xpJ
      let (gy, gu) ← solveFirstOrder xpFull so2T 2 s
      .ok (s, gy, gu) : Except Err (Space ℚ × Arr ℚ × Arr ℚ)))
    (p := fun r => qzB (diagQz [1/2, 1/4, 2]) r.1.rhs r.1.lhs && decide (r.1.parts.Z22.r = 1) &&
        decide (r.1.parts.Z22.c = 1) && decide (r.1.parts.Z22.e 0 0 = 1) &&
        decide ((r.1.parts.eigs.countP fun x => x.big || x.inf) = 1) &&
      okAnd (setupSystem so2T.toTyper xpJ (Nd.mat r.2.1).squeeze) fun S =>
        okAnd (triQz S.1 S.2.1) (fun _ => true) &&
        okAnd (triQz S.2.2.to2 (Arr.eye (so2T.nBackward * so2T.nBackward) (so2T.nBackward * so2T.nBackward) 0))
          fun _ => true) (by decide +kernel)
  obtain ⟨s', hs, h0⟩ := Except.bind_eq_ok h0
  obtain ⟨⟨gy', gu'⟩, hg, h0⟩ := Except.bind_eq_ok h0
  have e := Except.ok.inj h0
  simp only [Prod.mk.injEq] at e
  obtain ⟨rfl, rfl, rfl⟩ := e
  simp only [Bool.and_eq_true, decide_eq_true_eq] at h
  obtain ⟨⟨⟨⟨⟨h1, h3⟩, h4⟩, h5⟩, h6⟩, h7⟩ := h
  obtain ⟨S, hS, h8⟩ := ok_of_check h7
  simp only [Bool.and_eq_true] at h8
  obtain ⟨g1, hg1, -⟩ := ok_of_check h8.1
  obtain ⟨g2, hg2, -⟩ := ok_of_check h8.2
  have hq : xpFull.ordqz s'.rhs s'.lhs = .ok (diagQz [1/2, 1/4, 2]) := by
    show (if qzB _ _ _ then _ else _) = _
    rw [if_pos h1]
  have hev : (diagQz [1/2, 1/4, 2]).Eigen (Rat.castHom ℂ) (diagEv [1/2, 1/4, 2]) := diag_eigen _ (by
    intro i j hij hj
    have hj : j < 3 := hj
    interval_cases j <;> interval_cases i <;> norm_num [abs_lt])
  have hu : NoUnitRoot 3 (diagEv [1/2, 1/4, 2]) := diag_noUnit (ls := [1/2, 1/4, 2]) (by
    simp only [List.mem_cons, List.not_mem_nil, or_false, forall_eq_or_imp, forall_eq]
    norm_num [abs_lt])
  have hre : ∀ i < (diagQz [1/2, 1/4, 2]).eigs.length, ∀ z, diagEv [1/2, 1/4, 2] i = some z → 1 < ‖z‖ → 1 < z.re := by
    intro i hi z hz h
    have hi : i < 3 := hi
    rw [← Option.some.inj hz] at h ⊢
    interval_cases i
    · exfalso
      simp at h
      norm_num at h
    · exfalso
      simp at h
      norm_num at h
    · simp
  have hver : s'.verify xpFull so2T.toTyper = .ok () := by
    have h7 := (one_rank h3 h4).mpr (by rw [h5]; exact one_ne_zero)
    unfold Space.verify
    rw [if_neg (by rw [not_not]; exact h6), h3]
    show (if (Matrix.of _).rank ≠ 1 then _ else _) = _
    rw [if_neg (by rw [not_not]; exact h7)]
  refine ⟨ex, fun _ => rfl, iv, triQz_exact, by unfold SupportedMix; decide, rfl, rfl, rfl, ⟨rfl, rfl⟩,
    ⟨?_, ?_, ?_⟩, ?_, ?_, by unfold SupportedShape; decide⟩
  · intro h
    exact absurd (by decide) h
  · intro D E A h
    unfold Space.create at hs
    rw [h] at hs
    obtain ⟨p, hp, hs⟩ := Except.bind_eq_ok (x := partitionedQZ _ D E) hs
    have := Except.ok.inj hs
    subst this
    exact ⟨_, hq⟩
  · intro s1 q' hs' hq'
    rw [hs] at hs'
    have := Except.ok.inj hs'
    subst this
    rw [hq] at hq'
    have := Except.ok.inj hq'
    subst this
    exact ⟨_, hev, hu, hre⟩
  · intro s1 gy1 gu1 hs1 hg1' _ A C D hsys
    rw [hs] at hs1
    have := Except.ok.inj hs1
    subst this
    rw [hg] at hg1'
    have := Except.ok.inj hg1'
    simp only [Prod.mk.injEq] at this
    obtain ⟨rfl, rfl⟩ := this
    rw [hS] at hsys
    have := Except.ok.inj hsys
    subst this
    exact ⟨⟨g1, hg1⟩, g2, hg2⟩
  · exact (C148_check_iff_partial _ _ ex (fun _ => rfl) [[-1, 0], [-1, 0], [0, 1]] so2T 2 xpJ s' _ _
      ⟨by decide, rfl, rfl, hs, hq, hev, hu⟩ (by decide) hre).mp hver

#print axioms C47_iff
#print axioms C87_iff_partial
#print axioms C164_iff_partial

end Pynare
