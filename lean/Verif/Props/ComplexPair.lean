import Verif.Props.FirstOrder
import Verif.Examples.RatLa
import Verif.Props.Stability
import Mathlib.Tactic.Linarith
/-!
# Why the guards of C43, C46, C145 and C146 are needed

## C43 and C46: the cut through a pair of complex conjugates

`solve` does not look at the check of the state space.  Where no eigenvalue is recognised as explosive the decomposition
is cut before the last row, and if the last two eigenvalues are complex conjugates, what is computed solves nothing.

## C145 and C146: eigenvalues of modulus one

They pass the check, but may come last in the decomposition, after an explosive eigenvalue that is negative.
-/

namespace Pynare

/-- the decomposition is one of these arrays -/
def qzPairB (q : QZ ℚ) (b a : Arr ℚ) : Bool :=
  ([q.S, q.T, q.Q, q.Zt].all fun x => decide (x.r = b.r ∧ x.c = b.r)) && decide (q.eigs.length = b.r) &&
    invB q.Q q.Q.tr && invB q.Zt q.Zt.tr && qzSide b.r q.Q q.S q.Zt b && qzSide b.r q.Q q.T q.Zt a &&
    (List.range b.r).all fun i => (List.range i).all fun j =>
      decide (q.T.e i j = 0 ∧ (q.S.e i j = 0 ∨ j + 1 = i ∧ q.eigs[j]? = q.eigs[i]?))

theorem qzPairB_spec {q : QZ ℚ} {b a : Arr ℚ} (h : qzPairB q b a = true) : q.Decomposes b a := by
  unfold qzPairB qzSide at h
  simp only [Bool.and_eq_true, decide_eq_true_eq, List.all_eq_true, List.mem_range] at h
  obtain ⟨⟨⟨⟨⟨⟨h1, h2⟩, h3⟩, h4⟩, h5⟩, h6⟩, h7⟩ := h
  exact ⟨h1, h2, invB_spec h3, invB_spec h4, h5, h6, fun i j hji hi => (h7 i hi j hji).1,
    fun i j hji hi => (h7 i hi j (by omega)).2.resolve_right (by omega),
    fun i hi hne => ((h7 (i + 1) hi i (by omega)).2.resolve_left hne).2⟩

/-- linear algebra for the example: exact where it answers -/
def pairLa (q : QZ ℚ) : LinAlg ℚ :=
  { ratLa 1 q with ordqz := fun b a => if qzPairB q b a then .ok q else .error .valueError }

theorem pairLa_exact (q : QZ ℚ) : (pairLa q).Exact := by
  refine ⟨(ratLa_exact 1 q).qr, (ratLa_exact 1 q).inv, (ratLa_exact 1 q).solve, ?_⟩
  intro b a q' _ _ _ h
  simp only [pairLa] at h
  split at h
  · rename_i hq
    rw [← Except.ok.inj h]; exact qzPairB_spec hq
  · cases h

/-- the model `y(+1) - y + y(-1)/2 = e`, whose eigenvalues are `(1 + i)/2` and `(1 - i)/2` -/
def pairJ : Arr ℚ := listArr [[1/2, -1, 1, -1]] 4

def pairT : Llx := match buildLlx [[-1, 0, 1]] with
  | .ok t => t
  | .error _ => ⟨⟨0, fun _ _ => none⟩, 0⟩

/-- its decomposition; both eigenvalues are inside the unit circle -/
def pairQ : QZ ℚ :=
  let R : Arr ℚ := listArr [[3/5, 4/5], [-4/5, 3/5]] 2
  let ba : Arr ℚ := listArr [[1, -1/2], [1, 0]] 2
  { S := ⟨2, 2, fun i j => sumTo 2 fun k => sumTo 2 fun l => R.e k i * ba.e k l * R.e l j⟩
    T := Arr.eye 2 2 0
    eigs := [stab, stab]
    Q := R
    Zt := listArr [[-4/5, 3/5], [3/5, 4/5]] 2 }

/-- `solve` returns, and does not notice that the check of the state space fails -/
theorem pair_solved : ∃ (s : Space ℚ) (gy gu : Arr ℚ), Space.create (pairLa pairQ) pairT.toTyper pairJ = .ok s ∧
    solveFirstOrder (pairLa pairQ) pairT 1 s = .ok (gy, gu) ∧
    s.verify (pairLa pairQ) pairT.toTyper = .error .identification ∧ gy.e 0 0 ≠ 0 := by
  obtain ⟨s, hs, c⟩ := ok_of_check (x := Space.create (pairLa pairQ) pairT.toTyper pairJ)
    (p := fun s => okAnd (solveFirstOrder (pairLa pairQ) pairT 1 s) fun g => decide (g.1.e 0 0 ≠ 0 ∧
      (s.parts.eigs.countP fun x => x.big || x.inf) ≠ pairT.toTyper.nForward)) (by decide +kernel)
  obtain ⟨⟨gy, gu⟩, hg, c⟩ := ok_of_check c
  obtain ⟨c1, c2⟩ := of_decide_eq_true c
  refine ⟨s, gy, gu, hs, hg, ?_, c1⟩
  unfold Space.verify
  rw [if_pos c2]

/-- **C46 is false** without the guard: the policy functions that are returned for this model do not solve it; whatever
they are, no path that follows them from values other than the steady state does. -/
theorem C46_false : ∃ (la : LinAlg ℚ) (t : Llx) (J : Arr ℚ) (s : Space ℚ) (gy gu : Arr ℚ), la.Exact ∧
    buildLlx [[-1, 0, 1]] = .ok t ∧ J.r = 1 ∧ Space.create la t.toTyper J = .ok s ∧
    solveFirstOrder la t 1 s = .ok (gy, gu) ∧ s.verify la t.toTyper = .error .identification ∧
    ∀ (gy gu : Arr ℚ) (y yE : Nat → Nat → ℚ), y 0 0 ≠ 0 →
      (∀ τ, FollowsPolicy t.toTyper 1 gy gu (y τ) (fun _ => 0) (y (τ + 1))) →
      (∀ τ, FollowsPolicy t.toTyper 1 gy gu (y (τ + 1)) (fun _ => 0) (yE τ)) →
      linearised t 1 J 0 (y 0) (y 1) (yE 0) (fun _ => 0) ≠ 0 := by
  obtain ⟨s, gy, gu, h1, h2, h3, -⟩ := pair_solved
  refine ⟨pairLa pairQ, pairT, pairJ, s, gy, gu, pairLa_exact _, ?_, rfl, h1, h2, h3, ?_⟩
  · obtain ⟨t, ht, -⟩ := ok_of_check (x := buildLlx [[-1, 0, 1]]) (p := fun _ => true) (by decide +kernel)
    unfold pairT
    rw [ht]
  · intro gy gu y yE h0 hy hE
    have e1 : y 1 0 = gy.e 0 0 * y 0 0 := by
      have := hy 0 0 0 (by decide +kernel)
      simpa [sumTo, show pairT.toTyper.nBackward = 1 by decide +kernel,
        show (pairT.permute pairT.drOrder).state[0]?.getD 0 = 0 by decide +kernel,
        show pairT.drOrder[0]?.getD 0 = 0 by decide +kernel] using this
    have e2 : yE 0 0 = gy.e 0 0 * y 1 0 := by
      have := hE 0 0 0 (by decide +kernel)
      simpa [sumTo, show pairT.toTyper.nBackward = 1 by decide +kernel,
        show (pairT.permute pairT.drOrder).state[0]?.getD 0 = 0 by decide +kernel,
        show pairT.drOrder[0]?.getD 0 = 0 by decide +kernel] using this
    have e3 : linearised pairT 1 pairJ 0 (y 0) (y 1) (yE 0) (fun _ => 0) = yE 0 0 - y 1 0 + 1/2 * y 0 0 := by
      have r : ∀ (i k : Nat) (v : Nat → ℚ), pairT.cell i 0 = some k → rowPart pairT.toTyper pairJ 0 i v = pairJ.e 0 k * v 0 := by
        intro i k v h
        simp [rowPart, show pairT.n = 1 by decide +kernel, sumTo, h]
      rw [linearised, r 2 2 _ (by decide +kernel), r 1 1 _ (by decide +kernel), r 0 0 _ (by decide +kernel),
        show pairJ.e 0 0 = 1/2 by decide +kernel, show pairJ.e 0 1 = -1 by decide +kernel,
        show pairJ.e 0 2 = 1 by decide +kernel]
      simp [sumTo]
      ring
    rw [e3, e2, e1]
    intro h
    have : (gy.e 0 0 - 1/2)^2 + 1/4 = 0 := by
      have h' : ((gy.e 0 0 - 1/2)^2 + 1/4) * y 0 0 = 0 := by rw [← h]; ring
      exact (mul_eq_zero.mp h').resolve_right h0
    have := sq_nonneg (gy.e 0 0 - 1/2)
    linarith

/-- **C43 is false** without the guard: what is computed for the two arrays of this model does not solve them, and no
responses do. -/
theorem C43_false : ∃ (la : LinAlg ℚ) (D E gym gyp : Arr ℚ) (parts : QZParts ℚ), la.Exact ∧
    partitionedQZ la D E = .ok parts ∧ solveNonstatic la parts = .ok (gym, gyp) ∧ gym.r = 1 ∧ gyp.r = 1 ∧ D.r = 2 ∧
    ∀ g p x : ℚ, x ≠ 0 → ¬ ∀ i < 2, D.e i 0 * (g * x) + D.e i 1 * (p * (g * x)) = E.e i 0 * x + E.e i 1 * (p * x) := by
  obtain ⟨parts, h1, c⟩ := ok_of_check
    (x := partitionedQZ (pairLa pairQ) (listArr [[0, 1], [1, 0]] 2) (listArr [[-1/2, 1], [0, 1]] 2))
    (p := fun parts => okAnd (solveNonstatic (pairLa pairQ) parts) fun g => decide (g.1.r = 1 ∧ g.2.r = 1)) (by decide +kernel)
  obtain ⟨⟨gym, gyp⟩, h2, c⟩ := ok_of_check c
  obtain ⟨c1, c2⟩ := of_decide_eq_true c
  refine ⟨pairLa pairQ, _, _, gym, gyp, parts, pairLa_exact _, h1, h2, c1, c2, rfl, ?_⟩
  intro g p x hx h
  have a := h 0 (by decide)
  have b := h 1 (by decide)
  simp [listArr] at a b
  rcases b with b | b
  · subst b
    have : ((g - 1/2)^2 + 1/4) * x = 0 := by
      have : g * (g * x) - (-1/2 * x + g * x) = 0 := by rw [a]; ring
      rw [← this]; ring
    have := (mul_eq_zero.mp this).resolve_right hx
    have := sq_nonneg (g - 1/2)
    linarith
  · exact hx b

/-- **C46** (partial: for models that pass the check of the state space and have no eigenvalue of modulus one).  For these
the decomposition is never cut through a pair of complex conjugates. -/
theorem C46_checked_partial {V : Type} [Field V] {φ : V →+* ℂ} {la : LinAlg V} (ex : la.Exact) {pss : List (List Int)} {t : Llx}
    {nExog : Nat} {J gy gu : Arr V} {s : Space V} {q : QZ V} {ev : Nat → Option ℂ}
    (h : Determinate φ la pss t nExog J gy gu s q ev) (y u yE : Nat → Nat → V)
    (hy : ∀ τ, FollowsPolicy t.toTyper nExog gy gu (y τ) (u τ) (y (τ + 1)))
    (hE : ∀ τ, FollowsPolicy t.toTyper nExog gy gu (y (τ + 1)) (fun _ => 0) (yE τ)) :
    ∀ τ, ∀ i < J.r, linearised t nExog J i (y τ) (y (τ + 1)) (yE τ) (u τ) = 0 :=
  C46_policy_partial la ex pss t h.periods h.table J h.square nExog s gy gu h.space ((h.det ex).1.separated ex) h.solved
    y u yE hy hE

/-- a model that meets the hypotheses -/
example : ∃ (s : Space ℚ) (gy gu : Arr ℚ), Determinate (Rat.castHom ℂ) (sbLa (1/2) 2) [[0, 1], [0, -1], [0]] exT 1
    (sbJ (1/2) 2) gy gu s (sbQz (1/2) 2) (sbEv (1/2) 2) ∧ gy.e 1 0 = 1/2 := by
  obtain ⟨s, gy, gu, h, h', -⟩ := sb_determinate
  exact ⟨s, gy, gu, h, h'⟩

/-- **C145 and C146 are false** without the guard.  A model with the eigenvalues -2 and 1 passes the check.  The solution
takes -2 for the eigenvalue of the state and 1 for the explosive one.  The responses to a shock exceed every bound, and the
variance reported for the state is negative. -/
theorem C145_false : (sbLa (-2) 1).Exact ∧ CholExact oneChol ∧ LyapExact (ratLyap [listArr [[-1/3]] 1]) ∧
    buildLlx [[0, 1], [0, -1], [0]] = .ok exT ∧ (sbJ (-2) 1).r = 3 ∧ (sbQz (-2) 1).Eigen (Rat.castHom ℂ) (sbEv (-2) 1) ∧
    ∃ (s : Space ℚ) (gy gu C : Arr ℚ), Space.create (sbLa (-2) 1) exT.toTyper (sbJ (-2) 1) = .ok s ∧
      (sbLa (-2) 1).ordqz s.rhs s.lhs = .ok (sbQz (-2) 1) ∧
      solveFirstOrder (sbLa (-2) 1) exT 1 s = .ok (gy, gu) ∧ s.verify (sbLa (-2) 1) exT.toTyper = .ok () ∧
      (∀ M : ℚ, ∃ (periods k : Nat) (p : Arr ℚ), impulseResponse oneChol (1/2) exT.toTyper (.first gy gu) [0, 0, 0]
        (listArr [[1]] 1) periods 0 1 = .ok p ∧ k < p.r ∧ M < |p.e k 1|) ∧
      covArr (sbLa (-2) 1) (ratLyap [listArr [[-1/3]] 1]) exT.toTyper s gy gu (listArr [[1]] 1) = .ok C ∧
      C.e 1 1 = -1/3 := by
  refine ⟨ratLa_exact _ _, oneChol_exact, ratLyap_exact _, rfl, rfl, sb_eigen _ _ (by norm_num), ?_⟩
  obtain ⟨s, hs, h⟩ := ok_of_check (x := Space.create (sbLa (-2) 1) exT.toTyper (sbJ (-2) 1))
    (p := fun s => qzB (sbQz (-2) 1) s.rhs s.lhs && okAnd (s.verify (sbLa (-2) 1) exT.toTyper) (fun _ => true) &&
      okAnd (solveFirstOrder (sbLa (-2) 1) exT 1 s) fun g => decide (g.1.r = 3 ∧ g.1.c = 1 ∧ g.1.e 1 0 = -2) &&
        decide (g.2.r = 3 ∧ g.2.c = 1 ∧ g.2.e 1 0 = 1) &&
        okAnd (covArr (sbLa (-2) 1) (ratLyap [listArr [[-1/3]] 1]) exT.toTyper s g.1 g.2 (listArr [[1]] 1)) fun C =>
          decide (C.e 1 1 = -1/3)) (by decide +kernel)
  simp only [Bool.and_eq_true] at h
  obtain ⟨⟨h1, h2⟩, h3⟩ := h
  obtain ⟨⟨⟩, hv, -⟩ := ok_of_check h2
  obtain ⟨⟨gy, gu⟩, hg, h4⟩ := ok_of_check h3
  simp only [Bool.and_eq_true, decide_eq_true_eq] at h4
  obtain ⟨⟨h4, h5⟩, h6⟩ := h4
  obtain ⟨C, hC, h7⟩ := ok_of_check h6
  refine ⟨s, gy, gu, C, hs, ?_, hg, hv, ?_, hC, of_decide_eq_true h7⟩
  · show (if qzB _ _ _ then _ else _) = _
    rw [if_pos h1]
  · intro M
    obtain ⟨k, hk⟩ := pow_unbounded_of_one_lt M (show (1 : ℚ) < 2 by norm_num)
    obtain ⟨p, hp, hr, hpk⟩ := sb_response h4 h5 (k + 2) (by omega)
    refine ⟨k + 2, k + 1, p, hp, by omega, ?_⟩
    rw [hpk k (by omega), abs_pow, abs_neg, abs_of_pos (by norm_num)]
    exact hk

#print axioms C145_false
#print axioms C43_false
#print axioms C46_checked_partial
#print axioms C46_false

end Pynare
