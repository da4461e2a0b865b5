import Verif.Examples.SecondOrder
import Verif.Lemmas.FirstOrder
/-!
# Example for the accuracy of solutions

The model with two states, two shocks and a forward-looking variable whose second-order solution is computed
in the other examples, now with the first-order solution computed too.
-/

namespace Pynare

/-- linear algebra that answers both for the first and for the second order -/
def chLa : LinAlg ℚ where
  qr := soLa.qr
  rank _ := 0
  ordqz b a :=
    let P : Arr ℚ := listArr [[0, 1, 0], [1, 0, 0], [0, 0, 1]] 3
    let sw : Nat → Nat := fun i => if i = 0 then 1 else if i = 1 then 0 else i
    let q : QZ ℚ := ⟨fixArr ⟨b.r, b.c, fun i j => b.e (sw i) (sw j)⟩, fixArr ⟨a.r, a.c, fun i j => a.e (sw i) (sw j)⟩,
      [stab, stab, expl], P, P⟩
    if qzB q b a then .ok q else .error .valueError
  inv a := if invB a (fixArr (candInv a)) then .ok (fixArr (candInv a)) else .error .valueError
  solve := soLa.solve

theorem chLa_exact : chLa.Exact where
  qr := soLa_exact.qr
  solve := soLa_exact.solve
  inv a b _ h := by
    simp only [chLa] at h
    split at h
    · rename_i hi
      rw [← Except.ok.inj h]; exact invB_spec hi
    · cases h
  ordqz b a q _ _ _ h := by
    simp only [chLa] at h
    split at h
    · rename_i hi
      rw [← Except.ok.inj h]; exact qzB_spec hi
    · cases h

/-- all arguments are available in every step -/
def chAll : Except Err (Space ℚ × Arr ℚ × Arr ℚ × SecondNd ℚ) := do
  let s ← Space.create chLa so2T.toTyper so2J
  let (gy, gu) ← solveFirstOrder chLa so2T 2 s
  let so ← solveSecondOrder chLa triQz (1/2) so2T.toTyper 2 so2J so2H so2Sigma (Nd.mat gy).squeeze (Nd.mat gu).squeeze
  .ok (s, gy, gu, so)

theorem ch_solved : ∃ (s : Space ℚ) (gy gu : Arr ℚ) (so : SecondNd ℚ),
    Space.create chLa so2T.toTyper so2J = .ok s ∧ s.parts.Separated ∧
    solveFirstOrder chLa so2T 2 s = .ok (gy, gu) ∧
    solveSecondOrder chLa triQz (1/2) so2T.toTyper 2 so2J so2H so2Sigma (Nd.mat gy).squeeze (Nd.mat gu).squeeze = .ok so ∧
    gy.e 1 0 = 1 ∧ gu.e 1 1 = 1 ∧ (so.stored (1/2)).ghxx.to2.e 2 0 = 8/7 := by
  obtain ⟨⟨s, gy, gu, so⟩, h0, h⟩ := ok_of_check (x := chAll)
    (p := fun r => r.1.parts.eigs == [stab, stab, expl] && decide (r.2.1.e 1 0 = 1 ∧ r.2.2.1.e 1 1 = 1 ∧
      (r.2.2.2.stored (1/2)).ghxx.to2.e 2 0 = 8/7)) (by decide +kernel)
  unfold chAll at h0
  obtain ⟨s', hs, h0⟩ := Except.bind_eq_ok h0
  obtain ⟨⟨gy', gu'⟩, hg, h0⟩ := Except.bind_eq_ok h0
  obtain ⟨so', hso, h0⟩ := Except.bind_eq_ok h0
  have e := Except.ok.inj h0
  simp only [Prod.mk.injEq] at e
  obtain ⟨rfl, rfl, rfl, rfl⟩ := e
  rw [Bool.and_eq_true, decide_eq_true_eq] at h
  refine ⟨s', gy', gu', so', hs, .inl ?_, hg, hso, h.2⟩
  have : s'.parts.eigs = [stab, stab, expl] := beq_iff_eq.mp h.1
  rw [this]
  exact ⟨expl, by simp, rfl⟩

end Pynare
