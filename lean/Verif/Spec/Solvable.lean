import Verif.Spec.Stability
import Verif.Model.SecondOrder
/-!
# Specification vocabulary for models that can be solved
-/

namespace Pynare

variable {V : Type} [Field V]

/-- The library answers whenever there is an inverse. -/
structure LinAlg.Inverts (la : LinAlg V) : Prop where
  inv : ∀ a b : Arr V, a.r = a.c → a.IsInv b → ∃ x, la.inv a = .ok x
  solve : ∀ a b i : Arr V, a.r = a.c → b.r = a.r → a.IsInv i → ∃ x, la.solve a b = .ok x

/-- The library answers when it decomposes the arrays of this model, and the eigenvalues it finds are
those of the model, none of them of modulus one; finite ones outside the unit circle have a real part above
one. -/
structure LinAlg.Answers (φ : V →+* ℂ) (la : LinAlg V) (t : Llx) (J : Arr V) : Prop where
  qr : t.timed t.static 1 ≠ [] → ∀ js, J.cols (t.timed t.static 1) = .ok js → ∃ QR, la.qr js = .ok QR
  qz : ∀ D E A, structSpace la t.toTyper J = .ok (D, E, A) → ∃ q, la.ordqz E D = .ok q
  eigen : ∀ s q, Space.create la t.toTyper J = .ok s → la.ordqz s.rhs s.lhs = .ok q →
    ∃ ev, q.Eigen φ ev ∧ NoUnitRoot q.eigs.length ev ∧
      ∀ i < q.eigs.length, ∀ z, ev i = some z → 1 < ‖z‖ → 1 < z.re

/-- The model has a variable with a lead; and either one that has a lag but no lead, or exactly one that has
both.  `pss` are the periods in which the variables occur. -/
def SupportedMix (pss : List (List Int)) : Prop :=
  (∃ ps ∈ pss, 1 ∈ ps) ∧
  ((∃ ps ∈ pss, -1 ∈ ps ∧ 1 ∉ ps) ∨ (pss.countP fun ps => decide (-1 ∈ ps ∧ 1 ∈ ps)) = 1)

/-- The generalised Schur decomposition answers for the two pairs of arrays that the second-order solution of
this model decomposes, if it has several states (with one state nothing is decomposed). -/
def AnswersSecond [DecidableEq V] (qz : Arr V → Arr V → Except Err (GQZ V)) (t : Typer) (J gy : Arr V) : Prop :=
  t.nBackward ≠ 1 → ∀ A C D, setupSystem t J (Nd.mat gy).squeeze = .ok (A, C, D) →
    (∃ d, qz A C = .ok d) ∧
      ∃ d, qz D.to2 (Arr.eye (t.nBackward * t.nBackward) (t.nBackward * t.nBackward) 0) = .ok d

/-- The numbers of variables, states, forward-looking variables and shocks for which there is a second-order
solution: several variables; a forward-looking one; several states unless there are several forward-looking
variables; several shocks, or none, if there are several states; and, if there is one state and several
shocks, a number of forward-looking variables other than the number of shocks. -/
def SupportedShape (nVars nStates nForward nExog : Nat) : Prop :=
  nVars ≠ 1 ∧ nForward ≠ 0 ∧ (nStates = 1 → nForward ≠ 1) ∧ (2 ≤ nStates → nExog ≠ 1) ∧
    (nStates = 1 → nExog ≠ 1 → nForward ≠ nExog)

end Pynare
