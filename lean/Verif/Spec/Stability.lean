import Verif.Spec.Simul
import Mathlib.Analysis.Complex.Norm
import Mathlib.LinearAlgebra.Matrix.Rank
/-!
# Specification vocabulary for stability

Numbers are embedded in the complex numbers by `φ`, to speak of eigenvalues and limits.
-/

namespace Pynare

variable {V : Type} [Field V]

/-- `w` is an eigenvalue of the square block of rows and columns `k` to `l - 1` of the pencil `S`, `T`:
`S v = w T v` for some `v` that is not zero, or `T v = 0` if `w` is infinite (`none`). -/
def BlockEigen (φ : V →+* ℂ) (S T : Arr V) (k l : Nat) (w : Option ℂ) : Prop :=
  ∃ v : Nat → ℂ, (∃ j, k ≤ j ∧ j < l ∧ v j ≠ 0) ∧
    ∀ i, k ≤ i → i < l → match w with
      | some z => ∑ j ∈ Finset.Ico k l, φ (S.e i j) * v j = z * ∑ j ∈ Finset.Ico k l, φ (T.e i j) * v j
      | none => ∑ j ∈ Finset.Ico k l, φ (T.e i j) * v j = 0

/-- An eigenvalue inside the unit circle. -/
def Inside (w : Option ℂ) : Prop := ∃ z, w = some z ∧ ‖z‖ < 1

/-- An eigenvalue outside the unit circle; infinite ones are. -/
def Outside (w : Option ℂ) : Prop := ∀ z, w = some z → 1 < ‖z‖

/-- `ev 0`, `ev 1`, ... are the eigenvalues of the decomposition, in order.  The comparisons of the code
are right about them (complex numbers are compared by their real parts first), those inside the unit
circle come first (`sort='iuc'`), and they are the eigenvalues of every diagonal block that splits no
pair of complex conjugates. -/
structure QZ.Eigen (φ : V →+* ℂ) (q : QZ V) (ev : Nat → Option ℂ) : Prop where
  infinite : ∀ i e, q.eigs[i]? = some e → (e.inf = true ↔ ev i = none)
  big : ∀ i e z, q.eigs[i]? = some e → ev i = some z → (e.big = true ↔ 1 < ‖z‖)
  gt1 : ∀ i e z, q.eigs[i]? = some e → ev i = some z → (e.gt1 = true ↔ 1 < z.re ∨ z.re = 1 ∧ 0 < z.im)
  sorted : ∀ i j, i ≤ j → j < q.eigs.length → Inside (ev j) → Inside (ev i)
  blocks : ∀ k l, k ≤ l → l ≤ q.eigs.length →
    (0 < k → k < q.eigs.length → q.S.e k (k - 1) = 0) → (0 < l → l < q.eigs.length → q.S.e l (l - 1) = 0) →
    ∀ w, BlockEigen φ q.S q.T k l w → ∃ i, k ≤ i ∧ i < l ∧ ev i = w

/-- No eigenvalue of modulus one among the first `n`. -/
def NoUnitRoot (n : Nat) (ev : Nat → Option ℂ) : Prop := ∀ i < n, Inside (ev i) ∨ Outside (ev i)

/-- A solved model that passes the check of the state space and has no eigenvalue of modulus one.  `pss`
are the periods in which the variables occur, each of them between -1 and 1 and the current one always
among them; the model has as many equations as variables; `gy`, `gu` is its solution, `s` its state
space and `q` the decomposition used, with the eigenvalues `ev`. -/
structure Determinate (φ : V →+* ℂ) (la : LinAlg V) (pss : List (List Int)) (t : Llx) (nExog : Nat)
    (J gy gu : Arr V) (s : Space V) (q : QZ V) (ev : Nat → Option ℂ) : Prop where
  periods : ∀ ps ∈ pss, 0 ∈ ps ∧ ∀ p ∈ ps, p = -1 ∨ p = 0 ∨ p = 1
  table : buildLlx pss = .ok t
  square : J.r = pss.length
  space : Space.create la t.toTyper J = .ok s
  solved : solveFirstOrder la t nExog s = .ok (gy, gu)
  verified : s.verify la t.toTyper = .ok ()
  decomposed : la.ordqz s.rhs s.lhs = .ok q
  eigen : q.Eigen φ ev
  noUnit : NoUnitRoot q.eigs.length ev

/-- The rank of an array is found exactly. -/
def LinAlg.RankExact (la : LinAlg V) : Prop :=
  ∀ a : Arr V, la.rank a = (Matrix.of fun (i : Fin a.r) (j : Fin a.c) => a.e i j).rank

/-- A model whose state space was built, checked or not, solved or not; otherwise as `Determinate`. -/
structure Examined (φ : V →+* ℂ) (la : LinAlg V) (pss : List (List Int)) (t : Llx) (J : Arr V) (s : Space V)
    (q : QZ V) (ev : Nat → Option ℂ) : Prop where
  periods : ∀ ps ∈ pss, 0 ∈ ps ∧ ∀ p ∈ ps, p = -1 ∨ p = 0 ∨ p = 1
  table : buildLlx pss = .ok t
  square : J.r = pss.length
  space : Space.create la t.toTyper J = .ok s
  decomposed : la.ordqz s.rhs s.lhs = .ok q
  eigen : q.Eigen φ ev
  noUnit : NoUnitRoot q.eigs.length ev

/-- `y` solves the linearised equations in every period, without shocks, and stays bounded.  `y 0` are the
values before the first of these periods. -/
def BoundedPath (φ : V →+* ℂ) (t : Llx) (nExog : Nat) (J : Arr V) (y : Nat → Nat → V) : Prop :=
  (∀ τ, ∀ i < J.r, linearised t nExog J i (y τ) (y (τ + 1)) (y (τ + 2)) (fun _ => 0) = 0) ∧
  ∃ B : ℝ, ∀ τ, ∀ c < J.r, ‖φ (y τ c)‖ ≤ B

/-- From every initial values there is exactly one bounded path. -/
def OneBoundedPath (φ : V →+* ℂ) (t : Llx) (nExog : Nat) (J : Arr V) : Prop :=
  ∀ y0 : Nat → V, ∃ y, y 0 = y0 ∧ BoundedPath φ t nExog J y ∧
    ∀ y', y' 0 = y0 → BoundedPath φ t nExog J y' → ∀ τ, ∀ c < J.r, y' τ c = y τ c

end Pynare
