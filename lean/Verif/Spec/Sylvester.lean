import Verif.Model.Sylvester
import Verif.Spec.FirstOrder
/-!
# Specification vocabulary for the generalised Sylvester equation
-/

namespace Pynare

variable {V : Type}

section
variable [Zero V] [One V] [Add V] [Mul V]

/-- `X` solves `A X Bᵀ + C X Dᵀ = E`. -/
def SolvesSylvester (A B C D E X : Arr V) : Prop :=
  X.r = E.r ∧ X.c = E.c ∧ ∀ i < E.r, ∀ j < E.c,
    (sumTo E.r fun k => sumTo E.c fun l => A.e i k * X.e k l * B.e j l) +
    (sumTo E.r fun k => sumTo E.c fun l => C.e i k * X.e k l * D.e j l) = E.e i j

/-- A decomposition of the pair `a`, `c` of square arrays: `a = Q P Zᵀ` and `c = Q S Zᵀ` with orthogonal
`Q` and `Z`, `S` upper triangular, and `P` upper triangular but for blocks of two rows. -/
structure GQZ.Decomposes (g : GQZ V) (a c : Arr V) : Prop where
  shape : ∀ x ∈ [g.P, g.S, g.Q, g.Z], x.r = a.r ∧ x.c = a.r
  orthQ : g.Q.IsInv g.Q.tr
  orthZ : g.Z.IsInv g.Z.tr
  left : ∀ i < a.r, ∀ j < a.r,
    (sumTo a.r fun k => (sumTo a.r fun l => g.Q.e i l * g.P.e l k) * g.Z.e j k) = a.e i j
  right : ∀ i < a.r, ∀ j < a.r,
    (sumTo a.r fun k => (sumTo a.r fun l => g.Q.e i l * g.S.e l k) * g.Z.e j k) = c.e i j
  triS : ∀ i j, j < i → i < a.r → g.S.e i j = 0
  triP : ∀ i j, j + 1 < i → i < a.r → g.P.e i j = 0
  blocks : ∀ i, i + 2 < a.r → g.P.e (i + 1) i = 0 ∨ g.P.e (i + 2) (i + 1) = 0

/-- The decomposition routine is exact whenever it returns. -/
def GQZExact (qz : Arr V → Arr V → Except Err (GQZ V)) : Prop :=
  ∀ a c g, a.r = a.c → c.r = c.c → a.r = c.r → qz a c = .ok g → g.Decomposes a c

end

end Pynare
