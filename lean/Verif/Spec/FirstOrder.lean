import Verif.Model.FirstOrder
/-!
# Specification vocabulary for arrays and first-order solutions
-/

namespace Pynare

variable {V : Type}

/-- `c` is the matrix product of `a` and `b`. -/
def Arr.IsProd [Zero V] [Add V] [Mul V] (a b c : Arr V) : Prop :=
  a.c = b.r ∧ c.r = a.r ∧ c.c = b.c ∧
  ∀ i < a.r, ∀ j < b.c, (sumTo a.c fun k => a.e i k * b.e k j) = c.e i j

/-- `b` is the two-sided inverse of the square array `a`. -/
def Arr.IsInv [Zero V] [One V] [Add V] [Mul V] (a b : Arr V) : Prop :=
  a.IsProd b (Arr.eye a.r a.r 0) ∧ b.IsProd a (Arr.eye a.r a.r 0)

section
variable [Zero V] [One V] [Add V] [Mul V]

/-- A decomposition of the pair `b`, `a`: both orthogonal factors and both triangular ones have the
shape of `b`; the second triangular factor is triangular, the first one nearly so, and where it is
not, the two eigenvalues are of the same kind (complex conjugates). -/
structure QZ.Decomposes (q : QZ V) (b a : Arr V) : Prop where
  shape : ∀ x ∈ [q.S, q.T, q.Q, q.Zt], x.r = b.r ∧ x.c = b.r
  count : q.eigs.length = b.r
  orthQ : q.Q.IsInv q.Q.tr
  orthZ : q.Zt.IsInv q.Zt.tr
  left : ∀ i < b.r, ∀ j < b.r,
    (sumTo b.r fun k => (sumTo b.r fun l => q.Q.e i l * q.S.e l k) * q.Zt.e j k) = b.e i j
  right : ∀ i < b.r, ∀ j < b.r,
    (sumTo b.r fun k => (sumTo b.r fun l => q.Q.e i l * q.T.e l k) * q.Zt.e j k) = a.e i j
  triT : ∀ i j, j < i → i < b.r → q.T.e i j = 0
  triS : ∀ i j, j + 1 < i → i < b.r → q.S.e i j = 0
  pairs : ∀ i, i + 1 < b.r → q.S.e (i + 1) i ≠ 0 → q.eigs[i]? = q.eigs[i + 1]?

/-- The routines of numerical linear algebra return exact results whenever they return. -/
structure LinAlg.Exact (la : LinAlg V) : Prop where
  qr : ∀ M Q R, la.qr M = .ok (Q, R) → Q.r = M.r ∧ Q.IsInv Q.tr ∧ Q.IsProd R M ∧
    ∀ i j, j < i → i < M.r → j < M.c → R.e i j = 0
  inv : ∀ a b, a.r = a.c → la.inv a = .ok b → a.IsInv b
  solve : ∀ a b x, a.r = a.c → b.r = a.r → la.solve a b = .ok x →
    a.IsProd x b ∧ ∃ i, a.IsInv i
  ordqz : ∀ b a q, b.r = b.c → a.r = a.c → b.r = a.r → la.ordqz b a = .ok q → q.Decomposes b a

/-- Some eigenvalue was recognised as explosive (greater than one, or infinite), or the last one is
not of the same kind as the one before: the cut does not run through a pair of complex conjugates. -/
def QZParts.Separated (p : QZParts V) : Prop :=
  (∃ e ∈ p.eigs, (e.gt1 || e.inf) = true) ∨
    p.eigs[p.eigs.length - 2]? ≠ p.eigs[p.eigs.length - 1]?

/-- The part of the linearised equation `i` that belongs to row `r` of the table (0: lags, 1: current
period, 2: leads), for values `y` of the variables in order of declaration. -/
def rowPart (t : Typer) (J : Arr V) (i r : Nat) (y : Nat → V) : V :=
  sumTo t.n fun c => match t.cell r c with
    | some k => J.e i k * y c
    | none => 0

/-- The left-hand side of the linearised equation `i`: deviations `ym`, `y`, `yp` of the variables in
the last, current and next period and shocks `u`. -/
def linearised (t : Llx) (nExog : Nat) (J : Arr V) (i : Nat) (ym y yp u : Nat → V) : V :=
  rowPart t.toTyper J i 2 yp + rowPart t.toTyper J i 1 y + rowPart t.toTyper J i 0 ym +
    sumTo nExog fun k => J.e i (t.count + k) * u k

/-- `y` is what the policy functions `gy`, `gu` make of last period's values `ym` and the shocks `u`:
row `i` of the arrays belongs to variable number `i` in decision-rule order, column `j` of `gy` to
state variable number `j` in decision-rule order. -/
def FollowsPolicy (t : Typer) (nExog : Nat) (gy gu : Arr V) (ym u y : Nat → V) : Prop :=
  ∀ (i c : Nat), t.drOrder[i]? = some c →
    y c = (sumTo t.nBackward fun j => gy.e i j *
        ym (t.drOrder[(t.permute t.drOrder).state[j]?.getD 0]?.getD 0)) +
      sumTo nExog fun k => gu.e i k * u k

end

end Pynare
