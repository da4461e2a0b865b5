import Verif.Model.OccBin
/-!
# Specification vocabulary for occasionally binding constraints
-/

namespace Pynare

variable {V : Type}

/-- A regime begins at position `i` of the sequence: at its beginning, or where the entry differs from the
one before. -/
def RegimeBegins (v : List Bool) (i : Nat) : Prop :=
  i < v.length ∧ (i = 0 ∨ v[i]? ≠ v[i - 1]?)

section
variable [Zero V] [Add V] [Mul V]

/-- All arrays of the regime fit a model with `n` variables and `m` shocks. -/
structure Regime.Fits (r : Regime V) (n m : Nat) : Prop where
  A : r.A.r = n ∧ r.A.c = n
  B : r.B.r = n ∧ r.B.c = n
  C : r.C.r = n ∧ r.C.c = n
  E : r.E.r = n ∧ r.E.c = m

/-- The left-hand side of equation `i` of a regime, for `n` variables with values `ym`, `y`, `yp` in the
last, current and next period and `m` shocks `u`, without the constant. -/
def Regime.linear (r : Regime V) (n m i : Nat) (ym y yp u : Nat → V) : V :=
  (sumTo n fun j => r.A.e i j * yp j) + (sumTo n fun j => r.B.e i j * y j) +
    (sumTo n fun j => r.C.e i j * ym j) + sumTo m fun k => r.E.e i k * u k

/-- The decision rules solve the equations of the reference regime: with `y = gy ym + gu u` and the
expectation `yp = gy y`. -/
def SolvesReference (ref : Regime V) (gy gu : Arr V) (n m : Nat) : Prop :=
  ∀ ym y yp u : Nat → V,
    (∀ i < n, y i = (sumTo n fun j => gy.e i j * ym j) + sumTo m fun k => gu.e i k * u k) →
    (∀ i < n, yp i = sumTo n fun j => gy.e i j * y j) →
    ∀ i < n, ref.linear n m i ym y yp u = 0

/-- The value before row `k` of a path that starts from `init`. -/
def before (init : Nat → V) (path : Nat → Nat → V) : Nat → Nat → V
  | 0 => init
  | k + 1 => path k

/-- The shock in period `k`: only the first period has one. -/
def shockAt (u : Nat → V) : Nat → Nat → V
  | 0 => u
  | _ + 1 => fun _ => 0

/-- The rows of `path` from `0` up to `periods` satisfy, in each period `k < periods`, the equations of the
regime `reg k` (with the constant `const k`), given the initial point, the shocks of the first period and
the next row. -/
def SatisfiesRegimes (n m periods : Nat) (reg : Nat → Regime V) (const : Nat → Nat → V) (init u : Nat → V)
    (path : Nat → Nat → V) : Prop :=
  ∀ k < periods, ∀ i < n,
    (reg k).linear n m i (before init path k) (path k) (path (k + 1)) (shockAt u k) + const k i = 0

end

/-- The linear path from `init` when the shocks of the first period are `u`. -/
def linearPath [Zero V] [Add V] [Mul V] (n m : Nat) (gy gu : Arr V) (init u : Nat → V) : Nat → Nat → V
  | 0 => fun i => (sumTo n fun j => gy.e i j * init j) + sumTo m fun k => gu.e i k * u k
  | k + 1 => fun i => sumTo n fun j => gy.e i j * linearPath n m gy gu init u k j

/-- The linear solution for a list of shocks: the value in period `t`. -/
def linearAt [Zero V] [Add V] [Mul V] (n m : Nat) (gy gu : Arr V) (init : Nat → V) (shocks : List (Nat → V)) :
    Nat → Nat → V
  | 0 => fun i => (sumTo n fun j => gy.e i j * init j) + sumTo m fun k => gu.e i k * (shocks[0]?.getD fun _ => 0) k
  | t + 1 => fun i => (sumTo n fun j => gy.e i j * linearAt n m gy gu init shocks t j) +
      sumTo m fun k => gu.e i k * (shocks[t + 1]?.getD fun _ => 0) k

/-- The state from which the linear solution starts period `t`. -/
def linearBefore [Zero V] [Add V] [Mul V] (n m : Nat) (gy gu : Arr V) (init : Nat → V)
    (shocks : List (Nat → V)) : Nat → Nat → V
  | 0 => init
  | t + 1 => linearAt n m gy gu init shocks t

end Pynare
