import Verif.Model.SecondOrder
import Verif.Spec.FirstOrder
/-!
# Specification vocabulary for second-order solutions
-/

namespace Pynare

variable {V : Type}

/-- A direction in which the arguments of the equations move: the variables in the last, current and next
period, in order of declaration, and the shocks. -/
structure Around (V : Type) where
  before : Nat → V
  now : Nat → V
  after : Nat → V
  shock : Nat → V

section
variable [Zero V] [One V] [Add V] [Mul V]

/-- The second derivative of equation `i` in two directions.  Row `i` of `H` holds the second derivatives
for all pairs of columns of the jacobian. -/
def curvature (t : Llx) (nExog : Nat) (H : Arr V) (i : Nat) (d d' : Around V) : V :=
  linearised t nExog ⟨1, t.count + nExog, fun _ p =>
    linearised t nExog ⟨1, t.count + nExog, fun _ q => H.e i (p * (t.count + nExog) + q)⟩ 0
      d'.before d'.now d'.after d'.shock⟩ 0 d.before d.now d.after d.shock

/-- The order of differentiation does not matter. -/
def SymmetricHessian (t : Llx) (nExog : Nat) (H : Arr V) : Prop :=
  ∀ i < t.n, ∀ p < t.count + nExog, ∀ q < t.count + nExog,
    H.e i (p * (t.count + nExog) + q) = H.e i (q * (t.count + nExog) + p)

/-- The values of the state variables, in decision-rule order. -/
def stateVals (t : Typer) (y : Nat → V) (b : Nat) : V :=
  y (t.drOrder[(t.permute t.drOrder).state[b]?.getD 0]?.getD 0)

/-- Row `i` of `X` applied to the products of the entries of two vectors. -/
def quadForm (X : Arr V) (i r : Nat) (v : Nat → V) (r' : Nat) (w : Nat → V) : V :=
  sumTo r fun a => sumTo r' fun b => X.e i (a * r' + b) * (v a * w b)

/-- `q` is what a second-order solution adds to the first-order one, for values `ym` of last period's
variables and shocks `u`. -/
def SecondTerms (t : Typer) (nExog : Nat) (s : SecondNd V) (ym u q : Nat → V) : Prop :=
  ∀ (i c : Nat), t.drOrder[i]? = some c →
    q c = quadForm s.ghxx.to2 i t.nBackward (stateVals t ym) t.nBackward (stateVals t ym) +
      quadForm s.ghxu.to2 i t.nBackward (stateVals t ym) nExog u +
      quadForm s.ghuu.to2 i nExog u nExog u

/-- `q'` is what it adds one period later, without further shocks, when the first-order part is `y` and the
second-order part `q`. -/
def NextTerms (t : Typer) (s : SecondNd V) (gy : Arr V) (y q q' : Nat → V) : Prop :=
  ∀ (i c : Nat), t.drOrder[i]? = some c →
    q' c = (sumTo t.nBackward fun b => gy.e i b * stateVals t q b) +
      quadForm s.ghxx.to2 i t.nBackward (stateVals t y) t.nBackward (stateVals t y)

/-- The sum over all pairs of shocks of their covariance times something that depends on both. -/
def overShocks (nExog : Nat) (sigma : Arr V) (f : Nat → Nat → V) : V :=
  sumTo nExog fun j => sumTo nExog fun k => sigma.e k j * f j k

/-- `c` is the constant correction for risk, in order of declaration. -/
def RiskTerm (t : Typer) (s : SecondNd V) (c : Nat → V) : Prop :=
  ∀ (i v : Nat), t.drOrder[i]? = some v → c v = s.del2.to2.e i 0

/-- `e` is what is expected of the second-order part one period later if this period's is the constant `c`:
the constant, what follows from it and the effect of next period's shocks. -/
def RiskNext (t : Typer) (nExog : Nat) (s : SecondNd V) (gy sigma : Arr V) (c e : Nat → V) : Prop :=
  ∀ (i v : Nat), t.drOrder[i]? = some v →
    e v = c v + (sumTo t.nBackward fun b => gy.e i b * stateVals t c b) +
      overShocks nExog sigma fun j k => s.ghuu.to2.e i (j * nExog + k)

end

end Pynare
