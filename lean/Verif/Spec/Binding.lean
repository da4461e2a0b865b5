import Verif.Model.Binding
import Verif.Spec.Linear
import Verif.Spec.OccBin
import Verif.Spec.Semantics
import Verif.Spec.Expr
/-!
# Specification vocabulary for constraints and alternative regimes
-/

namespace Pynare

variable {V : Type}

/-- What numpy does with the entries of arrays is what is done with numbers, where that succeeds. -/
structure EltOps.Agrees (elt : EltOps V) (ops : Ops V) : Prop where
  bin : ∀ o a b v, ops.bin o a b = .ok v → elt.bin o a b = v
  un : ∀ o a v, ops.un o a = .ok v → elt.un o a = v
  cmp : ∀ o a b v, ops.cmp o a b = .ok v → elt.cmp o a b = v
  fn : ∀ f a v, ops.fn f a = .ok v → elt.fn f a = v

/-- The values of names in one period, in which the variables have the values `y`: parameters come first. -/
def periodScope (endog : List String) (params : Dict V) (y : Nat → V) (x : String) : Except Err V :=
  match params.get? x with
  | some v => .ok v
  | none => match endog.idxOf? x with
    | some c => .ok (y c)
    | none => .error .syntaxError

/-- The condition mentions a variable, that is, a name that is no parameter. -/
def MentionsVar (params : Dict V) (e : Expr V) : Prop := ∃ x ∈ e.vars, x ∉ params.keys

section
variable [Field V] [LinearOrder V]

/-- Row `i` of the linear equations of a regime. -/
def Regime.row (R : Regime V) (n nExog : Nat) (i : Nat) (ym y yp u : Nat → V) : V :=
  (sumTo n fun c => R.A.e i c * yp c) + (sumTo n fun c => R.B.e i c * y c) + (sumTo n fun c => R.C.e i c * ym c) +
    (sumTo nExog fun k => R.E.e i k * u k) + R.D i

/-- The linear equations of a regime approximate the equations `fs` to first order about `ss`: when the deviations
from `ss` are small, the difference is small compared with them. -/
def Approximates (t : Llx) (nExog : Nat) (fs : List (List V → Except Err V)) (ss : List V) (R : Regime V) : Prop :=
  ∀ ε > 0, ∃ δ > 0, ∀ r, 0 ≤ r → r ≤ δ → ∀ ym y yp u : Nat → V,
    (∀ c < t.n, |ym c| ≤ r) → (∀ c < t.n, |y c| ≤ r) → (∀ c < t.n, |yp c| ≤ r) → (∀ k < nExog, |u k| ≤ r) →
    ∀ vec, Assembled t nExog ss ⟨ym, y, yp, u⟩ vec →
      ∃ v, dynamicCall t nExog fs vec = .ok v ∧ v.length = fs.length ∧
        ∀ i < fs.length, |vecEntry v i - R.row t.n nExog i ym y yp u| ≤ ε * r

end

end Pynare
