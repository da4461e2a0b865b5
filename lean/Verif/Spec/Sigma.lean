import Verif.Spec.Factory
/-!
# Specification vocabulary for the shocks block
-/

namespace Pynare

variable {V : Type}

/-- The statement sets the variance of `x`, to the value of `e` or, if it sets the standard error,
to its square. -/
inductive SetsVar (ops : Ops V) (sq : V → Except Err V) (ρ : String → Option V) :
    Shock V → String → V → Prop
  | variance {x e v} : Evals ops ρ e v → SetsVar ops sq ρ (.variance x e) x v
  | stderr {x e v w} : Evals ops ρ e v → sq v = .ok w → SetsVar ops sq ρ (.stderr x e) x w

/-- The statement is about the variance or standard error of `x`. -/
def Shock.isVarOf (x : String) : Shock V → Prop
  | .variance y _ | .stderr y _ => y = x
  | _ => False

/-- The statement is about a pair of shocks of which `x` is named first. -/
def Shock.isPairOf (x : String) : Shock V → Prop
  | .corr y _ _ | .cov y _ _ => y = x
  | _ => False

/-- The statement is about the pair `x`, `y`, in this order. -/
def Shock.isPair (x y : String) : Shock V → Prop
  | .corr a b _ | .cov a b _ => a = x ∧ b = y
  | _ => False

/-- A shocks block that the covariance matrix can represent: for declared stochastic shocks only,
at most one statement about each variance; each shock is named first in at most one pair, and has
its variance stated when it is; no pair is stated in both orders or of a shock with itself. -/
structure PlainShocks (names : List String) (ss : List (Shock V)) : Prop where
  oneVar : ∀ pre s post, ss = pre ++ s :: post → ∀ x, s.isVarOf x → ∀ t ∈ post, ¬ t.isVarOf x
  onePair : ∀ pre s post, ss = pre ++ s :: post → ∀ x, s.isPairOf x → ∀ t ∈ post, ¬ t.isPairOf x
  hasVar : ∀ s ∈ ss, ∀ x, s.isPairOf x → ∃ t ∈ ss, t.isVarOf x
  declared : ∀ s ∈ ss, ∀ x y, s.isPair x y → x ∈ names ∧ y ∈ names
  proper : ∀ s ∈ ss, ∀ x y, s.isPair x y → x ≠ y ∧ ∀ t ∈ ss, ¬ t.isPair y x

/-- The variance that the block gives the shock `x`: the stated one; one if no statement is about
`x` (first). -/
inductive VarOf [One V] (ops : Ops V) (sq : V → Except Err V) (ρ : String → Option V)
    (ss : List (Shock V)) (x : String) : V → Prop
  | stated {s v} : s ∈ ss → SetsVar ops sq ρ s x v → VarOf ops sq ρ ss x v
  | omitted : (∀ s ∈ ss, ¬ s.isVarOf x ∧ ¬ s.isPairOf x) → VarOf ops sq ρ ss x 1

end Pynare
