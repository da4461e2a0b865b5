import Verif.Model.VarArray
/-!
# Specification vocabulary for collections of variables and their texts
-/

namespace Pynare

variable {V : Type}

/-- The object is a variable with this name. -/
def Named (n : String) (x : VarItem) : Prop := ∃ t, x = .var n t

/-- The object is a variable of this type. -/
def OfType (t : String) (x : VarItem) : Prop := ∃ n, x = .var n t

/-- Texts of numbers can be told apart, are not the word `None`, and contain no comma or closing parenthesis. -/
structure Legible (shw : V → Txt) : Prop where
  inj : ∀ v w, shw v = shw w → v = w
  none : ∀ v, shw v ≠ "None".toList
  comma : ∀ v, ',' ∉ shw v

/-- A name without commas and parentheses. -/
def PlainName (x : String) : Prop := ',' ∉ x.toList ∧ ')' ∉ x.toList

/-- Everything that is stored about the shock is printed: nothing about a second shock is stored without its name, and
with its name either only a covariance or only a correlation other than zero. -/
def Shown [Zero V] (s : Stoch V) : Prop :=
  (s.other = "" → s.corr = none ∧ s.cov = none) ∧
  (s.other ≠ "" → s.corr = none ∨ s.corr ≠ some 0 ∧ s.cov = none)

end Pynare
