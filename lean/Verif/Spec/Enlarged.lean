import Verif.Spec.Rewritten
/-!
# Specification vocabulary for model files with further variables and equations
-/

namespace Pynare

variable {V : Type}

/-- The name occurs in an equation of the file. -/
def UsedIn (m : ModelFile V) (x : String) : Prop :=
  ∃ l r, (l, r) ∈ equations m.stmts ∧ (x ∈ l.vars ∨ x ∈ r.vars ∨ ∃ o, (x, o) ∈ l.pvars ∨ (x, o) ∈ r.pvars)

/-- The file `m` contains the variables, the shocks and the equations of the file `m'`, possibly among others, and what
the names in the equations of `m'` stand for is the same in both; `σ` and `σ'` are the values of the parameters and local
variables. -/
structure Enlarges (m : ModelFile V) (σ : String → Option V) (m' : ModelFile V) (σ' : String → Option V) : Prop where
  vars : m'.names "var" ⊆ m.names "var"
  shocks : m'.names "varexo" ⊆ m.names "varexo"
  equations : equations m'.stmts ⊆ equations m.stmts
  values : ∀ x, UsedIn m' x → σ x = σ' x
  kinds : ∀ x, UsedIn m' x →
    (x ∈ m.names "var" → x ∈ m'.names "var") ∧ (x ∈ m.names "varexo" → x ∈ m'.names "varexo")

end Pynare
