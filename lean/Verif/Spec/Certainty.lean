import Verif.Model.Parser
import Verif.Model.Arr
/-!
# Specification vocabulary for model files with different shocks blocks
-/

namespace Pynare

variable {V : Type}

/-- Two model files with the same declarations, parameter values, equations and initval, endval and histval blocks.  Their
shocks blocks may be different. -/
structure DifferInShocks (m m' : ModelFile V) : Prop where
  decls : m'.decls = m.decls
  params : m'.params = m.params
  stmts : m'.stmts = m.stmts
  initval : m'.actions.initval = m.actions.initval
  endval : m'.actions.endval = m.actions.endval
  histval : m'.actions.histval = m.actions.histval

/-- Every entry of `b` is `k` times that of `a`. -/
def Arr.Times [Mul V] (k : V) (a b : Arr V) : Prop :=
  b.r = a.r ∧ b.c = a.c ∧ ∀ i < a.r, ∀ j < a.c, b.e i j = k * a.e i j

end Pynare
