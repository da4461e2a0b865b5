import Verif.Spec.Whole
import Verif.Spec.Order
/-!
# Specification vocabulary for model files written in another order
-/

namespace Pynare

variable {V : Type}

/-- The file `m'` declares the same names and has the same equations as `m`, in another order; its assignments and local
definitions, whose order matters, are the same.  (Initial values and the like may differ.) -/
structure Reordered (m m' : ModelFile V) : Prop where
  decls : m'.decls.Perm m.decls
  params : m'.params = m.params
  locals : localsOf m'.stmts = localsOf m.stmts
  equations : (equations m'.stmts).Perm (equations m.stmts)

section
variable [Field V] [LinearOrder V]

/-- The equations of the file hold at rest for the values `a` of the variables, and for no others. -/
def OneRest (ops : Ops V) (m : ModelFile V) (σ : String → Option V) (a : String → V) : Prop :=
  ∀ ys : List V, ys.length = (m.names "var").length →
    ((∀ l r, (l, r) ∈ equations m.stmts → GapIs ops m σ (levelsAt ys noDev) l r 0) ↔ ys = (m.names "var").map a)

/-- The state space of the model passes the check, and none of its eigenvalues has modulus one. -/
structure PassesCheck {S : Type} (φ : V →+* ℂ) (la : LinAlg V) (md : MState V (ModelSpace V) S) : Prop where
  verified : md.statespace.space.verify la md.indexes.toTyper = .ok ()
  eigen : ∃ q ev, la.ordqz md.statespace.space.rhs md.statespace.space.lhs = .ok q ∧ q.Eigen φ ev ∧
    NoUnitRoot q.eigs.length ev

end

end Pynare
