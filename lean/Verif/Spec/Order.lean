import Verif.Spec.Stability
import Verif.Spec.Linear
import Verif.Spec.Exprs
/-!
# Specification vocabulary for models written in another order
-/

namespace Pynare

variable {V : Type}

/-- Equations `es` with the endogenous variables `endo` and the shocks `exo`, of the form the residual
functions read as written (see C33): left minus right, every variable occurs in the current period, other
occurrences are lags and leads of one period, all names are those of parameters, variables or shocks, and
there are as many equations as variables. -/
structure PlainModel (σ : String → Option V) (endo exo : List String) (es : List (Expr V)) : Prop where
  distinct : endo.Nodup
  shocks : exo.Nodup
  square : es.length = endo.length
  form : ∀ e ∈ es, ∃ l r, e = .bin .sub l r
  noCmp : ∀ e ∈ es, e.hasCmp = false
  current : ∀ x ∈ endo, ∃ e ∈ es, OccursAt x 0 e
  std : ∀ x ∈ endo, ∀ q, ∀ e ∈ es, OccursAt x q e → q = -1 ∨ q = 0 ∨ q = 1
  names : ∀ e ∈ es, ∀ x ∈ e.vars, σ x ≠ none ∨ x ∈ endo ∨ x ∈ exo
  offsets : ∀ e ∈ es, ∀ x o, (x, o) ∈ e.pvars → x ∈ endo ∧ (o = -1 ∨ o = 1)

/-- The jacobian `J` of the model with equations `es`, differentiated at the steady state `ss` by `ad`; `t` is
its table of leads and lags. -/
structure JacobianOf [Zero V] (ops : Ops V) (okName : String → Bool) (ad : Autograd V) (σ : String → Option V)
    (endo exo : List String) (es : List (Expr V)) (ss : List V) (t : Llx) (J : Arr V) : Prop where
  plain : PlainModel σ endo exo es
  table : modelLlx endo es = .ok t
  jacobian : ∃ fs, dynamicFuncs ops okName endo exo t.toTyper σ es = .ok fs ∧
    modelJacobian ad t.toTyper exo.length fs ss = .ok J

/-- The model with equations `es`, solved to first order: `gy`, `gu` is the solution.  It passes the check of
its state space `s`, and none of the eigenvalues `ev` has modulus one. -/
structure SolvedModel [Field V] (φ : V →+* ℂ) (ops : Ops V) (okName : String → Bool) (ad : Autograd V)
    (la : LinAlg V) (σ : String → Option V) (endo exo : List String) (es : List (Expr V)) (ss : List V)
    (t : Llx) (J gy gu : Arr V) (s : Space V) (q : QZ V) (ev : Nat → Option ℂ) : Prop extends
    JacobianOf ops okName ad σ endo exo es ss t J where
  space : Space.create la t.toTyper J = .ok s
  solved : solveFirstOrder la t exo.length s = .ok (gy, gu)
  verified : s.verify la t.toTyper = .ok ()
  decomposed : la.ordqz s.rhs s.lhs = .ok q
  eigen : q.Eigen φ ev
  noUnit : NoUnitRoot q.eigs.length ev

/-- The model with equations `es`, whose state space `s` was built, checked or not; none of the eigenvalues
`ev` has modulus one. -/
structure ExaminedModel [Field V] (φ : V →+* ℂ) (ops : Ops V) (okName : String → Bool) (ad : Autograd V)
    (la : LinAlg V) (σ : String → Option V) (endo exo : List String) (es : List (Expr V)) (ss : List V)
    (t : Llx) (J : Arr V) (s : Space V) (q : QZ V) (ev : Nat → Option ℂ) : Prop extends
    JacobianOf ops okName ad σ endo exo es ss t J where
  space : Space.create la t.toTyper J = .ok s
  decomposed : la.ordqz s.rhs s.lhs = .ok q
  eigen : q.Eigen φ ev
  noUnit : NoUnitRoot q.eigs.length ev

/-- The numbers that belong to the names in a list, in the order of the list. -/
def byName (names : List String) (a : String → V) (i : Nat) : V := a (names[i]?.getD "")

/-- Two lists of numbers give the same number to every name, the names being in different order. -/
def SameByName (names names' : List String) (a a' : Nat → V) : Prop :=
  ∀ (i i' : Nat) x, names[i]? = some x → names'[i']? = some x → a i = a' i'

/-- The variables in the order in which the solution lists them: the names of the rows of its arrays. -/
def ruleNames (t : Typer) (endo : List String) : List String := t.drOrder.map fun c => endo[c]?.getD ""

/-- The state variables in the order in which the solution lists them: the names of the columns of the
responses to last period's values. -/
def stateNames (t : Typer) (endo : List String) : List String := t.drState.map fun c => endo[c]?.getD ""

/-- What `linalg.cholesky` promises: an upper factor with a positive diagonal. -/
structure CholUpper [Zero V] [One V] [Add V] [Mul V] [LT V] (chol : Chol V) : Prop where
  exact : CholExact chol
  upper : ∀ s u, chol s = .ok u → ∀ i < s.r, ∀ j < i, u.e i j = 0
  positive : ∀ s u, chol s = .ok u → ∀ i < s.r, 0 < u.e i i

/-- The shocks are uncorrelated. -/
def Uncorrelated [Zero V] (sigma : Arr V) : Prop := ∀ i < sigma.r, ∀ j < sigma.r, i ≠ j → sigma.e i j = 0

/-- Two square arrays with a row and a column for each name hold the same numbers for the same names. -/
def SameSquare (names names' : List String) (a a' : Arr V) : Prop :=
  ∀ (i i' j j' : Nat) x y, names[i]? = some x → names'[i']? = some x → names[j]? = some y →
    names'[j']? = some y → a.e i j = a'.e i' j'

end Pynare
