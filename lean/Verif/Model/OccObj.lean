import Verif.Model.OccBin
/-!
# Objects that hold a constrained solution

Mirrors `OccBinSolution` in `/repo/pynare/core/solve/binding.py`.
-/

namespace Pynare

variable {V : Type}

/-- The two tests of one constraint, `/repo/pynare/core/solve/binding.py:117-118`, `125-126`: the first asks for the
alternative regime, the second for the reference regime. -/
structure RowTest (V : Type) where
  binds : (Nat → V) → Bool
  relaxes : (Nat → V) → Bool

/-- An `OccBinSolution`, `/repo/pynare/core/solve/binding.py:137-181`, when its model is a regime-switching model: the
arrays of the regimes, the constraints, the shocks, the starting point and the paths.  Simplified: the arrays of the
regimes and the decision rules are computed in each call of `solve`, here they are given; the shocks are given as
functions of the number of the exogenous variable. -/
structure OccObj (V : Type) where
  regimes : List (Regime V)
  tests : List (RowTest V)
  shocks : List (Nat → V)
  init : Nat → V
  paths : Option (List (Nat → V))

section
variable [Zero V] [One V] [Add V] [Mul V] [Neg V]

/-- `periods = len(shocks) if not periods else periods`, `/repo/pynare/core/solve/binding.py:788`. -/
def OccObj.periods (o : OccObj V) : Option Nat → Nat
  | some (k + 1) => k + 1
  | _ => o.shocks.length

/-- The call that fits the number of constraints, `/repo/pynare/core/solve/binding.py:196-218`; `mds[1]` to `mds[3]` are
read before the check of the number of constraints in line 427. -/
def OccObj.run (la : LinAlg V) (gy gu : Arr V) (o : OccObj V) (periods maxIter : Nat) (restrained : Bool) :
    Except Err (List (Nat → V)) :=
  match o.tests with
  | [c] => match o.regimes with
    | ref :: alt :: _ => occbinOne la gy gu ref alt c.binds c.relaxes periods maxIter o.init o.shocks
    | _ => .error .indexError
  | cs => match o.regimes with
    | ref :: alt0 :: alt1 :: dbl :: _ => match cs with
      | [c, d] => occbinTwo la gy gu ref alt0 alt1 dbl c.binds c.relaxes d.binds d.relaxes restrained periods maxIter
          o.init o.shocks
      | _ => .error .valueError
    | _ => .error .indexError

/-- `OccBinSolution.solve`, `/repo/pynare/core/solve/binding.py:184-223`: the paths are kept, and the shocks are
overwritten by those returned, which are filled up with zeros (lines 359-366, 542-549). -/
def OccObj.solve (la : LinAlg V) (gy gu : Arr V) (o : OccObj V) (periods : Option Nat) (maxIter : Nat)
    (restrained : Bool) : OccObj V × Except Err (List (Nat → V)) :=
  match o.run la gy gu (o.periods periods) maxIter restrained with
  | .error e => (o, .error e)
  | .ok rows =>
    ({ o with
        paths := some rows
        shocks := o.shocks ++ List.replicate (o.periods periods - o.shocks.length) fun _ => 0 }, .ok rows)

end

end Pynare
