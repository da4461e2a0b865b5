import Verif.Model.Factory
/-!
# Stochastic variables and the covariance matrix of the shocks

Mirrors `StochVar` and `_create_stoch_vars`, `/repo/pynare/core/variables.py:200-223,313-357`, and
`DynamicModel._define_sigma`, `/repo/pynare/core/generic.py:395-424`.  The numbers are floats, on
which numpy's product and square root do not raise.
-/

namespace Pynare

variable {V : Type}

/-- `StochVar`, `/repo/pynare/core/variables.py:200-213`. -/
structure Stoch (V : Type) where
  name : String
  other : String := ""
  variance : Option V := none
  corr : Option V := none
  cov : Option V := none

/-- `_create_stoch` for a name, `/repo/pynare/core/variables.py:340-346`. -/
def createStoch [One V] (shocks : Dict (ShockDict V)) (x : String) : Stoch V :=
  match shocks.get? x with
  | some d => ⟨x, d.other.getD "", d.variance, d.corr, d.cov⟩
  | none => { name := x, variance := some 1 }

/-- `_create_stoch_vars` for a list of names, `/repo/pynare/core/variables.py:348-350`. -/
def createStochs [One V] (shocks : Dict (ShockDict V)) (names : List String) : List (Stoch V) :=
  names.map (createStoch shocks)

/-- A square array of numbers; the positions outside the array are never read. -/
abbrev Sig (V : Type) := Nat → Nat → V

/-- `np.where(stoch_names == other)[0]`, `/repo/pynare/core/generic.py:413`. -/
def whereName (shks : List (Stoch V)) (other : String) : List Nat :=
  (List.range shks.length).filter fun k => (shks[k]?.map Stoch.name) == some other

/-- `sig[i, j], sig[j, i] = v, v` for one index `j`. -/
def setPair (sig : Sig V) (i j : Nat) (v : V) : Sig V :=
  fun a b => if (a = i ∧ b = j) ∨ (a = j ∧ b = i) then v else sig a b

/-- `sig[i, j], sig[j, i] = cov, cov` for an index array `j` and an array `cov`,
`/repo/pynare/core/generic.py:416,422`.  The indices are distinct, so the order does not matter. -/
def setPairs (sig : Sig V) (i : Nat) (jv : List (Nat × V)) : Sig V :=
  jv.foldl (fun s p => setPair s i p.1 p.2) sig

/-- The first loop of `_define_sigma`, `/repo/pynare/core/generic.py:403-409`. -/
def sigmaDiag [Zero V] (shks : List (Stoch V)) : Sig V :=
  fun a b => if a = b then ((shks[a]?.bind Stoch.variance).getD 0) else 0

/-- First half of the body of the second loop, `/repo/pynare/core/generic.py:412-416`.
`None * array` raises `TypeError` unless the array is empty. -/
def corrStep [Mul V] (sqrt : V → V) (js : List Nat) (sig : Sig V) (i : Nat) (shk : Stoch V) :
    Except Err (Sig V) :=
  match shk.corr with
  | some c => match shk.variance with
    | some v => .ok (setPairs sig i (js.map fun k => (k, sqrt (v * sig k k) * c)))
    | none => if js = [] then .ok sig else .error .typeError
  | none => .ok sig

/-- Second half of the body of the second loop, `/repo/pynare/core/generic.py:418-422`. -/
def covStep (js : List Nat) (sig : Sig V) (i : Nat) (shk : Stoch V) : Except Err (Sig V) :=
  match shk.cov with
  | some c => .ok (setPairs sig i (js.map fun k => (k, c)))
  | none => .ok sig

/-- Body of the second loop, `/repo/pynare/core/generic.py:412-422`. -/
def sigmaStep [Mul V] (sqrt : V → V) (shks : List (Stoch V)) (sig : Sig V) (i : Nat)
    (shk : Stoch V) : Except Err (Sig V) := do
  let js := whereName shks shk.other
  let sig ← corrStep sqrt js sig i shk
  covStep js sig i shk

/-- The second loop after `t` steps, `/repo/pynare/core/generic.py:411-422`. -/
def sigmaLoop [Zero V] [Mul V] (sqrt : V → V) (shks : List (Stoch V)) : Nat → Except Err (Sig V)
  | 0 => .ok (sigmaDiag shks)
  | t + 1 => do
    let sig ← sigmaLoop sqrt shks t
    match shks[t]? with
    | some shk => sigmaStep sqrt shks sig t shk
    | none => .ok sig

/-- `_define_sigma`, `/repo/pynare/core/generic.py:395-424`. -/
def defineSigma [Zero V] [Mul V] (sqrt : V → V) (shks : List (Stoch V)) : Except Err (Sig V) :=
  sigmaLoop sqrt shks shks.length

end Pynare
