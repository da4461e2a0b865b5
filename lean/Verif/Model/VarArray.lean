import Verif.Model.ModelObj
import Verif.Model.Report
/-!
# Collections of variables, and how variables are printed

Mirrors `VarArray` (`/repo/pynare/core/variables.py:20-84`) and the texts of single variables
(`/repo/pynare/core/variables.py:139-144, 181-187, 215-225, 242-244`).
-/

namespace Pynare

variable {V : Type}

/-! ### collections -/

/-- What a collection may be asked to hold: an object with a name and a type (`ModelVar`,
`/repo/pynare/core/variables.py:130-137`), or one without these attributes. -/
inductive VarItem where
  | var (name vtype : String)
  | other

/-- `v.name`, `/repo/pynare/core/variables.py:29-32`: the `AttributeError` is turned into a `TypeError`. -/
def VarItem.getName : VarItem → Except Err String
  | .var n _ => .ok n
  | .other => .error .typeError

/-- `v.vtype`, `/repo/pynare/core/variables.py:34-37`. -/
def VarItem.getType : VarItem → Except Err String
  | .var _ t => .ok t
  | .other => .error .typeError

/-- `VarArray`, `/repo/pynare/core/variables.py:20-49`: the objects with the two attributes that are stored. -/
structure VarArr where
  items : List VarItem
  vtype : String
  names : List String

/-- `VarArray(variables)`, `/repo/pynare/core/variables.py:22-49`.  One-dimensional arguments only. -/
def VarArr.create (xs : List VarItem) : Except Err VarArr := do
  let names ← makeAll VarItem.getName xs
  let vtypes ← makeAll VarItem.getType xs
  match vtypes with
  | [] => .ok ⟨xs, "", names⟩
  | first :: _ => if vtypes.count first ≠ vtypes.length then .error .typeError else .ok ⟨xs, first, names⟩

/-- What can be looked for in a collection, `/repo/pynare/core/variables.py:73-78`. -/
inductive VarKey where
  | str (x : String)
  | var (name vtype : String)
  | other

/-- `key in variables`, `/repo/pynare/core/variables.py:73-78`. -/
def VarArr.contains (a : VarArr) : VarKey → Bool
  | .str x => a.names.contains x
  | .var n _ => a.names.contains n
  | .other => false

/-- the objects at some positions; a position that does not exist is an `IndexError` -/
def pickItems (xs : List VarItem) : List Nat → Except Err (List VarItem)
  | [] => .ok []
  | i :: is => match xs[i]? with
    | none => .error .indexError
    | some x => do .ok (x :: (← pickItems xs is))

/-- `variables[positions]` for a list of positions from the front: numpy makes an array of the same class of the chosen
objects, so that `__array_finalize__` (`/repo/pynare/core/variables.py:28-49`) is run on it. -/
def VarArr.select (a : VarArr) (is : List Nat) : Except Err VarArr := do
  VarArr.create (← pickItems a.items is)

/-! ### printing -/

/-- the text of a number or of `None` -/
def optText (shw : V → Txt) : Option V → Txt
  | some v => shw v
  | none => "None".toList

/-- one entry of `bounds_dict`, `/repo/pynare/core/variables.py:182-186` -/
def boundText (shw : V → Txt) (tag : Txt) : Option V → List Txt
  | some v => [tag ++ shw v]
  | none => []

/-- `EndogVar.__repr__`, `/repo/pynare/core/variables.py:181-187`; `shw` is the text of a number. -/
def Endog.text (shw : V → Txt) (x : Endog V) : Txt :=
  "EndogVar(".toList ++ x.name.toList ++ ", ".toList ++ joinTxt ", ".toList
    (boundText shw "initial=".toList x.initial ++ boundText shw "terminal=".toList x.terminal ++
      boundText shw "historical=".toList x.historical) ++ ")".toList

/-- `StochVar.__repr__`, `/repo/pynare/core/variables.py:215-225`: a correlation of zero is false. -/
def Stoch.text [Zero V] [DecidableEq V] (shw : V → Txt) (s : Stoch V) : Txt :=
  if s.other ≠ "" then
    let c : Txt × Option V := if s.corr ≠ none ∧ s.corr ≠ some 0 then ("corr".toList, s.corr) else ("cov".toList, s.cov)
    "StochVar(".toList ++ s.name.toList ++ ", variance=".toList ++ optText shw s.variance ++ ", ".toList ++ c.1 ++
      "(".toList ++ s.name.toList ++ ", ".toList ++ s.other.toList ++ ")=".toList ++ optText shw c.2 ++ ")".toList
  else "StochVar(".toList ++ s.name.toList ++ ", variance=".toList ++ optText shw s.variance ++ ")".toList

/-- `VarArray.__str__`, `/repo/pynare/core/variables.py:83-84`. -/
def VarArr.text (a : VarArr) : Txt :=
  "VarArray([".toList ++ joinTxt ", ".toList (a.names.map String.toList) ++ "], vtype=".toList ++ a.vtype.toList ++ ")".toList

end Pynare
