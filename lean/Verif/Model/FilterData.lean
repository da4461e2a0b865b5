import Verif.Model.Filter
/-!
# The data given to a filter: `/repo/pynare/stats/filters.py`
-/

namespace Pynare

variable {V : Type}

/-- What may be given as `data`, `/repo/pynare/stats/filters.py:24-29,292-315`: a NumPy array (or nested lists) of one or two
dimensions, a pandas `DataFrame` with names for its columns, or a pandas `Series`, which may have a name.  Simplification:
arrays of other dimensions, and frames whose labels are not texts, are left out. -/
inductive DataArg (V : Type) where
  | vector (n : Nat) (v : Nat → V)
  | array (a : Arr V)
  | frame (labels : List String) (a : Arr V)
  | series (name : Option String) (n : Nat) (v : Nat → V)

/-- The array made of the data: of one dimension or two. -/
inductive RawData (V : Type) where
  | one (n : Nat) (v : Nat → V)
  | two (a : Arr V)

/-- `_preprocess_data`, `/repo/pynare/stats/filters.py:292-315`.  The label `none` is the number `0`, which `to_frame` gives the
column of a series without a name. -/
def preprocessData : DataArg V → RawData V × List (Option String)
  | .vector n v => (.one n v, [])
  | .array a => (.two a, [])
  | .frame labels a => (.two a, labels.map some)
  | .series name n v => (.two ⟨n, 1, fun i _ => v i⟩, [name])

/-- `obs.get_loc(labels)`, `/repo/pynare/core/variables.py:108-118`: positions of labels that are names of observed variables. -/
def labelIdx (obs : List String) (labels : List (Option String)) : Except Err (List Nat) := nameIdx obs (labels.filterMap id)

/-- `lb in self.obs`, `/repo/pynare/stats/filters.py:57` with `/repo/pynare/core/variables.py:73-78`: false of a number. -/
def isObserved (obs : List String) : Option String → Bool
  | some l => decide (l ∈ obs)
  | none => false

/-- The rest of `ModelFilter.__init__`, `/repo/pynare/stats/filters.py:45-70`.  Without labels `self.data.shape[1]` is an
`IndexError` for data of one dimension; with labels the data have two. -/
def modelFilterData (obs : List String) (d : DataArg V) : Except Err (Arr V) :=
  match preprocessData d with
  | (.one _ _, _) => .error .indexError
  | (.two a, labels) =>
    if labels = [] then
      if a.c ≠ obs.length then .error .valueError else .ok a
    else if labels.length ≠ obs.length then .error .valueError
    else if ¬ labels.all (isObserved obs) then .error .nameError
    else do
      let idx ← labelIdx obs labels
      a.cols idx

end Pynare
