/-!
# Python conventions

Exceptions as values, insertion-ordered dictionaries.
-/

namespace Pynare

/-- The Python exception classes that the modelled code raises.  `exception` is a
bare `Exception` (`/repo/pynare/parsing/base.py:150-151`). -/
inductive Err where
  | keyError | typeError | nameError | attributeError | syntaxError | pynareSyntaxError
  | valueError | indexError | notImplemented | exception | calibrationError
  | unboundLocal | zeroDivision | overflowError | endogIndexError | modelVarError | identification
  | fileNotFound
  deriving DecidableEq, Repr

/-- A Python `dict` with string keys: an association list in insertion order. -/
abbrev Dict (α : Type) := List (String × α)

namespace Dict

variable {α β : Type}

/-- `d.get(k)`: value of the first entry with key `k`. -/
def get? (d : Dict α) (k : String) : Option α :=
  match d with
  | [] => none
  | (k', v) :: d => if k' = k then some v else get? d k

/-- `d.keys()`. -/
def keys (d : Dict α) : List String := d.map Prod.fst

/-- `d[k] = v`: overwrite in place, or append at the end when the key is new. -/
def set (d : Dict α) (k : String) (v : α) : Dict α :=
  match d with
  | [] => [(k, v)]
  | (k', v') :: d => if k' = k then (k', v) :: d else (k', v') :: set d k v

/-- `del d[k]` on a dictionary that has the key. -/
def erase (d : Dict α) (k : String) : Dict α :=
  match d with
  | [] => []
  | (k', v') :: d => if k' = k then d else (k', v') :: erase d k

end Dict
end Pynare
