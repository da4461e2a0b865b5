import Verif.Model.Exprs
import Verif.Model.Report
/-!
# The printed equations of a model

Mirrors `ModelExprs.__str__` (`/repo/pynare/core/expressions.py:85-102`), which `str(model.exprs)` and
`print(model.exprs)` call.
-/

namespace Pynare

variable {V : Type}

/-- `s.split(c)` for a single character, used in `/repo/pynare/core/expressions.py:88`. -/
def splitOnChar (c : Char) : Txt → List Txt
  | [] => [[]]
  | x :: xs =>
    if x = c then [] :: splitOnChar c xs
    else match splitOnChar c xs with
      | [] => [[x]]
      | p :: ps => (x :: p) :: ps

/-- `s.strip()`, used in `/repo/pynare/core/expressions.py:89-90`; `isSpace` is Python's `str.isspace`. -/
def strip (isSpace : Char → Bool) (t : Txt) : Txt :=
  ((t.dropWhile isSpace).reverse.dropWhile isSpace).reverse

/-- One round of the first loop, `/repo/pynare/core/expressions.py:87-90`: unpacking anything but two parts raises
`ValueError`. -/
def exprSides (isSpace : Char → Bool) (s : Txt) : Except Err (Txt × Txt) :=
  match splitOnChar '=' s with
  | [l, r] => .ok (strip isSpace l, strip isSpace r)
  | _ => .error .valueError

/-- The first loop, `/repo/pynare/core/expressions.py:86-90`. -/
def sidesLoop (isSpace : Char → Bool) : List String → Except Err (List (Txt × Txt))
  | [] => .ok []
  | s :: ss => do
    let p ← exprSides isSpace s.toList
    let ps ← sidesLoop isSpace ss
    .ok (p :: ps)

/-- `ModelExprs.__str__`, `/repo/pynare/core/expressions.py:85-102`; `max` of nothing raises `ValueError` (`maxLen`). -/
def exprsText (isSpace : Char → Bool) (m : ModelExprs V) : Except Err Txt := do
  let ps ← sidesLoop isSpace m.strs
  let width ← maxLen (ps.map Prod.fst)
  .ok (joinTxt ['\n'] ("Model Expressions".toList ::
    ps.map fun p => List.replicate 4 ' ' ++ joinTxt [' ', '=', ' '] [ljust width p.1, p.2]))

end Pynare
