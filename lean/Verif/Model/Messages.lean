import Verif.Model.Calib
import Verif.Model.FirstOrder
/-!
# Messages of exceptions

The texts made in `/repo/pynare/errors/__init__.py`, and with which arguments.
-/

namespace Pynare

/-- A number in a formatted text, or `None`; `/repo/pynare/errors/__init__.py:39,47-48`. -/
def shownNum : Option Nat → List Char
  | none => "None".toList
  | some n => Nat.toDigits 10 n

/-- The first argument of `ModelIdentificationError`, `/repo/pynare/errors/__init__.py:34`: nothing, a text or a number. -/
inductive BkArg where
  | missing
  | text (s : String)
  | num (n : Nat)
  deriving DecidableEq, Repr

/-- `ModelIdentificationError.__init__`, `/repo/pynare/errors/__init__.py:33-51`. -/
def identText (bk : BkArg) (n0 n1 : Option Nat) : List Char :=
  if bk = .text "order" then
    "model does not satisfy Blanchard-Kahn (1980) order condition: ".toList ++ shownNum n0 ++
      " explosive eigenvalues and ".toList ++ shownNum n1 ++ " forward-facing variables".toList
  else if bk = .text "rank" then "model does not satisfy Blanchard-Kahn (1980) rank condition".toList
  else "rank condition not met: model has rank ".toList ++ shownNum n0 ++ " and there are ".toList ++ shownNum n1 ++
    " static variables".toList

/-- `CalibrationError.__init__`, `/repo/pynare/errors/__init__.py:69-74`. -/
def unsolvedText (n : Nat) : List Char :=
  "could not solve parameter calibration: ".toList ++ Nat.toDigits 10 n ++ " unsolved ".toList ++
    (if n > 1 then "parameters".toList else "parameter".toList)

/-- The message with which `order_precedence` fails, if it fails with `CalibrationError`;
`/repo/pynare/core/variables.py:946-984`, as in `orderPrecedence`. -/
def orderText (rhs : Dict (List String)) : Except Err (Option (List Char)) := do
  let p0 := initPrec rhs
  let nFuncs := p0.length - (p0.map Prod.snd).sum
  let st ← loopPrec rhs (nFuncs * (nFuncs + 1) / 2) (p0, nFuncs)
  if (st.1.map Prod.snd).any (fun p => p == 0) then .ok (some (unsolvedText st.2))
  else .ok none

section
variable {V : Type}

/-- The message with which the computation of the state space is refused because of the static variables, if it is;
`/repo/pynare/core/solve/statespace.py:146-152`, as in `rotated`. -/
def staticText (la : LinAlg V) (t : Typer) (J : Arr V) : Except Err (Option (List Char)) :=
  let ns := t.timed t.static 1
  if ns = [] then .ok none
  else do
    let js ← J.cols ns
    let (_, R) ← la.qr js
    if la.rank R ≠ t.nStatic then .ok (some (identText (.num (la.rank R)) (some t.nStatic) none))
    else .ok none

/-- The message with which the first check of a state space fails, if it fails;
`/repo/pynare/core/solve/statespace.py:54-72`, as in `Space.verify`. -/
def verifyText (la : LinAlg V) (t : Typer) (s : Space V) : Option (List Char) :=
  let explosive := s.parts.eigs.countP fun x => x.big || x.inf
  if explosive ≠ t.nForward then some (identText (.text "order") (some explosive) (some t.nForward))
  else if la.rank s.parts.Z22 ≠ s.parts.Z22.r then some (identText (.text "rank") none none)
  else none

end

end Pynare
