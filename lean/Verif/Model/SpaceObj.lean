import Verif.Model.Stats
/-!
# The state space as an object

`StateSpace` objects remember whether they were checked, and keep computed properties
(`/repo/pynare/core/solve/statespace.py:39-108`).  The model and its solution do not change between
requests here (a change of the model makes a new `StateSpace`, `/repo/pynare/core/generic.py:438`).
-/

namespace Pynare

variable {V : Type}

/-- The attributes of a `StateSpace` that change: `is_verified` (`none` is Python's `None`) and the cached
properties `kalman_transition` and `sigma`. -/
structure SpaceObj (V : Type) where
  space : Space V
  verified : Option Bool := none
  kalman : Option (Arr V × Arr V) := none
  sigma : Option (Arr V) := none

section
variable [Zero V] [One V] [Add V] [Mul V]

/-- `verify`, `/repo/pynare/core/solve/statespace.py:44-72`: the conditions are looked at only if they have
not been looked at before. -/
def SpaceObj.verify (la : LinAlg V) (t : Typer) (o : SpaceObj V) : SpaceObj V × Except Err Unit :=
  match o.verified with
  | some _ => (o, .ok ())
  | none => match o.space.verify la t with
    | .ok _ => ({ o with verified := some true }, .ok ())
    | .error e => ({ o with verified := some false }, .error e)

/-- The computation of `kalman_transition`, `/repo/pynare/core/solve/statespace.py:96-108`; simplified as
`kalmanTransition`. -/
def kalmanArrays (t : Typer) (gy gu : Arr V) : Except Err (Arr V × Arr V) := do
  let A ← gy.storedRows (t.permute t.drOrder).state
  if A.c ≠ A.r then .error .valueError
  else do
    let B ← gu.storedRows (t.permute t.drOrder).state
    .ok (A, B)

/-- `kalman_transition`, `/repo/pynare/core/solve/statespace.py:90-108`: a value that was computed once is
kept, an exception is not. -/
def SpaceObj.readKalman (la : LinAlg V) (t : Typer) (gy gu : Arr V) (o : SpaceObj V) :
    SpaceObj V × Except Err (Arr V × Arr V) :=
  match o.kalman with
  | some AB => (o, .ok AB)
  | none => match o.verify la t with
    | (o', .error e) => (o', .error e)
    | (o', .ok _) => match kalmanArrays t gy gu with
      | .error e => (o', .error e)
      | .ok AB => ({ o' with kalman := some AB }, .ok AB)

/-- `sigma`, `/repo/pynare/core/solve/statespace.py:74-88`. -/
def SpaceObj.readSigma (la : LinAlg V) (lyap : Lyap V) (t : Typer) (gy gu sigma : Arr V) (o : SpaceObj V) :
    SpaceObj V × Except Err (Arr V) :=
  match o.sigma with
  | some X => (o, .ok X)
  | none => match o.verify la t with
    | (o', .error e) => (o', .error e)
    | (o', .ok _) => match o'.readKalman la t gy gu with
      | (o'', .error e) => (o'', .error e)
      | (o'', .ok AB) => match sandwich AB.2 sigma >>= lyap AB.1 with
        | .error e => (o'', .error e)
        | .ok X => ({ o'' with sigma := some X }, .ok X)

/-- What can be asked of a `StateSpace`. -/
inductive Request where
  | transition
  | variance

/-- Arrays of the answer. -/
abbrev Answer (V : Type) := List (Arr V)

/-- One request. -/
def SpaceObj.ask (la : LinAlg V) (lyap : Lyap V) (t : Typer) (gy gu sigma : Arr V) (r : Request)
    (o : SpaceObj V) : SpaceObj V × Except Err (Answer V) :=
  match r with
  | .transition => match o.readKalman la t gy gu with
    | (o', .ok AB) => (o', .ok [AB.1, AB.2])
    | (o', .error e) => (o', .error e)
  | .variance => match o.readSigma la lyap t gy gu sigma with
    | (o', .ok X) => (o', .ok [X])
    | (o', .error e) => (o', .error e)

/-- Several requests, one after another; exceptions are caught by the caller. -/
def SpaceObj.askAll (la : LinAlg V) (lyap : Lyap V) (t : Typer) (gy gu sigma : Arr V) :
    List Request → SpaceObj V → List (Except Err (Answer V))
  | [], _ => []
  | r :: rs, o => (o.ask la lyap t gy gu sigma r).2 ::
      askAll la lyap t gy gu sigma rs (o.ask la lyap t gy gu sigma r).1

end

end Pynare
