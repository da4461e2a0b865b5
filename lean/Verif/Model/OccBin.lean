import Verif.Model.FirstOrder
/-!
# Occasionally binding constraints

Mirrors `/repo/pynare/core/solve/binding.py`.

A constraint is modelled by two tests of one row of the guess (`Constraint.__call__`, lines 108-128,
evaluates its two expressions elementwise): `binds` for the first expression, which asks for the
alternative regime, and `relaxes` for the second, which asks for the reference regime.  Shocks are given as
functions of the number of the exogenous variable, as in `innovs`, lines 617-628.  Warnings are not
modelled, floating point is not modelled.
-/

namespace Pynare

variable {V : Type}

/-! ### locating the regimes -/

/-- The loop of `_locate_regime_changes`, `/repo/pynare/core/solve/binding.py:875-881`, from position `i`
on; `latest` is the last entry of `latest_regime`.  Returns what is appended to `regime_starts` and to
`latest_regime`. -/
def locateFrom (latest : Bool) : Nat → List Bool → List Nat × List Bool
  | _, [] => ([], [])
  | i, b :: bs =>
    if b ≠ latest then
      let (s, l) := locateFrom b (i + 1) bs
      (i :: s, b :: l)
    else locateFrom latest (i + 1) bs

/-- `_locate_regime_changes`, `/repo/pynare/core/solve/binding.py:855-896`: `range(1, len(vec)-1)` leaves
out the last entry.  Without entries `latest_regime[0]` raises `IndexError`. -/
def locateRegimes : List Bool → Except Err (List Nat × List Bool)
  | [] => .error .indexError
  | v :: vs =>
    let (s, l) := locateFrom v 1 vs.dropLast
    .ok (0 :: s, v :: l)

/-! ### the piecewise linear path -/

/-- The arrays of one regime: coefficients of the lead (`A`), of the current (`B`), of the lag (`C`), of
the shocks (`E`), and the constant (`D`). -/
structure Regime (V : Type) where
  A : Arr V
  B : Arr V
  C : Arr V
  E : Arr V
  D : Nat → V

section
variable [Zero V] [One V] [Add V] [Mul V] [Neg V]

/-- `np.dot(a, x)` for a vector `x`. -/
def mulVec (a : Arr V) (x : Nat → V) : Nat → V := fun i => sumTo a.c fun j => a.e i j * x j

/-- `np.matmul(a, b)` for arrays that fit. -/
def matMul (a b : Arr V) : Arr V := ⟨a.r, b.c, fun i j => sumTo a.c fun k => a.e i k * b.e k j⟩

/-- `a + b` for arrays of the same shape. -/
def matAdd (a b : Arr V) : Arr V := ⟨a.r, a.c, fun i j => a.e i j + b.e i j⟩

/-- What is computed for one period: the inverse, `P[:, :, i]` and `D[:, i]`. -/
structure Rule (V : Type) where
  inv : Arr V
  P : Arr V
  D : Nat → V

/-- The rules, `/repo/pynare/core/solve/binding.py:588-603` and `679-705`, for period `last - k`, where
`last` is `last_bound` and `coef i` holds the arrays used in period `i`.  (For the reference regime
the constant is zero; the single-constraint function leaves it out, the other one adds an array of
zeros.) -/
def rules (la : LinAlg V) (gy : Arr V) (coef : Nat → Regime V) (last : Nat) : Nat → Except Err (Rule V)
  | 0 => do
    let r := coef last
    let inv ← la.invChecked (matAdd (matMul r.A gy) r.B)
    .ok ⟨inv, (matMul inv r.C).neg, fun i => - mulVec inv r.D i⟩
  | k + 1 => do
    let next ← rules la gy coef last k
    let r := coef (last - (k + 1))
    let inv ← la.invChecked (matAdd (matMul r.A next.P) r.B)
    .ok ⟨inv, (matMul inv r.C).neg,
      fun i => - mulVec inv (fun i => mulVec r.A next.D i + r.D i) i⟩

/-- `history`, `/repo/pynare/core/solve/binding.py:613-642` and `726-756`, where `rule i` is the rule for
period `i` and `start` is `last_bound + 1`. -/
def history (gy gu : Arr V) (coef : Nat → Regime V) (rule : Nat → Rule V) (start : Nat)
    (init innov : Nat → V) : Nat → Nat → V
  | 0 => init
  | 1 =>
    if 0 < start then
      fun i => mulVec (rule 0).P init i + (rule 0).D i +
        mulVec (matMul (rule 0).inv (coef 0).E).neg innov i
    else fun i => mulVec gy init i + mulVec gu innov i
  | k + 2 =>
    let prev := history gy gu coef rule start init innov (k + 1)
    if k + 1 < start then fun i => mulVec (rule (k + 1)).P prev i + (rule (k + 1)).D i
    else mulVec gy prev

/-- The rule of period `i` when the rules can be computed. -/
def ruleOf (la : LinAlg V) (gy : Arr V) (coef : Nat → Regime V) (start i : Nat) : Rule V :=
  match rules la gy coef (start - 1) (start - 1 - i) with
  | .ok r => r
  | .error _ => ⟨Arr.zeros 0 0, Arr.zeros 0 0, fun _ => 0⟩

/-- Whether the rules can be computed: `linalg.inv` may fail. -/
def rulesDefined (la : LinAlg V) (gy : Arr V) (coef : Nat → Regime V) (start : Nat) : Except Err Unit :=
  if start = 0 then .ok () else (rules la gy coef (start - 1) (start - 1)).map fun _ => ()

/-- The common part of `_simulate_hypothesized_paths` and its version for two constraints,
`/repo/pynare/core/solve/binding.py:579-644,670-758`: the rows of `history[1:]`. -/
def piecewise (la : LinAlg V) (gy gu : Arr V) (coef : Nat → Regime V) (start : Nat)
    (init innov : Nat → V) : Except Err (Nat → Nat → V) :=
  rulesDefined la gy coef start >>= fun _ =>
    .ok fun k => history gy gu coef (ruleOf la gy coef start) start init innov (k + 1)

/-- The arrays used in period `i`, `/repo/pynare/core/solve/binding.py:589-603`: those of the alternative
regime in period `last_bound` whatever the guess says. -/
def coefOne (ref alt : Regime V) (hypo : List Bool) (last : Nat) (i : Nat) : Regime V :=
  if i = last then alt
  else if hypo[i]?.getD false then alt
  else { ref with D := fun _ => 0 }

/-- `_simulate_hypothesized_paths`, `/repo/pynare/core/solve/binding.py:555-644`, together with the call
of `_locate_regime_changes` before it (line 320). -/
def hypothesized (la : LinAlg V) (gy gu : Arr V) (ref alt : Regime V) (init innov : Nat → V)
    (hypo : List Bool) : Except Err (Nat → Nat → V) := do
  let (starts, _) ← locateRegimes hypo
  let start := starts.getLast?.getD 0
  piecewise la gy gu (coefOne ref alt hypo (start - 1)) start init innov

/-- The arrays used in period `i` with two constraints, `/repo/pynare/core/solve/binding.py:679-701`. -/
def coefTwo (ref alt0 alt1 dbl : Regime V) (hypo : List (Bool × Bool)) (last : Nat) (i : Nat) : Regime V :=
  let (b0, b1) := hypo[i]?.getD (false, false)
  if b0 && b1 then dbl
  else if b0 then alt0
  else if i = last then alt1
  else if b1 then alt1
  else { ref with D := fun _ => 0 }

/-- `_simulate_hypothesized_paths_two_constraints`, `/repo/pynare/core/solve/binding.py:648-758`, together
with the calls of `_locate_regime_changes` before it (lines 481-482). -/
def hypothesizedTwo (la : LinAlg V) (gy gu : Arr V) (ref alt0 alt1 dbl : Regime V) (init innov : Nat → V)
    (hypo : List (Bool × Bool)) : Except Err (Nat → Nat → V) := do
  let (starts0, _) ← locateRegimes (hypo.map Prod.fst)
  let (starts1, _) ← locateRegimes (hypo.map Prod.snd)
  let start := max (starts0.getLast?.getD 0) (starts1.getLast?.getD 0)
  piecewise la gy gu (coefTwo ref alt0 alt1 dbl hypo (start - 1)) start init innov

end

/-! ### the loops -/

/-- `~np.all(hypo[constr[:, 0]]) or np.any(constr[hypo, 1])`,
`/repo/pynare/core/solve/binding.py:335`, for the guess `h` and the two tests of each row. -/
def mismatch (h b r : List Bool) : Bool :=
  !((List.zip h b).all fun p => !p.2 || p.1) || (List.zip h r).any fun p => p.1 && p.2

/-- The new guess, `/repo/pynare/core/solve/binding.py:340-342`. -/
def updateHypo (h b r : List Bool) : List Bool :=
  List.zipWith (fun c x => c && !x) (List.zipWith (· || ·) h b) (List.zipWith (· && ·) h r)

/-- The `while` loop, `/repo/pynare/core/solve/binding.py:314-342` and `475-525`: `sim` makes the path of a
guess, `wrong` compares the guess with it, `update` makes the new guess.  Returns the guess, the path
last computed (if any) and `regime_change`; `n` is the number of iterations left. -/
def guessLoop {H P : Type} (sim : H → Except Err P) (wrong : H → P → Bool) (update : H → P → H) :
    Nat → H → Option P → Except Err (H × Option P × Bool)
  | 0, h, g => .ok (h, g, true)
  | n + 1, h, _ => do
    let g ← sim h
    if wrong h g then guessLoop sim wrong update n (update h g) (some g)
    else .ok (update h g, some g, false)

/-- The loop over the shocks, `/repo/pynare/core/solve/binding.py:309-348` and `470-531`: `solve` is the
`while` loop for an initial point and a shock, `shift` drops the first period of the guess and appends
the reference regime.  `idx` is the row to be filled next; rows beyond `periods` raise `IndexError`.
Without an iteration `guess` is not defined.  Returns the rows filled and the last path. -/
def shockLoop {H : Type} (periods : Nat)
    (solve : (Nat → V) → (Nat → V) → H → Except Err (H × Option (Nat → Nat → V) × Bool)) (shift : H → H) :
    List (Nat → V) → Nat → H → (Nat → V) → Option (Nat → Nat → V) →
      Except Err (List (Nat → V) × Option (Nat → Nat → V))
  | [], _, _, _, g => .ok ([], g)
  | s :: ss, idx, h, init, _ => do
    let (h', g, _) ← solve init s h
    match g with
    | none => .error .unboundLocal
    | some g =>
      if idx < periods then do
        let (rows, last) ← shockLoop periods solve shift ss (idx + 1) (shift h') (g 0) (some g)
        .ok (g 0 :: rows, last)
      else .error .indexError

/-- The rows returned, `/repo/pynare/core/solve/binding.py:355-358` and `538-541`; `nShocks` is the number
of rows filled by the loop. -/
def fillRest (periods nShocks : Nat) (rows : List (Nat → V)) (last : Option (Nat → Nat → V)) :
    Except Err (List (Nat → V)) :=
  if nShocks < periods then
    match last with
    | none => .error .unboundLocal
    | some g => .ok (rows ++ (List.range (periods - nShocks)).map fun k => g (k + 1))
  else .ok rows

section
variable [Zero V] [One V] [Add V] [Mul V] [Neg V]

/-- `constraint(guess)`: the tests of the `periods + 1` rows of the guess. -/
def tests (periods : Nat) (test : (Nat → V) → Bool) (g : Nat → Nat → V) : List Bool :=
  (List.range (periods + 1)).map fun k => test (g k)

/-- The `while` loop for one date, `/repo/pynare/core/solve/binding.py:314-342`: from the initial point,
the shock of the date and a first guess. -/
def solveOne (la : LinAlg V) (gy gu : Arr V) (ref alt : Regime V) (binds relaxes : (Nat → V) → Bool)
    (periods maxIter : Nat) (init s : Nat → V) (h : List Bool) :
    Except Err (List Bool × Option (Nat → Nat → V) × Bool) :=
  guessLoop (hypothesized la gy gu ref alt init s)
    (fun h g => mismatch h (tests periods binds g) (tests periods relaxes g))
    (fun h g => updateHypo h (tests periods binds g) (tests periods relaxes g)) maxIter h none

/-- `solve_occbin_one_constraint`, `/repo/pynare/core/solve/binding.py:309-358`, from the decision rules
and the arrays of the two regimes on. -/
def occbinOne (la : LinAlg V) (gy gu : Arr V) (ref alt : Regime V) (binds relaxes : (Nat → V) → Bool)
    (periods maxIter : Nat) (init : Nat → V) (shocks : List (Nat → V)) : Except Err (List (Nat → V)) := do
  let (rows, last) ← shockLoop periods (solveOne la gy gu ref alt binds relaxes periods maxIter)
    (fun h => h.drop 1 ++ [false]) shocks 0 (List.replicate (periods + 1) false) init none
  fillRest periods shocks.length rows last

/-- The guess for two constraints as one long column, `hypo.ravel(order='F')`. -/
def ravelF (h : List (Bool × Bool)) : List Bool := h.map Prod.fst ++ h.map Prod.snd

/-- `.reshape((-1, 2), order='F')`. -/
def unravelF (n : Nat) (l : List Bool) : List (Bool × Bool) := List.zip (l.take n) (l.drop n)

/-- The update without `restrained`, `/repo/pynare/core/solve/binding.py:522-525`. -/
def updateTwo (h : List (Bool × Bool)) (b r : List Bool) : List (Bool × Bool) :=
  unravelF h.length (updateHypo (ravelF h) b r)

/-- The update with `restrained`, `/repo/pynare/core/solve/binding.py:512-520`. -/
def updateRestrained (h : List (Bool × Bool)) (b r : List Bool) : List (Bool × Bool) :=
  let r0 := r.take h.length
  let r1 := r.drop h.length
  let rest := List.zip (List.zipWith (· && ·) (h.map Prod.fst) r0) (List.zipWith (· && ·) (h.map Prod.snd) r1)
  let joint := unravelF h.length (List.zipWith (· || ·) (ravelF h) b)
  List.zipWith (fun c x => (c.1 && !x.1, c.2 && !x.2)) joint rest

/-- The `while` loop for one date, `/repo/pynare/core/solve/binding.py:475-525`: the tests of the two
constraints are stacked. -/
def solveTwo (la : LinAlg V) (gy gu : Arr V) (ref alt0 alt1 dbl : Regime V)
    (binds0 relaxes0 binds1 relaxes1 : (Nat → V) → Bool) (restrained : Bool)
    (periods maxIter : Nat) (init s : Nat → V) (h : List (Bool × Bool)) :
    Except Err (List (Bool × Bool) × Option (Nat → Nat → V) × Bool) :=
  let bs := fun g => tests periods binds0 g ++ tests periods binds1 g
  let rs := fun g => tests periods relaxes0 g ++ tests periods relaxes1 g
  guessLoop (hypothesizedTwo la gy gu ref alt0 alt1 dbl init s)
    (fun h g => mismatch (ravelF h) (bs g) (rs g))
    (fun h g => if restrained then updateRestrained h (bs g) (rs g) else updateTwo h (bs g) (rs g))
    maxIter h none

/-- `solve_occbin_two_constraints`, `/repo/pynare/core/solve/binding.py:470-541`, from the decision rules
and the arrays of the four regimes on. -/
def occbinTwo (la : LinAlg V) (gy gu : Arr V) (ref alt0 alt1 dbl : Regime V)
    (binds0 relaxes0 binds1 relaxes1 : (Nat → V) → Bool) (restrained : Bool)
    (periods maxIter : Nat) (init : Nat → V) (shocks : List (Nat → V)) : Except Err (List (Nat → V)) := do
  let (rows, last) ← shockLoop periods
    (solveTwo la gy gu ref alt0 alt1 dbl binds0 relaxes0 binds1 relaxes1 restrained periods maxIter)
    (fun h => h.drop 1 ++ [(false, false)]) shocks 0 (List.replicate (periods + 1) (false, false)) init none
  fillRest periods shocks.length rows last

/-! ### the arrays of the regimes -/

/-- `gy_dc`, `/repo/pynare/core/solve/binding.py:289-292`: the columns of the policy matrix, which belong
to the states in decision-rule order, are put into the columns of the states in order of declaration.
The array stored is squeezed, so with one state the assignment raises `ValueError`, and with one variable
taking its rows raises `IndexError`. -/
def gyDeclared (t : Typer) (gy : Arr V) : Except Err (Arr V) :=
  if gy.r = 1 ∧ gy.c = 1 then .error .indexError
  else if gy.c = 1 then .error .valueError
  else if gy.c ≠ t.state.length then .error .valueError
  else .ok ⟨t.n, t.n, fun i c => match t.state.idxOf? c with
    | some j => gy.e (t.dcOrder[i]?.getD 0) j
    | none => 0⟩

/-- `gu_dc`, `/repo/pynare/core/solve/binding.py:293`. -/
def guDeclared (t : Typer) (gu : Arr V) : Arr V := ⟨t.n, gu.c, fun i k => gu.e (t.dcOrder[i]?.getD 0) k⟩

/-- One of the three arrays of `_occbin_partitioned_jacobian`,
`/repo/pynare/core/solve/binding.py:830-851`: row `r` of the table. -/
def jacobianRow (t : Typer) (J : Arr V) (r : Nat) : Arr V :=
  ⟨t.n, t.n, fun i c => match t.cell r c with
    | some k => J.e i k
    | none => 0⟩

/-- `_occbin_partitioned_jacobian` with the constant of the regime (`Dstar`). -/
def Regime.ofJacobian (t : Llx) (nExog : Nat) (J : Arr V) (D : Nat → V) : Regime V :=
  { A := jacobianRow t.toTyper J 2
    B := jacobianRow t.toTyper J 1
    C := jacobianRow t.toTyper J 0
    E := ⟨t.n, nExog, fun i k => J.e i (t.count + k)⟩
    D := D }

end

end Pynare
