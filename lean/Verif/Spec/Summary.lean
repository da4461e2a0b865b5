import Verif.Model.Summary
import Verif.Lemmas.Nd
/-!
# Specification vocabulary for the tables of solutions
-/

namespace Pynare

variable {V : Type} [CommRing V] [DecidableEq V]

/-- The coefficients of a solution: of variable `v` on state `s`, on shock `k`, on products of two of them, and the
constant.  Variables and states are numbered in order of declaration. -/
structure Policy (V : Type) where
  state : Nat → Nat → V
  shock : Nat → Nat → V
  states : Nat → Nat → Nat → V
  mixed : Nat → Nat → Nat → V
  shocks : Nat → Nat → Nat → V
  risk : Nat → V

/-- The states in decision-rule order. -/
def Typer.orderedStates (t : Typer) : List Nat := t.drOrder.filter fun c => t.has 0 c

/-- variable at a position of the decision-rule order -/
def Typer.varAt (t : Typer) (p : Nat) : Nat := t.drOrder[p]?.getD 0

/-- state at a position among the states in decision-rule order -/
def Typer.stateAt (t : Typer) (q : Nat) : Nat := t.orderedStates[q]?.getD 0

/-- The arrays of a first-order solution hold the coefficients `P`: rows in decision-rule order, columns of states
too, columns of shocks in order of declaration. -/
def HoldsFirst (t : Typer) (nExog : Nat) (gy gu : Nd V) (P : Policy V) : Prop :=
  gy.Is t.n t.state.length (fun p q => P.state (t.varAt p) (t.stateAt q)) ∧
  gu.Is t.n nExog fun p k => P.shock (t.varAt p) k

/-- The same for a second-order solution; a column for a product is found from the two numbers. -/
def HoldsSecond (t : Typer) (nExog : Nat) (p : PolicyArrays V) (P : Policy V) : Prop :=
  HoldsFirst t nExog p.gy p.gu P ∧
  p.ghxx.Is t.n (t.state.length * t.state.length) (fun i j =>
    P.states (t.varAt i) (t.stateAt (j / t.state.length)) (t.stateAt (j % t.state.length))) ∧
  p.ghxu.Is t.n (t.state.length * nExog) (fun i j => P.mixed (t.varAt i) (t.stateAt (j / nExog)) (j % nExog)) ∧
  p.ghuu.Is t.n (nExog * nExog) (fun i j => P.shocks (t.varAt i) (j / nExog) (j % nExog)) ∧
  p.del2.Is t.n 1 fun i _ => P.risk (t.varAt i)

/-- a row of numbers, one for every variable in order of declaration -/
def overVars (t : Typer) (f : Nat → V) : List V := (List.range t.n).map f

/-- the name of a state in a table -/
def stateName (endog : List String) (s : Nat) : String := endog[s]?.getD "" ++ "(-1)"

/-- the name of a shock -/
def shockName (stoch : List String) (k : Nat) : String := stoch[k]?.getD ""

/-- the rows of a first-order table: steady states, coefficients on states, coefficients on shocks -/
def firstRows (t : Typer) (endog : List String) (ss : Nat → V) (P : Policy V) : List (String × List V) :=
  ("steady", overVars t ss) :: t.state.map fun s => (stateName endog s, overVars t fun v => P.state v s)

/-- rows of coefficients on shocks -/
def shockRows (t : Typer) (stoch : List String) (P : Policy V) : List (String × List V) :=
  (List.range stoch.length).map fun k => (shockName stoch k, overVars t fun v => P.shock v k)

/-- rows of coefficients on products of states -/
def pairRows (t : Typer) (endog : List String) (P : Policy V) : List (String × List V) :=
  t.state.flatMap fun s => t.state.map fun s' =>
    (stateName endog s ++ ", " ++ stateName endog s', overVars t fun v => P.states v s s')

/-- rows of coefficients on products of a state and a shock, where the coefficients shown for the name of a state are
those of the state at the same place of `shown` -/
def mixedRows (t : Typer) (endog stoch : List String) (P : Policy V) (shown : List Nat) : List (String × List V) :=
  (t.state.zip shown).flatMap fun ss => (List.range stoch.length).map fun k =>
    (stateName endog ss.1 ++ ", " ++ shockName stoch k, overVars t fun v => P.mixed v ss.2 k)

/-- rows of coefficients on products of shocks -/
def shockPairRows (t : Typer) (stoch : List String) (P : Policy V) : List (String × List V) :=
  (List.range stoch.length).flatMap fun k => (List.range stoch.length).map fun l =>
    (shockName stoch k ++ ", " ++ shockName stoch l, overVars t fun v => P.shocks v k l)

/-- the blocks of rows of coefficients: on states, on shocks, and on products of two of them -/
def midRows (t : Typer) (endog stoch : List String) (P : Policy V) (shown : List Nat) : List (List (String × List V)) :=
  [t.state.map fun s => (stateName endog s, overVars t fun v => P.state v s), shockRows t stoch P, pairRows t endog P,
   mixedRows t endog stoch P shown, shockPairRows t stoch P]

/-- a row as a line of the table -/
def asLine (r : String × List V) : String × Line V := (r.1, Line.nums r.2)

/-- the first-order table -/
def firstTable (t : Typer) (endog stoch : List String) (ss : Nat → V) (P : Policy V) : List (String × Line V) :=
  ("", Line.head endog) :: (firstRows t endog ss P).map asLine ++ [("", Line.plus)] ++ (shockRows t stoch P).map asLine

variable [LT V] [DecidableLT V]

/-- the rows with an entry that is not below `eps` -/
def reaching (eps : V) (rows : List (String × List V)) : List (String × List V) :=
  rows.filter fun r => r.2.any fun x => !decide (x < eps)

/-- the blocks of the second-order table: the rows of steady states and of the constant are always there, others if an
entry is not below `eps` -/
def secondBlocks (t : Typer) (endog stoch : List String) (ss : Nat → V) (P : Policy V) (eps : V) (shown : List Nat) :
    List (List (String × List V)) :=
  [(("steady", overVars t ss) :: reaching eps (t.state.map fun s => (stateName endog s, overVars t fun v => P.state v s))),
   reaching eps (shockRows t stoch P), reaching eps (pairRows t endog P),
   reaching eps (mixedRows t endog stoch P shown), reaching eps (shockPairRows t stoch P), [("del2", overVars t P.risk)]]

/-- the second-order table -/
def secondTable (t : Typer) (endog stoch : List String) (ss : Nat → V) (P : Policy V) (eps : V) (shown : List Nat) :
    List (String × Line V) :=
  ("", Line.head endog) :: blockLines ((secondBlocks t endog stoch ss P eps shown).map fun b => b.map asLine)

end Pynare
