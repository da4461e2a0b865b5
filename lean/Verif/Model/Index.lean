import Verif.Model.Factory
/-!
# The lead/lag table and the types of the variables

Mirrors `VariableIndexManager`, `VariableTyper` and `TimedLLX`,
`/repo/pynare/core/variables.py:525-776`.  `nan` entries of the arrays are `none`.
-/

namespace Pynare

/-- The rows of the table that the periods `ps` of one variable mark,
`/repo/pynare/core/variables.py:543-552`.  The array has three rows and numpy counts negative
indices from the end, so that `p + 1` may be `-3, …, 2`.  Otherwise numpy raises `IndexError`:
for an empty list (an array of floats), which is reported; for a single period out of range the
handler does nothing and the column stays empty; with more periods `not lead_lag` raises
`ValueError`. -/
def varRows (ps : List Int) : Except Err (List Nat) :=
  if ps = [] then .error .endogIndexError
  else if ps.all fun p => decide (-4 ≤ p ∧ p ≤ 1) then .ok (ps.map fun p => ((p + 1) % 3).toNat)
  else if ps.length = 1 then .ok []
  else .error .valueError

/-- The loop over the variables, `/repo/pynare/core/variables.py:542-552`. -/
def allRows : List (List Int) → Except Err (List (List Nat))
  | [] => .ok []
  | ps :: pss => do
    let r ← varRows ps
    let rs ← allRows pss
    .ok (r :: rs)

/-- Whether each cell of the table is marked, row by row. -/
def markCells (rows : List (List Nat)) : List Bool :=
  rows.map (·.contains 0) ++ rows.map (·.contains 1) ++ rows.map (·.contains 2)

/-- `llx[llx == 1] = np.arange(n)`: a boolean mask is filled in row-major order. -/
def numberCells (k : Nat) : List Bool → List (Option Nat)
  | [] => []
  | true :: bs => some k :: numberCells (k + 1) bs
  | false :: bs => none :: numberCells k bs

/-- A table with three rows and `n` columns.  `VariableTyper.__init__`,
`/repo/pynare/core/variables.py:646-647`. -/
structure Typer where
  n : Nat
  cell : Nat → Nat → Option Nat

/-- The table `llx` and `n_endog_inc`, `/repo/pynare/core/variables.py:541-558`, from the sets of
periods of the variables in order of declaration (the names are distinct, so the dictionary of
line 537 has one entry for each). -/
structure Llx extends Typer where
  count : Nat

/-- `VariableIndexManager.__init__`, `/repo/pynare/core/variables.py:541-558`. -/
def buildLlx (pss : List (List Int)) : Except Err Llx := do
  let rows ← allRows pss
  let bs := markCells rows
  let nums := numberCells 0 bs
  .ok { n := pss.length
        cell := fun r c => if r < 3 ∧ c < pss.length then nums[r * pss.length + c]?.getD none else none
        count := bs.count true }

/-- `set_lead_lags` followed by the construction of the table,
`/repo/pynare/core/variables.py:404-431` and `/repo/pynare/core/generic.py:152,263`, for distinct
names of endogenous variables. -/
def modelLlx {V : Type} (endog : List String) (es : List (Expr V)) : Except Err Llx := do
  let d ← readLeadLags endog es
  buildLlx (endog.map fun x => (d.get? x).getD [])

namespace Typer

/-- `~np.isnan(llx[r])` at one column. -/
def has (t : Typer) (r c : Nat) : Bool := (t.cell r c).isSome

/-- `np.where(p)[0]`. -/
def sel (t : Typer) (p : Nat → Bool) : List Nat := (List.range t.n).filter p

/-- `/repo/pynare/core/variables.py:649-651,697-699` (`state`, `backward`). -/
def state (t : Typer) : List Nat := t.sel fun c => t.has 0 c
/-- `/repo/pynare/core/variables.py:657-659`. -/
def cont (t : Typer) : List Nat := t.sel fun c => t.has 1 c
/-- `/repo/pynare/core/variables.py:665-667`. -/
def static (t : Typer) : List Nat := t.sel fun c => !t.has 0 c && !t.has 2 c
/-- `/repo/pynare/core/variables.py:673-675`. -/
def dynamic (t : Typer) : List Nat := t.sel fun c => !(!t.has 0 c && !t.has 2 c)
/-- `/repo/pynare/core/variables.py:681-683`. -/
def forward (t : Typer) : List Nat := t.sel fun c => t.has 2 c
/-- `/repo/pynare/core/variables.py:689-691`. -/
def pureForward (t : Typer) : List Nat := t.sel fun c => !t.has 0 c && t.has 2 c
/-- `/repo/pynare/core/variables.py:705-707`. -/
def pureBackward (t : Typer) : List Nat := t.sel fun c => t.has 0 c && !t.has 2 c
/-- `/repo/pynare/core/variables.py:713-715`. -/
def mixed (t : Typer) : List Nat := t.sel fun c => t.has 0 c && t.has 2 c

/-- `TimedLLX.__getitem__`, `/repo/pynare/core/variables.py:767-776`: the column numbers of the
selected variables at row `r`. -/
def timed (t : Typer) (cols : List Nat) (r : Nat) : List Nat := cols.filterMap (t.cell r)

/-- `llx[:, order]`, `/repo/pynare/core/variables.py:567`. -/
def permute (t : Typer) (order : List Nat) : Typer where
  n := order.length
  cell r c := match order[c]? with
    | some c' => t.cell r c'
    | none => none

/-- `back_idx` of `dr_order`: `not_forward` is true of a column in which the current or the lead
entry is missing, `/repo/pynare/core/variables.py:580-581`. -/
def backIdx (t : Typer) : List Nat := t.sel fun c => t.has 0 c && (!t.has 1 c || !t.has 2 c)

/-- `dr_order`, `/repo/pynare/core/variables.py:573-586`. -/
def drOrder (t : Typer) : List Nat := t.static ++ t.backIdx ++ t.mixed ++ t.pureForward

/-- `n_static`, `/repo/pynare/core/variables.py:592-595`: `count_nonzero` of the column numbers in
the current row, where `nan` counts as nonzero. -/
def nStatic (t : Typer) : Nat := t.static.countP fun c => t.cell 1 c != some 0

/-- `/repo/pynare/core/variables.py:597-599`. -/
def nForward (t : Typer) : Nat := (List.range t.n).countP fun c => t.has 2 c
/-- `/repo/pynare/core/variables.py:601-603,613-615` (`n_backward`, `n_state`). -/
def nBackward (t : Typer) : Nat := (List.range t.n).countP fun c => t.has 0 c
/-- `/repo/pynare/core/variables.py:605-607`. -/
def nMixed (t : Typer) : Nat := (List.range t.n).countP fun c => t.has 0 c && t.has 2 c
/-- `/repo/pynare/core/variables.py:609-611` (an integer: it may in principle be negative). -/
def nDynamic (t : Typer) : Int := (t.n : Int) - t.nStatic

end Typer

/-- `np.argsort` of a list: the positions ordered by their entries.  (Entries that are equal may
come in any order in numpy; here in order of position.) -/
def argsort (xs : List Nat) : List Nat :=
  ((List.range xs.length).map fun i => (xs[i]?.getD 0, i)).foldr
    (fun p acc => insertKey p acc) [] |>.map Prod.snd
where
  /-- insertion before the first entry whose key is not smaller -/
  insertKey (p : Nat × Nat) : List (Nat × Nat) → List (Nat × Nat)
    | [] => [p]
    | q :: qs => if p.1 ≤ q.1 then p :: q :: qs else q :: insertKey p qs

/-- `dc_order`, `/repo/pynare/core/variables.py:588-590`. -/
def Typer.dcOrder (t : Typer) : List Nat := argsort t.drOrder

/-- `exogenous_jacobian`, `/repo/pynare/core/variables.py:621-624`. -/
def Llx.exogJacobian (t : Llx) (nExog : Nat) : List Nat := (List.range nExog).map (t.count + ·)

end Pynare
