import Verif.Model.SecondOrder
/-!
# Tables printed for solutions

Mirrors `FirstOrderSummary`, `SecondOrderSummary` and `_summarize_array` of `/repo/pynare/io/summary.py`.  Lines are
kept as a label with what stands beside it: the formatting of numbers and the padding are not modelled.
-/

namespace Pynare

/-- What stands beside the label of a line: the names of the variables, numbers, or a plus sign
(`/repo/pynare/io/summary.py:441-451,607-625`). -/
inductive Line (V : Type) where
  | head (names : List String)
  | nums (xs : List V)
  | plus
deriving DecidableEq

variable {V : Type}

/-- The columns of an array, which are the rows of its transpose. -/
def Arr.colList (a : Arr V) : List (List V) := (List.range a.c).map fun j => (List.range a.r).map fun i => a.e i j

/-- `np.transpose(np.hstack(...))[:, order]`, `/repo/pynare/io/summary.py:406-408,472-474,583-584`, as a list of rows.
All arrays must have as many rows, and the positions in `order` must be among them. -/
def stackedRows (n : Nat) (as : List (Arr V)) (order : List Nat) : Except Err (List (List V)) :=
  if as.all fun a => decide (a.r = n) then
    if order.all fun c => decide (c < n) then
      .ok ((as.flatMap Arr.colList).map fun row => order.flatMap fun c => (row[c]?).toList)
    else .error .indexError
  else .error .valueError

/-- `st_idx`, `/repo/pynare/io/summary.py:402-404,531-533`: where the states in order of declaration are among the
states in decision-rule order. -/
def Typer.stIdx (t : Typer) : List Nat := argsort (t.drOrder.filter fun c => t.state.contains c)

/-- `ss.values[dr_order]` as a column, `/repo/pynare/io/summary.py:396-399,521-525`. -/
def ssColumn (t : Typer) (ss : Nat → V) : Arr V := ⟨t.drOrder.length, 1, fun i _ => ss (t.drOrder[i]?.getD 0)⟩

/-- The labels of the states, `/repo/pynare/io/summary.py:424,553` and `/repo/pynare/core/generic.py:374`. -/
def stateLabels (t : Typer) (endog : List String) : List String := t.state.map fun c => endog[c]?.getD "" ++ "(-1)"

/-- `itertools.product` of labels, joined with a comma, `/repo/pynare/io/summary.py:559-561`. -/
def pairLabels (xs ys : List String) : List String := xs.flatMap fun x => ys.map fun y => x ++ ", " ++ y

/-- Selection with a mask of booleans, which must be as long as the list. -/
def masked {α : Type} (xs : List α) (mask : List Bool) : Except Err (List α) :=
  if xs.length = mask.length then .ok (((xs.zip mask).filter Prod.snd).map Prod.fst) else .error .indexError

section
variable [Zero V] [LT V] [DecidableLT V] [DecidableEq V]

/-- `_summarize_array`, `/repo/pynare/io/summary.py:630-679`, as the names of the columns and the rows; the array has
`width` columns.  `thresh` is `10 ** (-(sig + thresh))`: the mask of rows that reach it is applied to columns.
The number of digits is computed from the logarithm of the largest entry: there is none in an empty
array (`ValueError`), and it is infinite if all entries are zero (`OverflowError`). -/
def summarizeArray (width : Nat) (rows : List (List V)) (labels : List String) (thresh : Option V) :
    Except Err (List String × List (List V)) := do
  let mask := match thresh with
    | some h => rows.map fun row => !row.all fun x => decide (x < h)
    | none => List.replicate width true
  let rows' ← rows.mapM fun row => masked row mask
  let labels' ← masked labels mask
  if width ≠ mask.length then .error .indexError
  else if rows'.flatten = [] then .error .valueError
  else if rows'.flatten.all fun x => decide (x = 0) then .error .overflowError
  else .ok (labels', rows')

/-- `FirstOrderSummary.policy_arrays`, `/repo/pynare/io/summary.py:389-420`; `arr_str[-0:]` is the whole list. -/
def policyFirst (t : Typer) (endog : List String) (ss : Nat → V) (gy gu : Nd V) (thresh : Option V) :
    Except Err (List (Line V) × List (Line V)) := do
  let gy' ← gy.to2.cols t.stIdx
  let rows ← stackedRows t.drOrder.length [ssColumn t ss, gy', gu.to2] t.dcOrder
  let nr ← summarizeArray t.dcOrder.length rows endog thresh
  let strs := Line.head nr.1 :: nr.2.map Line.nums
  .ok (strs.take (gy'.c + 2), if gu.to2.c = 0 then strs else strs.drop (strs.length - gu.to2.c))

/-- `FirstOrderSummary.__str__` with `row_labels`, `/repo/pynare/io/summary.py:422-452`, without the heading. -/
def firstSummary (t : Typer) (endog stoch : List String) (ss : Nat → V) (gy gu : Nd V) (thresh : Option V) :
    Except Err (List (String × Line V)) := do
  let p ← policyFirst t endog ss gy gu thresh
  .ok ((["", "steady"] ++ stateLabels t endog ++ [""] ++ stoch).zip (p.1 ++ [Line.plus] ++ p.2))

/-- The arrays of a second-order solution as stored (the first two from `lower_solution`). -/
structure PolicyArrays (V : Type) where
  gy : Nd V
  gu : Nd V
  ghxx : Nd V
  ghxu : Nd V
  ghuu : Nd V
  del2 : Nd V

/-- `SecondOrderSummary._policy_arrays`, `/repo/pynare/io/summary.py:518-548`, with the rows of steady states apart.  The
positions `gyu_idx` are those from zero on, in order. -/
def policySecond (t : Typer) (nExog : Nat) (ss : Nat → V) (p : PolicyArrays V) : Except Err (List (Arr V)) := do
  let n := t.stIdx.length
  let gy ← p.gy.to2.cols t.stIdx
  let gyx ← p.ghxx.to2.cols (t.stIdx.flatMap fun a => t.stIdx.map fun b => n * a + b)
  let gyu ← p.ghxu.to2.cols ((List.range nExog).flatMap fun a => (List.range n).map fun b => n * a + b)
  .ok [ssColumn t ss, gy, p.gu.to2, gyx, gyu, p.ghuu.to2, p.del2.to2]

/-- The number of rows of each of the six blocks, `/repo/pynare/io/summary.py:502-503`: the steady state belongs to the
first one. -/
def blockSizes : List (Arr V) → List Nat
  | s :: g :: rest => (s.c + g.c) :: rest.map Arr.c
  | as => as.map Arr.c

/-- `_threshold_locs`, `/repo/pynare/io/summary.py:471-489`: the rows that have an entry not below `eps`, and the
first and the last one. -/
def threshLocs (eps : V) (rows : List (List V)) : List Bool :=
  (rows.map fun row => !row.all fun x => decide (x < eps)).mapIdx fun i b => b || i == 0 || i == rows.length - 1

/-- A list cut into pieces of given lengths, `/repo/pynare/io/summary.py:505-514`. -/
def cutList {α : Type} : List Nat → List α → List (List α)
  | [], _ => []
  | k :: ks, xs => xs.take k :: cutList ks (xs.drop k)

/-- The lines of the blocks, with a plus sign after every block but the last one that has rows,
`/repo/pynare/io/summary.py:614-624`. -/
def blockLines : List (List (String × Line V)) → List (String × Line V)
  | [] => []
  | [b] => b
  | b :: bs => (if b = [] then [] else b ++ [("", Line.plus)]) ++ blockLines bs

/-- `SecondOrderSummary.__str__`, `/repo/pynare/io/summary.py:551-626`, without the heading; `eps` is `10 ** (-sig)` or
`10 ** (-(sig + thresh))`.  The rows and the labels are selected with the same mask and cut into the six blocks;
here they are cut first, which gives the same lines. -/
def secondSummary (t : Typer) (endog stoch : List String) (ss : Nat → V) (p : PolicyArrays V) (eps : V) :
    Except Err (List (String × Line V)) := do
  let as ← policySecond t stoch.length ss p
  let rows ← stackedRows t.drOrder.length as t.dcOrder
  let locs := threshLocs eps rows
  let state := stateLabels t endog
  let labels := ["steady"] ++ state ++ stoch ++ pairLabels state state ++ pairLabels state stoch ++
    pairLabels stoch stoch ++ ["del2"]
  let rows' ← masked rows locs
  let _ ← masked labels locs
  let nr ← summarizeArray t.dcOrder.length rows' endog none
  let marked := (labels.zip (rows.map Line.nums)).zip locs
  .ok (("", Line.head nr.1) :: blockLines ((cutList (blockSizes as) marked).map fun b => (b.filter Prod.snd).map Prod.fst))

end
end Pynare
