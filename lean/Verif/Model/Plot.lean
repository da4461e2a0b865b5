import Verif.Model.Py
/-!
# Arrangement of plots

Mirrors `PynarePlot`, `/repo/pynare/plotting/base.py`.  Drawing itself is not modelled: a plot is the list of
axes with the series drawn on each.  Square roots and quotients of numbers of series are exact.
-/

namespace Pynare

/-- `np.ceil(np.sqrt(n))`. -/
def ceilSqrt (n : Nat) : Nat := if n.sqrt * n.sqrt = n then n.sqrt else n.sqrt + 1

/-- The loop of `_factor_near_square_root`, `/repo/pynare/plotting/base.py:246-250`, from `v1` on.  For
`v1 = 0` the quotient is nan or infinite, and `int` of it raises `ValueError` (`OverflowError`); this is
reached for `n = 0` only. -/
def factorFrom (n : Nat) : Nat → Except Err (Nat × Nat)
  | 0 => .error .valueError
  | v + 1 => if n / (v + 1) * (v + 1) = n then .ok (v + 1, n / (v + 1)) else factorFrom n v

/-- `_factor_near_square_root`, `/repo/pynare/plotting/base.py:237-252`. -/
def factorNearRoot (n : Nat) : Except Err (Nat × Nat) := factorFrom n (ceilSqrt n)

/-- The argument `layout`, `/repo/pynare/plotting/base.py:67,74-107`: a text, a pair, another sequence (or an
object that is none), or a false value. -/
inductive PlotLayout where
  | text (s : String)
  | pair (nrows ncols : Nat)
  | other
  | falsy

/-- The numbers of rows and columns, `/repo/pynare/plotting/base.py:74-107`, for `n` series.  (Of a sequence
of the wrong length `ValueError` is raised; `TypeError` for an object that is no sequence is not told
apart.) -/
def gridShape (n : Nat) : PlotLayout → Except Err (Nat × Nat)
  | .text s =>
    if s = "" then .error .valueError
    else if s = "rect" then do
      let (ncols, nrows) ← factorNearRoot n
      .ok (nrows, ncols)
    else if s = "square" then
      let root := n.sqrt
      if root * root = n then .ok (root, root) else .ok (root + 1, root + 1)
    else if s = "column" then .ok (n, 1)
    else .error .valueError
  | .pair nrows ncols => .ok (nrows, ncols)
  | .other => .error .valueError
  | .falsy => .error .valueError

/-- What `plt.subplots` returns with `squeeze=True`: one `Axes`, a vector of them, or an array. -/
inductive Axes where
  | single
  | vec (size : Nat)
  | grid (nrows ncols : Nat)
  deriving DecidableEq, Repr

/-- `plt.subplots(nrows, ncols)`: `ValueError` unless both are positive. -/
def subplots (nrows ncols : Nat) : Except Err Axes :=
  if nrows = 0 ∨ ncols = 0 then .error .valueError
  else if nrows = 1 ∧ ncols = 1 then .ok .single
  else if ncols = 1 then .ok (.vec nrows)
  else if nrows = 1 then .ok (.vec ncols)
  else .ok (.grid nrows ncols)

/-- One axes with its row and column (row 0 in a vector) and the series drawn on it. -/
structure Drawn where
  row : Nat
  col : Nat
  series : List Nat
  deriving DecidableEq, Repr

/-- `range(n)[k::step]`. -/
def everyNth (n k step : Nat) : List Nat :=
  (List.range ((n - k + step - 1) / step)).map fun i => k + i * step

/-- `_plot_grid`, `/repo/pynare/plotting/base.py:34-48`. -/
def plotGrid (n nrows ncols : Nat) : List Drawn :=
  let nsubs := nrows * ncols
  (List.range (min nsubs n)).map fun k => ⟨k % nsubs / ncols, k % nsubs % ncols, everyNth n k nsubs⟩

/-- `_plot_column`, `/repo/pynare/plotting/base.py:51-61`. -/
def plotColumn (n size : Nat) : List Drawn := (List.range (min size n)).map fun k => ⟨0, k, [k]⟩

/-- `arrange_plot`, `/repo/pynare/plotting/base.py:64-125`, for `n` series: a single `Axes` has no attribute
`shape`.  Without subplots everything is drawn on one axes.  The arguments `nrows` and `ncols` that may be
given besides are not modelled. -/
def arrangePlot (n : Nat) (subs : Bool) (layout : PlotLayout) : Except Err (List Drawn) :=
  if subs then do
    let (nrows, ncols) ← gridShape n layout
    let axes ← subplots nrows ncols
    match axes with
    | .single => .error .attributeError
    | .vec size => .ok (plotColumn n size)
    | .grid r c => .ok (plotGrid n r c)
  else .ok [⟨0, 0, List.range n⟩]

end Pynare
