import Verif.Model.Plot
/-!
# Further arguments of plots

The keyword arguments of `PynarePlot.plot`, `/repo/pynare/plotting/base.py:64-233`.
-/

namespace Pynare

/-- The value of a keyword argument: a number, a truth value or another object. -/
inductive PlotArg where
  | num (n : Nat)
  | flag (b : Bool)
  | obj (id : Nat)
  deriving DecidableEq, Repr

/-- `_subplots_kwargs`, `_figure_kwargs`, `/repo/pynare/plotting/base.py:198-223`. -/
def figureNames : List String :=
  ["nrows", "ncols", "sharex", "sharey", "squeeze", "subplot_kw", "gridspec_kw", "num", "figsize", "dpi", "facecolor",
    "edgecolor", "frameon", "FigureClass", "clear", "tight_layout", "constrained_layout", "linewidth", "subplotpars"]

/-- `d.setdefault(k, v)`, `/repo/pynare/plotting/base.py:72,110-111`. -/
def setDefault {α : Type} (d : Dict α) (k : String) (v : α) : Dict α :=
  match d.get? k with
  | some _ => d
  | none => d.set k v

/-- The loop of `_generate_subplots`, `/repo/pynare/plotting/base.py:228-231`: the arguments of `plt.subplots`, and what is left
of the dictionary (`pop` of a key that is there). -/
def popLoop {α : Type} : List String → Dict α × Dict α → Dict α × Dict α
  | [], st => st
  | k :: ks, (out, d) =>
    if k ∈ figureNames then
      match d.get? k with
      | some v => popLoop ks (out.set k v, d.erase k)
      | none => popLoop ks (out, d)
    else popLoop ks (out, d)

/-- The arguments of `plt.subplots` and those of `_plot`, `/repo/pynare/plotting/base.py:70-114,224-233`, for `n` series. -/
def plotArgs (n : Nat) (subs : Bool) (layout : PlotLayout) (kw : Dict PlotArg) :
    Except Err (Dict PlotArg × Dict PlotArg) :=
  let kw := setDefault kw "tight_layout" (.flag true)
  if subs then
    match gridShape n layout with
    | .error e => .error e
    | .ok (nrows, ncols) =>
      let kw := setDefault (setDefault kw "nrows" (.num nrows)) "ncols" (.num ncols)
      .ok (popLoop kw.keys ([], kw))
  else .ok (popLoop kw.keys ([], kw))

/-- `plt.subplots(**kwargs)`, called in `/repo/pynare/plotting/base.py:233`: one row and one column unless given; with
`squeeze=False` always an array.  Rows and columns that are no numbers are refused, and only `False` is read as a false value of
`squeeze`.  The other arguments do not change the shape. -/
def axesOf (fig : Dict PlotArg) : Except Err Axes :=
  match (fig.get? "nrows").getD (.num 1), (fig.get? "ncols").getD (.num 1) with
  | .num r, .num c =>
    if fig.get? "squeeze" = some (.flag false) then
      if r = 0 ∨ c = 0 then .error .valueError else .ok (.grid r c)
    else subplots r c
  | _, _ => .error .valueError

/-- `arrange_plot` with keyword arguments, `/repo/pynare/plotting/base.py:64-125`: what is drawn on which axes, and the arguments
with which each is drawn.  An array of axes has no attribute `plot`. -/
def arrangeWith (n : Nat) (subs : Bool) (layout : PlotLayout) (kw : Dict PlotArg) :
    Except Err (List Drawn × Dict PlotArg) :=
  match plotArgs n subs layout kw with
  | .error e => .error e
  | .ok (fig, lines) =>
    match axesOf fig with
    | .error e => .error e
    | .ok axes =>
      if subs then
        match axes with
        | .single => .error .attributeError
        | .vec size => .ok (plotColumn n size, lines)
        | .grid r c => .ok (plotGrid n r c, lines)
      else
        match axes with
        | .single => .ok ([⟨0, 0, List.range n⟩], lines)
        | _ => .error .attributeError

end Pynare
