/-!
# Specification vocabulary for arguments of plots
-/

namespace Pynare

/-- The names that `pyplot.subplots`, `pyplot.figure` and `Figure` document as their arguments, as `plot` knows them. -/
inductive FigureArg : String → Prop
  | nrows : FigureArg "nrows"
  | ncols : FigureArg "ncols"
  | sharex : FigureArg "sharex"
  | sharey : FigureArg "sharey"
  | squeeze : FigureArg "squeeze"
  | subplot_kw : FigureArg "subplot_kw"
  | gridspec_kw : FigureArg "gridspec_kw"
  | num : FigureArg "num"
  | figsize : FigureArg "figsize"
  | dpi : FigureArg "dpi"
  | facecolor : FigureArg "facecolor"
  | edgecolor : FigureArg "edgecolor"
  | frameon : FigureArg "frameon"
  | figureClass : FigureArg "FigureClass"
  | clear : FigureArg "clear"
  | tight : FigureArg "tight_layout"
  | constrained : FigureArg "constrained_layout"
  | linewidth : FigureArg "linewidth"
  | subplotpars : FigureArg "subplotpars"

end Pynare
