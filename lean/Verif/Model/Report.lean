import Verif.Model.Stats
import Verif.Model.Summary
import Mathlib.Algebra.Order.Floor.Semiring
import Mathlib.Algebra.Order.Floor.Ring
import Mathlib.Data.Rat.Floor
import Mathlib.Data.Nat.Log
/-!
# Printed summaries of models and statistics

Mirrors `Summary`, `ModelSummary`, `ModelStatisticsSummary` and `_summarize_array` of `/repo/pynare/io/summary.py` as
texts, `ModelCalibration.__str__` (`/repo/pynare/core/variables.py:820-837`) and `ModelStatistics`
(`/repo/pynare/stats/stats.py`).

Numbers are those of an ordered field with integer parts; rounding errors of floating point are not modelled.  A
result that is not a number is `none`.
-/

namespace Pynare

/-- A text. -/
abbrev Txt := List Char

/-! ### Python's formatting -/

section format
variable {V : Type} [Field V] [LinearOrder V] [FloorRing V]

/-- A number that is not negative rounded to an integer, halves to even ones. -/
def roundEven (x : V) : ℕ :=
  if x - ⌊x⌋₊ < 1 / 2 then ⌊x⌋₊
  else if 1 / 2 < x - ⌊x⌋₊ then ⌊x⌋₊ + 1
  else if ⌊x⌋₊ % 2 = 0 then ⌊x⌋₊ else ⌊x⌋₊ + 1

/-- The last `d` digits of an integer. -/
def lastDigits : ℕ → ℕ → Txt
  | 0, _ => []
  | d + 1, m => lastDigits d (m / 10) ++ [Nat.digitChar (m % 10)]

/-- `f"{x:.{d}f}"`, used in `/repo/pynare/io/summary.py:137,166,202,663`: correctly rounded; the point is missing without
decimals, and the sign is kept by numbers that are rounded to zero. -/
def fixedText (d : ℕ) (x : V) : Txt :=
  (if x < 0 then ['-'] else []) ++ Nat.toDigits 10 (roundEven (|x| * 10 ^ d) / 10 ^ d) ++
    (if d = 0 then [] else '.' :: lastDigits d (roundEven (|x| * 10 ^ d) % 10 ^ d))

/-- The same for what may not be a number. -/
def cellText (d : ℕ) : Option V → Txt
  | some x => fixedText d x
  | none => ['n', 'a', 'n']

/-- `s.rjust(w)`, and the effect of a width on numbers; nothing happens if the text is longer. -/
def rjust (w : ℕ) (t : Txt) : Txt := List.replicate (w - t.length) ' ' ++ t

/-- `s.ljust(w)`. -/
def ljust (w : ℕ) (t : Txt) : Txt := t ++ List.replicate (w - t.length) ' '

/-- `sep.join(ts)`. -/
def joinTxt (sep : Txt) (ts : List Txt) : Txt := sep.intercalate ts

/-- `f"{x:{w}.{d}f}"` with an integer as width: a minus sign in front of the width asks for minus signs in front of
negative numbers only, which is the default. -/
def widthText (w : ℤ) (d : ℕ) (x : Option V) : Txt := rjust w.natAbs (cellText d x)

/-- `int(np.fix(np.log10(m)))` for a positive number. -/
def fixLog10 (m : V) : ℤ := if 1 ≤ m then (Nat.log 10 ⌊m⌋₊ : ℤ) else -(Nat.log 10 ⌊1 / m⌋₊ : ℤ)

/-- `int(np.floor(np.log10(m)))` for a positive number. -/
def floorLog10 (m : V) : ℤ := if 1 ≤ m then (Nat.log 10 ⌊m⌋₊ : ℤ) else -(Nat.clog 10 ⌈1 / m⌉₊ : ℤ)

/-- The greatest absolute value. -/
def maxAbs (xs : List V) : V := xs.foldr (fun x m => max |x| m) 0

/-- `int(r(np.nanmax(np.log10(np.absolute(xs)))) + 3)`, `/repo/pynare/io/summary.py:163,199,657`, where `log` is the
logarithm rounded by `r`.  There is no maximum of nothing, what is not a number is left out, and if nothing is left the
result is not a number, which is no integer (`ValueError`).  If all numbers are zero, the logarithm is infinite
(`OverflowError`). -/
def leftDigits (log : V → ℤ) (xs : List (Option V)) : Except Err ℤ :=
  if xs.filterMap id = [] then .error .valueError
  else if maxAbs (xs.filterMap id) = 0 then .error .overflowError
  else .ok (log (maxAbs (xs.filterMap id)) + 3)

/-- `max(map(len, ts))`. -/
def maxLen : List Txt → Except Err ℕ
  | [] => .error .valueError
  | t :: ts => .ok (ts.foldl (fun m s => max m s.length) t.length)

end format

/-! ### tables of numbers -/

section tables
variable {V : Type} [Field V] [LinearOrder V] [FloorRing V]

/-- `w`, `/repo/pynare/io/summary.py:660`. -/
def colWidth (l : ℤ) (sig : ℕ) (labels : List Txt) : ℤ :=
  labels.foldl (fun m t => max m (t.length : ℤ)) (l + sig) + 1

/-- `_summarize_array`, `/repo/pynare/io/summary.py:630-679`, without threshold and with labels, for an array with `width`
columns. -/
def arrayLines (sig width : ℕ) (labels : List Txt) (rows : List (List (Option V))) : Except Err (List Txt) :=
  if labels.length ≠ width then .error .indexError
  else match leftDigits fixLog10 rows.flatten with
    | .error e => .error e
    | .ok l =>
      let w := colWidth l sig labels
      .ok (joinTxt [' '] (labels.map (rjust w.toNat)) ::
        rows.map fun row => joinTxt [' '] (row.map (widthText w sig)))

/-- The lines of an array behind names, below a title: `/repo/pynare/io/summary.py:267-275,292-300,319-328,347-356`.  The
first line of the array has no name. -/
def namedTable (title : Txt) (pad sig width : ℕ) (headings names : List Txt) (rows : List (List (Option V))) :
    Except Err Txt := do
  let ls ← arrayLines sig width headings rows
  let lp ← maxLen ([] :: names)
  .ok (joinTxt ('\n' :: List.replicate pad ' ')
    (title :: List.zipWith (· ++ ·) (([] :: names).map (ljust (lp + 1))) ls))

/-! ### statistics -/

/-- What the summary of statistics asks of `ModelStatistics`, `/repo/pynare/io/summary.py:251-253,282,307,336`. -/
structure Statistics (V : Type) where
  mean : Except Err (List V)
  std : Except Err (List (Option V))
  corr : Except Err (Arr (Option V))
  autocorr : ℕ → Except Err (List (Arr (Option V)))
  decomp : Except Err (Arr (Option V))

/-- `std`, `/repo/pynare/stats/moments.py:89-103`; `sq` is `np.sqrt`. -/
def stdList (la : LinAlg V) (lyap : Lyap V) (sq : V → Option V) (t : Typer) (s : Space V) (gy gu sigma : Arr V) :
    Except Err (List (Option V)) := do
  let v ← varList la lyap t s gy gu sigma
  .ok (v.map sq)

/-- The rows of an array. -/
def Arr.rowList {α : Type} (a : Arr α) : List (List α) := (List.range a.r).map fun i => (List.range a.c).map (a.e i)

/-- `np.square`. -/
def squareOf (x : Option V) : Option V := x.map fun y => y * y

/-- `np.transpose(np.vstack((mean, std_dev, var)))`, `/repo/pynare/io/summary.py:251-257`. -/
def momentRows (mean : List V) (std : List (Option V)) : Except Err (List (List (Option V))) :=
  if mean.length = std.length then .ok (List.zipWith (fun m s => [some m, s, squareOf s]) mean std)
  else .error .valueError

/-- `moments_str`, `/repo/pynare/io/summary.py:246-275`. -/
def momentsText (S : Statistics V) (sig pad : ℕ) (endog : List Txt) : Except Err Txt := do
  let mean ← S.mean
  let std ← S.std
  let rows ← momentRows mean std
  namedTable "model moments:".toList pad sig 3 ["mean".toList, "std dev".toList, "var".toList] endog rows

/-- `corr_str`, `/repo/pynare/io/summary.py:277-300`; `max(map(len, endog))` raises without variables. -/
def corrText (S : Statistics V) (sig pad : ℕ) (endog : List Txt) : Except Err Txt := do
  let a ← S.corr
  let ls ← arrayLines sig a.c endog a.rowList
  let lp ← maxLen endog
  .ok (joinTxt ('\n' :: List.replicate pad ' ')
    ("correlation:".toList :: List.zipWith (· ++ ·) (([] :: endog).map (ljust (lp + 1))) ls))

/-- `np.transpose(np.array([np.diagonal(arr) for arr in acr_3d]))`, `/repo/pynare/io/summary.py:307-308`, for square arrays
of one size. -/
def diagRows : List (Arr (Option V)) → List (List (Option V))
  | [] => []
  | a :: as => (List.range a.r).map fun i => (a :: as).map fun b => b.e i i

/-- The headings of lags, `/repo/pynare/io/summary.py:311`. -/
def lagHeading (i : ℕ) : Txt := "p = ".toList ++ Nat.toDigits 10 i

/-- `autocorr_str`, `/repo/pynare/io/summary.py:302-328`. -/
def autocorrText (S : Statistics V) (sig pad lags : ℕ) (endog : List Txt) : Except Err Txt := do
  let as ← S.autocorr lags
  namedTable "autocovariance of endogenous variables:".toList pad sig as.length ((List.range lags).map lagHeading) endog
    (diagRows as)

/-- `decomp_str`, `/repo/pynare/io/summary.py:330-356`. -/
def decompText (S : Statistics V) (sig pad : ℕ) (endog stoch : List Txt) : Except Err Txt := do
  let a ← S.decomp
  namedTable "variance decomposition:".toList pad sig a.c stoch endog a.rowList

end tables

/-! ### summaries -/

/-- What is given where names are asked for, `/repo/pynare/io/summary.py:25,80`: a string, something that can be iterated
again and again, something that can be iterated once, or something else (that is not false). -/
inductive NamesArg where
  | str (s : String)
  | seq (xs : List String)
  | once (xs : List String)
  | other
  deriving DecidableEq

/-- `Summary.__init__`, `/repo/pynare/io/summary.py:20-51`: what `only` holds afterwards.  Iterators have been used up by
the check; an object of another type is refused. -/
def chooseOnly (features : List String) : NamesArg → Except Err NamesArg
  | .seq xs => if xs.all fun f => decide (f ∈ features) then .ok (.seq xs) else .error .valueError
  | .once xs => if xs.all fun f => decide (f ∈ features) then .ok (.once []) else .error .valueError
  | .other => .error .typeError
  | .str s => if s = "" then .ok (.seq features)
    else if s ∈ features then .ok (.seq [s]) else .error .valueError

/-- What a loop over the argument visits, and what is left of it: the characters of a string. -/
def NamesArg.visit : NamesArg → Except Err (List String × NamesArg)
  | .str s => .ok (s.toList.map fun c => String.ofList [c], .str s)
  | .seq xs => .ok (xs, .seq xs)
  | .once xs => .ok (xs, .once [])
  | .other => .error .typeError

/-- Whether the argument counts as true. -/
def NamesArg.truth : NamesArg → Bool
  | .str s => s ≠ ""
  | .seq xs => xs ≠ []
  | .once _ => true
  | .other => true

section summaries
variable {V : Type} [Field V] [LinearOrder V] [FloorRing V]

/-- Numbers that may be infinite or not a number. -/
inductive XNum (V : Type) where
  | fin (x : V)
  | inf (neg : Bool)
  | nan
  deriving DecidableEq

/-- Their text. -/
def XNum.text (d : ℕ) : XNum V → Txt
  | .fin x => fixedText d x
  | .inf neg => (if neg then ['-'] else []) ++ ['i', 'n', 'f']
  | .nan => ['n', 'a', 'n']

/-- The numbers different from zero and finite, `/repo/pynare/io/summary.py:131-132`. -/
def XNum.good : XNum V → Option V
  | .fin x => if x = 0 then none else some x
  | _ => none

/-- An eigenvalue: real part, imaginary part, modulus. -/
structure Eigen (V : Type) where
  re : XNum V
  im : XNum V
  mod : XNum V

/-- The order in which `np.argsort` arranges numbers: infinity and what is not a number at the end. -/
def XNum.le : XNum V → XNum V → Bool
  | _, .nan => true
  | .nan, _ => false
  | .inf true, _ => true
  | .fin x, .fin y => decide (x ≤ y)
  | _, .inf neg => !neg
  | .inf false, .fin _ => false

/-- What the summary of a model reads, `/repo/pynare/io/summary.py:97-103,124,155,163,184-188`. -/
structure ModelView (V : Type) where
  endog : List Txt
  stoch : List Txt
  nState : ℕ
  nForward : ℕ
  nStatic : ℕ
  eigen : Except Err (List (Eigen V))
  sigma : Except Err (List (List V))
  params : Dict V

/-- One line of `variables_str`, `/repo/pynare/io/summary.py:105-111`. -/
def countLine (lpad : ℕ) (label : Txt) (n : ℕ) : List Txt :=
  if n = 0 then []
  else ["number of ".toList ++ label ++ ": ".toList ++ List.replicate (lpad - label.length) ' ' ++ Nat.toDigits 10 n]

/-- `variables_str`, `/repo/pynare/io/summary.py:89-115`: the longest label is `forward-looking vars`. -/
def variablesText (m : ModelView V) (pad : ℕ) : Txt :=
  joinTxt ('\n' :: List.replicate pad ' ') ("variables:".toList ::
    (countLine 20 "variables".toList m.endog.length ++ countLine 20 "stochastic shocks".toList m.stoch.length ++
     countLine 20 "state vars".toList m.nState ++ countLine 20 "forward-looking vars".toList m.nForward ++
     countLine 20 "static vars".toList m.nStatic))

/-- A row of three numbers, `/repo/pynare/io/summary.py:145-147`. -/
def eigenLine (w : ℤ) (sig : ℕ) (e : Eigen V) : Txt :=
  joinTxt [' '] ([e.re, e.im, e.mod].map fun x => rjust w.natAbs (x.text sig))

/-- `eigen_str`, `/repo/pynare/io/summary.py:117-151`.  Simplified: eigenvalues of equal modulus keep their order (numpy
does not say which order they have). -/
def eigenText (m : ModelView V) (sig pad : ℕ) : Except Err Txt := do
  let es ← m.eigen
  let sorted := es.mergeSort fun a b => a.mod.le b.mod
  let good := (sorted.flatMap fun e => [e.re, e.im, e.mod]).filterMap XNum.good
  if good = [] then .error .valueError
  else
    let w := floorLog10 (maxAbs good) + 3 + sig
    .ok (joinTxt ('\n' :: List.replicate pad ' ') ("steady-state eigenvalues:".toList ::
      joinTxt [' '] (["real".toList, "imag".toList, "mod".toList].map (rjust w.toNat)) ::
      sorted.map (eigenLine w sig)))

/-- `stoch_str`, `/repo/pynare/io/summary.py:153-179`. -/
def stochText (m : ModelView V) (sig pad : ℕ) : Except Err Txt := do
  let lp ← maxLen m.stoch
  let sigma ← m.sigma
  let l ← leftDigits floorLog10 (sigma.flatten.map some)
  let w := l + sig
  .ok (joinTxt ('\n' :: List.replicate pad ' ') ("covariance of stoch shocks:".toList ::
    (List.replicate (lp + 1) ' ' ++ joinTxt [' '] (m.stoch.map (rjust w.toNat))) ::
    List.zipWith (fun st row => ljust (lp + 1) st ++ joinTxt [' '] (row.map fun x => widthText w sig (some x)))
      m.stoch sigma))

/-- The dictionary of the parameters asked for, `/repo/pynare/io/summary.py:188`, added to `d`. -/
def pickParams (params : Dict V) (d : Dict V) : List String → Except Err (Dict V)
  | [] => .ok d
  | p :: ps => match params.get? p with
    | none => .error .keyError
    | some v => pickParams params (d.set p v) ps

/-- The lines for parameters, `/repo/pynare/io/summary.py:191-203` and `/repo/pynare/core/variables.py:821-835`. -/
def paramLines (sig pad : ℕ) (display : Dict V) : Except Err (List Txt) := do
  let lp ← maxLen (display.map fun p => p.1.toList)
  let l ← leftDigits fixLog10 (display.map fun p => some p.2)
  .ok (display.map fun p => List.replicate pad ' ' ++ ljust (lp + 1) p.1.toList ++ ['=', ' '] ++
    widthText (l + sig) sig (some p.2))

/-- `params_str`, `/repo/pynare/io/summary.py:181-205`, and what is left of the argument. -/
def paramsText (m : ModelView V) (sig pad : ℕ) (arg : NamesArg) : NamesArg × Except Err Txt :=
  if arg = .str "all" then
    (arg, do
      let ls ← paramLines sig pad m.params
      .ok (joinTxt ['\n'] ("model calibration:".toList :: ls)))
  else match arg.visit with
    | .error e => (arg, .error e)
    | .ok (ps, arg') => (arg', do
      let d ← pickParams m.params [] ps
      let ls ← paramLines sig pad d
      .ok (joinTxt ['\n'] ("partial model calibration:".toList :: ls)))

/-- `ModelCalibration.__str__`, `/repo/pynare/core/variables.py:820-837`. -/
def calibText (params : Dict V) : Except Err Txt := do
  let ls ← paramLines 6 4 params
  .ok (joinTxt ['\n'] ("ModelCalibration".toList :: ls))

/-- A `ModelSummary`, `/repo/pynare/io/summary.py:71-87`. -/
structure ModelSummary (V : Type) where
  view : ModelView V
  sig : ℕ := 6
  pad : ℕ := 4
  vars : Bool := true
  eigen : Bool := true
  stoch : Bool := true
  params : NamesArg := .str "all"
  only : NamesArg := .str ""

/-- The features of a model's summary, `/repo/pynare/io/summary.py:64-69`. -/
def modelFeatures : List String := ["variables", "eigen", "stoch", "params"]

/-- `ModelSummary(...)`, `/repo/pynare/io/summary.py:71-87`. -/
def ModelSummary.make (s : ModelSummary V) : Except Err (ModelSummary V) := do
  let o ← chooseOnly modelFeatures s.only
  .ok { s with only := o }

/-- One feature, `/repo/pynare/io/summary.py:211-214`. -/
def ModelSummary.feature (s : ModelSummary V) (f : String) : ModelSummary V × Except Err (List Txt) :=
  if f = "variables" then (s, .ok (if s.vars then [variablesText s.view s.pad] else []))
  else if f = "eigen" then (s, if s.eigen then (eigenText s.view s.sig s.pad).map fun t => [t] else .ok [])
  else if f = "stoch" then (s, if s.stoch then (stochText s.view s.sig s.pad).map fun t => [t] else .ok [])
  else if f = "params" then
    if s.params.truth then
      let r := paramsText s.view s.sig s.pad s.params
      ({ s with params := r.1 }, r.2.map fun t => [t])
    else (s, .ok [])
  else (s, .error .attributeError)

/-- The loop over the features. -/
def ModelSummary.sections (s : ModelSummary V) : List String → ModelSummary V × Except Err (List Txt)
  | [] => (s, .ok [])
  | f :: fs => match s.feature f with
    | (s', .error e) => (s', .error e)
    | (s', .ok ts) => match s'.sections fs with
      | (s'', .error e) => (s'', .error e)
      | (s'', .ok rest) => (s'', .ok (ts ++ rest))

/-- `ModelSummary.__str__`, `/repo/pynare/io/summary.py:207-215`, and the object afterwards. -/
def ModelSummary.print (s : ModelSummary V) : ModelSummary V × Except Err Txt :=
  match s.only.visit with
  | .error e => (s, .error e)
  | .ok (fs, o) => match ({ s with only := o } : ModelSummary V).sections fs with
    | (s', r) => (s', r.map fun ts => joinTxt ['\n', '\n'] ("model summary:".toList :: ts))

/-- A `ModelStatisticsSummary`, `/repo/pynare/io/summary.py:228-244`. -/
structure StatSummary (V : Type) where
  stats : Statistics V
  endog : List Txt
  stoch : List Txt
  sig : ℕ := 6
  pad : ℕ := 4
  moments : Bool := true
  corr : Bool := true
  autocorr : ℕ := 5
  decomp : Bool := true
  only : List String

/-- The features of the summary of statistics, `/repo/pynare/io/summary.py:221-226`. -/
def statFeatures : List String := ["moments", "corr", "autocorr", "decomp"]

/-- One feature, `/repo/pynare/io/summary.py:361-364`. -/
def StatSummary.feature (s : StatSummary V) (f : String) : Except Err (List Txt) :=
  if f = "moments" then
    if s.moments then (momentsText s.stats s.sig s.pad s.endog).map fun t => [t] else .ok []
  else if f = "corr" then
    if s.corr then (corrText s.stats s.sig s.pad s.endog).map fun t => [t] else .ok []
  else if f = "autocorr" then
    if s.autocorr ≠ 0 then (autocorrText s.stats s.sig s.pad s.autocorr s.endog).map fun t => [t] else .ok []
  else if f = "decomp" then
    if s.decomp then (decompText s.stats s.sig s.pad s.endog s.stoch).map fun t => [t] else .ok []
  else .error .attributeError

/-- `ModelStatisticsSummary.__str__`, `/repo/pynare/io/summary.py:358-365`, for features that are given as a sequence;
statistics do not change from one to the next here (see `Solve` for what they store). -/
def StatSummary.print (s : StatSummary V) : Except Err Txt := do
  let ts ← s.only.mapM s.feature
  .ok (joinTxt ['\n', '\n'] ("statistics summary:".toList :: ts.flatten))

end summaries

/-! ### the interface to statistics -/

/-- The parameters of the statistics, `/repo/pynare/stats/stats.py:26-35` with the signatures in
`/repo/pynare/stats/moments.py` and `/repo/pynare/stats/var.py`. -/
def statParams : Dict (List String) :=
  [("mean", ["md"]), ("var", ["md"]), ("std", ["md"]), ("cov", ["md"]), ("corr", ["md"]),
   ("autocorr", ["md", "p"]), ("autocov", ["md", "p"]), ("var_decomp", ["md", "endog", "stoch"])]

/-- Binding of arguments to the parameters of a Python function: positional ones first, then those with keywords, where
a parameter that has got a value already or does not exist raises `TypeError`. -/
def bindArgs {A : Type} (params : List String) (pos : List A) (kw : Dict A) : Except Err (Dict A) :=
  if params.length < pos.length then .error .typeError
  else if kw.any fun p => decide (p.1 ∉ params.drop pos.length) then .error .typeError
  else .ok (params.zip pos ++ kw)

/-- A call of `model.stats.<attr>`, `/repo/pynare/stats/stats.py:42-53`: the model is bound with the keyword `md`, which
keywords of the call override; `call` is the function of that name, applied to its bound arguments. -/
def statsCall {A R : Type} (call : String → Dict A → Except Err R) (model : A) (attr : String) (pos : List A)
    (kw : Dict A) : Except Err R :=
  match statParams.get? attr with
  | none => .error .attributeError
  | some params => do
    let bound ← bindArgs params pos (kw.foldl (fun d p => d.set p.1 p.2) [("md", model)])
    call attr bound

end Pynare
