import Verif.Model.ModelObj
import Verif.Model.Parser
import Verif.Model.Lexer
/-!
# From a file to a model

Mirrors `Model.from_path` and `Model.from_outline` (`/repo/pynare/core/model.py:65-149`), `read_model`
(`/repo/pynare/parsing/api.py:13-32`) with `ModelFactory` (`/repo/pynare/parsing/factory.py:137-148`) and
`DynareModelFactory.__init__` (`/repo/pynare/parsing/factory.py:163-183`), `read_file` and `read_example`
(`/repo/pynare/io/files.py:10-48`) and the registry of examples (`/repo/pynare/examples/__init__.py`).
-/

namespace Pynare

variable {V SS S : Type}

/-- What reading a file delegates: characters and spelling of numbers, the parser's numbers, `v ** 2`, and what
the model object delegates. -/
structure ReadEnv (V SS S : Type) where
  cfg : LexCfg V
  pc : PCfg V
  sq : V → Except Err V
  env : MEnv V SS S

/-- The first loop of `solve_calibration` on the local variables of an outline, which are numbers or `None`,
`/repo/pynare/core/variables.py:856-869`: `None` raises `TypeError`. -/
def localDefs : Dict (Option V) → Except Err (Dict (Def V))
  | [] => .ok []
  | (_, none) :: _ => .error .typeError
  | (x, some v) :: ls => do
    let ds ← localDefs ls
    .ok ((x, .num v) :: ds)

/-- A dictionary of boundary values: `None` is the default of `dict.get`, so an entry that holds `None` is the same
as a missing one, `/repo/pynare/core/variables.py:279-296`. -/
def dropNone {α : Type} : Dict (Option α) → Dict α
  | [] => []
  | (x, some v) :: d => (x, v) :: dropNone d
  | (_, none) :: d => dropNone d

/-- The dictionary of one shock as keyword arguments.  (An entry that holds `None` is taken to be missing, which is the
same to `StochVar`; to `DetermVar` it would be an unexpected keyword.) -/
def ShockDict.moments (d : ShockDict V) : Moments V :=
  { other := d.other, variance := d.variance, corr := d.corr, cov := d.cov }

/-- The arguments `from_outline` passes on besides the two calibrations, `/repo/pynare/core/model.py:113-149`.  The
equations are trees, so their texts are empty (`/repo/pynare/core/expressions.py:40`). -/
def outlineArgs (o : Outline V) (name : String) : MArgs V :=
  { endog := o.endog
    stoch := o.stoch
    determ := o.determ
    shocks := o.shocks.map fun p => (p.1, p.2.moments)
    exprs := ⟨o.exprs, o.exprs.map fun _ => ""⟩
    initial := dropNone o.initial
    terminal := dropNone o.terminal
    historical := dropNone o.historical
    name := name }

/-- `Model.from_outline`, `/repo/pynare/core/model.py:104-149`, through `Model.__init__`,
`/repo/pynare/core/model.py:48-62`: the local variables are calibrated first, then the language is checked
(`/repo/pynare/core/generic.py:41-42`), then the parameters are calibrated. -/
def fromOutline [Zero V] [One V] (env : MEnv V SS S) (o : Outline V) (lang name : String) :
    Except Err (MState V SS S) := do
  let ls ← localDefs o.locals
  let locals ← Calibration.create env.ops ls
  if lang ≠ "dynare" then .error .valueError
  else do
    let ps ← outlineDefs o.params
    let params ← Calibration.create env.ops ps
    MState.build env (outlineArgs o name) params locals

/-- `read_model`, `/repo/pynare/parsing/api.py:13-32` and `/repo/pynare/parsing/factory.py:137-148,163-183`. -/
def readModel (r : ReadEnv V SS S) (lang : String) (text : List Char) : Out (Outline V) :=
  if lang = "dynare" then do
    let ts ← r.cfg.kinds text
    let mf ← parseModel r.pc ts
    Out.ofExcept (createOutline r.env.ops r.sq mf)
  else .err .notImplemented

/-- The last two statements of `from_path`, `/repo/pynare/core/model.py:99-100`. -/
def fromText [Zero V] [One V] (r : ReadEnv V SS S) (lang name : String) (text : List Char) :
    Out (MState V SS S) := do
  let o ← readModel r lang text
  Out.ofExcept (fromOutline r.env o lang name)

/-- The argument of `from_path`: a string or a `pathlib.Path`, `/repo/pynare/core/model.py:68`. -/
inductive PathArg where
  | str (s : String)
  | path (s : String)

/-- Either way `open` is given the same path. -/
def PathArg.text : PathArg → String
  | .str s => s
  | .path s => s

/-- The registered examples, `/repo/pynare/examples/__init__.py:4-11`: the paths are relative. -/
def exampleModels : Dict String :=
  [("simple_rbc", "pynare/examples/pynare/simple_rbc.mod"),
   ("simple_linear", "pynare/examples/pynare/simple_linear.mod"),
   ("optim_ck", "pynare/examples/pynare/optim_ck.mod"),
   ("basic_nk", "pynare/examples/pynare/basic_nk.mod"),
   ("four_eq_nk", "pynare/examples/pynare/four_eq_nk.txt"),
   ("herbst_schorfheide", "pynare/examples/pynare/herbst_schorfheide.txt")]

/-- `s.split('.')[0]`. -/
def firstPart (s : String) : String := String.ofList (s.toList.takeWhile (· ≠ '.'))

/-- `s.split('/')[-1]`. -/
def lastPart (s : String) : String := String.ofList (s.toList.reverse.takeWhile (· ≠ '/')).reverse

/-- `ExampleRegistry.get_example`, `/repo/pynare/examples/__init__.py:16-25`. -/
def getExample (s : String) : Except Err String :=
  match exampleModels.get? s with
  | some p => .ok p
  | none => match exampleModels.get? (firstPart s) with
    | some p => .ok p
    | none => .error .valueError

/-- `read_file`, `/repo/pynare/io/files.py:10-28`, in a file system that gives the text at a path, if there is one.
Other failures of `open` and `read` are not modelled. -/
def readFile (fs : String → Option (List Char)) (p : String) : Except Err (List Char) :=
  match fs p with
  | some t => .ok t
  | none => .error .fileNotFound

/-- The text `from_path` reads, `/repo/pynare/core/model.py:87-93`.  A path object is not a key of the registry, and
it has no `split`: `AttributeError`. -/
def pathText (fs : String → Option (List Char)) (a : PathArg) : Except Err (List Char) :=
  match fs a.text with
  | some t => .ok t
  | none => match a with
    | .path _ => .error .attributeError
    | .str s => match getExample s with
      | .ok q => readFile fs q
      | .error _ => .error .fileNotFound

/-- `Model.from_path`, `/repo/pynare/core/model.py:65-100`: line 96 splits the argument, which a path object cannot. -/
def fromPath [Zero V] [One V] (r : ReadEnv V SS S) (fs : String → Option (List Char)) (a : PathArg) (lang : String) :
    Out (MState V SS S) :=
  match pathText fs a with
  | .error e => .err e
  | .ok text => match a with
    | .path _ => .err .attributeError
    | .str s => fromText r lang (firstPart (lastPart s)) text

end Pynare
