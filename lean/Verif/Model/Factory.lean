import Verif.Model.Semantics
import Verif.Model.Calib
/-!
# From the tree of a model file to the model outline

Mirrors `ModelOutline`, `ScopedMemory` and `DynareModelFactory`, `/repo/pynare/parsing/factory.py`,
and `read_lead_lags` with `LeadLagCounter`, `/repo/pynare/core/variables.py:434-521`.

A Python value is an `Option V` where it can be `None`.
-/

namespace Pynare

variable {V : Type}

/-- A `ScopedMemory` without its enclosing scope, `/repo/pynare/parsing/factory.py:111-132`. -/
abbrev Mem (V : Type) := Dict (Option V)

/-- `ScopedMemory.lookup`, `/repo/pynare/parsing/factory.py:123-132`: a stored `None` counts as
absent; `None` when no scope has the name. -/
def memLookup (sc : List (Mem V)) (x : String) : Option V :=
  match sc with
  | [] => none
  | t :: ts => match t.get? x with
    | some (some v) => some v
    | _ => memLookup ts x

/-- `BaseEvaluator` with a `ScopedMemory` as scope, `/repo/pynare/parsing/base.py:154-277`: the
lookup of a name without value answers `None`, on which every operation raises `TypeError`.
(`None == None` would be true; comparisons never get here, the semantic check rejects them.) -/
def fileEval (ops : Ops V) (look : String → Option V) : Expr V → Except Err (Option V)
  | .num v => .ok (some v)
  | .var x => .ok (look x)
  | .pvar _ _ => .error .exception
  | .un op e => do
    match ← fileEval ops look e with
    | some v => return some (← ops.un op v)
    | none => .error .typeError
  | .bin op l r => do
    let a ← fileEval ops look l
    let b ← fileEval ops look r
    match a, b with
    | some a, some b => return some (← ops.bin op a b)
    | _, _ => .error .typeError
  | .cmp op l r => do
    let a ← fileEval ops look l
    let b ← fileEval ops look r
    match a, b with
    | some a, some b => return some (← ops.cmp op a b)
    | _, _ => .error .typeError
  | .fn f e =>
    if f.unsupported then .error .notImplemented
    else do
      match ← fileEval ops look e with
      | some v => return some (← ops.fn (if f = .ln then .log else f) v)
      | none => .error .typeError

/-- The entries of the dictionary of one shock, `/repo/pynare/parsing/factory.py:404-418`.  An
entry that holds `None` is the same as a missing one to `StochVar`
(`/repo/pynare/core/variables.py:200-213`, all defaults are `None`; a missing `other` is the empty
string). -/
structure ShockDict (V : Type) where
  variance : Option V := none
  other : Option String := none
  corr : Option V := none
  cov : Option V := none
  deriving DecidableEq, Repr

/-- `ModelOutline`, `/repo/pynare/parsing/factory.py:25-46`. -/
structure Outline (V : Type) where
  params : Dict (Option (Expr V)) := []
  endog : List String := []
  leadLags : Dict (List Int) := []
  stoch : List String := []
  determ : List String := []
  locals : Dict (Option V) := []
  exprs : List (Expr V) := []
  initial : Dict (Option V) := []
  terminal : Dict (Option V) := []
  historical : Dict (Option V) := []
  shocks : Dict (ShockDict V) := []

/-- `visit_VarDeclaration`, `/repo/pynare/parsing/factory.py:203-217`: the mapping of lines 156-161
has no entry for the other keywords. -/
def facDecl (o : Outline V) (x k : String) : Except Err (Outline V) :=
  if k = "parameters" then .ok { o with params := o.params.set x none }
  else if k = "varexo" then .ok { o with stoch := o.stoch ++ [x] }
  else if k = "varexo_det" then .ok { o with determ := o.determ ++ [x] }
  else if k = "var" then
    .ok { o with endog := o.endog ++ [x], leadLags := o.leadLags.set x [] }
  else .error .keyError

/-- Declarations in order, `/repo/pynare/parsing/factory.py:431-433`. -/
def facDecls (o : Outline V) : List (String × String) → Except Err (Outline V)
  | [] => .ok o
  | (x, k) :: ds => do
    let o' ← facDecl o x k
    facDecls o' ds

/-- The state of the factory: the outline and the two scopes,
`/repo/pynare/parsing/factory.py:176-181`. -/
structure Fac (V : Type) where
  out : Outline V
  file : Mem V
  model : Mem V

/-- `visit_VarAssignment`, `/repo/pynare/parsing/factory.py:220-252`. -/
def facAssign (ops : Ops V) (s : Fac V) (x : String) (e : Expr V) : Except Err (Fac V) := do
  let v ← fileEval ops (memLookup [s.file, s.model]) e
  match s.out.params.get? x with
  | some _ => .ok { s with
      model := s.model.set x v
      out := { s.out with params := s.out.params.set x (some e) } }
  | none => .ok { s with file := s.file.set x v }

/-- Assignments in order, `/repo/pynare/parsing/factory.py:431-433`. -/
def facAssigns (ops : Ops V) (s : Fac V) : List (String × Expr V) → Except Err (Fac V)
  | [] => .ok s
  | (x, e) :: as => do
    let s' ← facAssign ops s x e
    facAssigns ops s' as

/-- Insert into a Python `set` of integers kept as a duplicate-free list. -/
def intAdd (s : List Int) (x : Int) : List Int := if x ∈ s then s else s ++ [x]

/-- `periods.add(p)` on the entry of `x`, if there is one,
`/repo/pynare/parsing/factory.py:326-344`. -/
def llAdd (d : Dict (List Int)) (x : String) (p : Int) : Dict (List Int) :=
  match d.get? x with
  | some s => d.set x (intAdd s p)
  | none => d

/-- The visitors that record periods, `/repo/pynare/parsing/factory.py:315-347`. -/
def facPeriods (d : Dict (List Int)) : Expr V → Except Err (Dict (List Int))
  | .num _ => .ok d
  | .var x => .ok (llAdd d x 0)
  | .pvar x o => .ok (llAdd d x o)
  | .un _ e => facPeriods d e
  | .bin _ l r => do
    let d' ← facPeriods d l
    facPeriods d' r
  | .cmp _ _ _ => .error .exception
  | .fn _ e => facPeriods d e

/-- `visit_LocalModelDeclaration` and `visit_ModelExpression`,
`/repo/pynare/parsing/factory.py:281-307`; `mdef` is the scope of the model block (lines 261-264),
enclosed by the scope of the parameters but not by that of the other names of the file. -/
def facStmt (ops : Ops V) (model : Mem V) (st : Outline V × Mem V) :
    Stmt V → Except Err (Outline V × Mem V)
  | .loc x e => do
    let v ← fileEval ops (memLookup [st.2, model]) e
    .ok ({ st.1 with locals := st.1.locals.set x v }, st.2.set x v)
  | .eqn l r _ => do
    let d ← facPeriods st.1.leadLags (.bin .sub l r)
    .ok ({ st.1 with leadLags := d, exprs := st.1.exprs ++ [.bin .sub l r] }, st.2)

/-- `visit_Model`, `/repo/pynare/parsing/factory.py:271-278`. -/
def facStmts (ops : Ops V) (model : Mem V) (st : Outline V × Mem V) :
    List (Stmt V) → Except Err (Outline V × Mem V)
  | [] => .ok st
  | s :: ss => do
    let st' ← facStmt ops model st s
    facStmts ops model st' ss

/-- `calculate_ModelBoundaryValues`, `/repo/pynare/parsing/factory.py:371-385`. -/
def facBound (ops : Ops V) (look : String → Option V) (d : Dict (Option V)) :
    List (String × Expr V) → Except Err (Dict (Option V))
  | [] => .ok d
  | (x, e) :: bs => do
    let v ← fileEval ops look e
    facBound ops look (d.set x v) bs

/-- `visit_ModelBoundaryValues`, `/repo/pynare/parsing/factory.py:357-368`.  The last branch
assigns `end_values`, a local variable that only an `endval` block sets. -/
def facBounds (ops : Ops V) (look : String → Option V) (o : Outline V) (a : Actions V) :
    Except Err (Outline V) := do
  let o ← match a.initval with
    | some b => do
      let d ← facBound ops look [] b.vals
      pure { o with initial := d }
    | none => pure o
  let (o, endVals) ← match a.endval with
    | some b => do
      let d ← facBound ops look [] b.vals
      pure ({ o with terminal := d }, some d)
    | none => pure (o, none)
  match a.histval with
  | some b => do
    let _ ← facBound ops look [] b.vals
    match endVals with
    | some d => pure { o with historical := d }
    | none => .error .unboundLocal
  | none => pure o

/-- Body of the loop of `visit_ShocksBlock`, `/repo/pynare/parsing/factory.py:393-423`.  `sq v` is
`v ** 2`.  A deterministic shock has no attribute `expr`. -/
def facShock (ops : Ops V) (sq : V → Except Err V) (look : String → Option V)
    (d : Dict (ShockDict V)) : Shock V → Except Err (Dict (ShockDict V))
  | .variance x e => do
    let v ← fileEval ops look e
    .ok (d.set x { (d.get? x).getD {} with variance := v })
  | .stderr x e => do
    match ← fileEval ops look e with
    | some v => do
      let w ← sq v
      .ok (d.set x { (d.get? x).getD {} with variance := some w })
    | none => .error .typeError
  | .corr x y e => do
    let v ← fileEval ops look e
    .ok (d.set x { (d.get? x).getD {} with other := some y, corr := v })
  | .cov x y e => do
    let v ← fileEval ops look e
    .ok (d.set x { (d.get? x).getD {} with other := some y, cov := v })
  | .det _ _ _ => .error .attributeError

/-- The loop of `visit_ShocksBlock`, `/repo/pynare/parsing/factory.py:388-425`. -/
def facShocks (ops : Ops V) (sq : V → Except Err V) (look : String → Option V)
    (d : Dict (ShockDict V)) : List (Shock V) → Except Err (Dict (ShockDict V))
  | [] => .ok d
  | s :: ss => do
    let d' ← facShock ops sq look d s
    facShocks ops sq look d' ss

/-- `DynareModelFactory.__init__` after parsing, and `create_outline`,
`/repo/pynare/parsing/factory.py:163-192,258-268,352-354`. -/
def createOutline (ops : Ops V) (sq : V → Except Err V) (m : ModelFile V) :
    Except Err (Outline V) := do
  verify m
  let o ← facDecls {} m.decls
  let s ← facAssigns ops ⟨o, [], []⟩ m.params
  let (o, _) ← facStmts ops s.model (s.out, []) m.stmts
  let look := memLookup [s.file, s.model]
  let o ← facBounds ops look o m.actions
  match m.actions.shocks with
  | none => .error .exception
  | some b => do
    let d ← facShocks ops sq look [] b.shocks
    .ok { o with shocks := d }

/-- The first loop of `solve_calibration` on the parameters of an outline,
`/repo/pynare/core/variables.py:856-869`: `None` raises `TypeError`, a `Num` node is replaced by
its number. -/
def outlineDefs : Dict (Option (Expr V)) → Except Err (Dict (Def V))
  | [] => .ok []
  | (_, none) :: _ => .error .typeError
  | (x, some e) :: ps => do
    let ds ← outlineDefs ps
    .ok ((x, match e with
      | .num v => .num v
      | e => .ast e) :: ds)

/-- `ModelCalibration(outline._parameters)`, `/repo/pynare/core/generic.py:58`. -/
def outlineCalib (ops : Ops V) (o : Outline V) : Except Err (Dict (Def V)) := do
  let defs ← outlineDefs o.params
  solveCalibration ops defs

/-! ### lead/lag incidence of a list of equations -/

/-- One occurrence seen by `LeadLagCounter`, `/repo/pynare/core/variables.py:504-521`. -/
def countAdd (endog : List String) (d : Dict (List Int)) (x : String) (p : Int) : Dict (List Int) :=
  if x ∈ endog then d.set x (intAdd ((d.get? x).getD []) p) else d

/-- `LeadLagCounter.count`, `/repo/pynare/core/variables.py:475-521`. -/
def countPeriods (endog : List String) (d : Dict (List Int)) : Expr V → Except Err (Dict (List Int))
  | .num _ => .ok d
  | .var x => .ok (countAdd endog d x 0)
  | .pvar x o => .ok (countAdd endog d x o)
  | .un _ e => countPeriods endog d e
  | .bin _ l r => do
    let d' ← countPeriods endog d l
    countPeriods endog d' r
  | .cmp _ _ _ => .error .exception
  | .fn _ e => countPeriods endog d e

/-- Union of two Python sets of integers. -/
def intUnion (s t : List Int) : List Int := t.foldl intAdd s

/-- The inner loop of `read_lead_lags`, `/repo/pynare/core/variables.py:468-469`. -/
def mergeCounts (d : Dict (List Int)) : Dict (List Int) → Except Err (Dict (List Int))
  | [] => .ok d
  | (x, ps) :: cs => match d.get? x with
    | some s => mergeCounts (d.set x (intUnion s ps)) cs
    | none => .error .keyError

/-- The outer loop of `read_lead_lags`, `/repo/pynare/core/variables.py:464-469`. -/
def readLoop (endog : List String) (d : Dict (List Int)) :
    List (Expr V) → Except Err (Dict (List Int))
  | [] => .ok d
  | e :: es => do
    let c ← countPeriods endog [] e
    let d' ← mergeCounts d c
    readLoop endog d' es

/-- `dict.fromkeys(names, set())`, `/repo/pynare/core/variables.py:462`.  (The shared empty set is
never mutated: line 469 makes a new one.) -/
def fromKeys (names : List String) : Dict (List Int) :=
  names.foldl (fun d x => d.set x []) []

/-- `read_lead_lags`, `/repo/pynare/core/variables.py:434-471`. -/
def readLeadLags (endog : List String) (es : List (Expr V)) : Except Err (Dict (List Int)) :=
  readLoop endog (fromKeys endog) es

end Pynare
