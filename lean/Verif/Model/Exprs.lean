import Verif.Model.Index
/-!
# Residual functions of the equations

Mirrors `/repo/pynare/core/expressions.py` and the linearisation point of
`/repo/pynare/core/linearizing.py:53-63`.
-/

namespace Pynare

variable {V : Type}

/-! ### the container of equations -/

/-- An equation given by the user: its text, or a tree, `/repo/pynare/core/expressions.py:43-54`.
Anything else raises `TypeError`. -/
inductive ExprArg (V : Type) where
  | text (s : String)
  | tree (e : Expr V)
  | other

/-- `ModelExprs`, `/repo/pynare/core/expressions.py:29-40`. -/
structure ModelExprs (V : Type) where
  exprs : List (Expr V)
  strs : List String

/-- `ModelExprs.parse`, `/repo/pynare/core/expressions.py:42-54`; `parse` stands for lexing and
parsing a text as one equation (`ExprParser`, lines 105-118). -/
def ExprArg.parse (parse : String → Except Err (Expr V)) : ExprArg V → Except Err (Expr V)
  | .text s => parse s
  | .tree e => .ok e
  | .other => .error .typeError

/-- `obj if isinstance(obj, str) else ''`, `/repo/pynare/core/expressions.py:40,69,75`. -/
def ExprArg.str : ExprArg V → String
  | .text s => s
  | _ => ""

/-- `[self.parse(ep) for ep in exprs]`, `/repo/pynare/core/expressions.py:39`. -/
def parseAll (parse : String → Except Err (Expr V)) : List (ExprArg V) → Except Err (List (Expr V))
  | [] => .ok []
  | a :: as => do
    let e ← a.parse parse
    let es ← parseAll parse as
    .ok (e :: es)

/-- `ModelExprs.__init__` for an iterable other than `ModelExprs`,
`/repo/pynare/core/expressions.py:39-40`.  The argument is read twice; a generator is exhausted by
the first reading (`again = false`). -/
def ModelExprs.init (parse : String → Except Err (Expr V)) (as : List (ExprArg V)) (again : Bool) :
    Except Err (ModelExprs V) := do
  let es ← parseAll parse as
  .ok ⟨es, if again then as.map ExprArg.str else []⟩

/-- Python's list index: negative ones count from the end. -/
def pyIndex (n : Nat) (key : Int) : Except Err Nat :=
  if 0 ≤ key ∧ key < n then .ok key.toNat
  else if key < 0 ∧ -(n : Int) ≤ key then .ok (key + n).toNat
  else .error .indexError

/-- The position at which `list.insert` inserts: clamped to the list. -/
def pyInsertPos (n : Nat) (key : Int) : Nat :=
  if 0 ≤ key then min key.toNat n else (key + n).toNat

/-- `list.insert`. -/
def pyInsert {α : Type} (xs : List α) (key : Int) (a : α) : List α :=
  xs.insertIdx (pyInsertPos xs.length key) a

/-- `__delitem__` for an integer key, `/repo/pynare/core/expressions.py:62-64`. -/
def ModelExprs.del (m : ModelExprs V) (key : Int) : Except Err (ModelExprs V) := do
  let i ← pyIndex m.exprs.length key
  let j ← pyIndex m.strs.length key
  .ok ⟨m.exprs.eraseIdx i, m.strs.eraseIdx j⟩

/-- `__setitem__` for an integer key, `/repo/pynare/core/expressions.py:66-69`. -/
def ModelExprs.setItem (parse : String → Except Err (Expr V)) (m : ModelExprs V) (key : Int)
    (a : ExprArg V) : Except Err (ModelExprs V) := do
  let e ← a.parse parse
  let i ← pyIndex m.exprs.length key
  let j ← pyIndex m.strs.length key
  .ok ⟨m.exprs.set i e, m.strs.set j a.str⟩

/-- `insert`, `/repo/pynare/core/expressions.py:71-76`. -/
def ModelExprs.insert (parse : String → Except Err (Expr V)) (m : ModelExprs V) (key : Int)
    (a : ExprArg V) : Except Err (ModelExprs V) := do
  let e ← a.parse parse
  .ok ⟨pyInsert m.exprs key e, pyInsert m.strs key a.str⟩

/-- `append`, `/repo/pynare/core/expressions.py:78-79`. -/
def ModelExprs.append (parse : String → Except Err (Expr V)) (m : ModelExprs V) (a : ExprArg V) :
    Except Err (ModelExprs V) := m.insert parse m.exprs.length a

/-! ### substitution -/

/-- The name of the argument for an occurrence with offset `o`,
`/repo/pynare/core/expressions.py:389,460`. -/
def offsetName (x : String) (o : Int) : String := if o > 0 then x ++ "p1" else x ++ "m1"

/-- `_DynamicSubsitution.maybe_substitute`, `/repo/pynare/core/expressions.py:446-461`: the new
child and the names recorded in `not_provided`. -/
def dynMaybe (σ : String → Option V) : Expr V → Expr V × List String
  | .var x => match σ x with
    | some v => (.num v, [])
    | none => (.var x, [x])
  | .pvar x o => (.pvar x o, [offsetName x o])
  | e => (e, [])

/-- `_SteadyStateSubstitution.maybe_substitute`, `/repo/pynare/core/expressions.py:412-420`. -/
def steadyMaybe (σ : String → Option V) : Expr V → Expr V × List String
  | .var x => match σ x with
    | some v => (.num v, [])
    | none => (.var x, [x])
  | .pvar x o => match σ x with
    | some v => (.num v, [])
    | none => (.pvar x o, [x])
  | e => (e, [])

/-- `_ASTSubstitution.visit`, `/repo/pynare/parsing/base.py:322-350`, with the `maybe_substitute`
of a subclass: the new tree and the recorded names.  A function node substitutes before it
descends; its child is then either the old one or a number. -/
def subTree (mb : Expr V → Expr V × List String) : Expr V → Except Err (Expr V × List String)
  | .num v => .ok (.num v, [])
  | .var x => .ok (.var x, [])
  | .pvar x o => .ok (.pvar x o, [])
  | .un op e => do
    let p ← subTree mb e
    .ok (.un op (mb p.1).1, p.2 ++ (mb p.1).2)
  | .bin op l r => do
    let p ← subTree mb l
    let q ← subTree mb r
    .ok (.bin op (mb p.1).1 (mb q.1).1, p.2 ++ q.2 ++ ((mb p.1).2 ++ (mb q.1).2))
  | .cmp _ _ _ => .error .exception
  | .fn f e =>
    match mb e with
    | (.num v, ns) => .ok (.fn f (.num v), ns)
    | (_, ns) => do
      let p ← subTree mb e
      .ok (.fn f p.1, ns ++ p.2)

/-! ### evaluation -/

/-- `_BaseEvaluator.visit` with the `visit_Var` and `visit_PeriodVar` of a subclass,
`/repo/pynare/parsing/base.py:178-277`. -/
def evalP (ops : Ops V) (lv : String → Except Err V) (lp : String → Int → Except Err V) :
    Expr V → Except Err V
  | .num v => .ok v
  | .var x => lv x
  | .pvar x o => lp x o
  | .un op e => do
    let v ← evalP ops lv lp e
    ops.un op v
  | .bin op l r => do
    let a ← evalP ops lv lp l
    let b ← evalP ops lv lp r
    ops.bin op a b
  | .cmp op l r => do
    let a ← evalP ops lv lp l
    let b ← evalP ops lv lp r
    ops.cmp op a b
  | .fn f e =>
    if f.unsupported then .error .notImplemented
    else do
      let v ← evalP ops lv lp e
      ops.fn (if f = .ln then .log else f) v

/-- `{e: vec[i] for i, e in enumerate(vars) if e in names}`,
`/repo/pynare/core/expressions.py:269,358`. -/
def pickVals (names : List String) (d : Dict V) : List String → List V → Except Err (Dict V)
  | [], _ => .ok d
  | x :: xs, v :: vs => pickVals names (if x ∈ names then d.set x v else d) xs vs
  | x :: xs, [] => if x ∈ names then .error .indexError else pickVals names d xs []

/-- `model_signature` and `ensure_parameter`, `/repo/pynare/core/expressions.py:465-527`:
`inspect.Parameter` raises `ValueError` for a name that is not an identifier or is a keyword
(`okName`), `inspect.Signature` for a name that occurs twice. -/
def modelSignature (okName : String → Bool) (names : List String) : Except Err Unit :=
  if names.all okName && decide names.Nodup then .ok () else .error .valueError

/-- `SteadyFunc.visit_Var` and `visit_PeriodVar`, `/repo/pynare/core/expressions.py:294-306`. -/
def steadyLook [Zero V] (d : Dict V) (x : String) : Except Err V := .ok ((d.get? x).getD 0)

/-- The inner function of `steady_func`, `/repo/pynare/core/expressions.py:268-270`. -/
def runSteady [Zero V] (ops : Ops V) (endo names : List String) (tree : Expr V) (ss : List V) :
    Except Err V := do
  let d ← pickVals names [] endo ss
  evalP ops (steadyLook d) (fun x _ => steadyLook d x) tree

/-- `steady_func`, `/repo/pynare/core/expressions.py:234-275`. -/
def steadyFunc [Zero V] (ops : Ops V) (okName : String → Bool) (endo : List String)
    (σ : String → Option V) (e : Expr V) : Except Err (List V → Except Err V) := do
  let p ← subTree (steadyMaybe σ) e
  modelSignature okName endo
  .ok (runSteady ops endo p.2 p.1)

/-- The places of a table that hold a number, in row-major order: the effect of indexing a
three-row array by `~np.isnan(llx)`. -/
def Typer.places (t : Typer) : List (Nat × Nat) :=
  (List.range 3).flatMap fun r => (t.sel fun c => t.has r c).map fun c => (r, c)

/-- `f'{v}{s}'` for the suffix of a row, `/repo/pynare/core/expressions.py:348-350`. -/
def suffixName (r : Nat) (x : String) : String :=
  x ++ (if r = 0 then "m1" else if r = 1 then "" else "p1")

/-- `dyn_vars`, `/repo/pynare/core/expressions.py:346-352`. -/
def dynVars (endo exo : List String) (t : Typer) : List String :=
  (t.places.map fun p => suffixName p.1 (endo[p.2]?.getD "")) ++ exo

/-- `DynamicFunc.visit_Var`, `/repo/pynare/core/expressions.py:383-384`: a bare `KeyError`. -/
def dynLook (d : Dict V) (x : String) : Except Err V :=
  match d.get? x with
  | some v => .ok v
  | none => .error .keyError

/-- The inner function of `dynamic_func`, `/repo/pynare/core/expressions.py:356-359`. -/
def runDynamic (ops : Ops V) (vars names : List String) (tree : Expr V) (dyn : List V) :
    Except Err V := do
  let d ← pickVals names [] vars dyn
  evalP ops (dynLook d) (fun x o => dynLook d (offsetName x o)) tree

/-- `dynamic_func`, `/repo/pynare/core/expressions.py:310-364`. -/
def dynamicFunc (ops : Ops V) (okName : String → Bool) (endo exo : List String) (t : Typer)
    (σ : String → Option V) (e : Expr V) : Except Err (List V → Except Err V) := do
  let p ← subTree (dynMaybe σ) e
  modelSignature okName (dynVars endo exo t)
  .ok (runDynamic ops (dynVars endo exo t) p.2 p.1)

/-- The loop of `DynamicRepr.__init__`, `/repo/pynare/core/expressions.py:186-201`. -/
def dynamicFuncs (ops : Ops V) (okName : String → Bool) (endo exo : List String) (t : Typer)
    (σ : String → Option V) : List (Expr V) → Except Err (List (List V → Except Err V))
  | [] => .ok []
  | e :: es => do
    let f ← dynamicFunc ops okName endo exo t σ e
    let fs ← dynamicFuncs ops okName endo exo t σ es
    .ok (f :: fs)

/-- The loop of `SteadyRepr.__init__`, `/repo/pynare/core/expressions.py:158-164`. -/
def steadyFuncs [Zero V] (ops : Ops V) (okName : String → Bool) (endo : List String)
    (σ : String → Option V) : List (Expr V) → Except Err (List (List V → Except Err V))
  | [] => .ok []
  | e :: es => do
    let f ← steadyFunc ops okName endo σ e
    let fs ← steadyFuncs ops okName endo σ es
    .ok (f :: fs)

/-- `_vectorized_func`, `/repo/pynare/core/expressions.py:547-548`. -/
def callAll (fs : List (List V → Except Err V)) (vec : List V) : Except Err (List V) :=
  match fs with
  | [] => .ok []
  | f :: fs => do
    let v ← f vec
    let vs ← callAll fs vec
    .ok (v :: vs)

/-- `DynamicRepr.__call__`, `/repo/pynare/core/expressions.py:215-230`. -/
def dynamicCall [Zero V] (t : Llx) (nStoch : Nat) (fs : List (List V → Except Err V))
    (vec : List V) : Except Err (List V) :=
  if vec.length = t.count + nStoch then callAll fs vec
  else if vec.length = t.count then callAll fs (vec ++ List.replicate nStoch 0)
  else .error .valueError

/-- `ModelRepr.__call__`, `/repo/pynare/core/expressions.py:140-146`. -/
def steadyCall (nEndog : Nat) (fs : List (List V → Except Err V)) (vec : List V) :
    Except Err (List V) :=
  if vec.length = nEndog then callAll fs vec else .error .valueError

/-- `Linearization.ss`, `/repo/pynare/core/linearizing.py:53-63`, for a vector of steady values of
the length of the model. -/
def linPoint [Zero V] (t : Typer) (nStoch : Nat) (ss : List V) : List V :=
  (t.places.map fun p => ss[p.2]?.getD 0) ++ List.replicate nStoch 0

end Pynare
