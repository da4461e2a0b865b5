import Verif.Model.Parser
/-!
# The semantic check

Mirrors `DynareSemanticAnalyzer` and its symbol tables,
`/repo/pynare/parsing/semantics.py`.

A symbol is represented by the only thing the analyser ever reads from it, `symbol.stype.name`:
`some k` for a symbol whose type symbol is named `k`, and `none` for one on which that access
raises `AttributeError` (the built-in type symbols, whose `stype` is `None`, and the names
assigned without declaration, whose `stype` is the string `'non_model'`).
-/

namespace Pynare

variable {V : Type}

/-- A symbol table without its enclosing scope, `/repo/pynare/parsing/semantics.py:36-66`. -/
abbrev SymTab := Dict (Option String)

/-- `ScopedSymbolTable.lookup`, `/repo/pynare/parsing/semantics.py:57-66`; innermost scope
first. -/
def symLookup (sc : List SymTab) (x : String) : Option (Option String) :=
  match sc with
  | [] => none
  | t :: ts => match t.get? x with
    | some s => some s
    | none => symLookup ts x

/-- `_init_builtins`, `/repo/pynare/parsing/semantics.py:107-126`. -/
def builtinWords : List String :=
  ["var", "varexo", "varexo_det", "parameters", "predetermined_variables", "trend_var",
    "log_trend_var", "non_model"]

/-- A fresh `DynareSymbolTable`, `/repo/pynare/parsing/semantics.py:97-126`. -/
def freshTab : SymTab := builtinWords.map fun w => (w, none)

/-- `symbol.stype.name` where `symbol` is the result of a lookup: `AttributeError` when the lookup
returned `None` and when the symbol has no named type. -/
def stypeName (s : Option (Option String)) : Except Err String :=
  match s with
  | some (some k) => .ok k
  | _ => .error .attributeError

/-- The expression visitors, `/repo/pynare/parsing/semantics.py:344-393`.  There is no visitor for
comparisons: bare `Exception`.  `PeriodVar` has no attribute `token`, so the `NameError` and the
`TypeError` of lines 376-388 come out as `AttributeError`. -/
def semExpr (sc : List SymTab) : Expr V → Except Err Unit
  | .num _ => .ok ()
  | .var x => match symLookup sc x with
    | none => .error .nameError
    | some _ => .ok ()
  | .pvar x _ => match symLookup sc x with
    | none => .error .attributeError
    | some s => do
      let k ← stypeName (some s)
      if k = "parameters" then .error .attributeError else .ok ()
  | .un _ e => semExpr sc e
  | .bin _ l r => do
    semExpr sc l
    semExpr sc r
  | .cmp _ _ _ => .error .exception
  | .fn _ e => semExpr sc e

/-- `visit_VarDeclaration`, `/repo/pynare/parsing/semantics.py:161-183`.  The type of the new
symbol is whatever symbol the keyword `k` names in the current scope. -/
def semDecl (g : SymTab) (x k : String) : Except Err SymTab :=
  match symLookup [g] x with
  | some _ => .error .nameError
  | none => .ok (g.set x (match symLookup [g] k with
    | some _ => some k
    | none => none))

/-- `visit_CompoundASTList` over declarations, `/repo/pynare/parsing/semantics.py:267-269`. -/
def semDecls (g : SymTab) : List (String × String) → Except Err SymTab
  | [] => .ok g
  | (x, k) :: ds => do
    let g' ← semDecl g x k
    semDecls g' ds

/-- `visit_VarAssignment`, `/repo/pynare/parsing/semantics.py:186-215`. -/
def semAssign (g : SymTab) (x : String) (e : Expr V) : Except Err SymTab :=
  match symLookup [g] x with
  | none => do
    let g' := g.set x none
    semExpr [g'] e
    .ok g'
  | some s => do
    let k ← stypeName (some s)
    if k ≠ "parameters" then .error .typeError
    else do
      semExpr [g] e
      .ok g

/-- `visit_CompoundASTList` over assignments, `/repo/pynare/parsing/semantics.py:267-269`. -/
def semAssigns (g : SymTab) : List (String × Expr V) → Except Err SymTab
  | [] => .ok g
  | (x, e) :: as => do
    let g' ← semAssign g x e
    semAssigns g' as

/-- `visit_LocalModelDeclaration` and `visit_ModelExpression`,
`/repo/pynare/parsing/semantics.py:242-264`; `m` is the scope of the model block. -/
def semStmt (g m : SymTab) : Stmt V → Except Err SymTab
  | .eqn l r _ => do
    semExpr [m, g] l
    semExpr [m, g] r
    .ok m
  | .loc x e =>
    match symLookup [m, g] x with
    | some _ => .error .nameError
    | none => do
      semExpr [m, g] e
      .ok (m.set x (match symLookup [m, g] "parameters" with
        | some _ => some "parameters"
        | none => none))

/-- `visit_Model`, `/repo/pynare/parsing/semantics.py:237-239`. -/
def semStmts (g m : SymTab) : List (Stmt V) → Except Err SymTab
  | [] => .ok m
  | s :: ss => do
    let m' ← semStmt g m s
    semStmts g m' ss

/-- `validate_ModelBoundaryValues`, `/repo/pynare/parsing/semantics.py:292-308`. -/
def semBound (g : SymTab) : List (String × Expr V) → Except Err Unit
  | [] => .ok ()
  | (x, e) :: bs => do
    let k ← stypeName (symLookup [g] x)
    if k ≠ "var" then .error .typeError
    else do
      semExpr [g] e
      semBound g bs

/-- `if node.initval: ...`, `/repo/pynare/parsing/semantics.py:281-289`.  The nodes have no
`__len__`, so an empty block is true. -/
def semBoundOpt (g : SymTab) : Option (Bound V) → Except Err Unit
  | none => .ok ()
  | some b => semBound g b.vals

/-- `_check_shock_declaration`, `/repo/pynare/parsing/semantics.py:311-318`. -/
def semExo (g : SymTab) (x : String) : Except Err Unit := do
  let k ← stypeName (symLookup [g] x)
  if k = "varexo" ∨ k = "varexo_det" then .ok () else .error .typeError

/-- Body of the loop of `visit_ShocksBlock`, `/repo/pynare/parsing/semantics.py:324-338`.  A
deterministic shock has no attribute `expr`. -/
def semShock (g : SymTab) : Shock V → Except Err Unit
  | .corr x y e => do
    semExo g x
    semExpr [g] e
    semExo g y
  | .cov x y e => do
    semExo g x
    semExpr [g] e
    semExo g y
  | .variance x e => do
    semExo g x
    semExpr [g] e
  | .stderr x e => do
    semExo g x
    semExpr [g] e
  | .det x _ _ => do
    semExo g x
    .error .attributeError

/-- The loop of `visit_ShocksBlock`, `/repo/pynare/parsing/semantics.py:321-338`. -/
def semShocks (g : SymTab) : List (Shock V) → Except Err Unit
  | [] => .ok ()
  | s :: ss => do
    semShock g s
    semShocks g ss

/-- `visit_ModelActions`, `/repo/pynare/parsing/semantics.py:276-289`: the shocks block is visited
even when there is none, and `visit(None)` raises a bare `Exception`
(`/repo/pynare/parsing/base.py:144-151`). -/
def semActions (g : SymTab) (a : Actions V) : Except Err Unit := do
  semBoundOpt g a.initval
  semBoundOpt g a.endval
  semBoundOpt g a.histval
  match a.shocks with
  | none => .error .exception
  | some s => semShocks g s.shocks

/-- `DynareSemanticAnalyzer.verify`, `/repo/pynare/parsing/semantics.py:137-158,221-234`. -/
def verify (m : ModelFile V) : Except Err Unit := do
  let g0 ← semDecls freshTab m.decls
  let g ← semAssigns g0 m.params
  let _ ← semStmts g freshTab m.stmts
  semActions g m.actions

end Pynare
