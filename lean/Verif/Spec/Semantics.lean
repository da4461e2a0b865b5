import Verif.Spec.Expr
import Verif.Model.Parser
/-!
# Specification vocabulary for model files

What a well formed model file is, stated over the tree without symbol tables.
-/

namespace Pynare

variable {V : Type}

/-- names with their period, as they occur in an expression -/
def Expr.pvars : Expr V → List (String × Int)
  | .num _ => []
  | .var _ => []
  | .pvar x o => [(x, o)]
  | .un _ e => e.pvars
  | .bin _ l r => l.pvars ++ r.pvars
  | .cmp _ l r => l.pvars ++ r.pvars
  | .fn _ e => e.pvars

/-- The eight words that the symbol tables contain from the start. -/
def TypeWord (x : String) : Prop :=
  x = "var" ∨ x = "varexo" ∨ x = "varexo_det" ∨ x = "parameters" ∨ x = "predetermined_variables" ∨
  x = "trend_var" ∨ x = "log_trend_var" ∨ x = "non_model"

namespace ModelFile

/-- `x` is declared, by the keyword `k` -/
def DeclaredAs (m : ModelFile V) (x k : String) : Prop := (x, k) ∈ m.decls

/-- `x` is declared -/
def Declared (m : ModelFile V) (x : String) : Prop := ∃ k, m.DeclaredAs x k

/-- `x` is assigned a value before the model block -/
def Assigned (m : ModelFile V) (x : String) : Prop := ∃ e, (x, e) ∈ m.params

/-- `x` is a name that can carry a period: declared, and not as a parameter -/
def Timed (m : ModelFile V) (x : String) : Prop := ∃ k, m.DeclaredAs x k ∧ k ≠ "parameters"

end ModelFile

/-- The statement defines the local variable `x`. -/
def Stmt.defines (s : Stmt V) (x : String) : Prop := ∃ e, s = .loc x e

/-- No comparison occurs, the names without period satisfy `known`, those with a period `timed`. -/
structure Uses (known timed : String → Prop) (e : Expr V) : Prop where
  noCmp : e.hasCmp = false
  vars : ∀ x ∈ e.vars, known x
  pvars : ∀ x o, (x, o) ∈ e.pvars → timed x

/-- What the semantic check accepts. -/
structure Accepted (m : ModelFile V) : Prop where
  /-- no name is declared twice -/
  declNodup : (m.decls.map Prod.fst).Nodup
  /-- no type word is declared -/
  declWord : ∀ x, m.Declared x → ¬ TypeWord x
  /-- a name assigned before the model block is a declared parameter, or it is undeclared and
  assigned only once -/
  assign : ∀ pre x e post, m.params = pre ++ (x, e) :: post →
    m.DeclaredAs x "parameters" ∨ (¬ m.Declared x ∧ ¬ TypeWord x ∧ ∀ e', (x, e') ∉ pre)
  /-- its right side uses declared names, earlier assigned names, itself, or type words -/
  assignExpr : ∀ pre x e post, m.params = pre ++ (x, e) :: post →
    Uses (fun y => m.Declared y ∨ TypeWord y ∨ y = x ∨ ∃ e', (y, e') ∈ pre) m.Timed e
  /-- a local variable is new -/
  localNew : ∀ pre x e post, m.stmts = pre ++ .loc x e :: post →
    ¬ m.Declared x ∧ ¬ m.Assigned x ∧ ¬ TypeWord x ∧ ∀ s ∈ pre, ¬ s.defines x
  /-- its definition uses known names and local variables defined above -/
  localExpr : ∀ pre x e post, m.stmts = pre ++ .loc x e :: post →
    Uses (fun y => m.Declared y ∨ m.Assigned y ∨ TypeWord y ∨ ∃ s ∈ pre, s.defines y) m.Timed e
  /-- and so do the equations -/
  eqnExpr : ∀ pre l r tags post, m.stmts = pre ++ .eqn l r tags :: post → ∀ e, e = l ∨ e = r →
    Uses (fun y => m.Declared y ∨ m.Assigned y ∨ TypeWord y ∨ ∃ s ∈ pre, s.defines y) m.Timed e
  /-- boundary values are set for endogenous variables -/
  bound : ∀ b, m.actions.initval = some b ∨ m.actions.endval = some b ∨ m.actions.histval = some b →
    ∀ x e, (x, e) ∈ b.vals → m.DeclaredAs x "var" ∧
      Uses (fun y => m.Declared y ∨ m.Assigned y ∨ TypeWord y) m.Timed e
  /-- there is a shocks block -/
  shocks : ∃ s, m.actions.shocks = some s
  /-- it has no deterministic shocks -/
  noDet : ∀ s, m.actions.shocks = some s → ∀ x ps vs, .det x ps vs ∉ s.shocks
  /-- its shocks are exogenous variables -/
  exo : ∀ s, m.actions.shocks = some s → ∀ x e,
    (.variance x e ∈ s.shocks ∨ .stderr x e ∈ s.shocks ∨ (∃ y, .corr x y e ∈ s.shocks) ∨
      (∃ y, .cov x y e ∈ s.shocks) ∨ (∃ y, .corr y x e ∈ s.shocks) ∨
      (∃ y, .cov y x e ∈ s.shocks)) →
    (m.DeclaredAs x "varexo" ∨ m.DeclaredAs x "varexo_det") ∧
      Uses (fun y => m.Declared y ∨ m.Assigned y ∨ TypeWord y) m.Timed e

end Pynare
