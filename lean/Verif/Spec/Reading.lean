import Verif.Spec.FileGram
import Verif.Spec.Exprs
import Verif.Spec.Lexer
import Verif.Spec.Sigma
import Verif.Model.Reading
/-!
# Specification vocabulary for models read from files
-/

namespace Pynare

variable {V SS S : Type}

/-- The names declared by a keyword, in the order of the file. -/
def ModelFile.names (m : ModelFile V) (k : String) : List String :=
  (m.decls.filter fun p => p.2 = k).map Prod.fst

/-- The definitions `# name = expression` of a model block, in the order of the file. -/
def localsOf : List (Stmt V) → List (String × Expr V)
  | [] => []
  | .loc x e :: ss => (x, e) :: localsOf ss
  | .eqn _ _ _ :: ss => localsOf ss

/-- The values of the declared parameters alone. -/
def ModelFile.paramVals (m : ModelFile V) (ρ : String → Option V) : String → Option V :=
  fun x => if (x, "parameters") ∈ m.decls then ρ x else none

/-- What the names of a file stand for: `ρ` after executing the assignments of the preamble from top to bottom, and
`σ` in the equations, after executing also the local definitions, which see the parameters. -/
structure FileVals (ops : Ops V) (m : ModelFile V) (ρ σ : String → Option V) : Prop where
  preamble : Exec ops noValues m.params ρ
  model : Exec ops (m.paramVals ρ) (localsOf m.stmts) σ

/-- Every declared parameter is assigned, and the last assignment of each uses only declared parameters, none of which
is the parameter itself or assigned again further down. -/
structure PlainParams (m : ModelFile V) : Prop where
  all : ∀ x, m.DeclaredAs x "parameters" → m.Assigned x
  last : ∀ pre x e post, m.params = pre ++ (x, e) :: post → m.DeclaredAs x "parameters" →
    (∀ e', (x, e') ∉ post) → ∀ y ∈ e.vars,
      m.DeclaredAs y "parameters" ∧ y ≠ x ∧ ∀ e', (y, e') ∉ post

/-- The equations use endogenous variables, shocks, parameters and local variables; those with a period are endogenous
variables one period before or after. -/
structure PlainEquations (m : ModelFile V) : Prop where
  vars : ∀ l r, (l, r) ∈ equations m.stmts → ∀ x, x ∈ l.vars ∨ x ∈ r.vars →
    m.DeclaredAs x "var" ∨ m.DeclaredAs x "varexo" ∨ m.DeclaredAs x "parameters" ∨
      ∃ e, (x, e) ∈ localsOf m.stmts
  pvars : ∀ l r, (l, r) ∈ equations m.stmts → ∀ x o, (x, o) ∈ l.pvars ∨ (x, o) ∈ r.pvars →
    m.DeclaredAs x "var" ∧ (o = -1 ∨ o = 1)

/-- The model `md` is what the file `m` describes, `ρ` and `σ` being what its names stand for. -/
structure Represents [Zero V] (ops : Ops V) (m : ModelFile V) (ρ σ : String → Option V)
    (md : MState V SS S) : Prop where
  /-- the variables are those declared, in the order of the file -/
  endog : md.endogNames = m.names "var"
  stoch : md.stochNames = m.names "varexo"
  determ : md.determ.map Determ.name = m.names "varexo_det"
  /-- parameters and local variables have their values -/
  scope : md.scope = σ
  /-- one steady residual for each equation, whose value is left minus right at rest -/
  steadyLength : md.steady.length = (equations m.stmts).length
  steady : ∀ (i : Nat) l r f, (equations m.stmts)[i]? = some (l, r) → md.steady[i]? = some f →
    ∀ ss : List V, ss.length = (m.names "var").length → ∀ v, f ss = .ok v ↔ ∃ a b,
      PEvals ops (ReadsSteady σ (m.names "var") ss) (fun x _ => ReadsSteady σ (m.names "var") ss x) l a ∧
      PEvals ops (ReadsSteady σ (m.names "var") ss) (fun x _ => ReadsSteady σ (m.names "var") ss x) r b ∧
      ops.bin .sub a b = .ok v
  /-- one dynamic residual for each equation, whose value is left minus right with every occurrence read from its own
  entry -/
  dynamicLength : md.dynamic.length = (equations m.stmts).length
  dynamic : ∀ (i : Nat) l r f, (equations m.stmts)[i]? = some (l, r) → md.dynamic[i]? = some f →
    ∀ vec : List V, vec.length = md.indexes.count + (m.names "varexo").length → ∀ v, f vec = .ok v ↔ ∃ a b,
      PEvals ops (ReadsVar σ (m.names "var") (m.names "varexo") md.indexes vec)
        (ReadsAt (m.names "var") md.indexes.toTyper vec) l a ∧
      PEvals ops (ReadsVar σ (m.names "var") (m.names "varexo") md.indexes vec)
        (ReadsAt (m.names "var") md.indexes.toTyper vec) r b ∧
      ops.bin .sub a b = .ok v
  /-- the initial and the terminal values are the last given -/
  initial : ∀ pre x e post, blockVals m.actions.initval = pre ++ (x, e) :: post → (∀ e', (x, e') ∉ post) →
    ∀ v, Evals ops ρ e v → ∀ en ∈ md.endog, en.name = x → en.initial = some v
  terminal : ∀ pre x e post, blockVals m.actions.endval = pre ++ (x, e) :: post → (∀ e', (x, e') ∉ post) →
    ∀ v, Evals ops ρ e v → ∀ en ∈ md.endog, en.name = x → en.terminal = some v
  /-- without any, the initial value is zero -/
  initialZero : ∀ en ∈ md.endog, (∀ e, (en.name, e) ∉ blockVals m.actions.initval) →
    (∀ e, (en.name, e) ∉ blockVals m.actions.endval) → m.actions.histval = none → en.initial = some 0

/-- The statement of the shocks block has a value. -/
def Shock.HasValue (ops : Ops V) (sq : V → Except Err V) (ρ : String → Option V) : Shock V → Prop
  | .variance _ e => ∃ v, Evals ops ρ e v
  | .stderr _ e => ∃ v w, Evals ops ρ e v ∧ sq v = .ok w
  | .corr _ _ e => ∃ v, Evals ops ρ e v
  | .cov _ _ e => ∃ v, Evals ops ρ e v
  | .det _ _ _ => False

/-- A file that can be made into a model: it passes the semantic check (`Accepted`), its assignments, local definitions,
boundary values and shocks have values, parameters and equations are plain, every endogenous variable occurs, names
are legal as arguments of functions and no variable is called like the lead or the lag of another, nothing is said
about the variance of a `varexo_det`, and historical values come with terminal ones. -/
structure Readable (ops : Ops V) (sq : V → Except Err V) (okName : String → Bool) (m : ModelFile V)
    (ρ σ : String → Option V) : Prop where
  accepted : Accepted m
  kinds : ∀ x k, m.DeclaredAs x k → k = "var" ∨ k = "varexo" ∨ k = "varexo_det" ∨ k = "parameters"
  vals : FileVals ops m ρ σ
  params : PlainParams m
  plain : PlainEquations m
  occurs : ∀ x, m.DeclaredAs x "var" → ∃ l r p, (l, r) ∈ equations m.stmts ∧ (OccursAt x p l ∨ OccursAt x p r)
  bounds : ∀ b, m.actions.initval = some b ∨ m.actions.endval = some b ∨ m.actions.histval = some b →
    ∀ x e, (x, e) ∈ b.vals → ∃ v, Evals ops ρ e v
  hist : m.actions.histval ≠ none → m.actions.endval ≠ none
  shocks : ∀ b, m.actions.shocks = some b → ∀ s ∈ b.shocks, s.HasValue ops sq ρ ∧
    ∀ x, m.DeclaredAs x "varexo_det" → ¬ s.isVarOf x ∧ ¬ s.isPairOf x
  legal : ∀ x, (m.DeclaredAs x "var" → okName x = true ∧ okName (x ++ "m1") = true ∧ okName (x ++ "p1") = true) ∧
    (m.DeclaredAs x "varexo" → okName x = true)
  apart : ∀ x y, m.DeclaredAs x "var" → m.DeclaredAs y "var" ∨ m.DeclaredAs y "varexo" →
    y ≠ x ++ "m1" ∧ y ≠ x ++ "p1"

end Pynare
