import Verif.Spec.ModelObj
import Verif.Spec.Semantics
/-! # Specification vocabulary for models with other names -/

namespace Pynare

variable {V SS S : Type}

/-- An expression with every name `x` replaced by `φ x`. -/
def Expr.rename (φ : String → String) : Expr V → Expr V
  | .num v => .num v
  | .var x => .var (φ x)
  | .pvar x o => .pvar (φ x) o
  | .un op e => .un op (e.rename φ)
  | .bin op l r => .bin op (l.rename φ) (r.rename φ)
  | .cmp op l r => .cmp op (l.rename φ) (r.rename φ)
  | .fn f e => .fn f (e.rename φ)

/-- The names in an expression. -/
def Expr.names (e : Expr V) : List String := e.vars ++ e.pvars.map Prod.fst

/-- A dictionary with other names as keys. -/
def Dict.rename {α β : Type} (φ : String → String) (f : α → β) (d : Dict α) : Dict β := d.map fun p => (φ p.1, f p.2)

/-- The definition of a parameter in other names. -/
def Def.rename (φ : String → String) : Def V → Def V
  | .num v => .num v
  | .ast e => .ast (e.rename φ)

/-- The names in a definition. -/
def Def.names : Def V → List String
  | .num _ => []
  | .ast e => e.names

/-- A calibration in other names. -/
def Calibration.rename (φ : String → String) (c : Calibration V) : Calibration V :=
  ⟨Dict.rename φ (Def.rename φ) c.defs, Dict.rename φ (Def.rename φ) c.calib⟩

/-- A variable with another name. -/
def Endog.rename (φ : String → String) (e : Endog V) : Endog V := { e with name := φ e.name }

/-- A shock with another name; the shock it is correlated with has another name too. -/
def Stoch.rename (φ : String → String) (s : Stoch V) : Stoch V := { s with name := φ s.name, other := φ s.other }

/-- A deterministic variable with another name. -/
def Determ.rename (φ : String → String) (s : Determ V) : Determ V := { s with name := φ s.name }

/-- The moments of a shock in other names. -/
def Moments.rename (φ : String → String) (m : Moments V) : Moments V := { m with other := m.other.map φ }

/-- The change of names keeps the names in `N` apart, and the names the code derives from them: names with the suffix
of a lag or a lead are equal after it exactly if they were equal before, and legal exactly if they were; the empty name
stays as it is. -/
structure KeepsApart (φ : String → String) (N : String → Prop) (okName : String → Bool) : Prop where
  blank : φ "" = ""
  none : N ""
  apart : ∀ a b, N a → N b → ∀ s ∈ ["", "m1", "p1"], ∀ t ∈ ["", "m1", "p1"], φ a ++ s = φ b ++ t ↔ a ++ s = b ++ t
  legal : ∀ a, N a → ∀ s ∈ ["", "m1", "p1"], okName (φ a ++ s) = okName (a ++ s)

/-- All names in a dictionary of definitions are in `N`. -/
def DefsIn (N : String → Prop) (d : Dict (Def V)) : Prop := ∀ p ∈ d, N p.1 ∧ ∀ x ∈ p.2.names, N x

/-- All names in a dictionary of moments are in `N`. -/
def MomentsIn (N : String → Prop) (d : Dict (Moments V)) : Prop := ∀ p ∈ d, N p.1 ∧ ∀ x, p.2.other = some x → N x

/-- All names in the arguments of `Model` are in `N`. -/
structure ArgsIn (N : String → Prop) (a : MArgs V) : Prop where
  endog : ∀ x ∈ a.endog, N x
  stoch : ∀ x ∈ a.stoch, N x
  determ : ∀ x ∈ a.determ, N x
  params : DefsIn N a.params
  locals : DefsIn N a.locals
  shocks : MomentsIn N a.shocks
  exprs : ∀ e ∈ a.exprs.exprs, ∀ x ∈ e.names, N x
  initial : ∀ x ∈ a.initial.keys, N x
  terminal : ∀ x ∈ a.terminal.keys, N x
  historical : ∀ x ∈ a.historical.keys, N x

/-- The second arguments of `Model` are the first in other names (the texts of the equations may be anything). -/
structure RenamedArgs (φ : String → String) (a a' : MArgs V) : Prop where
  endog : a'.endog = a.endog.map φ
  stoch : a'.stoch = a.stoch.map φ
  determ : a'.determ = a.determ.map φ
  params : a'.params = a.params.rename φ (Def.rename φ)
  locals : a'.locals = a.locals.rename φ (Def.rename φ)
  shocks : a'.shocks = a.shocks.rename φ (Moments.rename φ)
  exprs : a'.exprs.exprs = a.exprs.exprs.map (Expr.rename φ)
  initial : a'.initial = a.initial.rename φ id
  terminal : a'.terminal = a.terminal.rename φ id
  historical : a'.historical = a.historical.rename φ id
  language : a'.language = a.language

/-- The second model is the first in other names: everything else – the table of leads and lags, the residual functions
of the equations, the covariance matrix of the shocks, the state space and the solution – is the same. -/
structure RenamedModel (φ : String → String) (m m' : MState V SS S) : Prop where
  endog : m'.endog = m.endog.map (Endog.rename φ)
  stoch : m'.stoch = m.stoch.map (Stoch.rename φ)
  determ : m'.determ = m.determ.map (Determ.rename φ)
  params : m'.params = m.params.rename φ
  locals : m'.locals = m.locals.rename φ
  exprs : m'.exprs.exprs = m.exprs.exprs.map (Expr.rename φ)
  altered : m'.altered = m.altered
  sigma : m'.sigma = m.sigma
  indexes : m'.indexes = m.indexes
  steady : m'.steady = m.steady
  dynamic : m'.dynamic = m.dynamic
  statespace : m'.statespace = m.statespace
  sol : m'.sol = m.sol

/-- All names in a model are in `N`. -/
structure ModelIn (N : String → Prop) (m : MState V SS S) : Prop where
  endog : ∀ e ∈ m.endog, N e.name
  stoch : ∀ s ∈ m.stoch, N s.name ∧ N s.other
  determ : ∀ s ∈ m.determ, N s.name
  defs : DefsIn N m.params.defs ∧ DefsIn N m.locals.defs
  calib : DefsIn N m.params.calib ∧ DefsIn N m.locals.calib
  exprs : ∀ e ∈ m.exprs.exprs, ∀ x ∈ e.names, N x

/-- An equation given to a model in other names; `parse` reads texts. -/
inductive RenamedArg (φ : String → String) (N : String → Prop) (parse : String → Except Err (Expr V)) :
    ExprArg V → ExprArg V → Prop
  | tree {e} : (∀ x ∈ e.names, N x) → RenamedArg φ N parse (.tree e) (.tree (e.rename φ))
  | text {s s' e} : parse s = .ok e → (∀ x ∈ e.names, N x) → parse s' = .ok (e.rename φ) →
      RenamedArg φ N parse (.text s) (.text s')
  | wrong {s s' x} : parse s = .error x → parse s' = .error x → RenamedArg φ N parse (.text s) (.text s')
  | other : RenamedArg φ N parse .other .other

/-- A step in the life of a model, in other names. -/
inductive RenamedOp (φ : String → String) (N : String → Prop) (parse : String → Except Err (Expr V)) :
    MOp V → MOp V → Prop
  | addEndog {ns i t h} : (∀ x ∈ ns, N x) → RenamedOp φ N parse (.addEndog ns i t h) (.addEndog (ns.map φ) i t h)
  | addParams {kvs} : DefsIn N kvs →
      RenamedOp φ N parse (.addParams kvs) (.addParams (Dict.rename φ (Def.rename φ) kvs))
  | addExprs {as as'} : List.Forall₂ (RenamedArg φ N parse) as as' → RenamedOp φ N parse (.addExprs as) (.addExprs as')
  | addStoch {ns d} : (∀ x ∈ ns, N x) → MomentsIn N d →
      RenamedOp φ N parse (.addStoch ns d) (.addStoch (ns.map φ) (d.rename φ (Moments.rename φ)))
  | addDeterm {ns d} : (∀ x ∈ ns, N x) → MomentsIn N d →
      RenamedOp φ N parse (.addDeterm ns d) (.addDeterm (ns.map φ) (d.rename φ (Moments.rename φ)))
  | readIndexes : RenamedOp φ N parse .readIndexes .readIndexes
  | readSteady : RenamedOp φ N parse .readSteady .readSteady
  | readDynamic : RenamedOp φ N parse .readDynamic .readDynamic
  | readSpace : RenamedOp φ N parse .readSpace .readSpace
  | readSigma : RenamedOp φ N parse .readSigma .readSigma
  | solve : RenamedOp φ N parse .solve .solve
  | readSolution : RenamedOp φ N parse .readSolution .readSolution

/-- What makes the state space of a model does not look at the names of the variables (it is given their initial values,
their table and the functions of the equations). -/
def Blind (env : MEnv V SS S) : Prop := ∀ (φ : String → String) es, env.mkSS (es.map (Endog.rename φ)) = env.mkSS es

/-- Carry out operations one after another, whether they raise or not: the model at the end and what each raised. -/
def MOp.runAll [Zero V] [One V] [Mul V] (env : MEnv V SS S) (m : MState V SS S) :
    List (MOp V) → MState V SS S × List (Option Err)
  | [] => (m, [])
  | o :: os => ((MOp.runAll env (o.run env m).1 os).1, (o.run env m).2 :: (MOp.runAll env (o.run env m).1 os).2)

end Pynare
