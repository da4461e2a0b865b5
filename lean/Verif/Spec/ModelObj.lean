import Verif.Model.ModelObj
/-!
# Specification vocabulary for model objects
-/

namespace Pynare

variable {V SS S : Type}

/-- The derived quantities that the definition of a model (names, equations, parameters, shocks)
calls for. -/
structure DerivedOf [Zero V] [Mul V] (env : MEnv V SS S) (m : MState V SS S) (sg : Sig V) (t : Llx)
    (st dy : List (ResFun V)) (ss : SS) : Prop where
  sigma : defineSigma env.sqrt m.stoch = .ok sg
  indexes : modelLlx m.endogNames m.exprs.exprs = .ok t
  steady : steadyFuncs env.ops env.okName m.endogNames m.scope m.exprs.exprs = .ok st
  dynamic : dynamicFuncs env.ops env.okName m.endogNames m.stochNames t.toTyper m.scope
    m.exprs.exprs = .ok dy
  space : ∃ es : List (Endog V),
    es.map (fun e => (e.name, e.initial, e.terminal, e.historical)) =
      m.endog.map (fun e => (e.name, e.initial, e.terminal, e.historical)) ∧
    env.mkSS es m.stoch.length t st dy = .ok ss

/-- What a user can do with a model, as far as it concerns the definition and what is derived. -/
inductive MOp (V : Type) where
  | addEndog (names : List String) (i t h : Option V)
  | addParams (kvs : List (String × Def V))
  | addExprs (as : List (ExprArg V))
  | addStoch (names : List String) (shocks : Dict (Moments V))
  | addDeterm (names : List String) (shocks : Dict (Moments V))
  | readIndexes | readSteady | readDynamic | readSpace | readSigma
  | solve | readSolution

/-- Forget the result of reading. -/
def dropResult {α : Type} : MState V SS S × Except Err α → MState V SS S × Option Err
  | (m, .ok _) => (m, none)
  | (m, .error e) => (m, some e)

/-- Carry out one operation. -/
def MOp.run [Zero V] [One V] [Mul V] (env : MEnv V SS S) (m : MState V SS S) :
    MOp V → MState V SS S × Option Err
  | .addEndog names i t h => m.addEndog names i t h
  | .addParams kvs => m.addParams env kvs
  | .addExprs as => m.addExprs env as
  | .addStoch names shocks => m.addStoch names shocks
  | .addDeterm names shocks => m.addDeterm names shocks
  | .readIndexes => dropResult (m.readAttr env MState.indexes)
  | .readSteady => dropResult (m.readAttr env MState.steady)
  | .readDynamic => dropResult (m.readAttr env MState.dynamic)
  | .readSpace => dropResult (m.readAttr env MState.statespace)
  | .readSigma => dropResult (m.readSigma env)
  | .solve => dropResult (m.solve env)
  | .readSolution => dropResult (m.solution env)

/-- Histories of operations none of which raised. -/
inductive Reaches [Zero V] [One V] [Mul V] (env : MEnv V SS S) : MState V SS S → MState V SS S → Prop
  | refl {m} : Reaches env m m
  | step {m m' m''} (op : MOp V) : op.run env m = (m', none) → Reaches env m' m'' → Reaches env m m''

end Pynare
