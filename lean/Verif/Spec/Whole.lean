import Verif.Model.Whole
import Verif.Spec.Reading
import Verif.Spec.Linear
/-!
# Specification vocabulary for models from text to solution
-/

namespace Pynare

variable {V : Type}

/-- What a plain name means in an equation: the value of the parameter or local variable; or the level of the
variable in the current period; or the value of the shock. -/
inductive NameNow (σ : String → Option V) (endo exo : List String) (L : Around V) (x : String) : V → Prop
  | param {v} : σ x = some v → NameNow σ endo exo L x v
  | endog {c : Nat} : σ x = none → endo[c]? = some x → NameNow σ endo exo L x (L.now c)
  | shock {j : Nat} : σ x = none → exo[j]? = some x → NameNow σ endo exo L x (L.shock j)

/-- What a name with an offset means: the level of the variable one period before or after. -/
inductive NameAt (endo : List String) (L : Around V) (x : String) : Int → V → Prop
  | before {c : Nat} : endo[c]? = some x → NameAt endo L x (-1) (L.before c)
  | after {c : Nat} : endo[c]? = some x → NameAt endo L x 1 (L.after c)

/-- The value of one side of an equation of the file `m`, when its variables have the levels `L` in three adjacent
periods. -/
def SideValue (ops : Ops V) (m : ModelFile V) (σ : String → Option V) (L : Around V) (e : Expr V) (v : V) : Prop :=
  PEvals ops (NameNow σ (m.names "var") (m.names "varexo") L) (NameAt (m.names "var") L) e v

/-- The model `md` is made from the text of the file `m`, whose parameters and equations are plain and whose
assignments can be executed, with the values `ρ`. -/
structure ReadFrom {SS S : Type} [Zero V] [One V] (r : ReadEnv V SS S) (text : List Char) (m : ModelFile V)
    (ρ : String → Option V) (md : MState V SS S) : Prop where
  chars : CharOk r.cfg
  file : ∃ us, FileOf r.pc us m ∧ Written r.cfg us text []
  made : ∃ lang name, fromText r lang name text = .ok md
  values : Exec r.env.ops noValues m.params ρ
  params : PlainParams m
  equations : PlainEquations m

section
variable [Field V] [LinearOrder V]

/-- Left minus right of an equation has the value `w`. -/
def GapIs (ops : Ops V) (m : ModelFile V) (σ : String → Option V) (L : Around V) (l r : Expr V) (w : V) : Prop :=
  ∃ a b, SideValue ops m σ L l a ∧ SideValue ops m σ L r b ∧ a - b = w

/-- Levels that deviate by `d` from the steady values `ss`. -/
def levelsAt (ss : List V) (d : Around V) : Around V :=
  ⟨fun c => vecEntry ss c + d.before c, fun c => vecEntry ss c + d.now c, fun c => vecEntry ss c + d.after c, d.shock⟩

/-- No deviations. -/
def noDev : Around V := ⟨fun _ => 0, fun _ => 0, fun _ => 0, fun _ => 0⟩

/-- Every variable of the file occurs in the current period in some equation, and there are as many equations as
variables. -/
structure WellPosed (m : ModelFile V) : Prop where
  current : ∀ x, m.DeclaredAs x "var" → ∃ l r, (l, r) ∈ equations m.stmts ∧ (x ∈ l.vars ∨ x ∈ r.vars)
  square : (equations m.stmts).length = (m.names "var").length

end

end Pynare
