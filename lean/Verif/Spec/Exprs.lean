import Verif.Model.Exprs
import Verif.Spec.Factory
/-!
# Specification vocabulary for residual functions
-/

namespace Pynare

variable {V : Type}

/-- Mathematical meaning of an expression whose plain names and names with an offset are read by
the relations `P` and `Q`. -/
inductive PEvals (ops : Ops V) (P : String → V → Prop) (Q : String → Int → V → Prop) :
    Expr V → V → Prop
  | num {v} : PEvals ops P Q (.num v) v
  | var {x v} : P x v → PEvals ops P Q (.var x) v
  | pvar {x o v} : Q x o v → PEvals ops P Q (.pvar x o) v
  | un {op e a v} : PEvals ops P Q e a → ops.un op a = .ok v → PEvals ops P Q (.un op e) v
  | bin {op l r a b v} : PEvals ops P Q l a → PEvals ops P Q r b → ops.bin op a b = .ok v →
      PEvals ops P Q (.bin op l r) v
  | cmp {op l r a b v} : PEvals ops P Q l a → PEvals ops P Q r b → ops.cmp op a b = .ok v →
      PEvals ops P Q (.cmp op l r) v
  | fn {f g e a v} : Applies f g → PEvals ops P Q e a → ops.fn g a = .ok v →
      PEvals ops P Q (.fn f e) v

/-- What an occurrence with offset `o` means: the entry of the vector at the number of the
variable in the row of that period. -/
def ReadsAt (endo : List String) (t : Typer) (vec : List V) (x : String) (o : Int) (v : V) : Prop :=
  ∃ (i k : Nat), endo[i]? = some x ∧ t.cell (o + 1).toNat i = some k ∧ vec[k]? = some v

/-- What a plain occurrence means: the value of the parameter; or the entry of the vector at the
number of the variable in the current period; or, for a shock, the entry behind those of the
`count` endogenous occurrences. -/
inductive ReadsVar (σ : String → Option V) (endo exo : List String) (t : Llx) (vec : List V)
    (x : String) (v : V) : Prop
  | param : σ x = some v → ReadsVar σ endo exo t vec x v
  | endog : σ x = none → ReadsAt endo t.toTyper vec x 0 v → ReadsVar σ endo exo t vec x v
  | shock {j : Nat} : σ x = none → exo[j]? = some x → vec[t.count + j]? = some v →
      ReadsVar σ endo exo t vec x v

/-- What an occurrence means in the steady state. -/
inductive ReadsSteady [Zero V] (σ : String → Option V) (endo : List String) (ss : List V)
    (x : String) : V → Prop
  | param {v} : σ x = some v → ReadsSteady σ endo ss x v
  | endog {v} {i : Nat} : σ x = none → endo[i]? = some x → ss[i]? = some v →
      ReadsSteady σ endo ss x v
  | shock : σ x = none → x ∉ endo → ReadsSteady σ endo ss x 0

/-- The container holds the equations `as`, in that order: its trees are their trees and its texts
are their texts. -/
def Holds (parse : String → Except Err (Expr V)) (as : List (ExprArg V)) (m : ModelExprs V) : Prop :=
  as.map (ExprArg.parse parse) = m.exprs.map .ok ∧ m.strs = as.map ExprArg.str

/-- An edit of the container. -/
inductive ExprEdit (V : Type) where
  | set (key : Int) (a : ExprArg V)
  | insert (key : Int) (a : ExprArg V)
  | append (a : ExprArg V)
  | del (key : Int)

/-- The same edit of the user's own list of equations, with the meaning Python gives to it
(`none`: index out of range). -/
def ExprEdit.onList (as : List (ExprArg V)) : ExprEdit V → Option (List (ExprArg V))
  | .set key a =>
    if 0 ≤ key ∧ key < as.length then some (as.set key.toNat a)
    else if key < 0 ∧ 0 ≤ key + as.length then some (as.set (key + as.length).toNat a)
    else none
  | .insert key a =>
    let i : Nat := if 0 ≤ key then min key.toNat as.length else (key + as.length).toNat
    some (as.take i ++ a :: as.drop i)
  | .append a => some (as ++ [a])
  | .del key =>
    if 0 ≤ key ∧ key < as.length then some (as.eraseIdx key.toNat)
    else if key < 0 ∧ 0 ≤ key + as.length then some (as.eraseIdx (key + as.length).toNat)
    else none

/-- The edit of the container. -/
def ExprEdit.run (parse : String → Except Err (Expr V)) (m : ModelExprs V) :
    ExprEdit V → Except Err (ModelExprs V)
  | .set key a => m.setItem parse key a
  | .insert key a => m.insert parse key a
  | .append a => m.append parse a
  | .del key => m.del key

/-- A history of edits; one that raises leaves both the container and the list as they were. -/
def runEdits (parse : String → Except Err (Expr V)) :
    List (ExprEdit V) → ModelExprs V × List (ExprArg V) → ModelExprs V × List (ExprArg V)
  | [], s => s
  | ed :: eds, (m, as) =>
    match ed.run parse m with
    | .ok m' => runEdits parse eds (m', (ed.onList as).getD as)
    | .error _ => runEdits parse eds (m, as)

end Pynare
