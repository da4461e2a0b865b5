import Verif.Model.Expr
/-! # Specification vocabulary for expressions -/

namespace Pynare

variable {V : Type}

/-- names occurring without a period in an expression -/
def Expr.vars : Expr V → List String
  | .num _ => []
  | .var x => [x]
  | .pvar _ _ => []
  | .un _ e => e.vars
  | .bin _ l r => l.vars ++ r.vars
  | .cmp _ l r => l.vars ++ r.vars
  | .fn _ e => e.vars

/-- `Sub s e`: `s` is `e` itself or one of its subexpressions. -/
inductive Sub (s : Expr V) : Expr V → Prop
  | refl : Sub s s
  | un {op e} : Sub s e → Sub s (.un op e)
  | binl {op l r} : Sub s l → Sub s (.bin op l r)
  | binr {op l r} : Sub s r → Sub s (.bin op l r)
  | cmpl {op l r} : Sub s l → Sub s (.cmp op l r)
  | cmpr {op l r} : Sub s r → Sub s (.cmp op l r)
  | fn {f e} : Sub s e → Sub s (.fn f e)

/-- The functions the evaluator knows how to apply; `ln` is another name of `log`. -/
inductive Applies : Fn → Fn → Prop
  | ln : Applies .ln .log
  | self {f} : f ≠ .ln → f ≠ .max → f ≠ .min → f ≠ .normcdf → f ≠ .normpdf → Applies f f

/-- Mathematical meaning of an expression as a relation: `Evals ops ρ e v` says that `e` has
the value `v` when the name `x` has the value `ρ x`. -/
inductive Evals (ops : Ops V) (ρ : String → Option V) : Expr V → V → Prop
  | num {v} : Evals ops ρ (.num v) v
  | var {x v} : ρ x = some v → Evals ops ρ (.var x) v
  | un {op e a v} : Evals ops ρ e a → ops.un op a = .ok v → Evals ops ρ (.un op e) v
  | bin {op l r a b v} : Evals ops ρ l a → Evals ops ρ r b → ops.bin op a b = .ok v →
      Evals ops ρ (.bin op l r) v
  | cmp {op l r a b v} : Evals ops ρ l a → Evals ops ρ r b → ops.cmp op a b = .ok v →
      Evals ops ρ (.cmp op l r) v
  | fn {f g e a v} : Applies f g → Evals ops ρ e a → ops.fn g a = .ok v → Evals ops ρ (.fn f e) v

/-- The local causes of failure of an evaluation. -/
inductive Cause (ops : Ops V) (ρ : String → Option V) : Expr V → Prop
  /-- a name the scope lacks -/
  | missing {x} : ρ x = none → Cause ops ρ (.var x)
  /-- a name with a period -/
  | period {x o} : Cause ops ρ (.pvar x o)
  /-- a function that is not implemented -/
  | unsupported {f e} : f = .max ∨ f = .min ∨ f = .normcdf ∨ f = .normpdf → Cause ops ρ (.fn f e)
  /-- an arithmetic operation that fails on the values of its operands -/
  | un {op e a err} : Evals ops ρ e a → ops.un op a = .error err → Cause ops ρ (.un op e)
  | bin {op l r a b err} : Evals ops ρ l a → Evals ops ρ r b → ops.bin op a b = .error err →
      Cause ops ρ (.bin op l r)
  | cmp {op l r a b err} : Evals ops ρ l a → Evals ops ρ r b → ops.cmp op a b = .error err →
      Cause ops ρ (.cmp op l r)
  | fn {f g e a err} : Applies f g → Evals ops ρ e a → ops.fn g a = .error err →
      Cause ops ρ (.fn f e)

/-- Whether an expression contains a comparison. -/
def Expr.hasCmp : Expr V → Bool
  | .num _ | .var _ | .pvar _ _ => false
  | .un _ e => e.hasCmp
  | .bin _ l r => l.hasCmp || r.hasCmp
  | .cmp _ _ _ => true
  | .fn _ e => e.hasCmp

end Pynare
