import Verif.Spec.Rewritten
/-!
# Specification vocabulary for model files written in other variables
-/

namespace Pynare

variable {V : Type}

section
variable [Field V] [LinearOrder V]

/-- The function `T` has the derivative `k` at `a`. -/
def HasSlope (T : V → V) (a k : V) : Prop :=
  ∀ ε > 0, ∃ δ > 0, ∀ h, |h| ≤ δ → |T (a + h) - T a - k * h| ≤ ε * |h|

/-- Near the values `a` the equations of the file `m` imply those of the file `m'` for variables and shocks that are
measured differently, a variable `x` by `T x` of what it is in `m` and a shock by `U x` of it: where the former hold up to
an error of `η`, the latter hold up to `K η`. -/
def RestatedNear (ops : Ops V) (m : ModelFile V) (σ : String → Option V) (m' : ModelFile V) (σ' : String → Option V)
    (a : String → V) (T U : String → V → V) : Prop :=
  ∃ K : V, ∃ δ > 0, ∀ ym y yp u : String → V,
    (∀ x ∈ m.names "var", |ym x - a x| ≤ δ ∧ |y x - a x| ≤ δ ∧ |yp x - a x| ≤ δ) → (∀ x ∈ m.names "varexo", |u x| ≤ δ) →
    ∀ η, MetWithin ops m σ (named m ym y yp u) η →
      MetWithin ops m' σ' (named m' (fun x => T x (ym x)) (fun x => T x (y x)) (fun x => T x (yp x)) (fun x => U x (u x)))
        (K * η)

/-- Of two lists of numbers, one for each name, the second has `k x` times the number of the first for every name `x`
that both have. -/
def ScaledByName (k : String → V) (names names' : List String) (w w' : Nat → V) : Prop :=
  ∀ (i i' : Nat) x, names[i]? = some x → names'[i']? = some x → w' i' = k x * w i

/-- Of two square arrays, with a row and a column for each name, the second has `k x` times `k z` times the number of the
first for all names `x`, `z` that both have. -/
def ScaledSquare (k : String → V) (names names' : List String) (C C' : Arr V) : Prop :=
  ∀ (i i' j j' : Nat) x z, names[i]? = some x → names'[i']? = some x → names[j]? = some z → names'[j']? = some z →
    C'.e i' j' = k x * k z * C.e i j

end

/-- The expression with `w x` of every occurrence of a variable `x` among `xs`, at whatever date, in its place. -/
def inPlace (xs : List String) (w : String → Expr V → Expr V) : Expr V → Expr V
  | .var x => if x ∈ xs then w x (.var x) else .var x
  | .pvar x o => if x ∈ xs then w x (.pvar x o) else .pvar x o
  | .num v => .num v
  | .un op e => .un op (inPlace xs w e)
  | .bin op l r => .bin op (inPlace xs w l) (inPlace xs w r)
  | .cmp op l r => .cmp op (inPlace xs w l) (inPlace xs w r)
  | .fn f e => .fn f (inPlace xs w e)

/-- Whenever every name has one value at most, the value of `w x e` is `T x` of the value of `e`. -/
def Computes (ops : Ops V) (w : String → Expr V → Expr V) (T : String → V → V) : Prop :=
  ∀ (P : String → V → Prop) (Q : String → Int → V → Prop), (∀ x v v', P x v → P x v' → v = v') →
    (∀ x o v v', Q x o v → Q x o v' → v = v') →
    ∀ x e v, PEvals ops P Q (w x e) v → ∃ b, PEvals ops P Q e b ∧ v = T x b

/-- The file `m` is the file `m'` with `w x` of the variable `x` in the place of `x` everywhere in the equations. -/
structure WrittenIn (w : String → Expr V → Expr V) (σ : String → Option V) (m m' : ModelFile V) : Prop where
  vars : m.names "var" = m'.names "var"
  shocks : m.names "varexo" = m'.names "varexo"
  apart : ∀ x ∈ m'.names "var", x ∉ m'.names "varexo" ∧ σ x = none
  equations : equations m.stmts = (equations m'.stmts).map fun p =>
    (inPlace (m'.names "var") w p.1, inPlace (m'.names "var") w p.2)

end Pynare
