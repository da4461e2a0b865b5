import Verif.Spec.FileSolvable
/-!
# Specification vocabulary for model files written with other equations
-/

namespace Pynare

variable {V : Type}

/-- Values of the variables in three adjacent periods and of the shocks, given by name, in the order of the file. -/
def named (m : ModelFile V) (ym y yp u : String → V) : Around V :=
  ⟨byName (m.names "var") ym, byName (m.names "var") y, byName (m.names "var") yp, byName (m.names "varexo") u⟩

section
variable [Field V] [LinearOrder V]

/-- Every equation of the file can be evaluated at the levels `L` and holds up to an error of at most `η`. -/
def MetWithin (ops : Ops V) (m : ModelFile V) (σ : String → Option V) (L : Around V) (η : V) : Prop :=
  ∀ l r, (l, r) ∈ equations m.stmts → ∃ w, GapIs ops m σ L l r w ∧ |w| ≤ η

/-- Near the values `a` the equations of the file `m` imply those of the file `m'`: where the former hold up to an error
of `η`, the latter hold up to `K η`. -/
def ImpliesNear (ops : Ops V) (m : ModelFile V) (σ : String → Option V) (m' : ModelFile V) (σ' : String → Option V)
    (a : String → V) : Prop :=
  ∃ K : V, ∃ δ > 0, ∀ ym y yp u : String → V,
    (∀ x ∈ m.names "var", |ym x - a x| ≤ δ ∧ |y x - a x| ≤ δ ∧ |yp x - a x| ≤ δ) → (∀ x ∈ m.names "varexo", |u x| ≤ δ) →
    ∀ η, MetWithin ops m σ (named m ym y yp u) η → MetWithin ops m' σ' (named m' ym y yp u) (K * η)

end

/-- The file `m'` is the file `m` with the two sides of some equations exchanged; everything but the equations that
matters for the solution is the same. -/
structure SidesExchanged (m m' : ModelFile V) : Prop where
  decls : m'.decls = m.decls
  params : m'.params = m.params
  locals : localsOf m'.stmts = localsOf m.stmts
  equations : List.Forall₂ (fun e e' => e' = e ∨ e' = e.swap) (equations m.stmts) (equations m'.stmts)

end Pynare
