import Verif.Examples.Stats
import Verif.Spec.Summary
/-!
# Examples of tables of solutions

The variables are `a` (with a lag and a lead), `b` (only current) and `c` (with a lag): in decision-rule order `b`, `c`, `a`.
-/

namespace Pynare

/-- An array with given entries; one column makes a vector. -/
def ndOf {V : Type} (r c : Nat) (f : Nat → Nat → V) : Nd V := if c = 1 then .vec r fun i => f i 0 else .mat ⟨r, c, f⟩

theorem ndOf_is {V : Type} (r c : Nat) (f : Nat → Nat → V) : (ndOf r c f).Is r c f := by
  unfold ndOf
  split
  · exact ⟨‹_›, rfl, fun _ _ => rfl⟩
  · exact ⟨‹_›, rfl, rfl, fun _ _ _ _ => rfl⟩

/-- Arrays that hold given coefficients. -/
def arraysOf {V : Type} (t : Typer) (nExog : Nat) (P : Policy V) : PolicyArrays V where
  gy := ndOf t.n t.state.length fun p q => P.state (t.varAt p) (t.stateAt q)
  gu := ndOf t.n nExog fun p k => P.shock (t.varAt p) k
  ghxx := ndOf t.n (t.state.length * t.state.length) fun i j =>
    P.states (t.varAt i) (t.stateAt (j / t.state.length)) (t.stateAt (j % t.state.length))
  ghxu := ndOf t.n (t.state.length * nExog) fun i j => P.mixed (t.varAt i) (t.stateAt (j / nExog)) (j % nExog)
  ghuu := ndOf t.n (nExog * nExog) fun i j => P.shocks (t.varAt i) (j / nExog) (j % nExog)
  del2 := ndOf t.n 1 fun i _ => P.risk (t.varAt i)

theorem arraysOf_holds {V : Type} (t : Typer) (nExog : Nat) (P : Policy V) :
    HoldsSecond t nExog (arraysOf t nExog P) P :=
  ⟨⟨ndOf_is _ _ _, ndOf_is _ _ _⟩, ndOf_is _ _ _, ndOf_is _ _ _, ndOf_is _ _ _, ndOf_is t.n 1 fun i _ => P.risk (t.varAt i)⟩

/-- the same variables, but `c` has a lead and `a` has none -/
def tabT : Typer := match buildLlx [[-1, 0], [0], [-1, 0, 1]] with
  | .ok t => t.toTyper
  | .error _ => ⟨0, fun _ _ => none⟩

/-- coefficients that are all different -/
def smP : Policy ℚ where
  state v s := 10 * s + v + 1
  shock v _ := -(v : ℚ) - 1
  states v s s' := 100 + 10 * s + s' + v
  mixed v s _ := 200 + 10 * s + v
  shocks v _ _ := 300 + v
  risk v := v

/-- steady states -/
def smSs (v : Nat) : ℚ := v + 1

end Pynare
