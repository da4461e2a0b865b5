import Verif.Examples.OccBin
import Verif.Examples.FirstOrder
import Verif.Lemmas.OccTime
import Verif.Model.OccObj
/-!
# Constrained solutions over time, for the examples

The model of `Examples/OccBin.lean`: a floor for `m`, a cap for `b`; and, for the refutations, a regime in which `m` jumps
up when it would be low.
-/

namespace Pynare

/-- the cap for `b` -/
def otCap : Regime ℚ :=
  { A := obRef.A
    B := obRef.B
    C := listArr [[0, 0], [0, 3/2]] 2
    E := listArr [[0, 0], [0, 1]] 2
    D := fun i => if i = 0 then -1 else 0 }

/-- the floor and the cap -/
def otBoth : Regime ℚ :=
  { A := Arr.zeros 2 2
    B := Arr.eye 2 2 0
    C := Arr.zeros 2 2
    E := Arr.zeros 2 2
    D := fun i => if i = 1 then 1 else -1 }

/-- `b > 1` -/
def otHigh (y : Nat → ℚ) : Bool := decide (1 < y 0)

/-- `m` jumps to ten -/
def otJump : Regime ℚ := { obAlt with D := fun i => if i = 1 then -10 else 0 }

/-- `m` falls to minus seven -/
def otFall : Regime ℚ := { obAlt with D := fun i => if i = 1 then 7 else 0 }

/-- `m < 1` -/
def otLow (y : Nat → ℚ) : Bool := decide (y 1 < 1)

/-- the values of `m` -/
def otPath (x : Except Err (List (Nat → ℚ))) (l : List ℚ) : Bool := okAnd x fun r => decide (r.map (fun y => y 1) = l)

/-- whether all paths looked at from a guess on pass a test, and their number is at most the fuel -/
def allPass {H P : Type} (sim : H → Except Err P) (wrong : H → P → Bool) (update : H → P → H) (p : P → Bool) :
    Nat → H → Bool
  | 0, _ => false
  | n + 1, h => match sim h with
    | .error _ => true
    | .ok g => p g && (!wrong h g || allPass sim wrong update p n (update h g))

theorem allPass_tried {H P : Type} {sim : H → Except Err P} {wrong : H → P → Bool} {update : H → P → H} {p : P → Bool}
    {n : Nat} {h0 : H} (h : allPass sim wrong update p n h0 = true) {h1 : H} (ht : Tried sim wrong update h0 h1) {g : P}
    (hg : sim h1 = .ok g) : p g = true := by
  have key : ∃ n, allPass sim wrong update p n h1 = true := by
    clear hg
    induction ht with
    | first => exact ⟨n, h⟩
    | @next h2 g2 _ hs hw ih =>
      obtain ⟨m, hm⟩ := ih
      cases m with
      | zero => cases hm
      | succ m =>
        rw [allPass, hs] at hm
        simp only [hw, Bool.and_eq_true, Bool.not_true, Bool.false_or] at hm
        exact ⟨m, hm.2⟩
  obtain ⟨m, hm⟩ := key
  cases m with
  | zero => cases hm
  | succ m =>
    rw [allPass, hg] at hm
    simp only [Bool.and_eq_true] at hm
    exact hm.1

/-- with one shock the paths looked at are those of the first date -/
theorem allPass_considered {V H : Type} {sim : (Nat → V) → (Nat → V) → H → Except Err (Nat → Nat → V)}
    {wrong : H → (Nat → Nat → V) → Bool} {update : H → (Nat → Nat → V) → H} {maxIter : Nat} {shift : H → H} {h0 : H}
    {init s : Nat → V} {p : (Nat → Nat → V) → Bool} (n : Nat)
    (h : allPass (sim init s) wrong update p n h0 = true) {g : Nat → Nat → V}
    (hc : Considered sim wrong update maxIter shift h0 init [s] g) : p g = true := by
  obtain ⟨pre, s', post, h1, x, h2, hpre, ha, ht, hg⟩ := hc
  cases pre with
  | nil =>
    cases hpre
    have : h1 = h0 ∧ x = init := by
      generalize hz : ([] : List (Nat → V)) = z at ha
      cases ha with
      | start => exact ⟨rfl, rfl⟩
      | date => simp at hz
    obtain ⟨rfl, rfl⟩ := this
    exact allPass_tried h ht hg
  | cons a pre => simp at hpre

end Pynare
