import Verif.Model.OccBin
/-!
# Specification vocabulary for constrained solutions over time
-/

namespace Pynare

variable {V : Type}

/-- One date later: the guess without its first period, with the reference regime at the end. -/
def nextDate (h : List Bool) : List Bool := h.drop 1 ++ [false]

/-- The same for two constraints. -/
def nextDates (h : List (Bool × Bool)) : List (Bool × Bool) := h.drop 1 ++ [(false, false)]

/-- The guesses a search goes through that starts from `h0`: each guess has a path, and a guess that is at odds with its
path is followed by the guess made from the two. -/
inductive Tried {H P : Type} (sim : H → Except Err P) (wrong : H → P → Bool) (update : H → P → H) (h0 : H) : H → Prop
  | first : Tried sim wrong update h0 h0
  | next {h : H} {g : P} : Tried sim wrong update h0 h → sim h = .ok g → wrong h g = true →
      Tried sim wrong update h0 (update h g)

/-- Where a solution stands after the shocks of some dates: the guess with which the search for the next date begins,
and the values of the variables at the last date. -/
inductive Arrives {H : Type}
    (solve : (Nat → V) → (Nat → V) → H → Except Err (H × Option (Nat → Nat → V) × Bool)) (shift : H → H) (h0 : H)
    (init : Nat → V) : List (Nat → V) → H → (Nat → V) → Prop
  | start : Arrives solve shift h0 init [] h0 init
  | date {ss : List (Nat → V)} {s : Nat → V} {h h' : H} {x : Nat → V} {g : Nat → Nat → V} {c : Bool} :
      Arrives solve shift h0 init ss h x → solve x s h = .ok (h', some g, c) →
      Arrives solve shift h0 init (ss ++ [s]) (shift h') (g 0)

/-- The paths a solution looks at: those of the guesses tried at some date. -/
def Considered {H : Type} (sim : (Nat → V) → (Nat → V) → H → Except Err (Nat → Nat → V))
    (wrong : H → (Nat → Nat → V) → Bool) (update : H → (Nat → Nat → V) → H) (maxIter : Nat) (shift : H → H) (h0 : H)
    (init : Nat → V) (shocks : List (Nat → V)) (g : Nat → Nat → V) : Prop :=
  ∃ (pre : List (Nat → V)) (s : Nat → V) (post : List (Nat → V)) (h1 : H) (x : Nat → V) (h : H),
    shocks = pre ++ s :: post ∧
    Arrives (fun x s h => guessLoop (sim x s) wrong update maxIter h none) shift h0 init pre h1 x ∧
    Tried (sim x s) wrong update h1 h ∧ sim x s h = .ok g

section
variable [Zero V] [One V] [Add V] [Mul V] [Neg V]

/-- The paths the solution with one constraint looks at. -/
def ConsideredOne (la : LinAlg V) (gy gu : Arr V) (ref alt : Regime V) (binds relaxes : (Nat → V) → Bool)
    (periods maxIter : Nat) (init : Nat → V) (shocks : List (Nat → V)) (g : Nat → Nat → V) : Prop :=
  Considered (hypothesized la gy gu ref alt)
    (fun h g => mismatch h (tests periods binds g) (tests periods relaxes g))
    (fun h g => updateHypo h (tests periods binds g) (tests periods relaxes g)) maxIter nextDate
    (List.replicate (periods + 1) false) init shocks g

/-- The paths the solution with two constraints looks at. -/
def ConsideredTwo (la : LinAlg V) (gy gu : Arr V) (ref alt0 alt1 dbl : Regime V)
    (binds0 relaxes0 binds1 relaxes1 : (Nat → V) → Bool) (periods maxIter : Nat) (init : Nat → V)
    (shocks : List (Nat → V)) (g : Nat → Nat → V) : Prop :=
  Considered (hypothesizedTwo la gy gu ref alt0 alt1 dbl)
    (fun h g => mismatch (ravelF h) (tests periods binds0 g ++ tests periods binds1 g)
      (tests periods relaxes0 g ++ tests periods relaxes1 g))
    (fun h g => updateTwo h (tests periods binds0 g ++ tests periods binds1 g)
      (tests periods relaxes0 g ++ tests periods relaxes1 g)) maxIter nextDates
    (List.replicate (periods + 1) (false, false)) init shocks g

end

end Pynare
