import Verif.Spec.Calib
/-!
# Specification vocabulary for messages
-/

namespace Pynare

variable {V : Type}

/-- The value of a parameter follows from the definitions: all that its definition mentions does. -/
inductive Determined (defs : Dict (Def V)) : String → Prop
  | of {k : String} {d : Def V} : (k, d) ∈ defs → (∀ v ∈ d.vars, Determined defs v) → Determined defs k

end Pynare
