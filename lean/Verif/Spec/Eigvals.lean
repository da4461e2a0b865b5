import Verif.Model.Eigvals
import Mathlib.Order.Defs.LinearOrder
/-! # Specification vocabulary for sorted eigenvalues -/

namespace Pynare

/-- `np.argsort` returns all positions, one with a smaller entry never behind one with a larger entry; nothing is known
about the order of equal entries. -/
def IsArgsort {M : Type} [LE M] (f : List M → List Nat) : Prop :=
  ∀ ms : List M, (f ms).Perm (List.range ms.length) ∧
    (f ms).Pairwise fun i j => ∀ a b, ms[i]? = some a → ms[j]? = some b → a ≤ b

end Pynare
