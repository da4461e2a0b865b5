import Verif.Spec.Whole
import Verif.Spec.Certainty
import Verif.Spec.Mixture
import Verif.Spec.Lexer
import Verif.Spec.FileGram
/-!
# Specification vocabulary for C188
-/

namespace Pynare

variable {V SS S : Type} [Field V] [LinearOrder V] [IsStrictOrderedRing V]

/-- A file with the contents `m` was read as the model `md` and solved to second order with the result `(gy, gu), so`,
where the covariances of the shocks are `sg`. -/
structure SolvedToSecond (r : ReadEnv V SS S) (lib : Libs V) (half : V) (m : ModelFile V)
    (md : MState V (ModelSpace V) ((Arr V × Arr V) × SecondNd V)) (gy gu : Arr V) (so : SecondNd V) (sg : Sig V) : Prop where
  read : ∃ (us : List (Tok V)) (text : List Char) (lang name : String), FileOf r.pc us m ∧ Written r.cfg us text [] ∧
    fromText (r.second lib half) lang name text = .ok md
  solved : ∃ md₁, md.solve (r.env.second lib half) = (md₁, .ok ((gy, gu), so))
  covs : (md.readSigma (r.env.second lib half)).2 = .ok sg

end Pynare
