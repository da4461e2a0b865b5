import Verif.Model.Report
import Verif.Examples.Stats
/-!
# Statistics and models for the examples of printed summaries
-/

namespace Pynare

/-- the statistics of the small solved model -/
def stStats : Statistics ℚ where
  mean := .ok [1, -2, 1/3]
  std := stdList stLa (ratLyap [stX]) ratSqrt stT stSpace stGy stGu stSigma
  corr := corrArr stLa (ratLyap [stX]) ratSqrt stT stSpace stGy stGu stSigma
  autocorr := autocorr stLa (ratLyap [stX]) ratSqrt stT stSpace stGy stGu stSigma
  decomp := .ok ⟨3, 2, fun i j => if i = 2 then none else if i = j then some (1/3) else some (2/3)⟩

/-- names of its variables -/
def stNames : List Txt := ["c".toList, "k".toList, "z".toList]

/-- a summary of two of them -/
def stSummary : StatSummary ℚ where
  stats := stStats
  endog := stNames
  stoch := ["e".toList, "u".toList]
  only := ["decomp", "moments"]

/-- what a summary of a small model shows -/
def smallView : ModelView ℚ where
  endog := stNames
  stoch := ["e".toList, "u".toList]
  nState := 2
  nForward := 1
  nStatic := 1
  eigen := .ok [⟨.inf false, .fin 0, .inf false⟩, ⟨.fin (3/5), .fin 0, .fin (3/5)⟩, ⟨.fin (-4/5), .fin 0, .fin (4/5)⟩]
  sigma := .ok [[16, 13/5], [13/5, 9]]
  params := [("beta", 99/100), ("a", 1/3), ("b", 0)]

/-- statistics that are small numbers -/
def tinyStats : Statistics ℚ := { stStats with mean := .ok [-1/1000, 0], std := .ok [some (1/1000), some (1/2000)] }

end Pynare
