import Verif.Props.Calib
import Verif.Props.Expr
import Verif.Props.Lexer
import Verif.Props.Parser
import Verif.Props.Semantics
import Verif.Props.Factory
import Verif.Props.FileGram
import Verif.Props.Sigma
import Verif.Props.Index
import Verif.Props.Exprs
import Verif.Props.ModelObj
import Verif.Props.Arr
import Verif.Props.FirstOrder
import Verif.Props.Simul
import Verif.Props.Sylvester
import Verif.Props.OccBin
import Verif.Props.Plot
import Verif.Props.Stats
import Verif.Props.SylvesterUnique
import Verif.Props.SecondOrder
import Verif.Props.Mean
import Verif.Props.SpaceObj
import Verif.Props.Sample
import Verif.Props.Summary
import Verif.Props.Steady
import Verif.Props.Solve
import Verif.Props.Derivs
import Verif.Props.Linear
import Verif.Props.Binding
import Verif.Props.Reading
import Verif.Props.Filter
import Verif.Props.Report
import Verif.Props.OccTime
import Verif.Props.Stability
import Verif.Props.StabilitySecond
import Verif.Props.Check
import Verif.Props.Order
import Verif.Props.OrderCheck
import Verif.Props.SecondUnique
import Verif.Props.OrderSecond
import Verif.Props.Impulse
import Verif.Props.ImpulseCov
import Verif.Props.ComplexPair
import Verif.Props.Whole
import Verif.Examples.WholeRun
import Verif.Props.WholeOrder
import Verif.Examples.WholeOrder
import Verif.Examples.WholeOrderRun
import Verif.Props.Risk
import Verif.Props.RiskText
import Verif.Props.Solvable
import Verif.Props.SolvableSecond
import Verif.Props.FileSolvable
import Verif.Examples.FileSolvable
import Verif.Examples.FileSolvableSecond
import Verif.Props.Rewritten
import Verif.Examples.Rewritten
import Verif.Props.WholeOrderSecond
import Verif.Examples.WholeOrderSecond
import Verif.Props.RewrittenSecond
import Verif.Props.RewrittenRisk
import Verif.Props.Combined
import Verif.Props.CombinedCase
import Verif.Props.ExprText
import Verif.Props.Renamed
import Verif.Props.Eigvals
import Verif.Props.Enlarged
import Verif.Examples.Enlarged
import Verif.Props.Restated
import Verif.Examples.Restated
import Verif.Examples.RestatedPaths
import Verif.Examples.RestatedMoments
import Verif.Examples.Certainty
import Verif.Examples.ScaledBlock
import Verif.Examples.RiskSums
import Verif.Examples.Start
import Verif.Props.VarArray
import Verif.Props.RestatedPaths
import Verif.Props.Start
import Verif.Props.RestatedMoments
import Verif.Props.Certainty
import Verif.Props.Mixture
import Verif.Props.Lags
import Verif.Props.ShockSize
import Verif.Props.ScaledBlock
import Verif.Props.FilterData
import Verif.Props.ShareSize
import Verif.Props.Broadcast
import Verif.Props.RiskSums
import Verif.Props.Messages
import Verif.Props.PlotArgs
import Verif.Props.ErrorPos
