import Verif.Lemmas.Arith
import Verif.Lemmas.AucDbl
import Verif.Lemmas.BetaCf
import Verif.Lemmas.BetaFrac
import Verif.Lemmas.BetaInt
import Verif.Lemmas.BetaNeg
import Verif.Lemmas.BetaQuantile
import Verif.Lemmas.BetaRate
import Verif.Lemmas.BetaTable
import Verif.Lemmas.BetaTail
import Verif.Lemmas.ConfDbl
import Verif.Lemmas.CoordDescent
import Verif.Lemmas.Digamma
import Verif.Lemmas.DigammaSmall
import Verif.Lemmas.Doubles
import Verif.Lemmas.EditDist
import Verif.Lemmas.Erf
import Verif.Lemmas.ErfSmall
import Verif.Lemmas.FloatBits
import Verif.Lemmas.Gamma
import Verif.Lemmas.GammaLower
import Verif.Lemmas.GammaReal
import Verif.Lemmas.GaussTail
import Verif.Lemmas.HavDbl
import Verif.Lemmas.Ieee
import Verif.Lemmas.IeeeDist
import Verif.Lemmas.IntCols
import Verif.Lemmas.IsoFloat
import Verif.Lemmas.IsoGeneric
import Verif.Lemmas.Isotonic
import Verif.Lemmas.KDHistory
import Verif.Lemmas.KDQuery
import Verif.Lemmas.KDTree
import Verif.Lemmas.KS
import Verif.Lemmas.Kendall
import Verif.Lemmas.KnnAvg
import Verif.Lemmas.KnnDbl
import Verif.Lemmas.LanczosPoly
import Verif.Lemmas.LinReg
import Verif.Lemmas.ListPoly
import Verif.Lemmas.LnGamma
import Verif.Lemmas.LnGammaConst
import Verif.Lemmas.LossDbl
import Verif.Lemmas.NanTree
import Verif.Lemmas.Ndcg
import Verif.Lemmas.NewtonStep
import Verif.Lemmas.NormalTail
import Verif.Lemmas.Online
import Verif.Lemmas.Parallel
import Verif.Lemmas.PsiDbl
import Verif.Lemmas.Report
import Verif.Lemmas.Roc
import Verif.Lemmas.SimdMiss
import Verif.Lemmas.SimdTree
import Verif.Lemmas.SnowballAmong
import Verif.Lemmas.SnowballEnv
import Verif.Lemmas.SnowballFind
import Verif.Lemmas.SnowballLen
import Verif.Lemmas.SnowballMain
import Verif.Lemmas.SnowballSteps
import Verif.Lemmas.SnowballUtf8
import Verif.Lemmas.StudentSearch
import Verif.Lemmas.StudentStart
import Verif.Lemmas.StudentTail
import Verif.Lemmas.Trapz
import Verif.Model.Arith
import Verif.Model.AucDbl
import Verif.Model.Benford
import Verif.Model.BlueprintObj
import Verif.Model.Calibration
import Verif.Model.Chi2
import Verif.Model.ChiDbl
import Verif.Model.Combos
import Verif.Model.Compat
import Verif.Model.CondEntDbl
import Verif.Model.CondEntropy
import Verif.Model.ConfDbl
import Verif.Model.Confusion
import Verif.Model.Convolve
import Verif.Model.CoordDescent
import Verif.Model.CorrTable
import Verif.Model.Dia
import Verif.Model.Digamma
import Verif.Model.Doubles
import Verif.Model.Downsample
import Verif.Model.EditDist
import Verif.Model.Entropy
import Verif.Model.EntryPoints
import Verif.Model.FTest
import Verif.Model.FTestP
import Verif.Model.Fft
import Verif.Model.FloatBits
import Verif.Model.FloatFns
import Verif.Model.FrameNames
import Verif.Model.FromStats
import Verif.Model.Gamma
import Verif.Model.GcdLcm
import Verif.Model.HavDbl
import Verif.Model.Haversine
import Verif.Model.Ieee
import Verif.Model.IntCols
import Verif.Model.IntSeries
import Verif.Model.Isotonic
import Verif.Model.Jaccard
import Verif.Model.KDHistory
import Verif.Model.KDTree
import Verif.Model.KS
import Verif.Model.Kendall
import Verif.Model.KnnAvg
import Verif.Model.KnnDbl
import Verif.Model.KnnExpr
import Verif.Model.KnnPoint
import Verif.Model.LRObject
import Verif.Model.LempelZiv
import Verif.Model.LinPlot
import Verif.Model.LinReg
import Verif.Model.LnGamma
import Verif.Model.LossDbl
import Verif.Model.LossEdge
import Verif.Model.LrFrame
import Verif.Model.LrNames
import Verif.Model.MannWhitney
import Verif.Model.Metrics
import Verif.Model.MultiMetrics
import Verif.Model.NanTree
import Verif.Model.Ndcg
import Verif.Model.NdcgNames
import Verif.Model.Normal
import Verif.Model.NormalP
import Verif.Model.NormalTest
import Verif.Model.NullPolicy
import Verif.Model.NumExpr
import Verif.Model.Online
import Verif.Model.OnlineDbl
import Verif.Model.Parallel
import Verif.Model.Partition
import Verif.Model.Pca
import Verif.Model.PermEntropy
import Verif.Model.Pipeline
import Verif.Model.PlExpr
import Verif.Model.Plots
import Verif.Model.Profile
import Verif.Model.Psi
import Verif.Model.PsiDbl
import Verif.Model.RadiusExpr
import Verif.Model.Random
import Verif.Model.Rcond
import Verif.Model.Report
import Verif.Model.Roc
import Verif.Model.ScaleDbl
import Verif.Model.Schema
import Verif.Model.SimdTree
import Verif.Model.SimpleLr
import Verif.Model.Snowball
import Verif.Model.Spatial
import Verif.Model.Split
import Verif.Model.SplitDbl
import Verif.Model.Spread
import Verif.Model.Stopword
import Verif.Model.StrExpr
import Verif.Model.StrMisc
import Verif.Model.StrSim
import Verif.Model.StrStats
import Verif.Model.StudentPpf
import Verif.Model.Subseq
import Verif.Model.TTest
import Verif.Model.TargetDbl
import Verif.Model.Transforms
import Verif.Model.Trapz
import Verif.Model.TsFeat
import Verif.Model.Weighted
import Verif.Model.Woe
import Verif.Model.Xi
import Verif.Props.AucAbove
import Verif.Props.AucDbl
import Verif.Props.Benford
import Verif.Props.BetaTail
import Verif.Props.BlueprintObj
import Verif.Props.Calibration
import Verif.Props.Chi2
import Verif.Props.ChiDbl
import Verif.Props.Combos
import Verif.Props.Compat
import Verif.Props.CondEntDbl
import Verif.Props.CondEntropy
import Verif.Props.ConfDbl
import Verif.Props.Confusion
import Verif.Props.Convolve
import Verif.Props.CoordDescent
import Verif.Props.CorrTable
import Verif.Props.DiaInfer
import Verif.Props.DiaNull
import Verif.Props.DiaPlot
import Verif.Props.DiaProfile
import Verif.Props.DiaValid
import Verif.Props.Digamma
import Verif.Props.Dispatch
import Verif.Props.Doubles
import Verif.Props.Downsample
import Verif.Props.EditDist
import Verif.Props.Encoders
import Verif.Props.Entropy
import Verif.Props.EntryPoints
import Verif.Props.FTest
import Verif.Props.Fft
import Verif.Props.FloatBits
import Verif.Props.FloatFns
import Verif.Props.FrameNames
import Verif.Props.FromStats
import Verif.Props.Gamma
import Verif.Props.GcdLcm
import Verif.Props.HavDbl
import Verif.Props.Haversine
import Verif.Props.Ieee
import Verif.Props.IntFeat
import Verif.Props.IntLoss
import Verif.Props.IntSeries
import Verif.Props.IsoFloat
import Verif.Props.Isotonic
import Verif.Props.Jaccard
import Verif.Props.KDTree
import Verif.Props.KS
import Verif.Props.Kendall
import Verif.Props.KnnAvg
import Verif.Props.KnnDbl
import Verif.Props.KnnPoint
import Verif.Props.LRObject
import Verif.Props.LempelZiv
import Verif.Props.LinPlot
import Verif.Props.LinReg
import Verif.Props.LnGamma
import Verif.Props.LossDbl
import Verif.Props.LossEdge
import Verif.Props.LrFrame
import Verif.Props.LrFrameObj
import Verif.Props.LrNames
import Verif.Props.MannWhitney
import Verif.Props.Metrics
import Verif.Props.MetricsFit
import Verif.Props.MultiAuc
import Verif.Props.NanTree
import Verif.Props.Ndcg
import Verif.Props.NdcgNames
import Verif.Props.Normal
import Verif.Props.NormalP
import Verif.Props.NormalTest
import Verif.Props.NullPolicy
import Verif.Props.NumExpr
import Verif.Props.NumExprCols
import Verif.Props.Online
import Verif.Props.OnlineDbl
import Verif.Props.OnlineWitness
import Verif.Props.Parallel
import Verif.Props.Partition
import Verif.Props.Pca
import Verif.Props.PermEntropy
import Verif.Props.Pipeline
import Verif.Props.Plots
import Verif.Props.Profile
import Verif.Props.Psi
import Verif.Props.PsiDbl
import Verif.Props.RadiusExpr
import Verif.Props.Random
import Verif.Props.Rcond
import Verif.Props.Report
import Verif.Props.Roc
import Verif.Props.Rolling
import Verif.Props.RowWise
import Verif.Props.ScaleDbl
import Verif.Props.ScaledLoss
import Verif.Props.Schema
import Verif.Props.SimdMiss
import Verif.Props.SimdTree
import Verif.Props.SimpleLr
import Verif.Props.Snowball
import Verif.Props.Spatial
import Verif.Props.Split
import Verif.Props.SplitDbl
import Verif.Props.Spread
import Verif.Props.Stopword
import Verif.Props.StrExpr
import Verif.Props.StrMisc
import Verif.Props.StrSim
import Verif.Props.StrStats
import Verif.Props.StudentPpf
import Verif.Props.Subseq
import Verif.Props.TTest
import Verif.Props.TargetDbl
import Verif.Props.Transforms
import Verif.Props.Trapz
import Verif.Props.TsAr
import Verif.Props.TsChange
import Verif.Props.TsLag
import Verif.Props.TsStreak
import Verif.Props.Weighted
import Verif.Props.Woe
import Verif.Props.Xi
import Verif.Spec.Confusion
import Verif.Spec.CoordDescent
import Verif.Spec.FloatBits
import Verif.Spec.Isotonic
import Verif.Spec.KS
import Verif.Spec.Kendall
import Verif.Spec.LinReg
import Verif.Spec.MannWhitney
import Verif.Spec.Neighbors
import Verif.Spec.Online
import Verif.Spec.Porter2
import Verif.Spec.Report
import Verif.Spec.Roc
import Verif.Spec.Trapz
