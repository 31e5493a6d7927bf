import Verif.Props.Again
import Verif.Props.AlsOne
import Verif.Props.AlsOneLimit
import Verif.Props.AlsOneTucker
import Verif.Props.Binding
import Verif.Props.Compare
import Verif.Props.Components
import Verif.Props.Console
import Verif.Props.Cp
import Verif.Props.CpBreakdown
import Verif.Props.CpMove
import Verif.Props.Csv
import Verif.Props.DTensor
import Verif.Props.Data
import Verif.Props.Demo
import Verif.Props.DualAscent
import Verif.Props.Endless
import Verif.Props.EndlessBcu
import Verif.Props.Experiment
import Verif.Props.FactorProducts
import Verif.Props.FirstStep
import Verif.Props.Fixed
import Verif.Props.FloatFit
import Verif.Props.FloatLoss
import Verif.Props.FloatText
import Verif.Props.FromFile
import Verif.Props.Hadamard
import Verif.Props.HadamardDomain
import Verif.Props.Hooi
import Verif.Props.HooiLast
import Verif.Props.HosvdCore
import Verif.Props.InitFactor
import Verif.Props.InitNorm
import Verif.Props.Inner
import Verif.Props.IntText
import Verif.Props.Khatri
import Verif.Props.Kron
import Verif.Props.KronDomain
import Verif.Props.Kruskal
import Verif.Props.KruskalAlgebra
import Verif.Props.L2Bcast
import Verif.Props.Limit
import Verif.Props.Lipschitz
import Verif.Props.Logging
import Verif.Props.Loss
import Verif.Props.LowRank
import Verif.Props.LowerBound
import Verif.Props.MatrixBest
import Verif.Props.ModeWays
import Verif.Props.Momentum
import Verif.Props.Mul
import Verif.Props.MulDoc
import Verif.Props.NTucker
import Verif.Props.Ncp
import Verif.Props.Negative
import Verif.Props.NoBreakdown
import Verif.Props.Objects
import Verif.Props.OneNonneg
import Verif.Props.Pitf
import Verif.Props.PitfCall
import Verif.Props.PitfRank
import Verif.Props.PitfRaw
import Verif.Props.PitfRawTf
import Verif.Props.PitfRepeated
import Verif.Props.PitfSays
import Verif.Props.PitfSaysTf
import Verif.Props.PitfShrink
import Verif.Props.PitfSolver
import Verif.Props.PitfSym
import Verif.Props.PitfTrain
import Verif.Props.PitfUnique
import Verif.Props.PowerLimit
import Verif.Props.Predict
import Verif.Props.Predictions
import Verif.Props.Process
import Verif.Props.Progress
import Verif.Props.Prox
import Verif.Props.RankOne
import Verif.Props.Ratings
import Verif.Props.Reader
import Verif.Props.Recovery
import Verif.Props.Renumber
import Verif.Props.Report
import Verif.Props.Rotate
import Verif.Props.Rounding
import Verif.Props.Runs
import Verif.Props.RunsTucker
import Verif.Props.Sampling
import Verif.Props.Scale
import Verif.Props.ScaleBcu
import Verif.Props.ScaleTucker
import Verif.Props.Schedule
import Verif.Props.Scheduled
import Verif.Props.Scripts
import Verif.Props.Settings
import Verif.Props.Slices
import Verif.Props.Special
import Verif.Props.SpecialBcu
import Verif.Props.SpecialCp
import Verif.Props.SpecialLoss
import Verif.Props.SpecialStop
import Verif.Props.SpecialTucker
import Verif.Props.Stages
import Verif.Props.StopRule
import Verif.Props.Synthetic
import Verif.Props.T2mat
import Verif.Props.Tolerance
import Verif.Props.Train
import Verif.Props.Transposed
import Verif.Props.Truncate
import Verif.Props.Ttm
import Verif.Props.TtmLaws
import Verif.Props.TtmMany
import Verif.Props.TtmRepeat
import Verif.Props.Tucker
import Verif.Props.TwoNumbers
import Verif.Props.Unfold
import Verif.Props.VecKron
import Verif.Props.Xcb
import Verif.Validation.Recorded
