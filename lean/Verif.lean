import Verif.Arr
import Verif.Lemmas.Antideriv
import Verif.Lemmas.ApiNp
import Verif.Lemmas.ArrRows
import Verif.Lemmas.ArrSlices
import Verif.Lemmas.Band
import Verif.Lemmas.Bcast
import Verif.Lemmas.BetaCrps
import Verif.Lemmas.BetaInt
import Verif.Lemmas.BetaSum
import Verif.Lemmas.ClosedInf
import Verif.Lemmas.ClosedInt
import Verif.Lemmas.ClosedScale
import Verif.Lemmas.CrpsAkr
import Verif.Lemmas.CrpsApi
import Verif.Lemmas.CrpsApi2
import Verif.Lemmas.CrpsEquiv
import Verif.Lemmas.CrpsInf
import Verif.Lemmas.CrpsInt
import Verif.Lemmas.CrpsIntegral
import Verif.Lemmas.CrpsKernels
import Verif.Lemmas.CrpsLimit
import Verif.Lemmas.CrpsNan
import Verif.Lemmas.CrpsNonfin
import Verif.Lemmas.CrpsNp
import Verif.Lemmas.CrpsReal
import Verif.Lemmas.CrpsShape
import Verif.Lemmas.CrpsUnweighted
import Verif.Lemmas.Csg0
import Verif.Lemmas.DensCens
import Verif.Lemmas.DensCrps
import Verif.Lemmas.Density
import Verif.Lemmas.Density2
import Verif.Lemmas.Discrete
import Verif.Lemmas.DiscreteInf
import Verif.Lemmas.DiscreteRec
import Verif.Lemmas.DssMv
import Verif.Lemmas.Energy
import Verif.Lemmas.EnergyApi
import Verif.Lemmas.EnergyMmd
import Verif.Lemmas.EnergyNp
import Verif.Lemmas.EulerGamma
import Verif.Lemmas.FamilyLimit
import Verif.Lemmas.FarBounds
import Verif.Lemmas.GammaCrps
import Verif.Lemmas.GammaInt
import Verif.Lemmas.Gev
import Verif.Lemmas.Gpd
import Verif.Lemmas.Grad
import Verif.Lemmas.GradBeta
import Verif.Lemmas.GradClogs
import Verif.Lemmas.GradClosed
import Verif.Lemmas.GradEdge
import Verif.Lemmas.GradEns
import Verif.Lemmas.GradGamma
import Verif.Lemmas.GradGtc
import Verif.Lemmas.GradLogs
import Verif.Lemmas.GradMix
import Verif.Lemmas.GradSort
import Verif.Lemmas.GradT
import Verif.Lemmas.GradTail
import Verif.Lemmas.GradTailStd
import Verif.Lemmas.Gtc
import Verif.Lemmas.GtcFin
import Verif.Lemmas.Gumbel
import Verif.Lemmas.Iid
import Verif.Lemmas.IidLimit
import Verif.Lemmas.Kernel
import Verif.Lemmas.KernelApi
import Verif.Lemmas.KernelNp
import Verif.Lemmas.KsNan
import Verif.Lemmas.LogCrps
import Verif.Lemmas.LogFam
import Verif.Lemmas.LogProper
import Verif.Lemmas.LogShape
import Verif.Lemmas.Lognormal
import Verif.Lemmas.LogsFin
import Verif.Lemmas.Loops
import Verif.Lemmas.LoopsXF
import Verif.Lemmas.Mix
import Verif.Lemmas.Mmd
import Verif.Lemmas.MvArr
import Verif.Lemmas.MvScore
import Verif.Lemmas.Nearest32
import Verif.Lemmas.Nearest64
import Verif.Lemmas.NegbinomCrps
import Verif.Lemmas.Normal
import Verif.Lemmas.NormalConv
import Verif.Lemmas.Np
import Verif.Lemmas.NpActs
import Verif.Lemmas.NpTensor
import Verif.Lemmas.Pairs
import Verif.Lemmas.ParamLip
import Verif.Lemmas.Parseval
import Verif.Lemmas.Pmf
import Verif.Lemmas.PosDef
import Verif.Lemmas.Prim
import Verif.Lemmas.Proper
import Verif.Lemmas.RoundBrier
import Verif.Lemmas.RoundClosed
import Verif.Lemmas.RoundCrps
import Verif.Lemmas.RoundCrps2
import Verif.Lemmas.RoundCrpsAkr
import Verif.Lemmas.RoundCrpsInt
import Verif.Lemmas.RoundCrpsIntA
import Verif.Lemmas.RoundCrpsLoop
import Verif.Lemmas.RoundCrpsLoop2
import Verif.Lemmas.RoundCrpsLoop3
import Verif.Lemmas.RoundDss
import Verif.Lemmas.RoundDss2
import Verif.Lemmas.RoundEnergy
import Verif.Lemmas.RoundEnergyLoop
import Verif.Lemmas.RoundEss
import Verif.Lemmas.RoundKernel
import Verif.Lemmas.RoundKernelLoop
import Verif.Lemmas.RoundLog
import Verif.Lemmas.RoundLogs
import Verif.Lemmas.RoundQuantile
import Verif.Lemmas.RoundTail
import Verif.Lemmas.RoundVariogram
import Verif.Lemmas.RoundVariogram2
import Verif.Lemmas.RoundVariogramLoop
import Verif.Lemmas.RoundVariogramLoop2
import Verif.Lemmas.Rounding
import Verif.Lemmas.Rounding32
import Verif.Lemmas.RoundingEns
import Verif.Lemmas.Scale
import Verif.Lemmas.SliceBySlice
import Verif.Lemmas.Sorting
import Verif.Lemmas.Split
import Verif.Lemmas.Stable
import Verif.Lemmas.TCrps
import Verif.Lemmas.TGtc
import Verif.Lemmas.TInt
import Verif.Lemmas.Tape
import Verif.Lemmas.Variogram
import Verif.Lemmas.VariogramApi
import Verif.Lemmas.VariogramNp
import Verif.Lemmas.WeightedUv
import Verif.Model.Aliases
import Verif.Model.Api
import Verif.Model.ApiNp
import Verif.Model.Avail
import Verif.Model.Backends
import Verif.Model.Band
import Verif.Model.Brier
import Verif.Model.Closed
import Verif.Model.Closed2
import Verif.Model.Crps
import Verif.Model.CrpsNp
import Verif.Model.DiscreteArr
import Verif.Model.Dispatch
import Verif.Model.Dss
import Verif.Model.DssMv
import Verif.Model.Dtype
import Verif.Model.Energy
import Verif.Model.EnergyNp
import Verif.Model.Grad
import Verif.Model.GradClogs
import Verif.Model.GradEdge
import Verif.Model.GradEns
import Verif.Model.GradGamma
import Verif.Model.GradLogs
import Verif.Model.GradTail
import Verif.Model.Kernel
import Verif.Model.KernelNp
import Verif.Model.Logs
import Verif.Model.LogsEns
import Verif.Model.Mixnorm
import Verif.Model.Multivariate
import Verif.Model.Nanomit
import Verif.Model.Np
import Verif.Model.PairWeights
import Verif.Model.Py
import Verif.Model.Quantile
import Verif.Model.Registry
import Verif.Model.Reliability
import Verif.Model.RoundBrier
import Verif.Model.RoundClosed
import Verif.Model.RoundCrps
import Verif.Model.RoundCrpsLoop
import Verif.Model.RoundDss
import Verif.Model.RoundEnergy
import Verif.Model.RoundEnergyLoop
import Verif.Model.RoundKernel
import Verif.Model.RoundKernelLoop
import Verif.Model.RoundQuantile
import Verif.Model.RoundTail
import Verif.Model.RoundVariogram
import Verif.Model.RoundVariogramLoop
import Verif.Model.Rounding
import Verif.Model.Rounding32
import Verif.Model.RoundingEns
import Verif.Model.Special
import Verif.Model.Special2
import Verif.Model.Stats
import Verif.Model.Tape
import Verif.Model.TorchArgs
import Verif.Model.TorchArr
import Verif.Model.TorchConst
import Verif.Model.TypeFlow
import Verif.Model.Variogram
import Verif.Model.VariogramNp
import Verif.Model.WeightedUv
import Verif.Props.Aliases
import Verif.Props.ApiNp
import Verif.Props.Avail
import Verif.Props.Backends
import Verif.Props.BadParams
import Verif.Props.Band
import Verif.Props.Beta
import Verif.Props.Binomial
import Verif.Props.Brier
import Verif.Props.CloseLaws
import Verif.Props.Closed
import Verif.Props.ClosedInf
import Verif.Props.ClosedNan
import Verif.Props.Closer
import Verif.Props.CloserProb
import Verif.Props.CloserWeights
import Verif.Props.Comb32
import Verif.Props.Comb64
import Verif.Props.Convex
import Verif.Props.ConvexProb
import Verif.Props.Crps
import Verif.Props.Crps2
import Verif.Props.CrpsArr
import Verif.Props.CrpsInf
import Verif.Props.CrpsNan
import Verif.Props.CrpsNp
import Verif.Props.CrpsProper
import Verif.Props.CrpsShape
import Verif.Props.Discrete
import Verif.Props.DiscreteArr
import Verif.Props.Dispatch
import Verif.Props.Dss
import Verif.Props.DssMv
import Verif.Props.Dtype
import Verif.Props.Energy
import Verif.Props.Energy2
import Verif.Props.EnergyNp
import Verif.Props.EnergyProper
import Verif.Props.Ess
import Verif.Props.EssProper
import Verif.Props.Families
import Verif.Props.FamilyLimit
import Verif.Props.FarBounds
import Verif.Props.Gamma
import Verif.Props.Gev
import Verif.Props.Grad
import Verif.Props.GradBeta
import Verif.Props.GradClogs
import Verif.Props.GradEdge
import Verif.Props.GradEns
import Verif.Props.GradGamma
import Verif.Props.GradGtc
import Verif.Props.GradLogs
import Verif.Props.GradMix
import Verif.Props.GradSort
import Verif.Props.GradTail
import Verif.Props.GradVs
import Verif.Props.Gtc
import Verif.Props.Identities
import Verif.Props.Kernel
import Verif.Props.KernelNp
import Verif.Props.KernelProper
import Verif.Props.Limit
import Verif.Props.LimitCase
import Verif.Props.LogCrps
import Verif.Props.LogProper
import Verif.Props.LogShape
import Verif.Props.Logs
import Verif.Props.LogsDiscrete
import Verif.Props.LogsEns
import Verif.Props.LogsInf
import Verif.Props.MixCrps
import Verif.Props.Mixnorm
import Verif.Props.MvAxes
import Verif.Props.MvAxisRange
import Verif.Props.MvOwArr
import Verif.Props.NanCases
import Verif.Props.Nanomit
import Verif.Props.Negbinom
import Verif.Props.Nested
import Verif.Props.NoSpread
import Verif.Props.Observation
import Verif.Props.OtherNan
import Verif.Props.PairWeights
import Verif.Props.ParamLip
import Verif.Props.ParamNan
import Verif.Props.Poisson
import Verif.Props.Pooling
import Verif.Props.Proper
import Verif.Props.Quantile
import Verif.Props.QuantileCrps
import Verif.Props.QuantileLaw
import Verif.Props.Registry
import Verif.Props.Relabel
import Verif.Props.Reliability
import Verif.Props.RoundClosed
import Verif.Props.RoundCrps
import Verif.Props.RoundCrpsLoop
import Verif.Props.RoundDss
import Verif.Props.RoundDss2
import Verif.Props.RoundEnergy
import Verif.Props.RoundEnergyLoop
import Verif.Props.RoundEss
import Verif.Props.RoundKernel
import Verif.Props.RoundKernelLoop
import Verif.Props.RoundLogScore
import Verif.Props.RoundLogs
import Verif.Props.RoundQuantile
import Verif.Props.RoundRps
import Verif.Props.RoundTail
import Verif.Props.RoundVariogram
import Verif.Props.RoundVariogramLoop
import Verif.Props.Rounding
import Verif.Props.Rounding32
import Verif.Props.RoundingError
import Verif.Props.RoundingPoisson
import Verif.Props.ScoreNan
import Verif.Props.Stable
import Verif.Props.Symmetry
import Verif.Props.TDist
import Verif.Props.TGtc
import Verif.Props.Tape
import Verif.Props.ThresholdProper
import Verif.Props.TorchArgs
import Verif.Props.TorchArr
import Verif.Props.TorchConst
import Verif.Props.TwSplit
import Verif.Props.TypeFlow
import Verif.Props.Unbiased
import Verif.Props.Variogram
import Verif.Props.VariogramNp
import Verif.Props.VariogramProper
import Verif.Props.Weighted
import Verif.Props.Weighted2
import Verif.Props.Weighted3
import Verif.Spec.Brier
import Verif.Spec.CloseLaws
import Verif.Spec.Closer
import Verif.Spec.Convex
import Verif.Spec.Crps
import Verif.Spec.CrpsShape
import Verif.Spec.Dens
import Verif.Spec.Dist
import Verif.Spec.Dss
import Verif.Spec.DssMv
import Verif.Spec.Elicit
import Verif.Spec.Energy
import Verif.Spec.ExpandDims
import Verif.Spec.FarBounds
import Verif.Spec.Gev
import Verif.Spec.Grad
import Verif.Spec.Gtc
import Verif.Spec.Kernel
import Verif.Spec.Limit
import Verif.Spec.LimitCase
import Verif.Spec.LogShape
import Verif.Spec.LogsEns
import Verif.Spec.Mmd
import Verif.Spec.MvSlices
import Verif.Spec.ParamLip
import Verif.Spec.Pmf
import Verif.Spec.Pool
import Verif.Spec.Proper
import Verif.Spec.Quantile
import Verif.Spec.Reliability
import Verif.Spec.Single
import Verif.Spec.SliceBySlice
import Verif.Spec.Slices
import Verif.Spec.Special
import Verif.Spec.TwProper
import Verif.Spec.Unbiased
import Verif.Spec.Variogram
import Verif.Spec.VsProper
import Verif.Spec.Weighted
import Verif.XF
