import Verif.Props.RootsScalar
import Verif.Props.Polyline
import Verif.Props.FixPoint
import Verif.Props.NDiff
import Verif.Props.Ode
import Verif.Props.Utils
import Verif.Props.RootsVector
import Verif.Props.Dist
import Verif.Props.DistState
import Verif.Props.Mixture
import Verif.Props.DistMisc
import Verif.Props.Copo
import Verif.Props.CopoPen
import Verif.Props.CopoMulti
import Verif.Props.CopoTuples
import Verif.Props.StepGrowth
import Verif.Props.Kinetics
import Verif.Props.Rtd
import Verif.Props.PropEq
import Verif.Props.Mixing
import Verif.Props.Eos
import Verif.Props.Acm
import Verif.Props.Flash
import Verif.Props.FlashBal
import Verif.Props.Flow
import Verif.Props.FlowRoots
import Verif.Props.PrvGas
import Verif.Props.PrvLiquid
import Verif.Props.PrvTwo
import Verif.Props.Rheology
import Verif.Model.Diffusion
import Verif.Lemmas.Erfc
import Verif.Lemmas.Diffusion
import Verif.Props.Diffusion
import Verif.Props.DiffusionPde
import Verif.Props.DiffusionUptake
import Verif.Props.DiffusionConv
import Verif.Model.Tait
import Verif.Model.VrentasDuda
import Verif.Props.Tait
import Verif.Props.VrentasDuda
import Verif.Model.Vaporization
import Verif.Props.Vaporization
import Verif.Model.Transport
import Verif.Props.TransportMix
import Verif.Props.TransportVisc
import Verif.Props.TransportCond
import Verif.Props.TransportDiff
import Verif.Props.CorrForced
import Verif.Props.CorrFree
import Verif.Props.CorrTank
import Verif.Props.Equations
import Verif.Props.Gold
import Verif.Props.SpecialRoots
import Verif.Props.Jcr
import Verif.Props.CopoData
import Verif.Props.Reaction
import Verif.Props.Rackett
import Verif.Props.DataDist
import Verif.Props.Psat
import Verif.Props.CopoDrift
import Verif.Props.CopoFit
import Verif.Props.CopoClass
import Verif.Props.Relabel
import Verif.Props.AcmParams
import Verif.Props.EosParams
import Verif.Props.FlashTrace
import Verif.Props.Eyring
import Verif.Props.Erfc
import Verif.Props.Cache
import Verif.Props.TaitDb
import Verif.Props.FlashIdeal
import Verif.Props.RandomLength
import Verif.Props.DistProtocol
import Verif.Props.Repr
import Verif.Props.Units
import Verif.Props.Corresponding
import Verif.Props.Split
import Verif.Props.Published
import Verif.Props.Documented
import Verif.Props.Nozzle
import Verif.Props.RecordedPoly
import Verif.Props.RecordedFlow
import Verif.Props.RecordedHmt
import Verif.Props.RecordedEst
import Verif.Props.RecordedMisc
import Verif.Props.Haaland
import Verif.Props.Colebrook
import Verif.Props.FlowSmall
import Verif.Props.FlowFast
import Verif.Props.FlowConvergesAll
import Verif.Props.FlowConvergesHigh
import Verif.Props.FlowSlope
import Verif.Props.FlowAccuracy
import Verif.Props.FlowConverges
import Verif.Props.NDiffAcc
import Verif.Props.RootsConv
