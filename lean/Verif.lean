import Verif.Props.ChemPot
import Verif.Props.Mvector
import Verif.Props.LineSearch
import Verif.Props.Driver
import Verif.Props.Smearing
import Verif.Props.Window
import Verif.Props.GradEta
import Verif.Props.Descent
import Verif.Props.Geodesic
import Verif.Props.Solver
import Verif.Props.Spmd
import Verif.Props.Memory
import Verif.Props.Layout
import Verif.Props.Env
import Verif.Props.Logger
import Verif.Props.Entry
import Verif.Props.Slope
import Verif.Props.Gpu
import Verif.Props.MemAlgo
import Verif.Props.MemSolver
import Verif.Props.Represent
import Verif.Props.Overlap
import Verif.Props.MpiType
import Verif.Props.Singleton
import Verif.Props.StepFile
import Verif.Props.NaN
import Verif.Props.Cost
import Verif.Props.Residual
import Verif.Props.SelfConsistent
import Verif.Props.Shift
import Verif.Props.Reduce
import Verif.Props.Shell
import Verif.Props.Gauge
import Verif.Props.StepRace
import Verif.Props.SmearFloat
import Verif.Props.TimeReversal
import Verif.Props.Insulator
import Verif.Props.FloatCharge
import Verif.Props.CallAgain
import Verif.Props.Physical
import Verif.Props.Inexact
import Verif.Props.Variational
import Verif.Props.Parallel
import Verif.Props.IntSize
import Verif.Props.NewtonCharge
import Verif.Props.ZeroWeight
import Verif.Props.Quadratic
import Verif.Props.Sensitive
import Verif.Props.StepGroups
import Verif.Props.RecordSide
import Verif.Props.Converge
import Verif.Props.KSets
import Verif.Props.EntropyPeak
import Verif.Props.Sizes
import Verif.Model.OutFile
import Verif.Spec.OutFile
import Verif.Proofs.OutFile
import Verif.Props.OutFile
import Verif.Props.MoreElectrons
import Verif.Model.FullRecord
import Verif.Spec.FullRecord
import Verif.Proofs.FullRecord
import Verif.Props.FullRecord
import Verif.Spec.Symmetry
import Verif.Proofs.Symmetry
import Verif.Props.Symmetry
import Verif.Proofs.GroundState
import Verif.Props.GroundState
import Verif.Model.LogText
import Verif.Spec.LogText
import Verif.Proofs.LogText
import Verif.Props.LogText
import Verif.Spec.Levels
import Verif.Proofs.Levels
import Verif.Props.Levels
import Verif.Spec.HostError
import Verif.Proofs.HostError
import Verif.Proofs.HostLog
import Verif.Props.HostError
import Verif.Spec.FixedOcc
import Verif.Proofs.FixedOcc
import Verif.Props.FixedOcc
import Verif.Spec.CutShort
import Verif.Proofs.CutShort
import Verif.Proofs.CutHost
import Verif.Proofs.CutLimit
import Verif.Props.CutShort
import Verif.Proofs.CutTol
import Verif.Props.Effort
import Verif.Spec.BandOrder
import Verif.Proofs.BandOrderLin
import Verif.Proofs.BandOrder
import Verif.Props.BandOrder
import Verif.Model.OpSolver
import Verif.Spec.OpCalls
import Verif.Proofs.OpCalls
import Verif.Proofs.OpRules
import Verif.Proofs.OpSim
import Verif.Props.OpCalls
import Verif.Spec.WellPosed
import Verif.Proofs.WellPosed
import Verif.Props.WellPosed
import Verif.Model.Deferred
import Verif.Spec.Deferred
import Verif.Proofs.Deferred
import Verif.Props.Deferred
import Verif.Proofs.DirCount
import Verif.Model.Lifecycle
import Verif.Spec.Lifecycle
import Verif.Proofs.Lifecycle
import Verif.Props.Lifecycle
import Verif.Spec.Noise
import Verif.Proofs.Noise
import Verif.Props.Noise
import Verif.Spec.FloatRun
import Verif.Proofs.FloatRun
import Verif.Props.FloatRun
import Verif.Spec.Together
import Verif.Proofs.AnyRank
import Verif.Proofs.Together
import Verif.Props.Together
import Verif.Spec.Thermo
import Verif.Proofs.Thermo
import Verif.Props.Heating
import Verif.Props.Price
import Verif.Spec.Schedule
import Verif.Proofs.Causal
import Verif.Proofs.Schedule
import Verif.Props.Schedule
import Verif.Spec.Hang
import Verif.Proofs.Hang
import Verif.Props.Hang
import Verif.Model.Timed
import Verif.Spec.Timed
import Verif.Proofs.Timed
import Verif.Props.Timed
import Verif.Model.GpuCopy
import Verif.Props.GpuCopy
import Verif.Spec.MoreBands
import Verif.Props.MoreBands
import Verif.Spec.Talk
import Verif.Proofs.Talk
import Verif.Props.Talk
import Verif.Props.Params
import Verif.Spec.Response
import Verif.Props.Response
import Verif.Spec.Density
import Verif.Proofs.Density
import Verif.Props.Density
import Verif.Spec.MeanField
import Verif.Proofs.MeanField
import Verif.Props.MeanField
import Verif.Spec.Basis
import Verif.Props.Basis
import Verif.Spec.BandCount
import Verif.Proofs.BandCount
import Verif.Props.BandCount
import Verif.Proofs.BandCountRef
import Verif.Proofs.Continue
import Verif.Props.Continue
