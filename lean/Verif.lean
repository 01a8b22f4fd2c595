import Verif.Props.Absorb
import Verif.Props.AlsLoop
import Verif.Props.AlsOptimal
import Verif.Props.Backend
import Verif.Props.Benchmark
import Verif.Props.BondFrame
import Verif.Props.BondStore
import Verif.Props.Boundary
import Verif.Props.BuiltIn
import Verif.Props.BuiltInSession
import Verif.Props.Checkpoint
import Verif.Props.CholeskyError
import Verif.Props.CholeskyReturns
import Verif.Props.Cluster
import Verif.Props.Config
import Verif.Props.Conjugate
import Verif.Props.Converged
import Verif.Props.Cooling
import Verif.Props.DefaultState
import Verif.Props.Descent
import Verif.Props.DistSave
import Verif.Props.DistSession
import Verif.Props.Distributed
import Verif.Props.Dtype
import Verif.Props.EnergyDescent
import Verif.Props.EnergyShift
import Verif.Props.EnergyUnits
import Verif.Props.Equivalent
import Verif.Props.EvolveSchedule
import Verif.Props.EvolveSplit
import Verif.Props.FreeSession
import Verif.Props.FreeSites
import Verif.Props.FreshRdm
import Verif.Props.FullEnv
import Verif.Props.FullGauge
import Verif.Props.FullRun
import Verif.Props.FullStep
import Verif.Props.FullUpdateComplex
import Verif.Props.FullUpdateExact
import Verif.Props.GateDescent
import Verif.Props.GateExp
import Verif.Props.GateHeap
import Verif.Props.Gather
import Verif.Props.Gauge
import Verif.Props.GroundState
import Verif.Props.Hermitian
import Verif.Props.Hooks
import Verif.Props.IsingDescent
import Verif.Props.LambdaRegistry
import Verif.Props.Lattice
import Verif.Props.LatticeError
import Verif.Props.LatticeErrorComplex
import Verif.Props.LatticeState
import Verif.Props.MeanField
import Verif.Props.MeanRanks
import Verif.Props.MeanSession
import Verif.Props.MeanTheory
import Verif.Props.Measure
import Verif.Props.MeasureAverages
import Verif.Props.MeasurePrint
import Verif.Props.Models
import Verif.Props.MoveComplex
import Verif.Props.MoveExact
import Verif.Props.Native
import Verif.Props.NativeAls
import Verif.Props.NeelSession
import Verif.Props.Network
import Verif.Props.Patch
import Verif.Props.PatchTrial
import Verif.Props.Pauli
import Verif.Props.PinvSolver
import Verif.Props.Plaquette
import Verif.Props.PosFallback
import Verif.Props.PositiveApprox
import Verif.Props.ProcessGroup
import Verif.Props.Product
import Verif.Props.Projectors
import Verif.Props.QuasiOptimal
import Verif.Props.RandomDraw
import Verif.Props.RandomRun
import Verif.Props.RanksExact
import Verif.Props.RanksTheory
import Verif.Props.Rdm
import Verif.Props.Registry
import Verif.Props.Reversal
import Verif.Props.Rsvd
import Verif.Props.Samples
import Verif.Props.SamplingError
import Verif.Props.Session
import Verif.Props.SessionChi
import Verif.Props.Settings
import Verif.Props.Shapes
import Verif.Props.SimpleGauge
import Verif.Props.SimpleUpdate
import Verif.Props.SiteTensor
import Verif.Props.SmallSteps
import Verif.Props.Split
import Verif.Props.Startup
import Verif.Props.Stationary
import Verif.Props.SvdChoice
import Verif.Props.Sweep
import Verif.Props.Symmetry
import Verif.Props.TensorUpdate
import Verif.Props.Timing
import Verif.Props.Trotter
import Verif.Props.TrotterOrder
import Verif.Props.Truncation
import Verif.Audit
