import Verif.Time.SecondRun
import Verif.Time.Tick
import Verif.Boundary.Theorems
import Verif.Parameters.Theorems
import Verif.Output.Theorems
import Verif.Output.Timing
import Verif.Precond.DiagTheorems
import Verif.Precond.SubElements
import Verif.Precond.Pressure
import Verif.Operator.Buffers
import Verif.Operator.Jacobian
import Verif.Operator.PressureMode
import Verif.Operator.PressureSystem
import Verif.Operator.PressureField
import Verif.PhaseField.Precond
import Verif.PhaseField.Jacobian
import Verif.PhaseField.Energy
import Verif.PhaseField.Newton
import Verif.Nonlinear.Policy
import Verif.Time.History
import Verif.LevelSet.HeavisideField
import Verif.Bubble.Marching
import Verif.Bubble.Weights
import Verif.Bubble.Statistics
import Verif.Bubble.Gather
import Verif.Mesh.Refinement
import Verif.Mesh.FlowAdapt
import Verif.Time.Clocks
import Verif.Sharp.Collect
import Verif.Sharp.Force
import Verif.Sharp.MixedForce
import Verif.Sharp.Transport
import Verif.Sharp.SurfaceTime
import Verif.Sharp.Phases
import Verif.Sharp.SurfaceCurvature
import Verif.LevelSet.Profiles
import Verif.LevelSet.ReinitLoop
import Verif.LevelSet.Ranges
import Verif.LevelSet.Curvature
import Verif.Time.AdaptiveStep
import Verif.Mesh.CellDiameter
import Verif.Time.Consistency
import Verif.Operator.Energy
import Verif.Operator.Momentum
import Verif.Operator.Frame
import Verif.LevelSet.Frame
import Verif.Operator.Steady
import Verif.Operator.Stationary
import Verif.Operator.StokesField
import Verif.LevelSet.Wiring
import Verif.LevelSet.Lengths
import Verif.Precond.Assembly
import Verif.FE.Space
import Verif.LevelSet.Advect
import Verif.LevelSet.Stability
import Verif.LevelSet.ArtificialViscosity
import Verif.LevelSet.Reinit
import Verif.LevelSet.Content
import Verif.LevelSet.NormalCurvature
import Verif.LevelSet.Balance
import Verif.LevelSet.Interpolation
import Verif.LevelSet.MatrixAdvect
import Verif.LevelSet.MatrixReinit
import Verif.LevelSet.MatrixNormals
import Verif.LevelSet.MatrixForce
import Verif.LevelSet.FluidType
import Verif.Boundary.Velocity
import Verif.Boundary.Open
import Verif.Precond.AugmentedPoisson
import Verif.Precond.AugmentedCoefficients
import Verif.TwoPhase.Step
import Verif.TwoPhase.SecondRun
import Verif.Operator.CellLoop
import Verif.Operator.Dispatch
import Verif.Operator.PressureOps
import Verif.Boundary.Pressure
import Verif.Projection.History
import Verif.Projection.Velocity
import Verif.Precond.Objects
import Verif.Precond.Pattern
import Verif.Precond.Wrapper
import Verif.App.ParticleLog
import Verif.App.CavityLines
import Verif.Output.JointFields
import Verif.App.Channel
import Verif.App.ParticleSetup
import Verif.PhaseField.EnergyBdf2
import Verif.TwoPhase.Adapt
import Verif.Parallel.Ghost
import Verif.Parallel.Programs
import Verif.Parallel.Runs
import Verif.Parallel.Failures
import Verif.Parallel.Surface
import Verif.Time.Rounding
import Verif.Time.Float
import Verif.Parameters.FileTheorems
import Verif.Parallel.Exchange
import Verif.Precond.Amg
import Verif.Precond.AssemblyLoop
import Verif.Precond.AssemblyValues
import Verif.Precond.VelocityApply
import Verif.Parallel.Determined
import Verif.Parallel.DeterminedRuns
import Verif.Parallel.Observer
import Verif.Time.Units
import Verif.Operator.Units
import Verif.LevelSet.Units
import Verif.Operator.GradientForce
import Verif.LevelSet.Exchange
import Verif.PhaseField.Exchange
import Verif.PhaseField.Frame
