import Verif.Binary64
import Verif.Float
import Verif.Lemmas.Affine
import Verif.Lemmas.B64
import Verif.Lemmas.B64Cut
import Verif.Lemmas.B64Demo
import Verif.Lemmas.B64InDemo
import Verif.Lemmas.BfgsConvex
import Verif.Lemmas.BfgsDemo
import Verif.Lemmas.Blocked
import Verif.Lemmas.BoundedCount
import Verif.Lemmas.BoundedProgress
import Verif.Lemmas.CG
import Verif.Lemmas.Calls
import Verif.Lemmas.Candidates
import Verif.Lemmas.Chains
import Verif.Lemmas.Compare
import Verif.Lemmas.Consistent
import Verif.Lemmas.Converge
import Verif.Lemmas.Convex
import Verif.Lemmas.Definite
import Verif.Lemmas.Demo
import Verif.Lemmas.Descent
import Verif.Lemmas.DescentOn
import Verif.Lemmas.Domain
import Verif.Lemmas.DomainTotal
import Verif.Lemmas.Driver
import Verif.Lemmas.Evals
import Verif.Lemmas.ExactOracles
import Verif.Lemmas.ExactRoutines
import Verif.Lemmas.Feasible
import Verif.Lemmas.FiniteCand
import Verif.Lemmas.FiniteStep
import Verif.Lemmas.Forward
import Verif.Lemmas.GradDecrease
import Verif.Lemmas.GradStep
import Verif.Lemmas.Growth
import Verif.Lemmas.HeadInv
import Verif.Lemmas.Hessian
import Verif.Lemmas.HistFree
import Verif.Lemmas.HybridDemo
import Verif.Lemmas.InexactRun
import Verif.Lemmas.InteriorMath
import Verif.Lemmas.InteriorNewton
import Verif.Lemmas.Library
import Verif.Lemmas.LinAlg
import Verif.Lemmas.Line
import Verif.Lemmas.LocalRun
import Verif.Lemmas.Log
import Verif.Lemmas.MemoryRun
import Verif.Lemmas.NanDemo
import Verif.Lemmas.NewtonBox
import Verif.Lemmas.NewtonDecrease
import Verif.Lemmas.Nudge
import Verif.Lemmas.NumLawful
import Verif.Lemmas.OneColumn
import Verif.Lemmas.OneVariable
import Verif.Lemmas.Pass
import Verif.Lemmas.Permuted
import Verif.Lemmas.PermutedFull
import Verif.Lemmas.PermutedRun
import Verif.Lemmas.Progress
import Verif.Lemmas.Quadratic
import Verif.Lemmas.Radius
import Verif.Lemmas.Raised
import Verif.Lemmas.Rotation
import Verif.Lemmas.RotationQuasi
import Verif.Lemmas.RotationRun
import Verif.Lemmas.RunUpdate
import Verif.Lemmas.Saddle
import Verif.Lemmas.SaddleRun
import Verif.Lemmas.Secular
import Verif.Lemmas.Shift
import Verif.Lemmas.Sr1Demo
import Verif.Lemmas.Stall
import Verif.Lemmas.SteihaugCauchy
import Verif.Lemmas.SteihaugDecrease
import Verif.Lemmas.SteihaugLine
import Verif.Lemmas.SteihaugOracle
import Verif.Lemmas.SteihaugRay
import Verif.Lemmas.StepBack
import Verif.Lemmas.Stopping
import Verif.Lemmas.Subproblem
import Verif.Lemmas.Taylor
import Verif.Lemmas.Translation
import Verif.Lemmas.TruncDemo
import Verif.Lemmas.UnitsRun
import Verif.Lemmas.UnitsStep
import Verif.Model.Constants
import Verif.Model.Funeval
import Verif.Model.Hessian
import Verif.Model.IntStart
import Verif.Model.Log
import Verif.Model.Logging
import Verif.Model.Memory
import Verif.Model.Minimize
import Verif.Model.Py
import Verif.Model.Steps
import Verif.Model.Subproblem
import Verif.Model.TrustRegion
import Verif.Num
import Verif.Props.Aliasing
import Verif.Props.AliasingExamples
import Verif.Props.Ball
import Verif.Props.Bfgs
import Verif.Props.Binary64
import Verif.Props.Binary64Inside
import Verif.Props.Binary64Start
import Verif.Props.BoundedConvergence
import Verif.Props.BoundedNewton
import Verif.Props.BoundedReach
import Verif.Props.BoxConvex
import Verif.Props.CandidateList
import Verif.Props.Compare
import Verif.Props.Convergence
import Verif.Props.ConvergenceRate
import Verif.Props.Convex
import Verif.Props.ConvexExamples
import Verif.Props.Definite
import Verif.Props.Domain
import Verif.Props.DomainExamples
import Verif.Props.Duality
import Verif.Props.Errors
import Verif.Props.Evaluations
import Verif.Props.Exceptions
import Verif.Props.Finite
import Verif.Props.Fixed
import Verif.Props.Flags
import Verif.Props.Halting
import Verif.Props.HaltingOne
import Verif.Props.HaltingRuns
import Verif.Props.History
import Verif.Props.Inexact
import Verif.Props.InexactExamples
import Verif.Props.Initial
import Verif.Props.Inside
import Verif.Props.IntStart
import Verif.Props.InteriorConvergence
import Verif.Props.InteriorExamples
import Verif.Props.InteriorTotal
import Verif.Props.Library
import Verif.Props.LocalConvergence
import Verif.Props.LocalExamples
import Verif.Props.Log
import Verif.Props.LogType
import Verif.Props.Logging
import Verif.Props.Loops
import Verif.Props.Nan1d
import Verif.Props.NewtonConvergence
import Verif.Props.NewtonExamples
import Verif.Props.NoException
import Verif.Props.NoIncrease
import Verif.Props.OneStep
import Verif.Props.OneVariable
import Verif.Props.Options
import Verif.Props.Permuted
import Verif.Props.PermutedFull
import Verif.Props.Predicted
import Verif.Props.Quadratic
import Verif.Props.Quasi
import Verif.Props.Radius
import Verif.Props.Raised
import Verif.Props.Recording
import Verif.Props.ReflectNan
import Verif.Props.Reflection
import Verif.Props.Rerun
import Verif.Props.Resolve
import Verif.Props.Restart
import Verif.Props.Rotation
import Verif.Props.RotationQuasi
import Verif.Props.Run
import Verif.Props.RunUpdate
import Verif.Props.Saddle
import Verif.Props.Scaling
import Verif.Props.Secular
import Verif.Props.Sr1
import Verif.Props.Start
import Verif.Props.Steihaug
import Verif.Props.SteihaugPredicted
import Verif.Props.SteihaugTotal
import Verif.Props.StepBack
import Verif.Props.Stopping
import Verif.Props.Structured
import Verif.Props.StructuredExamples
import Verif.Props.StructuredRun
import Verif.Props.Subproblem
import Verif.Props.Translation
import Verif.Props.TruncBall
import Verif.Props.TrustBall
import Verif.Props.TrustExamples
import Verif.Props.Unbounded
import Verif.Props.Units
import Verif.Props.Witnesses
import Verif.Spec.Blocked
import Verif.Spec.Bounded
import Verif.Spec.Box
import Verif.Spec.BoxConvex
import Verif.Spec.Calls
import Verif.Spec.Compare
import Verif.Spec.Config
import Verif.Spec.Considered
import Verif.Spec.Convex
import Verif.Spec.Definite
import Verif.Spec.Domain
import Verif.Spec.Exceptions
import Verif.Spec.Growth
import Verif.Spec.History
import Verif.Spec.Inexact
import Verif.Spec.IntStart
import Verif.Spec.Interior
import Verif.Spec.Linear
import Verif.Spec.Local
import Verif.Spec.Log
import Verif.Spec.LogType
import Verif.Spec.Objective
import Verif.Spec.Permuted
import Verif.Spec.Proposal
import Verif.Spec.Quadratic
import Verif.Spec.Raised
import Verif.Spec.Rerun
import Verif.Spec.Residuals
import Verif.Spec.Restart
import Verif.Spec.Rotation
import Verif.Spec.Routines
import Verif.Spec.Run
import Verif.Spec.Saddle
import Verif.Spec.Secular
import Verif.Spec.Smooth
import Verif.Spec.Stationary
import Verif.Spec.Stopping
import Verif.Spec.Translation
import Verif.Spec.TrustRegion
import Verif.Spec.Units
