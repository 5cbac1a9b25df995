import Verif.Model.Outcome
import Verif.Model.Range
import Verif.Model.RangeCounting
import Verif.Properties.C01_Range
import Verif.Lemmas.RangeCounting4
import Verif.Lemmas.RangeAlign
import Verif.Lemmas.RangeParam
import Verif.Model.VariableCountingVector
import Verif.Properties.C07_VariableCountingVector
import Verif.Properties.C08_SplitVariables
import Verif.Properties.C02_RangeCounting
import Verif.Model.DependencyGraph
import Verif.Properties.C09_DependencyGraph
import Verif.Properties.C13_Reduce
import Verif.Properties.C14_CallGraph
import Verif.Properties.C16_MatrixProperties
import Verif.Properties.C22_VariableVector
import Verif.Properties.C26_Variable
import Verif.Properties.C29_Token
import Verif.Properties.C30_Callback
import Verif.Model.LeastSquareSolver
import Verif.Lemmas.LeastSquareSolver
import Verif.Properties.C31_EventQueue
import Verif.Properties.C32_SolverEvents
import Verif.Properties.C33_LeastSquareSolver
import Verif.Properties.C60_SolverViews
import Verif.Model.SchemeAbilities
import Verif.Properties.C58_SchemeAbilities
import Verif.Model.WeightedLeastSquares
import Verif.Lemmas.WeightedLeastSquares6
import Verif.Lemmas.WeightedLeastSquares7
import Verif.Properties.C49_Problem
import Verif.Properties.C61_Pipeline
import Verif.Model.CompiledAssignment
import Verif.Properties.C40_CompiledAssignment
import Verif.Model.Assignment
import Verif.Lemmas.Assignment
import Verif.Lemmas.Assignment2
import Verif.Lemmas.Assignment3
import Verif.Lemmas.Assignment4
import Verif.Lemmas.Assignment5
import Verif.Lemmas.Assignment6
import Verif.Properties.C34_Assignment
import Verif.Properties.C36_Weights
import Verif.Properties.C38_Bounds
import Verif.Model.BoundHelpers
import Verif.Properties.C41_BoundHelpers
import Verif.Model.DiagonalCalculator
import Verif.Lemmas.DiagonalCalculator
import Verif.Properties.C42_DiagonalCalculator
import Verif.Model.SubstitutionUnit
import Verif.Lemmas.SubstitutionUnit1
import Verif.Lemmas.SubstitutionUnit2
import Verif.Properties.C43_SubstitutionUnit
import Verif.Model.TaskDynamics
import Verif.Model.LinearizedTask
import Verif.Properties.C44_Clamped
import Verif.Properties.C45_VelocityDamper
import Verif.Properties.C46_OneStep
import Verif.Properties.C47_Gains
import Verif.Properties.C48_LinearizedTask
import Verif.Properties.C64_Convergence
import Verif.Properties.C65_SimpleFlags
import Verif.Model.AffineFunction
import Verif.Properties.C53_AffineFunction
import Verif.Model.VariableVectorPartition
import Verif.Properties.C54_Partition
import Verif.Model.ProtoTask
import Verif.Properties.C55_ProtoTask
import Verif.Model.Inputs
import Verif.Properties.C56_Inputs
import Verif.Model.Node
import Verif.Properties.C57_Node
import Verif.Model.QPSolvers
import Verif.Properties.C66_QPSolvers
import Verif.Properties.C67_MinimumNorm
import Verif.Model.Hierarchical
import Verif.Properties.C68_Hierarchical
import Verif.Model.HierarchicalEvents
import Verif.Properties.C69_HierarchicalEvents
import Verif.Model.Substitutions
import Verif.Properties.C70_Substitutions
import Verif.Model.GenericCalculator
import Verif.Properties.C73_GenericCalculator
import Verif.Model.Sva
import Verif.Model.Contact
import Verif.Model.JointsSelector
import Verif.Model.UpdatelessFunction
import Verif.Model.CheckFunction
import Verif.Properties.C74_Contact
import Verif.Properties.C76_JointsSelector
import Verif.Properties.C77_UpdatelessFunction
import Verif.Properties.C78_CheckFunction
import Verif.Lemmas.V3Deriv
import Verif.Model.Frame
import Verif.Model.Plane
import Verif.Model.FrictionCone
import Verif.Model.DynamicFunction
import Verif.Properties.C79_Frame
import Verif.Properties.C80_Plane
import Verif.Properties.C81_FrictionCone
import Verif.Properties.C82_DynamicFunction
import Verif.Model.FirstOrderProvider
import Verif.Model.BasicLinearConstraint
import Verif.Properties.C83_FirstOrderProvider
import Verif.Properties.C84_BasicLinearConstraint
import Verif.Model.Robot
import Verif.Properties.C85_Robot
import Verif.Model.CollisionFunction
import Verif.Properties.C86_CollisionFunction
import Verif.Model.RobotFunctions
import Verif.Properties.C87_RobotFunctions
import Verif.Model.BasicLinearFunction
import Verif.Properties.C88_BasicLinearFunction
import Verif.Model.Outputs
import Verif.Properties.C89_Outputs
import Verif.Model.AssignmentUpdate
import Verif.Properties.C90_AssignmentUpdate
import Verif.Model.GraphLog
import Verif.Properties.C91_GraphLog
import Verif.Model.GraphProbe
import Verif.Properties.C92_GraphProbe
import Verif.Model.SolvingRequirements
import Verif.Properties.C93_SolvingRequirements
import Verif.Model.ProblemUpdate
import Verif.Properties.C94_ProblemUpdate
import Verif.Model.SolverAssembly
import Verif.Lemmas.SolverAssembly
import Verif.Lemmas.SolverAssembly2
import Verif.Lemmas.SolverAssembly3
import Verif.Lemmas.SolverAssembly4
import Verif.Lemmas.SolverAssembly5
import Verif.Properties.C95_SolverAssembly
import Verif.Model.ResolutionValues
import Verif.Properties.C96_Resolution
import Verif.Model.TaskResolution
import Verif.Properties.C97_Tasks
import Verif.Properties.C97_Resolved
import Verif.Model.HierarchicalResolution
import Verif.Lemmas.HierarchicalResolution
import Verif.Lemmas.HierarchicalResolution2
import Verif.Properties.C98_HierarchicalResolution
import Verif.Model.AssignmentTarget
import Verif.Properties.C99_AssignmentTarget
import Verif.Model.DiagnosticMatrix
import Verif.Properties.C100_DiagnosticMatrix
import Verif.Model.MatrixWithProperties
import Verif.Properties.C101_MatrixWithProperties
import Verif.Model.OrientationFunction
import Verif.Properties.C102_OrientationFunction
import Verif.Model.ContactValue
import Verif.Properties.C103_ContactValue
import Verif.Model.BufferedMatrix
import Verif.Properties.C104_BufferedMatrix
import Verif.Model.MemoryChecks
import Verif.Properties.C105_MemoryChecks
import Verif.Model.UpdateGraph
import Verif.Properties.C106_UpdateGraph
import Verif.Model.EventSource
import Verif.Model.EventNetwork
import Verif.Properties.C107_EventSource
import Verif.Properties.C107_Network
import Verif.Model.ConvexHull
import Verif.Properties.C108_ConvexHull
import Verif.Model.RobotLoading
import Verif.Properties.C109_RobotLoading
import Verif.Model.DamperTask
import Verif.Properties.C110_Avoidance
import Verif.Properties.C110_Second
import Verif.Properties.C97_Loops
import Verif.Properties.C97_ResolvedSampled
import Verif.Model.SchemesOfProblem
import Verif.Properties.C111_Schemes
import Verif.Properties.C61_Variables
import Verif.Properties.C112_SampledSecond
import Verif.Properties.C113_SecondInequality
import Verif.Properties.C113_Resolved
import Verif.Properties.C114_Composed
import Verif.Properties.C114_Layers
import Verif.Properties.C114_Tracking
import Verif.Model.VariablePointers
import Verif.Model.CountingLifetime
import Verif.Properties.C115_Pointers
import Verif.Properties.C116_Lifetime
import Verif.Model.TaskLifetime
import Verif.Properties.C117_TaskLifetime
import Verif.Model.NodeLifetime
import Verif.Properties.C118_NodeLifetime
import Verif.Properties.C119_ChangingRequirements
import Verif.Model.SolverBook
import Verif.Properties.C120_SolverBook
import Verif.Model.IdMap
import Verif.Properties.C121_IdMap
import Verif.Model.HierarchicalRebuild
import Verif.Properties.C122_Rebuild
import Verif.Properties.C123_Priorities
import Verif.Properties.C123_Loop
import Verif.Properties.C123_Sampled
import Verif.Properties.C112_Resolved
import Verif.Properties.C123_Second
import Verif.Model.BigNumber
import Verif.Properties.C124_BigNumber
import Verif.Properties.C124_Bounds
