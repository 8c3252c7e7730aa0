import Verif.Model.Outcome
import Verif.Model.BSpline
import Verif.Spec.CoxDeBoor
import Verif.Lemmas.Piece
import Verif.Lemmas.Eval
import Verif.Model.BSplineViews
import Verif.Lemmas.PieceFacts
import Verif.Lemmas.State
import Verif.Lemmas.Weights
import Verif.Props.Eval
import Verif.Props.Calculus
import Verif.Lemmas.Views
import Verif.Props.Views
import Verif.Lemmas.Shift
import Verif.Props.State
import Verif.Model.BSplineIntegral
import Verif.Lemmas.QuadForm
import Verif.Lemmas.Integral
import Verif.Props.Integral
import Verif.Props.Quadratic
import Verif.Model.BSplineFit
import Verif.Lemmas.LeastSquares
import Verif.Lemmas.Fit
import Verif.Lemmas.Linear
import Verif.Props.Fit
import Verif.Props.LeastSquares
import Verif.Lemmas.Append
import Verif.Props.Append
import Verif.Model.Knots
import Verif.Props.Knots
import Verif.Model.Integrator
import Verif.Props.Integrator
import Verif.Model.ManifoldSpline
import Verif.Model.EuclideanSpline
import Verif.Model.ManifoldObjects
import Verif.Lemmas.Iterators
import Verif.Lemmas.ManifoldSpline
import Verif.Lemmas.Evaluator
import Verif.Lemmas.Generic
import Verif.Lemmas.Euclidean
import Verif.Props.ManifoldMap
import Verif.Props.ManifoldLife
import Verif.Props.ManifoldAppend
import Verif.Props.ManifoldUpdate
import Verif.Props.Euclidean
import Verif.Model.LieGroup
import Verif.Model.QuaternionSpline
import Verif.Props.ManifoldInit
import Verif.Props.LieGroup
import Verif.Lemmas.Quaternion
import Verif.Props.Quaternion
import Verif.Model.OptSpline
import Verif.Props.OptUpdate
import Verif.Props.TimeExpr
import Verif.Props.OptSpline
import Verif.Model.NodeCache
import Verif.Props.NodeCache
import Verif.Model.Fitter
import Verif.Lemmas.FitterAlgebra
import Verif.Lemmas.Fitter
import Verif.Props.FitterExtend
import Verif.Props.Fitter
import Verif.Model.Pose
import Verif.Props.Pose
import Verif.Lemmas.PoseRotation
import Verif.Props.PoseJacobian
import Verif.Lemmas.PoseDemo
import Verif.Props.PoseRates
import Verif.Model.PoseExpressions
import Verif.Props.PoseExpressions
import Verif.Props.Smooth
import Verif.Props.TimedExpressions
import Verif.Model.SplineVariables
import Verif.Props.SplineVariables
import Verif.Model.MotionError
import Verif.Props.MotionError
import Verif.Model.ManifoldJacobian
import Verif.Spec.RotationCalculus
import Verif.Lemmas.QuaternionJacobian
import Verif.Props.QuaternionJacobian
import Verif.Lemmas.MovingTime
import Verif.Model.OptExpressions
import Verif.Spec.ExpressionCalculus
import Verif.Lemmas.OptExpressions
import Verif.Props.OptExpressions
import Verif.Props.SegmentViews
import Verif.Lemmas.Svd
import Verif.Model.MotionErrorFactory
import Verif.Props.MotionErrorFactory
import Verif.Model.CovarianceError
import Verif.Props.CovarianceError
import Verif.Model.RollingShutterVariables
import Verif.Props.RollingShutterVariables
import Verif.Model.ManifoldConstant
import Verif.Props.ManifoldConstant
import Verif.Model.SimpleErrors
import Verif.Props.SimpleErrors
import Verif.Model.Tutorial
import Verif.Props.Tutorial
import Verif.Lemmas.QuaternionKnots
import Verif.Props.ManifoldSmooth
import Verif.Model.EvaluatorBuffers
import Verif.Lemmas.EvaluatorBuffers
import Verif.Props.EvaluatorBuffers
import Verif.Model.SizedArrays
import Verif.Props.SizedArrays
import Verif.Model.PythonInterface
import Verif.Props.PythonInterface
import Verif.Model.UniformFit
import Verif.Props.UniformFit
import Verif.Model.PythonBSpline
import Verif.Props.PythonBSpline
import Verif.Lemmas.Marsden
import Verif.Model.PoseFit
import Verif.Props.Reproduction
import Verif.Props.PoseFit
import Verif.Model.LieDifferentials
import Verif.Props.LieDifferentials
import Verif.Model.LocalCoefficients
import Verif.Props.LocalCoefficients
import Verif.Props.FitUnique
import Verif.Model.NotANumber
import Verif.Props.NotANumber
import Verif.Model.MachineIntegers
import Verif.Props.MachineIntegers
import Verif.Props.Hodograph
import Verif.Props.RotationRate
import Verif.Props.Rounding
import Verif.Props.RoundingGrid
import Verif.Props.RoundingDelta
import Verif.Props.Exceptions
import Verif.Props.ManifoldExceptions
import Verif.Model.RoundingEval
import Verif.Props.RoundingEval
import Verif.Model.EvaluatorLife
import Verif.Props.EvaluatorLife
import Verif.Model.ManifoldRefs
import Verif.Props.ManifoldRefs
import Verif.Model.VariableCopies
import Verif.Props.VariableCopies
import Verif.Model.LiveExpressions
import Verif.Props.LiveExpressions
import Verif.Model.LivePoseNodes
import Verif.Props.LivePoseNodes
import Verif.Model.LiveNodes
import Verif.Props.LiveNodes
import Verif.Props.LiveNodesQuaternion
import Verif.Model.Dimensions
import Verif.Props.Dimensions
import Verif.Model.FixedSizeMaps
import Verif.Props.FixedSizeMaps
import Verif.Model.PoseDimensions
import Verif.Props.PoseDimensions
import Verif.Props.FreeKnots
import Verif.Props.NullSpace
import Verif.Props.BothFitters
import Verif.Props.TimeScaling
import Verif.Lemmas.KnotInsertion
import Verif.Lemmas.Variation
import Verif.Props.Variation
import Verif.Model.PythonLifetimes
import Verif.Props.PythonLifetimes
import Verif.Props.RotationHull
import Verif.Model.NumericalIntegral
import Verif.Props.NumericalIntegral
import Verif.Props.BothSplines
import Verif.Model.Scripts
import Verif.Model.Threads
import Verif.Props.Scripts
import Verif.Props.Threads
import Verif.Props.ThreadNodes
import Verif.Model.RoundingManifold
import Verif.Props.RoundingManifold
import Verif.Props.RoundingRotation
import Verif.Props.RoundingManifoldExact
import Verif.Props.RoundingManifoldExamples
import Verif.Props.Zeros
import Verif.Props.SchoenbergWhitney
import Verif.Props.FitDetermined
import Verif.Props.Influence
import Verif.Props.InfluenceGroup
import Verif.Props.FitSmoothing
import Verif.Model.IntegralProblem
import Verif.Props.IntegralProblem
import Verif.Model.PlotPose
import Verif.Props.PlotPose
import Verif.Props.FitFixed
import Verif.Props.Refit
import Verif.Props.TutorialDetermined
import Verif.Props.MotionErrorStep
import Verif.Props.FitKnotPenalty
import Verif.Props.RefitDetermined
import Verif.Props.FitInterpolates
import Verif.Props.FitLimit
import Verif.Props.FitLimitKnots
import Verif.Props.FitLimitManifold
import Verif.Props.FitContinuous
import Verif.Props.FitContinuousKnots
import Verif.Props.FitContinuousManifold
import Verif.Props.FitLimitGivenKnots
