import Verif.Props.AbsoluteOrientation
import Verif.Props.Average
import Verif.Props.AverageFrames
import Verif.Props.AverageNear
import Verif.Props.BackwardPropagation
import Verif.Props.Blas
import Verif.Props.BlockTimer
import Verif.Props.BundleAdjustment
import Verif.Props.BundleRun
import Verif.Props.BundleWorse
import Verif.Props.CalibFile
import Verif.Props.Camera
import Verif.Props.CameraParts
import Verif.Props.Clock
import Verif.Props.Conic
import Verif.Props.ConicCovariance
import Verif.Props.CorrelationExtreme
import Verif.Props.CovarianceEstimation
import Verif.Props.CovarianceSamples
import Verif.Props.DataSelection
import Verif.Props.DiagnosticContext
import Verif.Props.DownhillSimplex
import Verif.Props.ErrorPose
import Verif.Props.Euler
import Verif.Props.EveryMotion
import Verif.Props.ExpLog
import Verif.Props.ExpLogAll
import Verif.Props.ExpectationMaximization
import Verif.Props.FilterError
import Verif.Props.Filters
import Verif.Props.FixedContext
import Verif.Props.FunctionComposition
import Verif.Props.FundamentalMatrix
import Verif.Props.GaussNewton
import Verif.Props.Gaussian
import Verif.Props.Geometry
import Verif.Props.GlobFiles
import Verif.Props.HandEye
import Verif.Props.ImageLookup
import Verif.Props.Intrinsics
import Verif.Props.KMeans
import Verif.Props.Kalman
import Verif.Props.KalmanHistory
import Verif.Props.KalmanOrder
import Verif.Props.LevenbergMarquardt
import Verif.Props.LieRotation
import Verif.Props.LinearCalibration
import Verif.Props.LogConfig
import Verif.Props.LogLayout
import Verif.Props.LogStream
import Verif.Props.LogText
import Verif.Props.Logging
import Verif.Props.Mahalanobis
import Verif.Props.MatrixOperations
import Verif.Props.Measurement
import Verif.Props.MotionModel
import Verif.Props.MotionSteps
import Verif.Props.Msgpack
import Verif.Props.MultiCameraPose
import Verif.Props.Munkres
import Verif.Props.ObjectSpacePose
import Verif.Props.PlanarPose
import Verif.Props.Pose
import Verif.Props.PoseCovariance
import Verif.Props.PoseEquality
import Verif.Props.PoseFilter
import Verif.Props.PoseFromFundamental
import Verif.Props.PoseOptimization
import Verif.Props.PoseRefinement
import Verif.Props.ProjectionFunction
import Verif.Props.ProjectionMatrix
import Verif.Props.Quadric
import Verif.Props.RandomValues
import Verif.Props.Ransac
import Verif.Props.Reconstruction
import Verif.Props.RelativePose
import Verif.Props.RollingFile
import Verif.Props.RosBinary
import Verif.Props.Rotation
import Verif.Props.RotationCast
import Verif.Props.RotationFunction
import Verif.Props.RotationGroup
import Verif.Props.RotationHandEye
import Verif.Props.RotationMatrix
import Verif.Props.RotationReach
import Verif.Props.RotationReal
import Verif.Props.RotationVelocity
import Verif.Props.SerialPort
import Verif.Props.SimpleConfig
import Verif.Props.Slerp
import Verif.Props.SlerpFrames
import Verif.Props.SlerpMonotone
import Verif.Props.SlerpVelocity
import Verif.Props.SphereMeasure
import Verif.Props.StringArchive
import Verif.Props.Syslog
import Verif.Props.TimestampDivisor
import Verif.Props.TimestampOrder
import Verif.Props.TimestampOrderLS
import Verif.Props.TimestampOrigin
import Verif.Props.TimestampRestart
import Verif.Props.TimestampRestartLS
import Verif.Props.TimestampSync
import Verif.Props.TimestampSyncLS
import Verif.Props.TimestampUnitLS
import Verif.Props.ToolTip
import Verif.Props.TsaiLenz
import Verif.Props.Undistortion
import Verif.Props.VectorMatrix
import Verif.Props.VelocitySteps
import Verif.Props.Xml
import Verif.Props.XmlAttribute
import Verif.Props.XmlCursor
import Verif.Props.XmlEdit
import Verif.Props.XmlEnd
import Verif.Props.XmlErrors
import Verif.Props.XmlHandle
import Verif.Props.XmlLayout
import Verif.Props.XmlLines
import Verif.Props.XmlPrinter
import Verif.Props.XmlStream
import Verif.Props.XmlTree
