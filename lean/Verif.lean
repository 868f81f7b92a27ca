import Verif.Props.Operators
import Verif.Props.Random
import Verif.Props.Estimator
import Verif.Props.Convergence
import Verif.Props.Lanczos
import Verif.Props.Slq
import Verif.Props.EndToEnd
import Verif.Props.NonSquare
import Verif.Props.OperatorCache
import Verif.Props.ColumnVectors
import Verif.Props.Hutchinson
import Verif.Props.Args
import Verif.Props.ExactTrace
import Verif.Props.Cholesky
import Verif.Props.Eigenvalue
import Verif.Props.LogdetEigenvalue
import Verif.Props.Functions
import Verif.Props.Top
import Verif.Props.Toeplitz
import Verif.Props.Points
import Verif.Props.Kernel
import Verif.Props.BallRadius
import Verif.Props.DenseCorrelation
import Verif.Props.SparseCorrelation
import Verif.Model.Interpolator
import Verif.Model.InterpolatorCall
import Verif.Spec.Interpolator
import Verif.Lemmas.ExpSums
import Verif.Lemmas.Interpolator
import Verif.Lemmas.InterpolatorFit
import Verif.Lemmas.InterpolatorRpf
import Verif.Lemmas.InterpolatorImbf
import Verif.Lemmas.TraceConvex
import Verif.Lemmas.Minkowski
import Verif.Lemmas.InterpolatorNorm
import Verif.Props.InterpolatorBounds
import Verif.Props.Interpolator
import Verif.Props.InterpolatorFindings
import Verif.Props.InterpolatorCases
import Verif.Props.InterpolatorExact
import Verif.Props.InterpolatorEig
import Verif.Props.InterpolatorGrowth
import Verif.Props.InterpolatorRpfZero
import Verif.Model.Device
import Verif.Spec.Device
import Verif.Props.Device
import Verif.Model.Cuda
import Verif.Spec.Cuda
import Verif.Lemmas.Cuda
import Verif.Lemmas.CudaKrylov
import Verif.Props.Cuda
import Verif.Props.CudaSample
import Verif.Model.Wrapper
import Verif.Lemmas.Wrapper
import Verif.Props.Wrapper
import Verif.Model.Machine
import Verif.Lemmas.Machine
import Verif.Props.Machine
import Verif.Model.MachineUnsigned
import Verif.Props.MachineUnsigned
import Verif.Spec.Rounding
import Verif.Model.Rounded
import Verif.Lemmas.Rounded
import Verif.Props.Rounded
import Verif.Lemmas.RoundedPlus
import Verif.Props.RoundedPlus
import Verif.Model.Plot
import Verif.Spec.Plot
import Verif.Lemmas.Plot
import Verif.Props.Plot
import Verif.Model.LinearSolver
import Verif.Spec.LinearSolver
import Verif.Lemmas.LinearSolver
import Verif.Props.LinearSolver
import Verif.Model.Diagonalization
import Verif.Spec.Diagonalization
import Verif.Lemmas.Diagonalization
import Verif.Props.Diagonalization
import Verif.Spec.Accuracy
import Verif.Lemmas.Accuracy
import Verif.Props.Accuracy
import Verif.Model.TimeStamp
import Verif.Lemmas.TimeStamp
import Verif.Props.TimeStamp
import Verif.Model.LocateCuda
import Verif.Spec.LocateCuda
import Verif.Lemmas.LocateCuda
import Verif.Props.LocateCuda
import Verif.Spec.ErfInv
import Verif.Props.ErfInv
import Verif.Model.DynamicLoading
import Verif.Spec.DynamicLoading
import Verif.Props.DynamicLoading
import Verif.Model.Blas
import Verif.Props.Blas
import Verif.Model.RoundedLanczos
import Verif.Spec.RoundedLanczos
import Verif.Lemmas.RoundedLanczos
import Verif.Props.RoundedLanczos
import Verif.Model.RoundedGolubKahn
import Verif.Spec.RoundedGolubKahn
import Verif.Lemmas.RoundedGolubKahn
import Verif.Props.RoundedGolubKahn
import Verif.Lemmas.Gauss
import Verif.Lemmas.GaussQuadrature
import Verif.Spec.SlqConvergence
import Verif.Lemmas.SlqConvergence
import Verif.Props.SlqConvergence
import Verif.Model.MultiGpu
import Verif.Spec.MultiGpu
import Verif.Lemmas.MultiGpu
import Verif.Props.MultiGpu
import Verif.Model.DeviceQueries
import Verif.Spec.DeviceQueries
import Verif.Props.DeviceQueries
import Verif.Props.DecompositionSuccess
import Verif.Model.BuildOptions
import Verif.Spec.BuildOptions
import Verif.Props.BuildOptions
import Verif.Model.BuildThreads
import Verif.Spec.BuildThreads
import Verif.Props.BuildThreads
import Verif.Model.BuildClean
import Verif.Spec.BuildClean
import Verif.Props.BuildClean
import Verif.Model.CorrelationArgs
import Verif.Spec.CorrelationArgs
import Verif.Props.CorrelationArgs
import Verif.Model.OperatorDot
import Verif.Spec.OperatorDot
import Verif.Props.OperatorDot
import Verif.Model.ParameterView
import Verif.Spec.ParameterView
import Verif.Props.ParameterView
import Verif.Model.RoundedConvergence
import Verif.Lemmas.RoundedConvergence
import Verif.Props.RoundedConvergence
import Verif.Model.MixedConvergence
import Verif.Props.MixedConvergence
import Verif.Model.Info
import Verif.Spec.Info
import Verif.Props.Info
import Verif.Model.DirectArgs
import Verif.Spec.DirectArgs
import Verif.Lemmas.DirectArgs
import Verif.Props.DirectArgs
import Verif.Model.CrfScale
import Verif.Spec.CrfScale
import Verif.Props.CrfScale
import Verif.Model.InterpPlot
import Verif.Spec.InterpPlot
import Verif.Lemmas.InterpPlot
import Verif.Props.InterpPlot
import Verif.Props.InterpPlotCases
import Verif.Model.Display
import Verif.Spec.Display
import Verif.Props.Display
import Verif.Model.InfoSettings
import Verif.Props.InfoSettings
import Verif.Model.NativeHeap
import Verif.Lemmas.NativeHeap
import Verif.Props.NativeHeap
import Verif.Model.SeedPath
import Verif.Props.SeedPath
import Verif.Model.CallOptions
import Verif.Spec.CallOptions
import Verif.Lemmas.CallOptions
import Verif.Lemmas.CallWired
import Verif.Props.CallOptions
import Verif.Props.CallSlq
import Verif.Model.ThreadCount
import Verif.Spec.ThreadCount
import Verif.Props.ThreadCount
import Verif.Model.RoundedQuadrature
import Verif.Spec.RoundedQuadrature
import Verif.Lemmas.RoundedQuadrature
import Verif.Props.RoundedQuadrature
import Verif.Spec.Equivariance
import Verif.Lemmas.Equivariance
import Verif.Lemmas.ScaledConvergence
import Verif.Props.Equivariance
import Verif.Spec.FloatFormat
import Verif.Lemmas.FloatFormat
import Verif.Model.RangedConvergence
import Verif.Lemmas.RangedConvergence
import Verif.Lemmas.RangedAccurate
import Verif.Props.RangedConvergence
import Verif.Model.RangedVector
import Verif.Lemmas.RangedVector
import Verif.Props.RangedVector
import Verif.Model.CacheThreads
import Verif.Spec.CacheThreads
import Verif.Props.CacheThreads
import Verif.Model.RoundedOrtho
import Verif.Spec.RoundedOrtho
import Verif.Lemmas.RoundedOrtho
import Verif.Props.RoundedOrtho
import Verif.Lemmas.OrthoLanczos
import Verif.Lemmas.OrthoLanczosRun
import Verif.Spec.OrthoLanczos
import Verif.Props.OrthoLanczos
import Verif.Lemmas.RitzValues
import Verif.Props.RitzValues
import Verif.Lemmas.RoundedMoments
import Verif.Props.RoundedGauss
import Verif.Spec.SparseEigenvalue
import Verif.Props.SparseEigenvalue
import Verif.Props.GeneralEigenvalue
import Verif.Spec.BackwardStable
import Verif.Lemmas.BackwardStable
import Verif.Props.RoundedSample
import Verif.Model.RoundedSlq
import Verif.Props.RoundedEstimate
import Verif.Lemmas.MaximalAverage
import Verif.Props.StoppedEstimate
import Verif.Props.OutlierShift
import Verif.Props.RoundedOutliers
import Verif.Props.RoundedDefault
import Verif.Props.HutchinsonAccuracy
import Verif.Props.Reorthogonalization
import Verif.Lemmas.ColumnEquivariance
import Verif.Props.OrthogonalUnbiased
import Verif.Props.InquiryBlocks
import Verif.Props.OrthogonalBound
import Verif.Props.EstimateRange
import Verif.Lemmas.DegreeMono
import Verif.Props.DegreeMono
import Verif.Props.HutchinsonRange
import Verif.Props.DegreeTrace
import Verif.Props.HutchinsonScaling
import Verif.Props.MultipleOfIdentity
import Verif.Props.LinearFunction
