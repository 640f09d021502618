import Verif.Lemmas.Async
import Verif.Lemmas.Batches
import Verif.Lemmas.Bridge
import Verif.Lemmas.Certificate
import Verif.Lemmas.Core
import Verif.Lemmas.Corr
import Verif.Lemmas.DataArgs
import Verif.Lemmas.ErrorSpec
import Verif.Lemmas.Errors
import Verif.Lemmas.FailSelect
import Verif.Lemmas.Failures
import Verif.Lemmas.FloatRound
import Verif.Lemmas.Folds
import Verif.Lemmas.Frame
import Verif.Lemmas.Gram
import Verif.Lemmas.HRange
import Verif.Lemmas.Handles
import Verif.Lemmas.Heap
import Verif.Lemmas.HeapRun
import Verif.Lemmas.Invariant
import Verif.Lemmas.LawEnv
import Verif.Lemmas.Mat
import Verif.Lemmas.Myopt
import Verif.Lemmas.Network
import Verif.Lemmas.NoFuel
import Verif.Lemmas.OnDisk
import Verif.Lemmas.Path
import Verif.Lemmas.Plain
import Verif.Lemmas.Press
import Verif.Lemmas.PressClass
import Verif.Lemmas.QEnv
import Verif.Lemmas.Ranges
import Verif.Lemmas.Ranking
import Verif.Lemmas.Ridge
import Verif.Lemmas.Rounding
import Verif.Lemmas.RoundingRun
import Verif.Lemmas.RoundingSamples
import Verif.Lemmas.RowOrder
import Verif.Lemmas.SelTotal
import Verif.Lemmas.Selection
import Verif.Lemmas.Serial
import Verif.Lemmas.Slfn
import Verif.Lemmas.SolverSim
import Verif.Lemmas.Steady
import Verif.Lemmas.TargetUnits
import Verif.Lemmas.TargetUnitsRun
import Verif.Lemmas.TargetUnitsTrain
import Verif.Lemmas.Training
import Verif.Lemmas.Twin
import Verif.Lemmas.Unweighted
import Verif.Lemmas.ValCorr
import Verif.Lemmas.WeightedTotal
import Verif.Lemmas.Weights
import Verif.Lemmas.Writers
import Verif.Model.AddDataFail
import Verif.Model.Async
import Verif.Model.AsyncCrash
import Verif.Model.Basic
import Verif.Model.Describe
import Verif.Model.Elm
import Verif.Model.Env
import Verif.Model.Failures
import Verif.Model.Gpu
import Verif.Model.HOps
import Verif.Model.Handles
import Verif.Model.Hdf5
import Verif.Model.Heap
import Verif.Model.Hpelm
import Verif.Model.LogSizes
import Verif.Model.MakeCrash
import Verif.Model.Mrsr
import Verif.Model.Myopt
import Verif.Model.Naive
import Verif.Model.NormArgs
import Verif.Model.NormCrash
import Verif.Model.Ops
import Verif.Model.PredictCrash
import Verif.Model.Progress
import Verif.Model.RbfParam
import Verif.Model.Rounded
import Verif.Model.RoundedLoo
import Verif.Model.RoundedNorm
import Verif.Model.Slfn
import Verif.Model.TrainAsync
import Verif.Model.Writers
import Verif.Props.C01_Bookkeeping
import Verif.Props.C01_OnDisk
import Verif.Props.C02_C04_Network
import Verif.Props.C05_Ranges
import Verif.Props.C06_C08_Structure
import Verif.Props.C09_C13_Batches
import Verif.Props.C100_Usable
import Verif.Props.C101_Representable
import Verif.Props.C102_UsableOnDisk
import Verif.Props.C103_Description
import Verif.Props.C104_NormalizationRounding
import Verif.Props.C105_LooRounding
import Verif.Props.C106_Progress
import Verif.Props.C107_NormCrash
import Verif.Props.C108_ResultFiles
import Verif.Props.C109_MoreData
import Verif.Props.C110_PredictCrash
import Verif.Props.C111_RejectedFiles
import Verif.Props.C112_Tutorial
import Verif.Props.C113_Concurrent
import Verif.Props.C114_Rerun
import Verif.Props.C115_Residuals
import Verif.Props.C116_Steady
import Verif.Props.C117_MakeCrash
import Verif.Props.C118_Naive
import Verif.Props.C119_NormArgs
import Verif.Props.C120_Cost
import Verif.Props.C121_NegativeStart
import Verif.Props.C122_ManyOutputs
import Verif.Props.C123_TargetUnits
import Verif.Props.C124_FailedTool
import Verif.Props.C125_ClassCodes
import Verif.Props.C13_Disk
import Verif.Props.C14_Ridge
import Verif.Props.C15_Disk
import Verif.Props.C15_Selection
import Verif.Props.C15_Solvers
import Verif.Props.C16_C17_Corr
import Verif.Props.C18_C20_Weights
import Verif.Props.C21_C24_Arguments
import Verif.Props.C23_Constructor
import Verif.Props.C25_C29_Errors
import Verif.Props.C30_HError
import Verif.Props.C31_C33_Search
import Verif.Props.C31_ReturnedSize
import Verif.Props.C32_Returned
import Verif.Props.C33_NearMinimum
import Verif.Props.C34_C35_CrossValidation
import Verif.Props.C36_TestError
import Verif.Props.C37_C39_Selection
import Verif.Props.C38_Cutoff
import Verif.Props.C40_C41_Ranking
import Verif.Props.C42_C45_OutOfMemory
import Verif.Props.C46_Incremental
import Verif.Props.C47_C48_Writers
import Verif.Props.C49_AsyncPredict
import Verif.Props.C50_AsyncTrain
import Verif.Props.C50_TrainAsync
import Verif.Props.C51_ValidationCorr
import Verif.Props.C52_C54_Persistence
import Verif.Props.C55_C58_Files
import Verif.Props.C59_Neurons
import Verif.Props.C60_Gpu
import Verif.Props.C61_RbfParam
import Verif.Props.C62_Sizes
import Verif.Props.C63_Aliasing
import Verif.Props.C64_C68_TrainAlgebra
import Verif.Props.C69_C70_Failures
import Verif.Props.C71_C72_Handles
import Verif.Props.C73_AsyncCrash
import Verif.Props.C74_TrainCrash
import Verif.Props.C75_Reading
import Verif.Props.C76_C78_ErrorLaws
import Verif.Props.C78_OnDisk
import Verif.Props.C79_C81_Fit
import Verif.Props.C82_ClassWeights
import Verif.Props.C83_Selected
import Verif.Props.C84_SelectionOrder
import Verif.Props.C85_Path
import Verif.Props.C86_Completes
import Verif.Props.C86_Weighted
import Verif.Props.C87_Cost
import Verif.Props.C87_CrossValidation
import Verif.Props.C88_GpuBatch
import Verif.Props.C89_FailedTraining
import Verif.Props.C89_Weighted
import Verif.Props.C90_Options
import Verif.Props.C91_Inputs
import Verif.Props.C92_LooClassifiers
import Verif.Props.C93_WeightEffect
import Verif.Props.C94_Arrays
import Verif.Props.C96_Rounding
import Verif.Props.C97_RoundedErrors
import Verif.Props.C98_Accuracy
import Verif.Props.C98_Predictions
import Verif.Props.C99_Serial
import Verif.Spec.Best
import Verif.Spec.Concurrent
import Verif.Spec.CrossValidation
import Verif.Spec.Data
import Verif.Spec.DataArgs
import Verif.Spec.EnvLaws
import Verif.Spec.Errors
import Verif.Spec.Handles
import Verif.Spec.Hdf5
import Verif.Spec.LeaveOneOut
import Verif.Spec.LetterCase
import Verif.Spec.Memory
import Verif.Spec.Network
import Verif.Spec.Neurons
import Verif.Spec.NormPath
import Verif.Spec.OnDisk
import Verif.Spec.Options
import Verif.Spec.Path
import Verif.Spec.Persistence
import Verif.Spec.Rbf
import Verif.Spec.Reading
import Verif.Spec.Reorder
import Verif.Spec.Representable
import Verif.Spec.Ridge
import Verif.Spec.Rounding
import Verif.Spec.Search
import Verif.Spec.Serial
import Verif.Spec.Signs
import Verif.Spec.Steady
import Verif.Spec.TargetUnits
import Verif.Spec.Training
import Verif.Spec.Tutorial
import Verif.Spec.Twin
import Verif.Spec.Usable
import Verif.Spec.Validation
import Verif.Spec.Writers
