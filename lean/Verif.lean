import Verif.Base.Bytes
import Verif.Base.Order
import Verif.Model.Key
import Verif.Props.C01_Keys
import Verif.Model.Elen
import Verif.Proofs.Elen
import Verif.Props.C03_Integers
import Verif.Model.Float
import Verif.Spec.Decimal
import Verif.Proofs.Float
import Verif.Proofs.FloatOrder
import Verif.Props.C07_Floats
import Verif.Model.Placement
import Verif.Props.C22_Placement
import Verif.Base.Wire
import Verif.Model.Hash
import Verif.Model.Histogram
import Verif.Model.Message
import Verif.Spec.Wire
import Verif.Proofs.Message
import Verif.Props.C25_Hash
import Verif.Props.C08_Wire
import Verif.Model.Store
import Verif.Spec.Store
import Verif.Proofs.Store
import Verif.Proofs.StoreHistory
import Verif.Proofs.StoreDefault
import Verif.Props.C12_Store
import Verif.Proofs.GetOp
import Verif.Props.C17_GetOp
import Verif.Spec.Histogram
import Verif.Proofs.Histogram
import Verif.Props.C42_Histogram
import Verif.Model.HistStore
import Verif.Spec.HistStore
import Verif.Proofs.HistStore
import Verif.Props.C43_HistStore
import Verif.Model.Queue
import Verif.Spec.Queue
import Verif.Spec.Process
import Verif.Spec.Remote
import Verif.Proofs.Queue
import Verif.Proofs.Process
import Verif.Proofs.Remote
import Verif.Props.C26_Queue
import Verif.Props.C29_Flush
import Verif.Props.C31_Remote
import Verif.Props.C29_Results
import Verif.Model.Results
import Verif.Model.Process
import Verif.Props.C33_Results
import Verif.Model.Config
import Verif.Model.Options
import Verif.Model.Transform
import Verif.Spec.Config
import Verif.Spec.Options
import Verif.Proofs.Config
import Verif.Proofs.Options
import Verif.Props.C36_Config
import Verif.Props.C37_Options
import Verif.Props.C37_Applied
import Verif.Props.C38_Setters
import Verif.Props.C51_Transforms
import Verif.Model.Session
import Verif.Proofs.Session
import Verif.Props.C39_LifeCycle
import Verif.Props.C53_Accessors
import Verif.Model.Async
import Verif.Spec.Async
import Verif.Proofs.Async
import Verif.Props.C32_Async
import Verif.Model.Blob
import Verif.Spec.Blob
import Verif.Proofs.Blob
import Verif.Proofs.BlobUse
import Verif.Model.BlobUse
import Verif.Spec.BlobUse
import Verif.Proofs.BlobPrograms
import Verif.Props.C46_Blobs
import Verif.Props.C54_NoDangling
import Verif.Model.Job
import Verif.Spec.Job
import Verif.Proofs.Job
import Verif.Proofs.JobRuns
import Verif.Props.C48_EndToEnd
import Verif.Model.Overlap
import Verif.Spec.Overlap
import Verif.Spec.OverlapGetOp
import Verif.Proofs.Overlap
import Verif.Proofs.OverlapRuns
import Verif.Proofs.OverlapSeen
import Verif.Props.C55_Overlap
import Verif.Model.Mpi
import Verif.Spec.Mpi
import Verif.Proofs.Mpi
import Verif.Proofs.MpiProgress
import Verif.Proofs.MpiEnds
import Verif.Props.C56_Mpi
import Verif.Spec.Constants
import Verif.Spec.Ieee
import Verif.Proofs.Ieee
import Verif.Proofs.MpiRounds
import Verif.Model.MpiJob
import Verif.Spec.MpiJob
import Verif.Proofs.ListKeys
import Verif.Proofs.MpiJobActs
import Verif.Proofs.MpiJobPlan
import Verif.Proofs.MpiJobServe
import Verif.Proofs.MpiJobLine
import Verif.Proofs.MpiJob
import Verif.Proofs.JobFew
import Verif.Props.C57_MpiJob
import Verif.Spec.Setters
import Verif.Props.C58_SettersWork
import Verif.Model.Fp
import Verif.Spec.Libm
import Verif.Proofs.Fp
import Verif.Proofs.FpEncode
import Verif.Proofs.FpDecode
import Verif.Proofs.FpMem
import Verif.Props.C59_Doubles
import Verif.Model.Buckets
import Verif.Spec.Buckets
import Verif.Proofs.Buckets
import Verif.Props.C60_Buckets
import Verif.Spec.GetOp
import Verif.Proofs.GetOpExact
import Verif.Spec.JobGetOp
import Verif.Proofs.JobGetOp
import Verif.Props.C61_JobGetOps
import Verif.Props.C61_Overlap
import Verif.Props.C61_Mpi
import Verif.Model.Rpc
import Verif.Spec.Rpc
import Verif.Proofs.Rpc
import Verif.Proofs.RpcEnds
import Verif.Props.C62_Thallium
import Verif.Model.RpcJob
import Verif.Spec.RpcJob
import Verif.Proofs.RpcJob
import Verif.Props.C63_ThalliumJob
import Verif.Model.Close
import Verif.Spec.Close
import Verif.Proofs.Close
import Verif.Proofs.CloseMpi
import Verif.Proofs.CloseRpc
import Verif.Props.C64_Close
import Verif.Model.Addrs
import Verif.Props.C65_Addrs
import Verif.Model.Mkdir
import Verif.Spec.Mkdir
import Verif.Proofs.Mkdir
import Verif.Props.C66_Mkdir
import Verif.Model.Mlog
import Verif.Spec.Mlog
import Verif.Proofs.Mlog
import Verif.Props.C67_Mlog
import Verif.Model.MlogMask
import Verif.Spec.MlogMask
import Verif.Proofs.MlogMask
import Verif.Props.C68_MlogMask
import Verif.Model.Decimals
import Verif.Proofs.Decimals
import Verif.Props.C69_Decimals
import Verif.Model.MpiGroup
import Verif.Spec.MpiGroup
import Verif.Proofs.MpiGroup
import Verif.Props.C70_TwoThreads
import Verif.Model.DsStats
import Verif.Spec.DsStats
import Verif.Proofs.DsStats
import Verif.Props.C71_DsStats
import Verif.Model.Stats
import Verif.Spec.Stats
import Verif.Proofs.Stats
import Verif.Props.C72_Stats
import Verif.Model.Cli
import Verif.Model.CliRun
import Verif.Spec.Cli
import Verif.Spec.CliRun
import Verif.Proofs.Cli
import Verif.Proofs.CliRun
import Verif.Props.C73_Cli
import Verif.Props.C74_CliRun
import Verif.Model.Lowest
import Verif.Spec.Lowest
import Verif.Proofs.Lowest
import Verif.Proofs.LowestNum
import Verif.Proofs.LowestCells
import Verif.Props.C75_Lowest
import Verif.Spec.JobFail
import Verif.Proofs.JobFail
import Verif.Props.C76_FailedWrites
import Verif.Model.AsyncJob
import Verif.Proofs.AsyncJob
import Verif.Props.C77_AsyncJob
import Verif.Spec.OverlapFail
import Verif.Proofs.OverlapFail
import Verif.Props.C78_OverlapFail
import Verif.Props.C78_Jobs
import Verif.Spec.GetOpFail
import Verif.Proofs.GetOpFail
import Verif.Props.C79_GetOpFail
import Verif.Model.SpoGen
import Verif.Model.HxProgram
import Verif.Spec.HxProgram
import Verif.Proofs.HxProgram
import Verif.Props.C80_HxProgram
import Verif.Model.AsyncOverlap
import Verif.Spec.AsyncOverlap
import Verif.Proofs.AsyncOverlap
import Verif.Props.C81_AsyncOverlap
import Verif.Spec.Prepared
import Verif.Spec.HistJob
import Verif.Proofs.HistJob
import Verif.Props.C82_HistJob
import Verif.Props.C82_Async
import Verif.Props.C82_Jobs
import Verif.Model.Sessions
import Verif.Spec.Sessions
import Verif.Proofs.Sessions
import Verif.Proofs.SessionsHist
import Verif.Props.C83_Sessions
import Verif.Props.C83_Hists
import Verif.Model.Typed
import Verif.Props.C84_Typed
import Verif.Model.Elapsed
import Verif.Proofs.Elapsed
import Verif.Props.C85_Elapsed
import Verif.Model.Stamps
import Verif.Proofs.Stamps
import Verif.Props.C86_Stamps
import Verif.Model.MpiInstance
import Verif.Props.C87_MpiInstance
import Verif.Model.BlobMany
import Verif.Spec.BlobMany
import Verif.Proofs.BlobMany
import Verif.Props.C88_BlobMany
import Verif.Model.Messages
import Verif.Spec.Messages
import Verif.Proofs.Messages
import Verif.Props.C89_Messages
import Verif.Model.ResultLists
import Verif.Spec.ResultLists
import Verif.Proofs.ResultLists
import Verif.Props.C90_ResultLists
import Verif.Model.ResponseChain
import Verif.Model.SendRequests
import Verif.Model.RecvLengths
import Verif.Spec.ResponseChain
import Verif.Spec.SendRequests
import Verif.Spec.RecvLengths
import Verif.Proofs.ResponseChain
import Verif.Proofs.SendRequests
import Verif.Proofs.RecvLengths
import Verif.Props.C91_ResponseChain
import Verif.Props.C92_SendRequests
import Verif.Props.C93_RecvLengths
import Verif.Model.ListenerBuffers
import Verif.Spec.ListenerBuffers
import Verif.Props.C94_ListenerBuffers
