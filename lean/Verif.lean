import Verif.Model.Again
import Verif.Model.Bus
import Verif.Model.BusCtx
import Verif.Model.BusLTS
import Verif.Model.BusLife
import Verif.Model.BusMsg
import Verif.Model.BusSeq
import Verif.Model.Children
import Verif.Model.Config
import Verif.Model.Consumer
import Verif.Model.Cron
import Verif.Model.DBLock
import Verif.Model.Depth
import Verif.Model.Diff
import Verif.Model.Err
import Verif.Model.Example
import Verif.Model.Fleet
import Verif.Model.Hooks
import Verif.Model.Http
import Verif.Model.Json
import Verif.Model.Keys
import Verif.Model.Kinds
import Verif.Model.Load
import Verif.Model.LockRun
import Verif.Model.LockSkew
import Verif.Model.MemBus
import Verif.Model.MemNested
import Verif.Model.Nested
import Verif.Model.NewEvent
import Verif.Model.OrderList
import Verif.Model.Outer
import Verif.Model.Pool
import Verif.Model.Redis
import Verif.Model.Router
import Verif.Model.RouterShared
import Verif.Model.SharedCmd
import Verif.Model.Snapshot
import Verif.Model.Stage
import Verif.Model.Startup
import Verif.Model.Timer
import Verif.Model.TimerLife
import Verif.Model.Tx
import Verif.Model.TxRace
import Verif.Model.Waiting
import Verif.Spec.Answers
import Verif.Spec.Bus
import Verif.Spec.BusClean
import Verif.Spec.BusCtx
import Verif.Spec.BusFifo
import Verif.Spec.BusFifoTx
import Verif.Spec.BusLTS
import Verif.Spec.BusLife
import Verif.Spec.BusMsg
import Verif.Spec.BusSeq
import Verif.Spec.Chain
import Verif.Spec.Children
import Verif.Spec.Config
import Verif.Spec.Consumer
import Verif.Spec.Cron
import Verif.Spec.DBLock
import Verif.Spec.Delivery
import Verif.Spec.Depth
import Verif.Spec.Diff
import Verif.Spec.Err
import Verif.Spec.Events
import Verif.Spec.Example
import Verif.Spec.Fleet
import Verif.Spec.Graph
import Verif.Spec.Hooks
import Verif.Spec.Json
import Verif.Spec.Keys
import Verif.Spec.Kinds
import Verif.Spec.Load
import Verif.Spec.LockRun
import Verif.Spec.LockSkew
import Verif.Spec.Lockers
import Verif.Spec.MemBus
import Verif.Spec.MemNested
import Verif.Spec.Nested
import Verif.Spec.Once
import Verif.Spec.Output
import Verif.Spec.Paths
import Verif.Spec.Pool
import Verif.Spec.Program
import Verif.Spec.Redis
import Verif.Spec.Repository
import Verif.Spec.Result
import Verif.Spec.Reuse
import Verif.Spec.Router
import Verif.Spec.RouterShared
import Verif.Spec.Save
import Verif.Spec.Serial
import Verif.Spec.SharedCmd
import Verif.Spec.Snapshot
import Verif.Spec.Startup
import Verif.Spec.Store
import Verif.Spec.Timer
import Verif.Spec.TimerLife
import Verif.Spec.Trace
import Verif.Spec.Tx
import Verif.Spec.TxCommands
import Verif.Spec.Waiting
import Verif.Proofs.Actions
import Verif.Proofs.Anatomy
import Verif.Proofs.Bus
import Verif.Proofs.BusCount
import Verif.Proofs.BusFresh
import Verif.Proofs.BusLTS
import Verif.Proofs.Closed
import Verif.Proofs.Command
import Verif.Proofs.DBLock
import Verif.Proofs.Diff
import Verif.Proofs.Effect
import Verif.Proofs.Good
import Verif.Proofs.Jobs
import Verif.Proofs.LockRun
import Verif.Proofs.Move
import Verif.Proofs.Move2
import Verif.Proofs.Persist
import Verif.Proofs.Plan
import Verif.Proofs.Program
import Verif.Proofs.Record
import Verif.Proofs.Reuse
import Verif.Proofs.Runs
import Verif.Proofs.Save
import Verif.Proofs.Sets
import Verif.Proofs.Timer
import Verif.Proofs.Trace
import Verif.Proofs.Writes
import Verif.Props.Again
import Verif.Props.AgainDemo
import Verif.Props.Answers
import Verif.Props.AnswersDemo
import Verif.Props.Atomic
import Verif.Props.BusClean
import Verif.Props.BusCleanDemo
import Verif.Props.BusCtx
import Verif.Props.BusDispatch
import Verif.Props.BusFifo
import Verif.Props.BusFifoDemo
import Verif.Props.BusFifoTx
import Verif.Props.BusFifoTxDemo
import Verif.Props.BusHandle
import Verif.Props.BusLTS
import Verif.Props.BusLTSDemo
import Verif.Props.BusLife
import Verif.Props.BusMsg
import Verif.Props.BusOrder
import Verif.Props.BusProgress
import Verif.Props.BusScan
import Verif.Props.BusScript
import Verif.Props.BusSeq
import Verif.Props.BusSkew
import Verif.Props.BusTx
import Verif.Props.Chain
import Verif.Props.ChainDemo
import Verif.Props.ChainLive
import Verif.Props.Changes
import Verif.Props.Children
import Verif.Props.Command
import Verif.Props.CommandDemo
import Verif.Props.Config
import Verif.Props.Consumer
import Verif.Props.Cron
import Verif.Props.CronDemo
import Verif.Props.CronStart
import Verif.Props.DBLock
import Verif.Props.Delivery
import Verif.Props.Demo
import Verif.Props.Depth
import Verif.Props.Diff
import Verif.Props.EndToEnd
import Verif.Props.EndToEndDemo
import Verif.Props.Events
import Verif.Props.Example
import Verif.Props.Fleet
import Verif.Props.Hooks
import Verif.Props.Http
import Verif.Props.InsertOrder
import Verif.Props.Isolation
import Verif.Props.Json
import Verif.Props.Keys
import Verif.Props.Kinds
import Verif.Props.KindsDemo
import Verif.Props.Load
import Verif.Props.LockRun
import Verif.Props.LockRunDemo
import Verif.Props.LockRunPrompt
import Verif.Props.LockSkew
import Verif.Props.Lockers
import Verif.Props.MemBus
import Verif.Props.MemNested
import Verif.Props.Mirror
import Verif.Props.Misuse
import Verif.Props.Nested
import Verif.Props.NewEvent
import Verif.Props.NoID
import Verif.Props.Once
import Verif.Props.OnceDemo
import Verif.Props.OrderList
import Verif.Props.Outer
import Verif.Props.Output
import Verif.Props.OutputDemo
import Verif.Props.Pool
import Verif.Props.PostCommit
import Verif.Props.RecDelete
import Verif.Props.Redis
import Verif.Props.Repository
import Verif.Props.RepositoryLoads
import Verif.Props.Result
import Verif.Props.Reuse
import Verif.Props.RoundTrip
import Verif.Props.Router
import Verif.Props.RouterShared
import Verif.Props.Rows
import Verif.Props.Serial
import Verif.Props.SharedCmd
import Verif.Props.Snapshots
import Verif.Props.Startup
import Verif.Props.Timer
import Verif.Props.TimerDemo
import Verif.Props.TimerKept
import Verif.Props.TimerLife
import Verif.Props.TimerOnce
import Verif.Props.TimerSkew
import Verif.Props.Transaction
import Verif.Props.Tx
import Verif.Props.TxCommands
import Verif.Props.TxEvents
import Verif.Props.TxRace
import Verif.Props.TxRaceOnce
import Verif.Props.UniqueKeys
import Verif.Props.Unregistered
import Verif.Props.Waiting
