import Verif.Lemmas.Accuracy
import Verif.Lemmas.Adequate
import Verif.Lemmas.Alias
import Verif.Lemmas.Basic
import Verif.Lemmas.BatchLost
import Verif.Lemmas.Bottom
import Verif.Lemmas.Codec
import Verif.Lemmas.Coll
import Verif.Lemmas.CollConc
import Verif.Lemmas.CollEnd
import Verif.Lemmas.CollMore
import Verif.Lemmas.CollOps
import Verif.Lemmas.CollReach
import Verif.Lemmas.CollRun
import Verif.Lemmas.Conc
import Verif.Lemmas.ConcFlat
import Verif.Lemmas.ConcGrow
import Verif.Lemmas.ConcInv
import Verif.Lemmas.ConcKept
import Verif.Lemmas.ConcLive
import Verif.Lemmas.ConcLog
import Verif.Lemmas.ConcNeat
import Verif.Lemmas.ConcRace
import Verif.Lemmas.ConcReal
import Verif.Lemmas.ConcRun
import Verif.Lemmas.ConcStep
import Verif.Lemmas.Crash
import Verif.Lemmas.Db
import Verif.Lemmas.DbConc
import Verif.Lemmas.DbLife
import Verif.Lemmas.DbMore
import Verif.Lemmas.DiskAnn
import Verif.Lemmas.DiskReach
import Verif.Lemmas.DiskSeek
import Verif.Lemmas.DiskTight
import Verif.Lemmas.DiskWhole
import Verif.Lemmas.Given
import Verif.Lemmas.Graph
import Verif.Lemmas.Growth
import Verif.Lemmas.Heap
import Verif.Lemmas.Ids
import Verif.Lemmas.Ieee
import Verif.Lemmas.Insert
import Verif.Lemmas.Level
import Verif.Lemmas.Lift
import Verif.Lemmas.LinBook
import Verif.Lemmas.LinHeld
import Verif.Lemmas.LinSize
import Verif.Lemmas.Linear
import Verif.Lemmas.LocalOpt
import Verif.Lemmas.Locks
import Verif.Lemmas.LocksInv
import Verif.Lemmas.LocksOpen
import Verif.Lemmas.LocksStep
import Verif.Lemmas.MMHeap
import Verif.Lemmas.MMHeapFix
import Verif.Lemmas.OneBack
import Verif.Lemmas.OneWorker
import Verif.Lemmas.Ops
import Verif.Lemmas.Order
import Verif.Lemmas.Pointers
import Verif.Lemmas.Search
import Verif.Lemmas.SearchAll
import Verif.Lemmas.SearchFixed
import Verif.Lemmas.SearchMore
import Verif.Lemmas.Select
import Verif.Lemmas.SelectMore
import Verif.Lemmas.Sim
import Verif.Lemmas.SimMap
import Verif.Lemmas.SimWal
import Verif.Lemmas.Swap
import Verif.Lemmas.SwapColl
import Verif.Lemmas.SwapFixed
import Verif.Lemmas.Terminate
import Verif.Lemmas.Wal
import Verif.Lemmas.Weaken
import Verif.Lemmas.Within
import Verif.Model.Alias
import Verif.Model.Basic
import Verif.Model.Batch
import Verif.Model.CollConc
import Verif.Model.Collection
import Verif.Model.Conc
import Verif.Model.Config
import Verif.Model.Db
import Verif.Model.DbClose
import Verif.Model.DiskAnn
import Verif.Model.DiskIns
import Verif.Model.DiskSearchConc
import Verif.Model.DiskSnap
import Verif.Model.Distance
import Verif.Model.Embed
import Verif.Model.Errors
import Verif.Model.GoSet
import Verif.Model.Heap
import Verif.Model.Hnsw
import Verif.Model.IdCounter
import Verif.Model.Ieee
import Verif.Model.Level
import Verif.Model.Linear
import Verif.Model.Locks
import Verif.Model.MMHeap
import Verif.Model.MMHeapFix
import Verif.Model.Object
import Verif.Model.Path
import Verif.Model.Pointers
import Verif.Model.SearchFixed
import Verif.Model.Store
import Verif.Model.Wal
import Verif.Props.Accept
import Verif.Props.Accuracy
import Verif.Props.AfterReturn
import Verif.Props.Alias
import Verif.Props.Batch
import Verif.Props.BatchCrash
import Verif.Props.BatchLost
import Verif.Props.CollConc
import Verif.Props.Comparable
import Verif.Props.Conc
import Verif.Props.ConcExact
import Verif.Props.ConcFound
import Verif.Props.ConcHistory
import Verif.Props.ConcLater
import Verif.Props.ConcLive
import Verif.Props.ConcNeat
import Verif.Props.ConcRace
import Verif.Props.ConcReopen
import Verif.Props.Crash
import Verif.Props.CrashExact
import Verif.Props.Db
import Verif.Props.DbClose
import Verif.Props.DbCloseAlone
import Verif.Props.DbCloseAny
import Verif.Props.DbConc
import Verif.Props.DbCrash
import Verif.Props.DbExact
import Verif.Props.DbLife
import Verif.Props.Dimension
import Verif.Props.DiskAnn
import Verif.Props.DiskFiles
import Verif.Props.DiskGap
import Verif.Props.DiskIns
import Verif.Props.DiskInsConc
import Verif.Props.DiskInsFail
import Verif.Props.DiskInsLive
import Verif.Props.DiskPrune
import Verif.Props.DiskSearch
import Verif.Props.DiskSearchCases
import Verif.Props.DiskSeek
import Verif.Props.DiskSeekFail
import Verif.Props.DiskSnap
import Verif.Props.DiskSnapExact
import Verif.Props.Distance
import Verif.Props.Embed
import Verif.Props.EmbedText
import Verif.Props.Exact
import Verif.Props.Growth
import Verif.Props.GrowthConc
import Verif.Props.Heap
import Verif.Props.Ids
import Verif.Props.Ieee
import Verif.Props.Index
import Verif.Props.Level
import Verif.Props.Linear
import Verif.Props.LocalOpt
import Verif.Props.Locks
import Verif.Props.LocksDemo
import Verif.Props.LocksFine
import Verif.Props.LongVec
import Verif.Props.Loop
import Verif.Props.MMHeap
import Verif.Props.MMHeapFix
import Verif.Props.Merge
import Verif.Props.Objects
import Verif.Props.OneWorker
import Verif.Props.Openable
import Verif.Props.Panics
import Verif.Props.Params
import Verif.Props.Pointers
import Verif.Props.Reopen
import Verif.Props.Search
import Verif.Props.SearchExact
import Verif.Props.SearchFixed
import Verif.Props.Sets
import Verif.Props.Size
import Verif.Props.Torn
import Verif.Spec.Alias
import Verif.Spec.Assume
import Verif.Spec.BatchLost
import Verif.Spec.CollSched
import Verif.Spec.Compare
import Verif.Spec.DbConc
import Verif.Spec.DbLife
import Verif.Spec.DbMap
import Verif.Spec.Demo
import Verif.Spec.DemoDb
import Verif.Spec.DemoLife
import Verif.Spec.DemoLocks
import Verif.Spec.Given
import Verif.Spec.Growth
import Verif.Spec.GrowthConc
import Verif.Spec.History
import Verif.Spec.Level
import Verif.Spec.Linear
import Verif.Spec.Locks
import Verif.Spec.Log
import Verif.Spec.MinMax
import Verif.Spec.Pointers
import Verif.Spec.Queue
import Verif.Spec.Race
import Verif.Spec.Real32
import Verif.Spec.Sched
