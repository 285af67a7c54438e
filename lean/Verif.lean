import Verif.Model.Slice
import Verif.Model.Message
import Verif.Model.MergeIter
import Verif.Proof.MergeSearch
import Verif.Proof.MergeIter
import Verif.Proof.MergeStep
import Verif.Proof.MergeDrain
import Verif.Proof.MergeSetup
import Verif.Props.Slice
import Verif.Props.Message
import Verif.Props.MergeIter
import Verif.Props.MergeDir
import Verif.Model.Parse
import Verif.Props.Parse
import Verif.Model.Buffer
import Verif.Props.Buffer
import Verif.Model.PackedArray
import Verif.Props.PackedArray
import Verif.Model.Ring
import Verif.Props.Ring
import Verif.Model.Search
import Verif.Props.Scan
import Verif.Props.Search
import Verif.Model.Trunk
import Verif.Proof.TrunkRoute
import Verif.Proof.TrunkView
import Verif.Proof.TrunkNode
import Verif.Proof.TrunkSplit
import Verif.Proof.TrunkSplit2
import Verif.Proof.TrunkInv
import Verif.Proof.TrunkOps1
import Verif.Proof.TrunkOps2
import Verif.Proof.TrunkOps3
import Verif.Proof.TrunkOps4
import Verif.Proof.TrunkOps5
import Verif.Proof.TrunkOps6
import Verif.Proof.TrunkOps7
import Verif.Proof.TrunkOps8
import Verif.Proof.TrunkLookup
import Verif.Props.Trunk
import Verif.Props.TrunkSplit
import Verif.Props.Page
import Verif.Props.LeafSplit
import Verif.Props.RwLock
import Verif.Props.Pcq
import Verif.Props.Tid
import Verif.Proof.Srq
import Verif.Props.Srq
import Verif.Props.Task
import Verif.Model.Alloc
import Verif.Props.Alloc
import Verif.Props.Super
import Verif.Model.Mini
import Verif.Props.Mini
import Verif.Props.MiniPages
import Verif.Model.Memtable
import Verif.Proof.MemtableLock
import Verif.Proof.MemtableInv
import Verif.Proof.MemtableStep
import Verif.Proof.MemtableAgents
import Verif.Proof.MemtableLook
import Verif.Props.Memtable
import Verif.Model.Log
import Verif.Proof.Log
import Verif.Props.Log
import Verif.Model.Filter
import Verif.Proof.FilterSort
import Verif.Proof.FilterBits
import Verif.Proof.FilterMerge
import Verif.Proof.FilterBlock
import Verif.Proof.FilterWrite
import Verif.Proof.FilterRead
import Verif.Proof.FilterAdd
import Verif.Props.Filter
import Verif.Model.Cache
import Verif.Proof.CacheInv
import Verif.Proof.CacheMove
import Verif.Proof.CacheMove2
import Verif.Proof.CacheFrame
import Verif.Proof.CacheStep1
import Verif.Proof.CacheStep2
import Verif.Proof.CacheStep3
import Verif.Proof.CacheStep4
import Verif.Proof.Cache
import Verif.Proof.CacheRun
import Verif.Props.Cache
import Verif.Model.Config
import Verif.Props.Config
import Verif.Model.Shmem
import Verif.Proof.Shmem
import Verif.Props.Shmem
import Verif.Model.Btree
import Verif.Model.Pack
import Verif.Proof.Btree
import Verif.Proof.Pack
import Verif.Props.Pack
import Verif.Proof.BtreeIter
import Verif.Props.BtreeIter
import Verif.Proof.RangeIter
import Verif.Props.RangeIter
import Verif.Model.BtreeInsert
import Verif.Proof.BtreeInsert
import Verif.Proof.BtreeInsert2
import Verif.Proof.BtreeInsert3
import Verif.Proof.BtreeInsert4
import Verif.Proof.BtreeInsert5
import Verif.Proof.BtreeInsert6
import Verif.Proof.BtreeInsert7
import Verif.Proof.BtreeInsert8
import Verif.Proof.BtreeInsert9
import Verif.Props.BtreeInsertSpec
import Verif.Proof.BtreeInsertSys
import Verif.Props.BtreeInsert
import Verif.Props.BtreeInsertLive
import Verif.Props.PackLimit
import Verif.Model.Persist
import Verif.Proof.Persist
import Verif.Props.Persist
import Verif.Props.Reopen
import Verif.Model.Async
import Verif.Proof.Async
import Verif.Proof.AsyncTrunk
import Verif.Props.Async
import Verif.Model.TrunkPages
import Verif.Props.TrunkPages
import Verif.Model.TrunkCow
import Verif.Proof.TrunkCow
import Verif.Proof.TrunkCow2
import Verif.Proof.TrunkCow3
import Verif.Proof.TrunkCow4
import Verif.Proof.TrunkCow5
import Verif.Proof.TrunkCow6
import Verif.Props.TrunkCow
import Verif.Model.Compact
import Verif.Proof.Compact
import Verif.Props.Compact
import Verif.Model.NodeArr
import Verif.Proof.NodeArr
import Verif.Proof.NodeArrOps
import Verif.Proof.NodeArrReads
import Verif.Props.NodeArr
import Verif.Proof.MiniLost
import Verif.Model.TrunkRefs
import Verif.Proof.TrunkRefs
import Verif.Props.TrunkRefs
import Verif.Model.PagedTrunk
import Verif.Proof.PagedTrunk
import Verif.Proof.PagedTrunkOps
import Verif.Props.PagedTrunk
import Verif.Model.FilterRefs
import Verif.Proof.FilterRefs
import Verif.Props.FilterRefs
import Verif.Model.MiniUnkeyed
import Verif.Props.MiniUnkeyed
import Verif.Model.BtreeScan
import Verif.Proof.BtreeScan
import Verif.Proof.BtreeScan2
import Verif.Proof.BtreeScan3
import Verif.Proof.BtreeScan4
import Verif.Proof.BtreeScan5
import Verif.Proof.BtreeScan6
import Verif.Proof.BtreeScanSys
import Verif.Props.BtreeScanSpec
import Verif.Props.BtreeScan
import Verif.Model.LiveScan
import Verif.Props.LiveScanSpec
import Verif.Proof.LiveScan
import Verif.Proof.LiveScan2
import Verif.Props.LiveScan
import Verif.Model.BtreeLock
import Verif.Props.BtreeLockSpec
import Verif.Proof.BtreeLock
import Verif.Proof.BtreeLock2
import Verif.Props.BtreeLock
import Verif.Model.Store
import Verif.Proof.StoreMem
import Verif.Proof.Store
import Verif.Proof.StoreExec
import Verif.Props.Store
import Verif.Model.SplitPoints
import Verif.Proof.SplitPoints
import Verif.Proof.SplitPoints2
import Verif.Props.SplitPoints
import Verif.Model.TaskWake
import Verif.Proof.TaskWake
import Verif.Props.TaskWake
import Verif.Model.AsyncIO
import Verif.Proof.AsyncIO
import Verif.Proof.AsyncIO2
import Verif.Props.AsyncIO
import Verif.Model.Flush
import Verif.Proof.Flush
import Verif.Proof.Flush2
import Verif.Props.Flush
import Verif.Model.FreePage
import Verif.Props.FreePage
import Verif.Model.Reclaim
import Verif.Props.Reclaim
import Verif.Model.Prefetch
import Verif.Props.Prefetch
import Verif.Model.Histo
import Verif.Props.Histo
import Verif.Model.OpenSpace
import Verif.Proof.OpenSpace
import Verif.Props.OpenSpace
import Verif.Model.Relieve
import Verif.Props.Relieve
import Verif.Model.Acquire
import Verif.Props.Acquire
