import Verif.Exec
import Verif.BTree.Node
import Verif.BTree.Map
import Verif.BTree.Bulk
import Verif.BTree.Iter
import Verif.BTree.Proofs.Lists
import Verif.BTree.Proofs.NodeOps
import Verif.BTree.Proofs.Pos
import Verif.BTree.Proofs.Insert
import Verif.BTree.Proofs.SpecLemmas
import Verif.Props.Map
import Verif.Props.Entry
import Verif.Props.Whole
import Verif.Props.Shape
import Verif.BTree.Proofs.Oom
import Verif.Props.Oom
import Verif.Props.Safety
import Verif.Props.Vec
import Verif.Props.VecSafety
import Verif.Props.Io
import Verif.Props.Format
import Verif.Props.Boxed
import Verif.Props.Hash
import Verif.Props.TryClone
import Verif.Props.History
import Verif.Props.Set
import Verif.Props.SetAny
import Verif.Heap.Proofs.Focus
import Verif.Heap.Proofs.InsertMap
import Verif.Heap.Proofs.RemoveMap
import Verif.Heap.Proofs.IntoIter
import Verif.Heap.Proofs.IterMap
import Verif.Heap.Proofs.RangeMap
import Verif.Heap.Proofs.SplitOffMap
import Verif.Heap.Proofs.CloneMap
import Verif.Heap.Proofs.AppendMap
import Verif.BTree.Proofs.Calls
import Verif.Heap.Api
import Verif.Heap.Layout
import Verif.Heap.Proofs.ApiMap
import Verif.Heap.Proofs.Pool
import Verif.Heap.Proofs.Program
import Verif.Heap.Proofs.LayoutOk
import Verif.Props.Heap
import Verif.Heap.Views
import Verif.Heap.Proofs.Views
import Verif.BTree.Proofs.Replace
import Verif.Props.Bytes
import Verif.Props.Views
import Verif.Props.Budget
import Verif.BTree.Unwind
import Verif.BTree.Proofs.Unwind
import Verif.Props.Unwind
import Verif.Props.AfterFail
import Verif.Heap.Unwind
import Verif.Heap.Proofs.UnwindMap
import Verif.Props.Collect
import Verif.Heap.Proofs.UnwindAppend
import Verif.Props.AppendUnwind
import Verif.BTree.Destructors
import Verif.Heap.Proofs.UnwindDrop
import Verif.Props.Destructors
import Verif.BTree.Copies
import Verif.Heap.CloneLedger
import Verif.Heap.Proofs.CloneLedgerMap
import Verif.Heap.Proofs.CloneErase
import Verif.Props.CloneLedger
import Verif.Heap.UnwindSplit
import Verif.Heap.Proofs.UnwindSplit
import Verif.Props.SplitUnwind
import Verif.Heap.UnwindOps
import Verif.SpecCut
import Verif.Heap.Proofs.UnwindOps
import Verif.Heap.Proofs.CutPool
import Verif.Props.CmpUnwind
import Verif.SpecOwn
import Verif.Heap.Debug
import Verif.Heap.Proofs.Debug
import Verif.Props.OwnDebug
import Verif.Props.SetMore
import Verif.BTree.AlgUnwind
import Verif.BTree.Proofs.AlgUnwind
import Verif.Props.AlgUnwind
import Verif.SpecAny
import Verif.Heap.AnyOrd
import Verif.Heap.Proofs.AnyOrd
import Verif.Heap.Proofs.AnyCalls
import Verif.Heap.Proofs.AnyRange
import Verif.Heap.Proofs.AnyViews
import Verif.Heap.Proofs.AnySplit
import Verif.Heap.Proofs.AnyAppend
import Verif.Heap.Proofs.AnyPool
import Verif.Heap.Proofs.AnyHonest
import Verif.Props.AnyOrd
import Verif.Heap.Conc
import Verif.Heap.Proofs.Steps
import Verif.Heap.Proofs.StepsAll
import Verif.Heap.Proofs.Conc
import Verif.Heap.Proofs.Threads
import Verif.Heap.Proofs.Spawn
import Verif.Props.Conc
import Verif.Props.Cost
import Verif.Props.MutLook
import Verif.Props.EntryUse
import Verif.Props.Panics
import Verif.Props.SetAlg
import Verif.Props.Compare
import Verif.Props.Readers
import Verif.Vec.Proofs4
import Verif.Props.VecPanics
import Verif.Props.Copying
import Verif.Props.GoOn
import Verif.Props.Lost
import Verif.Props.AlgCost
import Verif.Props.Everything
import Verif.Props.EverySet
import Verif.Props.ThreadsWhole
import Verif.Props.SetThreads
import Verif.Props.AlgUnwindHeap
