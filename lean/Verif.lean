import Verif.Model.Alias
import Verif.Model.Arc
import Verif.Model.ArcChests
import Verif.Model.ArcClones
import Verif.Model.ArcGraph
import Verif.Model.ArcMem
import Verif.Model.ArcTree
import Verif.Model.Array
import Verif.Model.Borrows
import Verif.Model.BorrowsBox
import Verif.Model.BorrowsRc
import Verif.Model.BorrowsScope
import Verif.Model.BorrowsScopeProtect
import Verif.Model.BorrowsVec
import Verif.Model.BoxIter
import Verif.Model.BoxPrograms
import Verif.Model.Boxed
import Verif.Model.Chests
import Verif.Model.Compare
import Verif.Model.Downcast
import Verif.Model.FenceRace
import Verif.Model.Format
import Verif.Model.HandleClones
import Verif.Model.Handles
import Verif.Model.Mem
import Verif.Model.MixedPrograms
import Verif.Model.Nested
import Verif.Model.Nesting
import Verif.Model.Rc
import Verif.Model.Scope
import Verif.Model.Selector
import Verif.Model.Sending
import Verif.Model.Slices
import Verif.Model.SmallCmp
import Verif.Model.SmallPool
import Verif.Model.SmallPoolPanic
import Verif.Model.SmallVec
import Verif.Model.Spare
import Verif.Model.Text
import Verif.Model.TextMore
import Verif.Model.TextPool
import Verif.Model.TreeBorrows
import Verif.Model.Urc
import Verif.Model.UrcData
import Verif.Model.UrcThreads
import Verif.Model.Utf8
import Verif.Model.Vec
import Verif.Model.VecCmp
import Verif.Model.VecPool
import Verif.Model.VecPrograms
import Verif.Proofs.Alias
import Verif.Proofs.AliasBox
import Verif.Proofs.AliasRc
import Verif.Proofs.Arc
import Verif.Proofs.ArcChests
import Verif.Proofs.ArcClones
import Verif.Proofs.ArcGraph
import Verif.Proofs.ArcGraphRun
import Verif.Proofs.ArcLost
import Verif.Proofs.ArcMem
import Verif.Proofs.ArcMemAct
import Verif.Proofs.ArcMemLoad
import Verif.Proofs.ArcMemRun
import Verif.Proofs.ArcMemStep
import Verif.Proofs.ArcRun
import Verif.Proofs.ArcSole
import Verif.Proofs.ArcStep
import Verif.Proofs.ArcTree
import Verif.Proofs.ArcTreeCalls
import Verif.Proofs.ArcTreeLive
import Verif.Proofs.ArcTreeRun
import Verif.Proofs.ArcTreeStep
import Verif.Proofs.ArcTreeTold
import Verif.Proofs.ArcUse
import Verif.Proofs.Array
import Verif.Proofs.Basic
import Verif.Proofs.Borrows
import Verif.Proofs.BorrowsBox
import Verif.Proofs.BorrowsRc
import Verif.Proofs.BorrowsScope
import Verif.Proofs.BorrowsScopeProtect
import Verif.Proofs.BorrowsUrc
import Verif.Proofs.BorrowsVec
import Verif.Proofs.BoxPrograms
import Verif.Proofs.Boxed
import Verif.Proofs.Chests
import Verif.Proofs.Conserve
import Verif.Proofs.HandleClones
import Verif.Proofs.HandleClonesGood
import Verif.Proofs.Handles
import Verif.Proofs.HandlesUrc
import Verif.Proofs.MixedPrograms
import Verif.Proofs.Nested
import Verif.Proofs.Nesting
import Verif.Proofs.Rc
import Verif.Proofs.RcRun
import Verif.Proofs.RcSim
import Verif.Proofs.RcTrace
import Verif.Proofs.Scope
import Verif.Proofs.ScopeUse
import Verif.Proofs.Selector
import Verif.Proofs.SelectorOwn
import Verif.Proofs.SmallBulk
import Verif.Proofs.SmallConserve
import Verif.Proofs.SmallGrow
import Verif.Proofs.SmallMake
import Verif.Proofs.SmallOps
import Verif.Proofs.SmallPool
import Verif.Proofs.SmallPoolPanic
import Verif.Proofs.SmallRep
import Verif.Proofs.SmallZst
import Verif.Proofs.Text
import Verif.Proofs.TextOrder
import Verif.Proofs.TextPool
import Verif.Proofs.TreeBorrows
import Verif.Proofs.TreeBox
import Verif.Proofs.TreeDedup
import Verif.Proofs.TreeProg
import Verif.Proofs.TreeRc
import Verif.Proofs.TreeUrc
import Verif.Proofs.TreeVec
import Verif.Proofs.Urc
import Verif.Proofs.UrcData
import Verif.Proofs.UrcLost
import Verif.Proofs.UrcMake
import Verif.Proofs.UrcPlain
import Verif.Proofs.UrcRun
import Verif.Proofs.UrcStep
import Verif.Proofs.UrcT
import Verif.Proofs.UrcTCall
import Verif.Proofs.UrcTDrop
import Verif.Proofs.UrcTDuring
import Verif.Proofs.UrcTFrame
import Verif.Proofs.UrcTLocal
import Verif.Proofs.UrcTMem
import Verif.Proofs.UrcTMove
import Verif.Proofs.UrcTRun
import Verif.Proofs.UrcTStep
import Verif.Proofs.UrcTUse
import Verif.Proofs.UrcTView
import Verif.Proofs.UrcTView2
import Verif.Proofs.UrcTrace
import Verif.Proofs.UrcUse
import Verif.Proofs.Utf16
import Verif.Proofs.Utf8
import Verif.Proofs.VecBuf
import Verif.Proofs.VecBulk
import Verif.Proofs.VecClones
import Verif.Proofs.VecGrow
import Verif.Proofs.VecIter
import Verif.Proofs.VecMove
import Verif.Proofs.VecOps
import Verif.Proofs.VecPool
import Verif.Proofs.VecPoolPanic
import Verif.Proofs.VecPrograms
import Verif.Proofs.VecRep
import Verif.Proofs.VecScan
import Verif.Proofs.VecScanMut
import Verif.Proofs.VecScanPanic
import Verif.Proofs.VecZst
import Verif.Props.Arc
import Verif.Props.ArcChests
import Verif.Props.ArcClones
import Verif.Props.ArcGraph
import Verif.Props.ArcLive
import Verif.Props.ArcMem
import Verif.Props.ArcTree
import Verif.Props.Array
import Verif.Props.Borrows
import Verif.Props.BorrowsBox
import Verif.Props.BorrowsRc
import Verif.Props.BorrowsScope
import Verif.Props.BoxIter
import Verif.Props.BoxPrograms
import Verif.Props.Boxed
import Verif.Props.Chests
import Verif.Props.Compare
import Verif.Props.Downcast
import Verif.Props.FenceRace
import Verif.Props.Format
import Verif.Props.HandleClones
import Verif.Props.Handles
import Verif.Props.MixedPrograms
import Verif.Props.Nested
import Verif.Props.Nesting
import Verif.Props.Overflow
import Verif.Props.PtrEq
import Verif.Props.Rc
import Verif.Props.Refused
import Verif.Props.ScanMut
import Verif.Props.ScanPanic
import Verif.Props.Scope
import Verif.Props.ScopeUse
import Verif.Props.Selector
import Verif.Props.Sending
import Verif.Props.SendingThere
import Verif.Props.Slices
import Verif.Props.SmallBox
import Verif.Props.SmallCapacity
import Verif.Props.SmallCmp
import Verif.Props.SmallFaults
import Verif.Props.SmallHistory
import Verif.Props.SmallPanicHistory
import Verif.Props.SmallScan
import Verif.Props.SmallStore
import Verif.Props.SmallZst
import Verif.Props.Spare
import Verif.Props.Text
import Verif.Props.TextHistory
import Verif.Props.TextMore
import Verif.Props.TreeBorrows
import Verif.Props.TreeRc
import Verif.Props.Urc
import Verif.Props.UrcSent
import Verif.Props.UrcThreadCalls
import Verif.Props.UrcThreads
import Verif.Props.VecCapacity
import Verif.Props.VecCmp
import Verif.Props.VecHistory
import Verif.Props.VecIter
import Verif.Props.VecMove
import Verif.Props.VecPanic
import Verif.Props.VecPanicHistory
import Verif.Props.VecPlace
import Verif.Props.VecPrograms
import Verif.Props.VecScan
import Verif.Props.Witness
import Verif.Spec.Array
import Verif.Spec.Boxes
import Verif.Spec.Lists
import Verif.Spec.ListsPanic
import Verif.Spec.MixedPrograms
import Verif.Spec.Rc
import Verif.Spec.Scan
import Verif.Spec.ScanMut
import Verif.Spec.ScanPanic
import Verif.Spec.Selector
import Verif.Spec.Slices
import Verif.Spec.Small
import Verif.Spec.SmallPanic
import Verif.Spec.Text
import Verif.Spec.TextPrograms
import Verif.Spec.UrcThreads
import Verif.Spec.VecPrograms
