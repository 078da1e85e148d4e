import Verif.Props.Utf8
import Verif.Props.Ascii
import Verif.Props.Layout
import Verif.Props.Range
import Verif.Props.Array
import Verif.Props.Opt
import Verif.Props.Result
import Verif.Props.Match
import Verif.Props.Tuple
import Verif.Props.TypeList
import Verif.Props.Iter
import Verif.Props.Vector
import Verif.Props.VectorEdit
import Verif.Props.LinkedList
import Verif.Props.LinkedListOps
import Verif.Props.LinkedListNeed
import Verif.Props.BString
import Verif.Props.Literal
import Verif.Props.VectorIter
import Verif.Props.ResultRef
import Verif.Props.ResultThrow
import Verif.Props.ArrayHist
import Verif.Props.VectorNeed
import Verif.Props.VectorFault
import Verif.Props.VectorThrow
import Verif.Props.LinkedListFault
import Verif.Props.LinkedListIter
import Verif.Props.RangeCursor
import Verif.Props.LinkedListThrow
import Verif.Props.BStringNeed
import Verif.Props.OptThrow
import Verif.Props.Unchecked
import Verif.Props.IterState
import Verif.Props.Storage
import Verif.Props.VectorOwn
import Verif.Props.VectorConsume
import Verif.Props.VectorWork
import Verif.Props.VectorExact
import Verif.Props.LinkedListExact
import Verif.Props.BStringExact
import Verif.Props.LinkedListCost
import Verif.Props.IterThrow
import Verif.Props.OptRef
import Verif.Props.Collect
import Verif.Props.Consume
import Verif.Props.InPlace
import Verif.Props.LinkedListWork
import Verif.Props.IterOpt
import Verif.Props.ListConsume
import Verif.Props.VectorLive
import Verif.Props.BStringLive
import Verif.Props.AllocLife
import Verif.Props.VectorGive
import Verif.Props.LinkedListGive
import Verif.Props.VectorSlice
import Verif.Props.Threads
import Verif.Props.MoveThrow
import Verif.Props.ArrayLive
import Verif.Props.VectorMoveThrow
import Verif.Props.LinkedListCatch
import Verif.Props.ArrayThrow
import Verif.Props.TupleHist
import Verif.Props.VectorRequest
import Verif.Props.MatchHist
import Verif.Props.RangeAny
import Verif.Props.LinkedListRange
import Verif.Props.VectorRange
import Verif.Props.Nested
import Verif.Props.NestedLinked
import Verif.Props.NestedOpt
import Verif.Props.NestedResult
import Verif.Props.NestedCmp
import Verif.Props.NestedShow
import Verif.Props.NestedSift
import Verif.Props.NestedSort
import Verif.Props.NestedJoin
import Verif.Props.NestedArray
