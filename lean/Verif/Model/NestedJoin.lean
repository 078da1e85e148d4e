import Verif.Model.NestedSift
/-!
# Members of linked lists of objects that take another list: `swap`, `splice`, `splice_after` and `merge`

They change links and the members of the two lists; the elements stay in their nodes.  `LL` names the functions of Model/LinkedList.lean.
-/
namespace Verif.Model.Nested
open Verif Verif.Model.Mem

variable {S : Sig} {σ : Type} (C : Cls S σ) (lcfg : LL.Cfg Unit)

/-- linked_list.h:1422-1427 `a.swap(b)` for the lists at two addresses. -/
def swapAt (i j : Nat) : Prog (LWorld σ) Unit := do
  let l ← lobj i
  let o ← lobj j
  setLobj i (some o)
  setLobj j (some l)

/-- A member of the list at one address that changes the list at another. -/
def changeTwo (i j : Nat) (f : LL.Lst → LL.Lst → Prog (LSt σ) (LL.Lst × LL.Lst)) : Prog (LWorld σ) Unit := do
  let l ← lobj i
  let o ← lobj j
  let q ← inLSt (f l o)
  setLobj i (some q.1)
  setLobj j (some q.2)

/-- linked_list.h:1535-1545 `splice_after(pos, other)`, with the node of `pos`. -/
def lspliceAfter (l : LL.Lst) (pos : LL.Ptr) (o : LL.Lst) : Prog (LSt σ) (LL.Lst × LL.Lst) := do
  let h ← inNodes (LL.getNext o.head)
  let t ← inNodes (LL.realTail lcfg o)
  let nx ← inNodes (LL.getNext pos)
  inNodes (LL.setNext lcfg t nx)
  inNodes (LL.setNext lcfg pos h)
  inNodes (LL.setNext lcfg o.head o.tail)
  return ({ l with len := l.len + o.len }, { o with len := 0 })

/-- linked_list.h:1547-1558 `splice(pos, other)`. -/
def lsplice (l : LL.Lst) (pos : LL.Ptr) (o : LL.Lst) : Prog (LSt σ) (LL.Lst × LL.Lst) := do
  let h ← inNodes (LL.getNext o.head)
  let t ← inNodes (LL.realTail lcfg o)
  let pv ← inNodes (LL.getPrev pos)
  inNodes (LL.setNext lcfg pv h)
  inNodes (LL.setNext lcfg t pos)
  inNodes (LL.setNext lcfg o.head o.tail)
  return ({ l with len := l.len + o.len }, { o with len := 0 })

/-- linked_list.h:1560-1572 `splice_after(pos, std::move(other))`. -/
def lspliceAfterMove (l : LL.Lst) (pos : LL.Ptr) (o : LL.Lst) : Prog (LSt σ) (LL.Lst × LL.Lst) := do
  let h ← inNodes (LL.getNext o.head)
  let t ← inNodes (LL.realTail lcfg o)
  let nx ← inNodes (LL.getNext pos)
  inNodes (LL.setNext lcfg t nx)
  inNodes (LL.setNext lcfg pos h)
  killNode C lcfg o.alloc o.head
  killNode C lcfg o.alloc o.tail
  return ({ l with len := l.len + o.len }, LL.husk o)

/-- linked_list.h:1574-1587 `splice(pos, std::move(other))`. -/
def lspliceMove (l : LL.Lst) (pos : LL.Ptr) (o : LL.Lst) : Prog (LSt σ) (LL.Lst × LL.Lst) := do
  let h ← inNodes (LL.getNext o.head)
  let t ← inNodes (LL.realTail lcfg o)
  let pv ← inNodes (LL.getPrev pos)
  inNodes (LL.setNext lcfg pv h)
  inNodes (LL.setNext lcfg t pos)
  killNode C lcfg o.alloc o.head
  killNode C lcfg o.alloc o.tail
  return ({ l with len := l.len + o.len }, LL.husk o)

/-- linked_list.h:1465-1487 `merge(other, p)` for another list. -/
def lmerge (pred : Nat → Nat → Prog σ Bool) (l o : LL.Lst) : Prog (LSt σ) (LL.Lst × LL.Lst) := do
  inNodes (LL.dbgAssert lcfg l.head.isSome)
  inNodes (LL.dbgAssert lcfg o.head.isSome)
  if o.len = 0 then return (l, o)
  else do
    let a ← inNodes (LL.getNext l.head)
    let b ← inNodes (LL.getNext o.head)
    inNodes (LL.setNext lcfg o.head o.tail)
    let r ← lmergeChains lcfg pred a b
    inNodes (LL.setNext lcfg l.head r.1)
    if r.2 ≠ none then inNodes (LL.setNext lcfg r.2 l.tail) else pure ()
    return ({ l with len := l.len + o.len }, { o with len := 0 })

/-- The ways to splice (linked_list.h:1535-1587): `after`: `splice_after(pos, ...)`, behind `pos`, otherwise `splice(pos, ...)`, in front of it;
`moved`: the other list is passed by `std::move`. -/
structure Way where
  after : Bool
  moved : Bool

/-- `x.splice_after(it, y)`, `x.splice(it, y)` and the same with `std::move(y)` for the lists `x` and `y` at two addresses, where `it` is `p` steps
from `x.before_begin()` (linked_list.h:1535-1587). -/
def spliceAt (y : Way) (i p j : Nat) : Prog (LWorld σ) Unit := changeTwo i j fun l o => do
  let it ← inNodes (LL.iterAt l p)
  match y with
  | ⟨true, false⟩ => lspliceAfter lcfg l it o
  | ⟨false, false⟩ => lsplice lcfg l it o
  | ⟨true, true⟩ => lspliceAfterMove C lcfg l it o
  | ⟨false, true⟩ => lspliceMove C lcfg l it o

/-- `x.merge(y, p)` for the lists at two addresses (linked_list.h:1465-1487; L1470: nothing if both are the same list). -/
def mergeAt (pred : Nat → Nat → Prog σ Bool) (i j : Nat) : Prog (LWorld σ) Unit :=
  if i = j then do
    let l ← lobj i
    inLSt (inNodes (LL.dbgAssert lcfg l.head.isSome))
  else changeTwo i j (lmerge lcfg pred)

end Verif.Model.Nested
