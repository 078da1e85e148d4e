import Verif.Model.LinkedListHist
/-!
# Linked lists when something fails: refused memory and throwing element constructors

The members of linked_list.h that obtain nodes, once more, with the failure followed through the code instead of being an
outcome of its own.

`…N`: the allocator's null pointer is used as a node, as the code does.

`…T thr`: constructing an element while `k` elements have been constructed so far throws if `thr k` (the element type's
constructor, not the allocator); destruction does not throw.  A member that may throw returns whether it threw together
with the object as it is at that moment; a constructor that threw returns no object (its destructor is not run).  In a
member declared `noexcept` a throw is `std::terminate` (outcome `panic`).
-/
namespace Verif.Model.LL
open Verif

variable {α : Type}

/-! ## Refused memory -/

/-- allocator.h:24-43 `allocate`; null when `operator new(nothrow)` fails. -/
def allocNodeN (cfg : Cfg α) (owner bytes : Nat) (d : Data α) : M α Ptr := fun h =>
  if cfg.refuse h.next bytes then .ok (none, { h with next := h.next + 1 })
  else .ok (some h.next, { h with
    info := upd h.info h.next (some ⟨owner, bytes, d⟩)
    nxt := upd h.nxt h.next none
    prv := upd h.prv h.next none
    next := h.next + 1
    newBytes := h.newBytes + bytes })

/-- linked_list.h:1777-1785 `build_virtual_node`, with L1757-1760. -/
def buildVirtualN (cfg : Cfg α) (owner : Nat) : M α Ptr := do
  let r ← allocNodeN cfg owner cfg.vsize .null
  putNext r none
  if cfg.dbl then putPrev r none else pure ()
  return r

/-- linked_list.h:1802-1806 `construct_node`, with L1763-1774 (the assignment to `node->data` there and `construct` both
use the node). -/
def constructNodeN (cfg : Cfg α) (owner : Nat) (x : α) : M α Ptr := do
  let n ← allocNodeN cfg owner cfg.dsize .raw
  constructData cfg n x
  return n

/-- linked_list.h:1820-1826, 451-459 `BaseList()`, `BaseList(const A&)`. -/
def newAllocN (cfg : Cfg α) (a : Nat) : M α Lst := do
  let h ← buildVirtualN cfg a
  let t ← buildVirtualN cfg a
  setNext cfg h t
  return ⟨h, t, 0, a⟩

/-- linked_list.h:514-519, 633-638, 758-764, 979-985, 1192-1198: the loops that append nodes for a range. -/
def rangeLoopN (cfg : Cfg α) (owner : Nat) : List α → Ptr → M α Ptr
  | [], p => return p
  | x :: xs, p => do
    let tmp ← constructNodeN cfg owner x
    setNext cfg p tmp
    rangeLoopN cfg owner xs tmp

/-- linked_list.h:470-475, 950-954, 1160-1164: the loops that append nodes for `n` copies. -/
def fillLoopN (cfg : Cfg α) (owner : Nat) (r : Ref α) : Nat → Ptr → M α Ptr
  | 0, p => return p
  | n + 1, p => do
    let x ← deref r
    let tmp ← constructNodeN cfg owner x
    setNext cfg p tmp
    fillLoopN cfg owner r n tmp

/-- linked_list.h:503-524 `BaseList(first, last, allocator)`. -/
def newRangeN (cfg : Cfg α) (xs : List α) (a : Nat) : M α Lst :=
  if xs.isEmpty then newAllocN cfg a
  else do
    let h ← buildVirtualN cfg a
    let t ← buildVirtualN cfg a
    let p ← rangeLoopN cfg a xs h
    setNext cfg p t
    setNext cfg t none
    return ⟨h, t, xs.length, a⟩

/-- linked_list.h:627-641 assignment of an initializer list. -/
def listAssignN (cfg : Cfg α) (l : Lst) (xs : List α) : M α Lst := do
  let l ← clear cfg l
  let p ← rangeLoopN cfg l.alloc xs l.head
  setNext cfg p l.tail
  return { l with len := xs.length }

/-- linked_list.h:1008-1015 `emplace_after`. -/
def emplaceAfterN (cfg : Cfg α) (l : Lst) (pos : Ptr) (r : Ref α) : M α (Lst × Ptr) := do
  dbgAssert cfg (pos ≠ l.tail)
  let x ← deref r
  let tmp ← constructNodeN cfg l.alloc x
  let nx ← getNext pos
  setNext cfg tmp nx
  setNext cfg pos tmp
  return ({ l with len := l.len + 1 }, tmp)

/-- linked_list.h:941-958 `insert_after(pos, count, val)`. -/
def insertAfterFillN (cfg : Cfg α) (l : Lst) (pos : Ptr) (n : Nat) (r : Ref α) : M α (Lst × Ptr) := do
  dbgAssert cfg (pos ≠ l.tail)
  if n = 0 then return (l, pos)
  else do
    let t ← getNext pos
    let p ← fillLoopN cfg l.alloc r n pos
    setNext cfg p t
    let q ← getNext pos
    return ({ l with len := l.len + n }, q)

/-- linked_list.h:970-992 `insert_after(pos, first, last)`. -/
def insertAfterRangeN (cfg : Cfg α) (l : Lst) (pos : Ptr) (xs : List α) : M α (Lst × Ptr) := do
  dbgAssert cfg (pos ≠ l.tail)
  if xs.isEmpty then return (l, pos)
  else do
    let t ← getNext pos
    let p ← rangeLoopN cfg l.alloc xs pos
    setNext cfg p t
    let q ← getNext pos
    return ({ l with len := l.len + xs.length }, q)

/-- linked_list.h:1079-1089 `emplace`. -/
def emplaceN (cfg : Cfg α) (l : Lst) (pos : Ptr) (r : Ref α) : M α (Lst × Ptr) := do
  dbgAssert cfg (pos ≠ l.head)
  let x ← deref r
  let tmp ← constructNodeN cfg l.alloc x
  let pv ← getPrev pos
  setNext cfg pv tmp
  setNext cfg tmp pos
  return ({ l with len := l.len + 1 }, tmp)

/-- linked_list.h:1277-1303 `push_front`, `emplace_front`. -/
def pushFrontN (cfg : Cfg α) (l : Lst) (r : Ref α) : M α Lst := do
  let x ← deref r
  let node ← constructNodeN cfg l.alloc x
  let nx ← getNext l.head
  setNext cfg node nx
  setNext cfg l.head node
  return { l with len := l.len + 1 }

/-- linked_list.h:1324-1361 `push_back`, `emplace_back`. -/
def pushBackN (cfg : Cfg α) (l : Lst) (r : Ref α) : M α Lst := do
  let x ← deref r
  let node ← constructNodeN cfg l.alloc x
  let pv ← getPrev l.tail
  setNext cfg pv node
  setNext cfg node l.tail
  return { l with len := l.len + 1 }

/-- linked_list.h:1899-1904, 1919-1924 the loop of `extend`. -/
def extendLoopN (cfg : Cfg α) (own : Nat) (tail : Ptr) (r : Ref α) : Nat → Ptr → M α Unit
  | 0, _ => return ()
  | n + 1, p => do
    let x ← deref r
    let tmp ← constructNodeN cfg own x
    setNext cfg p tmp
    setNext cfg tmp tail
    extendLoopN cfg own tail r n tmp

/-- linked_list.h:1400-1410 `resize(count, val)`, with L1908-1926 `extend`. -/
def resizeFillN (cfg : Cfg α) (l : Lst) (count : Nat) (r : Ref α) : M α Lst :=
  if count = 0 then clear cfg l
  else if count = l.len then return l
  else if count > l.len then do
    let d := count - l.len
    let p ← if cfg.dbl then getPrev l.tail else advance l.len l.head
    extendLoopN cfg l.alloc l.tail r d p
    return { l with len := count }
  else shorten cfg l count

/-- linked_list.h:1843-1849 the loop of `copy_impl`. -/
def copyLoopN (cfg : Cfg α) (own : Nat) (stop rp p : Ptr) (n : Nat) : M α (Ptr × Nat) :=
  if rp = stop then return (p, n)
  else do
    let x ← load rp
    let tmp ← constructNodeN cfg own x
    let rp' ← getNext rp
    setNext cfg p tmp
    copyLoopN cfg own stop rp' tmp (n + 1)
partial_fixpoint

/-- linked_list.h:1828-1854 `copy_impl`, and L579-587 the copy constructors. -/
def copyImplN (cfg : Cfg α) (o : Lst) (a : Nat) : M α Lst := do
  dbgAssert cfg o.head.isSome
  if o.len = 0 then newAllocN cfg a
  else do
    let rp ← getNext o.head
    let h ← buildVirtualN cfg a
    let t ← buildVirtualN cfg a
    let q ← copyLoopN cfg a o.tail rp h 0
    setNext cfg q.1 t
    setNext cfg t none
    return ⟨h, t, q.2, a⟩

/-- linked_list.h:601-610 copy assignment from another list. -/
def copyAssignN (cfg : Cfg α) (l o : Lst) : M α Lst := do
  destruct cfg l
  copyImplN cfg o o.alloc

/-! ## Throwing constructors -/

/-- Does the next construction of an element throw? -/
def throws (thr : Nat → Bool) : M α Bool := fun h => .ok (thr h.ctors, h)

/-- linked_list.h:1802-1806 `construct_node`: when the element's constructor throws, nobody releases the node; `none`. -/
def constructNodeT (cfg : Cfg α) (thr : Nat → Bool) (owner : Nat) (x : α) : M α (Option Ptr) := do
  let n ← allocNode cfg owner cfg.dsize .raw
  let t ← throws thr
  if t then return none
  else do
    constructData cfg n x
    return some n

/-- linked_list.h:514-519, 633-638, 979-985, 1192-1198: the loops that append nodes for a range, up to the first throw.
Answers whether there was one, the last node and the number of nodes made. -/
def rangeLoopT (cfg : Cfg α) (thr : Nat → Bool) (owner : Nat) : List α → Ptr → Nat → M α (Bool × Ptr × Nat)
  | [], p, k => return (false, p, k)
  | x :: xs, p, k => do
    let n ← constructNodeT cfg thr owner x
    match n with
    | none => return (true, p, k)
    | some tmp => do
      setNext cfg p tmp
      rangeLoopT cfg thr owner xs tmp (k + 1)

/-- linked_list.h:470-475, 950-954, 1160-1164: the loops that append nodes for `n` copies, up to the first throw. -/
def fillLoopT (cfg : Cfg α) (thr : Nat → Bool) (owner : Nat) (r : Ref α) : Nat → Ptr → M α (Bool × Ptr)
  | 0, p => return (false, p)
  | n + 1, p => do
    let x ← deref r
    let m ← constructNodeT cfg thr owner x
    match m with
    | none => return (true, p)
    | some tmp => do
      setNext cfg p tmp
      fillLoopT cfg thr owner r n tmp

/-- linked_list.h:503-524 `BaseList(first, last, allocator)`. -/
def newRangeT (cfg : Cfg α) (thr : Nat → Bool) (xs : List α) (a : Nat) : M α (Option Lst) :=
  if xs.isEmpty then do
    let l ← newAlloc cfg a
    return some l
  else do
    let h ← buildVirtual cfg a
    let t ← buildVirtual cfg a
    let q ← rangeLoopT cfg thr a xs h 0
    if q.1 then return none
    else do
      setNext cfg q.2.1 t
      setNext cfg t none
      return some ⟨h, t, xs.length, a⟩

/-- linked_list.h:627-641 assignment of an initializer list: `len++` after each element. -/
def listAssignT (cfg : Cfg α) (thr : Nat → Bool) (l : Lst) (xs : List α) : M α (Bool × Lst) := do
  let l ← clear cfg l
  let q ← rangeLoopT cfg thr l.alloc xs l.head 0
  if q.1 then return (true, { l with len := q.2.2 })
  else do
    setNext cfg q.2.1 l.tail
    return (false, { l with len := xs.length })

/-- linked_list.h:1008-1015 `emplace_after`, L905-908 `insert_after(pos, val)`. -/
def emplaceAfterT (cfg : Cfg α) (thr : Nat → Bool) (l : Lst) (pos : Ptr) (r : Ref α) : M α (Bool × Lst) := do
  dbgAssert cfg (pos ≠ l.tail)
  let x ← deref r
  let n ← constructNodeT cfg thr l.alloc x
  match n with
  | none => return (true, l)
  | some tmp => do
    let nx ← getNext pos
    setNext cfg tmp nx
    setNext cfg pos tmp
    return (false, { l with len := l.len + 1 })

/-- linked_list.h:1079-1089 `emplace`, L1110-1136 `insert(pos, val)`. -/
def emplaceT (cfg : Cfg α) (thr : Nat → Bool) (l : Lst) (pos : Ptr) (r : Ref α) : M α (Bool × Lst) := do
  dbgAssert cfg (pos ≠ l.head)
  let x ← deref r
  let n ← constructNodeT cfg thr l.alloc x
  match n with
  | none => return (true, l)
  | some tmp => do
    let pv ← getPrev pos
    setNext cfg pv tmp
    setNext cfg tmp pos
    return (false, { l with len := l.len + 1 })

/-- linked_list.h:970-992 `insert_after(pos, first, last)`: `len++` for each element, before it is linked. -/
def insertAfterRangeT (cfg : Cfg α) (thr : Nat → Bool) (l : Lst) (pos : Ptr) (xs : List α) : M α (Bool × Lst) := do
  dbgAssert cfg (pos ≠ l.tail)
  if xs.isEmpty then return (false, l)
  else do
    let t ← getNext pos
    let q ← rangeLoopT cfg thr l.alloc xs pos 0
    if q.1 then return (true, { l with len := l.len + q.2.2 })
    else do
      setNext cfg q.2.1 t
      let _ ← getNext pos
      return (false, { l with len := l.len + xs.length })

/-- linked_list.h:941-958 `insert_after(pos, count, val)`: `len += count` after the loop. -/
def insertAfterFillT (cfg : Cfg α) (thr : Nat → Bool) (l : Lst) (pos : Ptr) (n : Nat) (r : Ref α) : M α (Bool × Lst) := do
  dbgAssert cfg (pos ≠ l.tail)
  if n = 0 then return (false, l)
  else do
    let t ← getNext pos
    let q ← fillLoopT cfg thr l.alloc r n pos
    if q.1 then return (true, l)
    else do
      setNext cfg q.2 t
      let _ ← getNext pos
      return (false, { l with len := l.len + n })

/-- linked_list.h:1184-1206 `insert(pos, first, last)`. -/
def insertRangeT (cfg : Cfg α) (thr : Nat → Bool) (l : Lst) (pos : Ptr) (xs : List α) : M α (Bool × Lst) :=
  if xs.isEmpty then return (false, l)
  else do
    let pv ← getPrev pos
    let q ← rangeLoopT cfg thr l.alloc xs pv 0
    if q.1 then return (true, { l with len := l.len + q.2.2 })
    else do
      setNext cfg q.2.1 pos
      let _ ← getNext pv
      return (false, { l with len := l.len + xs.length })

/-- linked_list.h:1151-1169 `insert(pos, count, val)`. -/
def insertFillT (cfg : Cfg α) (thr : Nat → Bool) (l : Lst) (pos : Ptr) (n : Nat) (r : Ref α) : M α (Bool × Lst) := do
  dbgAssert cfg (pos ≠ l.head)
  if n = 0 then return (false, l)
  else do
    let pv ← getPrev pos
    let q ← fillLoopT cfg thr l.alloc r n pv
    if q.1 then return (true, l)
    else do
      setNext cfg q.2 pos
      let _ ← getNext pv
      return (false, { l with len := l.len + n })

/-- linked_list.h:1277-1303 `push_front`, `emplace_front`: `noexcept`. -/
def pushFrontT (cfg : Cfg α) (thr : Nat → Bool) (l : Lst) (r : Ref α) : M α Lst := do
  let x ← deref r
  let n ← constructNodeT cfg thr l.alloc x
  match n with
  | none => Prog.panic
  | some node => do
    let nx ← getNext l.head
    setNext cfg node nx
    setNext cfg l.head node
    return { l with len := l.len + 1 }

/-- linked_list.h:1324-1361 `push_back`, `emplace_back`: `noexcept`. -/
def pushBackT (cfg : Cfg α) (thr : Nat → Bool) (l : Lst) (r : Ref α) : M α Lst := do
  let x ← deref r
  let n ← constructNodeT cfg thr l.alloc x
  match n with
  | none => Prog.panic
  | some node => do
    let pv ← getPrev l.tail
    setNext cfg pv node
    setNext cfg node l.tail
    return { l with len := l.len + 1 }

/-- linked_list.h:1843-1849 the loop of `copy_impl`, up to the first throw. -/
def copyLoopT (cfg : Cfg α) (thr : Nat → Bool) (own : Nat) (stop rp p : Ptr) (n : Nat) : M α (Bool × Ptr × Nat) :=
  if rp = stop then return (false, p, n)
  else do
    let x ← load rp
    let m ← constructNodeT cfg thr own x
    match m with
    | none => return (true, p, n)
    | some tmp => do
      let rp' ← getNext rp
      setNext cfg p tmp
      copyLoopT cfg thr own stop rp' tmp (n + 1)
partial_fixpoint

/-- linked_list.h:1828-1854 `copy_impl` on the object `l`: `len = 0` first and `len++` after each element, `head` and `tail`
last. -/
def copyImplT (cfg : Cfg α) (thr : Nat → Bool) (l o : Lst) : M α (Bool × Lst) := do
  dbgAssert cfg o.head.isSome
  if o.len = 0 then do
    let q ← initEmpty cfg l.alloc
    return (false, ⟨q.1, q.2, 0, l.alloc⟩)
  else do
    let rp ← getNext o.head
    let h ← buildVirtual cfg l.alloc
    let t ← buildVirtual cfg l.alloc
    let q ← copyLoopT cfg thr l.alloc o.tail rp h 0
    if q.1 then return (true, { l with len := q.2.2 })
    else do
      setNext cfg q.2.1 t
      setNext cfg t none
      return (false, ⟨h, t, q.2.2, l.alloc⟩)

/-- linked_list.h:601-610 copy assignment from another list: the old contents and the old virtual nodes are gone before the
first copy is made. -/
def copyAssignT (cfg : Cfg α) (thr : Nat → Bool) (l o : Lst) : M α (Bool × Lst) := do
  destruct cfg l
  copyImplT cfg thr { l with alloc := o.alloc } o

/-- linked_list.h:1899-1904, 1919-1924 the loop of `extend`, called by `resize` only, which is `noexcept`. -/
def extendLoopT (cfg : Cfg α) (thr : Nat → Bool) (own : Nat) (tail : Ptr) (r : Ref α) : Nat → Ptr → M α Unit
  | 0, _ => return ()
  | n + 1, p => do
    let x ← deref r
    let m ← constructNodeT cfg thr own x
    match m with
    | none => Prog.panic
    | some tmp => do
      setNext cfg p tmp
      setNext cfg tmp tail
      extendLoopT cfg thr own tail r n tmp

/-- linked_list.h:1400-1410 `resize(count, val)` with L1908-1926 `extend`: `noexcept`.  `resize(count)` (L1383-1393) is the
same with value-initialised elements. -/
def resizeFillT (cfg : Cfg α) (thr : Nat → Bool) (l : Lst) (count : Nat) (r : Ref α) : M α Lst :=
  if count = 0 then clear cfg l
  else if count = l.len then return l
  else if count > l.len then do
    let d := count - l.len
    let p ← if cfg.dbl then getPrev l.tail else advance l.len l.head
    extendLoopT cfg thr l.alloc l.tail r d p
    return { l with len := count }
  else shorten cfg l count

/-- linked_list.h:461-480 `BaseList(count, value, allocator)`, and L482-501. -/
def newFillT (cfg : Cfg α) (thr : Nat → Bool) (n : Nat) (r : Ref α) (a : Nat) : M α (Option Lst) :=
  if n = 0 then do
    let l ← newAlloc cfg a
    return some l
  else do
    let h ← buildVirtual cfg a
    let t ← buildVirtual cfg a
    let q ← fillLoopT cfg thr a r n h
    if q.1 then return none
    else do
      setNext cfg q.2 t
      setNext cfg t none
      return some ⟨h, t, n, a⟩

/-- linked_list.h:579-587 the copy constructors; a constructor that threw gives no object and runs no destructor. -/
def newCopyT (cfg : Cfg α) (thr : Nat → Bool) (o : Lst) (a : Nat) : M α (Option Lst) := do
  let q ← copyImplT cfg thr ⟨none, none, 0, a⟩ o
  return if q.1 then none else some q.2

/-- linked_list.h:754-768 `from_iter`, for an iterator that yields `xs`: the local `res` is destroyed when an exception leaves
the function. -/
def fromIterT (cfg : Cfg α) (thr : Nat → Bool) (xs : List α) : M α (Option Lst) := do
  let l ← newAlloc cfg dfltAlloc
  let q ← rangeLoopT cfg thr l.alloc xs l.head 0
  if q.1 then do
    destruct cfg { l with len := q.2.2 }
    return none
  else do
    setNext cfg q.2.1 l.tail
    return some { l with len := xs.length }

end Verif.Model.LL
