import Verif.Base.Out
import Verif.Base.Word
import Verif.Spec.Deque
/-!
# Model of include/mstl/collection/linked_list.h

`BaseList` for both node types: `cfg.dbl = true` is `List` (`ListNode`, L365-397), `cfg.dbl = false` is `ForwardList`
(`ForwardListNode`, L334-362; it has no `prev`, so the model never reads or writes `prv` then).

Nodes live in a heap.  The fields of a node are kept in three maps indexed by its address: `info` (which allocator it came
from, bytes requested, state of `data`), `nxt` and `prv`.  `nxt a = none` means the pointer field is still indeterminate
(`construct_node` does not initialise it), `some none` is `nullptr`.  A released node has `info = none`.  Undefined
behaviour (`ub`) is: following `nullptr`, touching a released node, reading an indeterminate pointer, reading or
destroying an element that is not alive, releasing a node through another allocator or with another size.  Addresses are
never reused, so any later use of a released node is detected.

Simplifications: `len` is a natural number that wraps only when decremented at 0 (there are never 2^64 nodes in memory);
copying an element gives an equal element; element operations and predicates do not throw and predicates do not touch
the list; a failing allocation is the outcome `oom`; compile-time evaluation is not modelled.
-/
namespace Verif.Model.LL
open Verif
open Verif.Spec (End)

/-- `Node*`. -/
abbrev Ptr := Option Nat

/-- Node type, build mode and element type.  `debug`: `MSTL_DEBUG` is defined, so that `MSTL_DEBUG_ASSERT` is active
(global.h:14-24).  `vsize` is `sizeof(Node)`, `dsize` is `sizeof(NodeAllocHelper<T, Node>)` (L304-327).  `mv x` is the value
left behind in a moved-from element, `dflt` a value-initialised one.  `refuse k n`: the allocator returns null for the
`k`-th request, of `n` bytes. -/
structure Cfg (α : Type) where
  dbl : Bool
  debug : Bool
  vsize : Nat
  dsize : Nat
  mv : α → α
  dflt : α
  refuse : Nat → Nat → Bool

/-- The allocator is able to fail. -/
def Refuses {α : Type} (cfg : Cfg α) : Prop := ∃ k n, cfg.refuse k n = true

/-- State of `node->data`: null, pointing to raw storage, pointing to a live element. -/
inductive Data (α : Type) where
  | null
  | raw
  | live (x : α)

structure Info (α : Type) where
  owner : Nat
  bytes : Nat
  data : Data α

structure Heap (α : Type) where
  info : Nat → Option (Info α) := fun _ => none
  nxt : Nat → Option Ptr := fun _ => none
  prv : Nat → Option Ptr := fun _ => none
  next : Nat := 0
  /-- tallies: elements constructed and destroyed, bytes obtained and returned -/
  ctors : Nat := 0
  dtors : Nat := 0
  newBytes : Nat := 0
  freeBytes : Nat := 0

abbrev M (α β : Type) := Prog (Heap α) β

variable {α β σ : Type}

def upd {γ : Type} (f : Nat → γ) (a : Nat) (x : γ) : Nat → γ := fun b => if b = a then x else f b

/-- The fields of `BaseList` (L437-440); the allocator is identified by a number. -/
structure Lst where
  head : Ptr
  tail : Ptr
  len : Nat
  alloc : Nat
  deriving DecidableEq, Repr

/-- The allocator a defaulted allocator argument stands for. -/
def dfltAlloc : Nat := 0

/-- `len--` on `usize`. -/
def dec (n : Nat) : Nat := if n = 0 then wordSize - 1 else n - 1

/-- `MSTL_DEBUG_ASSERT` (global.h:14-24). -/
def dbgAssert (cfg : Cfg α) (b : Bool) : M α Unit := if cfg.debug && !b then Prog.panic else return ()

/-! ## Nodes -/

/-- Runs `k` on a node that exists. -/
def withNode (p : Ptr) (k : Nat → Info α → M α β) : M α β := fun h =>
  match p with
  | none => .ub
  | some a =>
    match h.info a with
    | none => .ub
    | some i => k a i h

/-- `p->next`. -/
def getNext (p : Ptr) : M α Ptr := withNode p fun a _ h =>
  match h.nxt a with
  | none => .ub
  | some q => .ok (q, h)

/-- `p->prev`. -/
def getPrev (p : Ptr) : M α Ptr := withNode p fun a _ h =>
  match h.prv a with
  | none => .ub
  | some q => .ok (q, h)

/-- `p->next = q`. -/
def putNext (p q : Ptr) : M α Unit := withNode p fun a _ h => .ok ((), { h with nxt := upd h.nxt a (some q) })

/-- `p->prev = q`. -/
def putPrev (p q : Ptr) : M α Unit := withNode p fun a _ h => .ok ((), { h with prv := upd h.prv a (some q) })

/-- `p->data == nullptr`. -/
def dataNull (p : Ptr) : M α Bool := withNode p fun _ i h =>
  match i.data with
  | .null => .ok (true, h)
  | _ => .ok (false, h)

/-- `*p->data` read. -/
def load (p : Ptr) : M α α := withNode p fun _ i h =>
  match i.data with
  | .live x => .ok (x, h)
  | _ => .ub

/-- `*p->data = x`. -/
def store (p : Ptr) (x : α) : M α Unit := withNode p fun a i h =>
  match i.data with
  | .live _ => .ok ((), { h with info := upd h.info a (some { i with data := .live x }) })
  | _ => .ub

/-- `std::move(*p->data)` used as source of a construction. -/
def take (cfg : Cfg α) (p : Ptr) : M α α := do
  let x ← load p
  store p (cfg.mv x)
  return x

/-- L359-361, L391-396 `set_next`. -/
def setNext (cfg : Cfg α) (p n : Ptr) : M α Unit := do
  putNext p n
  if cfg.dbl then
    match n with
    | none => return ()
    | some _ => putPrev n p
  else return ()

/-- allocator.h:24-43 `allocate`: a new node with all fields unset. -/
def allocNode (cfg : Cfg α) (owner bytes : Nat) (d : Data α) : M α Ptr := fun h =>
  if cfg.refuse h.next bytes then .oom
  else .ok (some h.next, { h with
    info := upd h.info h.next (some ⟨owner, bytes, d⟩)
    nxt := upd h.nxt h.next none
    prv := upd h.prv h.next none
    next := h.next + 1
    newBytes := h.newBytes + bytes })

/-- L1777-1785 `build_virtual_node`, with L1757-1760 `alloc_node`. -/
def buildVirtual (cfg : Cfg α) (owner : Nat) : M α Ptr := do
  let r ← allocNode cfg owner cfg.vsize .null
  putNext r none
  if cfg.dbl then putPrev r none else pure ()
  return r

/-- L348-351, L379-382 `construct`: `std::construct_at(data, x)` (the debug assertion is `data != nullptr`). -/
def constructData (cfg : Cfg α) (p : Ptr) (x : α) : M α Unit := do
  let b ← dataNull p
  dbgAssert cfg (!b)
  withNode p fun a i h =>
    match i.data with
    | .null => .ub
    | _ => .ok ((), { h with info := upd h.info a (some { i with data := .live x }), ctors := h.ctors + 1 })

/-- L1802-1806 `construct_node`, with L1763-1774 `alloc_node_with_data`. -/
def constructNode (cfg : Cfg α) (owner : Nat) (x : α) : M α Ptr := do
  let n ← allocNode cfg owner cfg.dsize .raw
  constructData cfg n x
  return n

/-- allocator.h:50-69 `deallocate`: sized `operator delete` through allocator `owner`. -/
def freeNode (owner bytes : Nat) (p : Ptr) : M α Unit := withNode p fun a i h =>
  if i.owner = owner ∧ i.bytes = bytes then
    .ok ((), { h with info := upd h.info a none, freeBytes := h.freeBytes + i.bytes })
  else .ub

/-- L354-357, L385-388 `destroy`: `std::destroy_at(data)`. -/
def destroyData (p : Ptr) : M α Unit := withNode p fun a i h =>
  match i.data with
  | .live _ => .ok ((), { h with info := upd h.info a (some { i with data := .raw }), dtors := h.dtors + 1 })
  | _ => .ub

/-- L1809-1817 `destroy_node`, with L1788-1799 `dealloc_node`, `dealloc_node_with_data`. -/
def destroyNode (cfg : Cfg α) (owner : Nat) (p : Ptr) : M α Unit := do
  let b ← dataNull p
  if b then freeNode owner cfg.vsize p
  else do
    destroyData p
    freeNode owner cfg.dsize p

/-- A `const T&` argument: a temporary or variable outside any list, or the element of a node. -/
inductive Ref (α : Type) where
  | tmp (x : α)
  | node (p : Ptr)

def deref : Ref α → M α α
  | .tmp x => return x
  | .node p => load p

/-- The loop `for (i < n) { tmp = construct_node(v); p->set_next(tmp); p = tmp; }` (L470-475, L950-954, L1160-1164);
answers the last `p`. -/
def fillLoop (cfg : Cfg α) (owner : Nat) (r : Ref α) : Nat → Ptr → M α Ptr
  | 0, p => return p
  | n + 1, p => do
    let x ← deref r
    let tmp ← constructNode cfg owner x
    setNext cfg p tmp
    fillLoop cfg owner r n tmp

/-- The loop `while (first != last) { tmp = construct_node(*first++); p->set_next(tmp); p = tmp; }` over a range outside
any list (L514-519, L633-638, L758-764, L979-985, L1192-1198). -/
def rangeLoop (cfg : Cfg α) (owner : Nat) : List α → Ptr → M α Ptr
  | [], p => return p
  | x :: xs, p => do
    let tmp ← constructNode cfg owner x
    setNext cfg p tmp
    rangeLoop cfg owner xs tmp

/-! ## Construction, destruction, assignment -/

/-- L1820-1826 `init_empty_list`. -/
def initEmpty (cfg : Cfg α) (owner : Nat) : M α (Ptr × Ptr) := do
  let h ← buildVirtual cfg owner
  let t ← buildVirtual cfg owner
  setNext cfg h t
  return (h, t)

/-- L451-459 `BaseList()`, `BaseList(const A&)`. -/
def newAlloc (cfg : Cfg α) (a : Nat) : M α Lst := do
  let q ← initEmpty cfg a
  return ⟨q.1, q.2, 0, a⟩

/-- L461-480 `BaseList(count, value, allocator)`. -/
def newFill (cfg : Cfg α) (n : Nat) (r : Ref α) (a : Nat) : M α Lst :=
  if n = 0 then newAlloc cfg a
  else do
    let h ← buildVirtual cfg a
    let t ← buildVirtual cfg a
    let p ← fillLoop cfg a r n h
    setNext cfg p t
    setNext cfg t none
    return ⟨h, t, n, a⟩

/-- L482-501 `BaseList(count, allocator)`: `construct_node()` value-initialises. -/
def newCount (cfg : Cfg α) (n a : Nat) : M α Lst := newFill cfg n (.tmp cfg.dflt) a

/-- L503-524 `BaseList(first, last, allocator)`, and L589 the initializer-list constructor. -/
def newRange (cfg : Cfg α) (xs : List α) (a : Nat) : M α Lst :=
  if xs.isEmpty then newAlloc cfg a
  else do
    let h ← buildVirtual cfg a
    let t ← buildVirtual cfg a
    let p ← rangeLoop cfg a xs h
    setNext cfg p t
    setNext cfg t none
    return ⟨h, t, xs.length, a⟩

/-- L649-651 `moved()`. -/
def moved (l : Lst) : Bool := l.head.isNone

/-- A moved-from list. -/
def husk (l : Lst) : Lst := ⟨none, none, 0, l.alloc⟩

/-- L526-531 the move constructor: the new list and what is left of the old one. -/
def newMove (l : Lst) : Lst × Lst := (l, husk l)

/-- L557-565, the loop of the move constructor with another allocator. -/
def moveLoop (cfg : Cfg α) (src own : Nat) (rp p : Ptr) (n : Nat) : M α (Ptr × Nat) :=
  if rp = none then return (p, n)
  else do
    let x ← take cfg rp
    let node ← constructNode cfg own x
    let rp' ← getNext rp
    setNext cfg p node
    destroyNode cfg src rp
    moveLoop cfg src own rp' node (n + 1)
partial_fixpoint

/-- L533-577 the move constructor with an allocator. -/
def newMoveAlloc (cfg : Cfg α) (l : Lst) (a : Nat) : M α (Lst × Lst) := do
  dbgAssert cfg l.head.isSome
  if a = l.alloc then return (⟨l.head, l.tail, l.len, a⟩, husk l)
  else if l.len = 0 then do
    let q ← initEmpty cfg a
    destroyNode cfg l.alloc l.head
    return (⟨q.1, q.2, 0, a⟩, husk l)
  else do
    let rp ← getNext l.head
    let h ← buildVirtual cfg a
    let t ← buildVirtual cfg a
    let q ← moveLoop cfg l.alloc a rp h 0
    setNext cfg q.1 t
    setNext cfg t none
    destroyNode cfg l.alloc l.head
    destroyNode cfg l.alloc l.tail
    return (⟨h, t, q.2, a⟩, husk l)

/-- L1843-1849, the loop of `copy_impl`. -/
def copyLoop (cfg : Cfg α) (own : Nat) (stop rp p : Ptr) (n : Nat) : M α (Ptr × Nat) :=
  if rp = stop then return (p, n)
  else do
    let x ← load rp
    let tmp ← constructNode cfg own x
    let rp' ← getNext rp
    setNext cfg p tmp
    copyLoop cfg own stop rp' tmp (n + 1)
partial_fixpoint

/-- L1828-1854 `copy_impl`, for a list with allocator `a`. -/
def copyImpl (cfg : Cfg α) (o : Lst) (a : Nat) : M α Lst := do
  dbgAssert cfg o.head.isSome
  if o.len = 0 then do
    let q ← initEmpty cfg a
    return ⟨q.1, q.2, 0, a⟩
  else do
    let rp ← getNext o.head
    let h ← buildVirtual cfg a
    let t ← buildVirtual cfg a
    let q ← copyLoop cfg a o.tail rp h 0
    setNext cfg q.1 t
    setNext cfg t none
    return ⟨h, t, q.2, a⟩

/-- L579-582 the copy constructor. -/
def newCopy (cfg : Cfg α) (o : Lst) : M α Lst := copyImpl cfg o o.alloc

/-- L584-587 the copy constructor with an allocator. -/
def newCopyAlloc (cfg : Cfg α) (o : Lst) (a : Nat) : M α Lst := copyImpl cfg o a

/-- L878-883, L1880-1884: destroy the nodes from `cur` up to `stop`. -/
def destroyLoop (cfg : Cfg α) (own : Nat) (stop cur : Ptr) : M α Unit :=
  if cur = stop then return ()
  else do
    let nx ← getNext cur
    destroyNode cfg own cur
    destroyLoop cfg own stop nx
partial_fixpoint

/-- L876-887 `clear`. -/
def clear (cfg : Cfg α) (l : Lst) : M α Lst := do
  let cur ← getNext l.head
  destroyLoop cfg l.alloc l.tail cur
  setNext cfg l.head l.tail
  return { l with len := 0 }

/-- L591-599 `~BaseList`. -/
def destruct (cfg : Cfg α) (l : Lst) : M α Unit :=
  if l.head = none then return ()
  else do
    let l ← clear cfg l
    destroyNode cfg l.alloc l.head
    destroyNode cfg l.alloc l.tail

/-- L601-610 copy assignment from another list (the self-assignment test is in `step`). -/
def copyAssign (cfg : Cfg α) (l o : Lst) : M α Lst := do
  destruct cfg l
  copyImpl cfg o o.alloc

/-- L612-625 move assignment from another list.  Like copy assignment it calls the destructor explicitly (L606, 616); what that does to
the allocator member is the subject of Model/AllocLife.lean. -/
def moveAssign (cfg : Cfg α) (l o : Lst) : M α (Lst × Lst) := do
  destruct cfg l
  return (o, husk o)

/-- L627-641 assignment of an initializer list. -/
def listAssign (cfg : Cfg α) (l : Lst) (xs : List α) : M α Lst := do
  let l ← clear cfg l
  let p ← rangeLoop cfg l.alloc xs l.head
  setNext cfg p l.tail
  return { l with len := xs.length }

/-- L754-768 `from_iter`, for an iterator that yields `xs`. -/
def fromIter (cfg : Cfg α) (xs : List α) : M α Lst := do
  let l ← newAlloc cfg dfltAlloc
  let p ← rangeLoop cfg l.alloc xs l.head
  setNext cfg p l.tail
  return { l with len := xs.length }

/-! ## Access -/

/-- L658-674 `front()`, const and not. -/
def front (l : Lst) : M α (Option α) :=
  if l.len = 0 then return none
  else do
    let p ← getNext l.head
    let x ← load p
    return some x

/-- L680-683 `front_unchecked()`. -/
def frontUnchecked (l : Lst) : M α α := do
  let p ← getNext l.head
  load p

/-- `front_unchecked() const`: L685-688 for ForwardList; for List the more constrained overload L728-731 is chosen. -/
def frontUncheckedConst (cfg : Cfg α) (l : Lst) : M α α := do
  let p ← if cfg.dbl then getPrev l.tail else getNext l.head
  load p

/-- L698-714 `back()`, const and not. -/
def back (l : Lst) : M α (Option α) :=
  if l.len = 0 then return none
  else do
    let p ← getPrev l.tail
    let x ← load p
    return some x

/-- L723-726 `back_unchecked()`. -/
def backUnchecked (l : Lst) : M α α := do
  let p ← getPrev l.tail
  load p

/-! ## Iterators -/

/-- `n` times `++` on a forward `ListIterSTL` (L178-181). -/
def advance : Nat → Ptr → M α Ptr
  | 0, p => return p
  | n + 1, p => do
    let q ← getNext p
    advance n q

/-- The iterator reached from `before_begin()` (L780-790) by `n` increments; `begin()` (L792) is `n = 1`. -/
def iterAt (l : Lst) (n : Nat) : M α Ptr := advance n l.head

/-- Client code: how many increments lead from `p` to `it`? -/
def distFrom (it p : Ptr) (n : Nat) : M α Nat :=
  if p = it then return n
  else do
    let q ← getNext p
    distFrom it q (n + 1)
partial_fixpoint

/-- Client code `for (auto it = begin(); it != end(); ++it) out.push(*it)` (L792-814, L170-187, L220-222). -/
def walk (stop cur : Ptr) (acc : List α) : M α (List α) :=
  if cur = stop then return acc
  else do
    let x ← load cur
    let nx ← getNext cur
    walk stop nx (acc ++ [x])
partial_fixpoint

/-- Forward traversal. -/
def traverse (l : Lst) : M α (List α) := do
  let b ← getNext l.head
  walk l.tail b []

/-- Client code `auto it = end(); while (it != begin()) { --it; out.push(*it); }` (L207-210). -/
def walkBack (stop cur : Ptr) (acc : List α) : M α (List α) :=
  if cur = stop then return acc
  else do
    let pv ← getPrev cur
    let x ← load pv
    walkBack stop pv (acc ++ [x])
partial_fixpoint

/-- Backward traversal. -/
def traverseBack (l : Lst) : M α (List α) := do
  let b ← getNext l.head
  walkBack b l.tail []

/-- L189-191 `operator++() requires Reversed { return operator--(); }` and L197-200 `operator--() requires … && Reversed
{ return operator++(); }`: `up = true` is the first, `up = false` the second (overload resolution prefers the more
constrained `operator--`). -/
def stepRev (up : Bool) (cur : Ptr) : M α Ptr := stepRev (!up) cur
partial_fixpoint

/-- Client code `for (auto it = rbegin(); it != rend(); ++it) out.push(*it)` (L816-844). -/
def walkRev (stop cur : Ptr) (acc : List α) : M α (List α) :=
  if cur = stop then return acc
  else do
    let x ← load cur
    let nx ← stepRev true cur
    walkRev stop nx (acc ++ [x])
partial_fixpoint

def traverseRev (l : Lst) : M α (List α) := do
  let b ← getPrev l.tail
  walkRev l.head b []

/-- `ListIter` (L93-127). -/
structure Iter where
  start : Ptr
  stop : Ptr

/-- L776-778 `iter()`. -/
def iter (l : Lst) : M α Iter := do
  let b ← getNext l.head
  return ⟨b, l.tail⟩

/-- L108-116 `next`. -/
def Iter.next (it : Iter) : M α (Option α × Iter) :=
  if it.start ≠ it.stop then do
    let x ← load it.start
    let nx ← getNext it.start
    return (some x, { it with start := nx })
  else return (none, it)

/-- L118-126 `prev`. -/
def Iter.prev (it : Iter) : M α (Option α × Iter) :=
  if it.stop ≠ it.start then do
    let pv ← getPrev it.stop
    let x ← load pv
    return (some x, { it with stop := pv })
  else return (none, it)

def Iter.takes (it : Iter) : List End → M α (List (Option α))
  | [] => return []
  | e :: es => do
    let r ← match e with
      | .front => it.next
      | .back => it.prev
    let rest ← r.2.takes es
    return r.1 :: rest

/-! ## Editing.  A position is an iterator (`Ptr`). -/

/-- L1008-1015 `emplace_after`, also L905-908 and L926-929 `insert_after(pos, val)`. -/
def emplaceAfter (cfg : Cfg α) (l : Lst) (pos : Ptr) (r : Ref α) : M α (Lst × Ptr) := do
  dbgAssert cfg (pos ≠ l.tail)
  let x ← deref r
  let tmp ← constructNode cfg l.alloc x
  let nx ← getNext pos
  setNext cfg tmp nx
  setNext cfg pos tmp
  return ({ l with len := l.len + 1 }, tmp)

/-- L941-958 `insert_after(pos, count, val)`. -/
def insertAfterFill (cfg : Cfg α) (l : Lst) (pos : Ptr) (n : Nat) (r : Ref α) : M α (Lst × Ptr) := do
  dbgAssert cfg (pos ≠ l.tail)
  if n = 0 then return (l, pos)
  else do
    let t ← getNext pos
    let p ← fillLoop cfg l.alloc r n pos
    setNext cfg p t
    let q ← getNext pos
    return ({ l with len := l.len + n }, q)

/-- L970-992 `insert_after(pos, first, last)` and the initializer-list form. -/
def insertAfterRange (cfg : Cfg α) (l : Lst) (pos : Ptr) (xs : List α) : M α (Lst × Ptr) := do
  dbgAssert cfg (pos ≠ l.tail)
  if xs.isEmpty then return (l, pos)
  else do
    let t ← getNext pos
    let p ← rangeLoop cfg l.alloc xs pos
    setNext cfg p t
    let q ← getNext pos
    return ({ l with len := l.len + xs.length }, q)

/-- L1029-1041 `erase_after(pos)`. -/
def eraseAfter (cfg : Cfg α) (l : Lst) (pos : Ptr) : M α (Lst × Ptr) := do
  dbgAssert cfg (pos ≠ l.tail)
  let nx ← getNext pos
  if nx = l.tail then return (l, l.tail)
  else do
    let tmp ← getNext pos
    let r ← getNext tmp
    setNext cfg pos r
    destroyNode cfg l.alloc tmp
    return ({ l with len := dec l.len }, r)

/-- L1056-1063 `erase_after(first, last)`. -/
def eraseAfterRange (cfg : Cfg α) (l : Lst) (first last : Ptr) : M α (Lst × Ptr) :=
  if first = last then return (l, last)
  else do
    let nx ← getNext first
    if nx = last then return (l, last)
    else do
      let q ← eraseAfter cfg l first
      eraseAfterRange cfg q.1 first last
partial_fixpoint

/-- L1079-1089 `emplace`, also L1110-1136 `insert(pos, val)`. -/
def emplace (cfg : Cfg α) (l : Lst) (pos : Ptr) (r : Ref α) : M α (Lst × Ptr) := do
  dbgAssert cfg (pos ≠ l.head)
  let x ← deref r
  let tmp ← constructNode cfg l.alloc x
  let pv ← getPrev pos
  setNext cfg pv tmp
  setNext cfg tmp pos
  return ({ l with len := l.len + 1 }, tmp)

/-- L1151-1169 `insert(pos, count, val)`. -/
def insertFill (cfg : Cfg α) (l : Lst) (pos : Ptr) (n : Nat) (r : Ref α) : M α (Lst × Ptr) := do
  dbgAssert cfg (pos ≠ l.head)
  if n = 0 then return (l, pos)
  else do
    let pv ← getPrev pos
    let p ← fillLoop cfg l.alloc r n pv
    setNext cfg p pos
    let q ← getNext pv
    return ({ l with len := l.len + n }, q)

/-- L1184-1206 `insert(pos, first, last)` and the initializer-list form. -/
def insertRange (cfg : Cfg α) (l : Lst) (pos : Ptr) (xs : List α) : M α (Lst × Ptr) :=
  if xs.isEmpty then return (l, pos)
  else do
    let pv ← getPrev pos
    let p ← rangeLoop cfg l.alloc xs pv
    setNext cfg p pos
    let q ← getNext pv
    return ({ l with len := l.len + xs.length }, q)

/-- L1223-1235 `erase(pos)`. -/
def erase (cfg : Cfg α) (l : Lst) (pos : Ptr) : M α (Lst × Ptr) :=
  if pos = l.tail ∨ pos = l.head then return (l, pos)
  else do
    let pv ← getPrev pos
    let nx ← getNext pos
    setNext cfg pv nx
    let r ← getNext pos
    destroyNode cfg l.alloc pos
    return ({ l with len := dec l.len }, r)

/-- L1264-1269, the loop of `erase(first, last)`. -/
def eraseLoop (cfg : Cfg α) (own : Nat) (last first : Ptr) (n : Nat) : M α Nat :=
  if first = last then return n
  else do
    let nx ← getNext first
    destroyNode cfg own first
    eraseLoop cfg own last nx (dec n)
partial_fixpoint

/-- L1254-1271 `erase(first, last)`. -/
def eraseRange (cfg : Cfg α) (l : Lst) (first last : Ptr) : M α (Lst × Ptr) :=
  if first = last then return (l, last)
  else do
    let first ← if first = l.head then getNext first else pure first
    let h ← getPrev first
    setNext cfg h last
    let n ← eraseLoop cfg l.alloc last first l.len
    return ({ l with len := n }, last)

/-- L1277-1303 `push_front`, `emplace_front`. -/
def pushFront (cfg : Cfg α) (l : Lst) (r : Ref α) : M α Lst := do
  let x ← deref r
  let node ← constructNode cfg l.alloc x
  let nx ← getNext l.head
  setNext cfg node nx
  setNext cfg l.head node
  return { l with len := l.len + 1 }

/-- L1308-1314 `pop_front`. -/
def popFront (cfg : Cfg α) (l : Lst) : M α Lst := do
  let tmp ← getNext l.head
  dbgAssert cfg tmp.isSome
  let nx ← getNext tmp
  setNext cfg l.head nx
  destroyNode cfg l.alloc tmp
  return { l with len := dec l.len }

/-- L1324-1361 `push_back`, `emplace_back`. -/
def pushBack (cfg : Cfg α) (l : Lst) (r : Ref α) : M α Lst := do
  let x ← deref r
  let node ← constructNode cfg l.alloc x
  let pv ← getPrev l.tail
  setNext cfg pv node
  setNext cfg node l.tail
  return { l with len := l.len + 1 }

/-- L1368-1376 `pop_back`. -/
def popBack (cfg : Cfg α) (l : Lst) : M α Lst := do
  dbgAssert cfg l.head.isSome
  dbgAssert cfg (l.len ≠ 0)
  let tmp ← getPrev l.tail
  let pv ← getPrev tmp
  setNext cfg pv l.tail
  destroyNode cfg l.alloc tmp
  return { l with len := dec l.len }

/-- `n` times `t = t->prev`. -/
def retreat : Nat → Ptr → M α Ptr
  | 0, p => return p
  | n + 1, p => do
    let q ← getPrev p
    retreat n q

/-- L1856-1886 `shorten`. -/
def shorten (cfg : Cfg α) (l : Lst) (count : Nat) : M α Lst := do
  let d := l.len - count
  let t ← if cfg.dbl ∧ d < l.len / 2 then do
      let t ← getPrev l.tail
      retreat d t
    else advance count l.head
  let p ← getNext t
  setNext cfg t l.tail
  destroyLoop cfg l.alloc l.tail p
  return { l with len := count }

/-- L1899-1904, L1919-1924, the loop of `extend`. -/
def extendLoop (cfg : Cfg α) (own : Nat) (tail : Ptr) (r : Ref α) : Nat → Ptr → M α Unit
  | 0, _ => return ()
  | n + 1, p => do
    let x ← deref r
    let tmp ← constructNode cfg own x
    setNext cfg p tmp
    setNext cfg tmp tail
    extendLoop cfg own tail r n tmp

/-- L1908-1926 `extend(count, val)`; `extend(count)` (L1888-1906) is the same with value-initialised elements. -/
def extend (cfg : Cfg α) (l : Lst) (count : Nat) (r : Ref α) : M α Lst := do
  let d := count - l.len
  let p ← if cfg.dbl then getPrev l.tail else advance l.len l.head
  extendLoop cfg l.alloc l.tail r d p
  return { l with len := count }

/-- L1400-1410 `resize(count, val)`. -/
def resizeFill (cfg : Cfg α) (l : Lst) (count : Nat) (r : Ref α) : M α Lst :=
  if count = 0 then clear cfg l
  else if count = l.len then return l
  else if count > l.len then extend cfg l count r
  else shorten cfg l count

/-- L1383-1393 `resize(count)`. -/
def resize (cfg : Cfg α) (l : Lst) (count : Nat) : M α Lst := resizeFill cfg l count (.tmp cfg.dflt)

/-! ## Operations -/

/-- L265-267 `is_end` of `merge`. -/
def isEnd (n : Ptr) : M α Bool :=
  match n with
  | none => return true
  | some _ => dataNull n

/-- L281-290, the loop of `merge`. -/
def mergeLoop (cfg : Cfg α) (less : α → α → Bool) (a b p : Ptr) : M α (Ptr × Ptr × Ptr) := do
  let ea ← isEnd a
  if ea then return (a, b, p)
  else do
    let eb ← isEnd b
    if eb then return (a, b, p)
    else do
      let x ← load a
      let y ← load b
      if less x y then do
        setNext cfg p a
        let a' ← getNext a
        let p' ← getNext p
        mergeLoop cfg less a' b p'
      else do
        setNext cfg p b
        let b' ← getNext b
        let p' ← getNext p
        mergeLoop cfg less a b' p'
partial_fixpoint

/-- L297-299: follow `next` to the last node. -/
def lastLoop (p : Ptr) : M α Ptr := do
  let nx ← getNext p
  let e ← isEnd nx
  if e then return p else lastLoop nx
partial_fixpoint

/-- L259-301 `_private::merge`: first and last node of the merged chain; no last node if one chain was empty. -/
def mergeChains (cfg : Cfg α) (less : α → α → Bool) (a b : Ptr) : M α (Ptr × Ptr) := do
  let ea ← isEnd a
  if ea then return (b, none)
  else do
    let eb ← isEnd b
    if eb then return (a, none)
    else do
      let x ← load a
      let y ← load b
      let (res, a, b) ← if less x y then do
          let a' ← getNext a
          pure (a, a', b)
        else do
          let b' ← getNext b
          pure (b, a, b')
      let (a, b, p) ← mergeLoop cfg less a b res
      let ea ← isEnd a
      if !ea then setNext cfg p a
      else do
        let eb ← isEnd b
        if !eb then setNext cfg p b else pure ()
      let t ← lastLoop p
      return (res, t)

/-- L237-239 `is_end` of `mergeSort`. -/
def isRealEnd (n : Ptr) : M α Bool := do
  let nx ← getNext n
  match nx with
  | none => return true
  | some _ => dataNull nx

/-- L244-248: the middle node. -/
def midLoop (fast slow : Ptr) : M α Ptr := do
  let e ← isRealEnd fast
  if e then return slow
  else do
    let fn ← getNext fast
    let e ← isRealEnd fn
    if e then return slow
    else do
      let f ← getNext fn
      let s ← getNext slow
      midLoop f s
partial_fixpoint

/-- L232-255 `mergeSort`. -/
def mergeSort (cfg : Cfg α) (less : α → α → Bool) (head : Ptr) : M α (Ptr × Ptr) :=
  if head = none then return (head, none)
  else do
    let nx ← getNext head
    if nx = none then return (head, none)
    else do
      let fast ← midLoop head head
      let slow ← getNext fast
      putNext fast none
      let g1 ← mergeSort cfg less head
      let g2 ← mergeSort cfg less slow
      mergeChains cfg less g1.1 g2.1
partial_fixpoint

/-- L1729-1737 `sort(predicate)`. -/
def sort (cfg : Cfg α) (less : α → α → Bool) (l : Lst) : M α Lst := do
  dbgAssert cfg l.head.isSome
  let b ← getNext l.head
  let r ← mergeSort cfg less b
  setNext cfg l.head r.1
  if r.2 ≠ none then setNext cfg r.2 l.tail else pure ()
  return l

/-- L1465-1487 `merge(BaseList& other, p)` for another list (the test `&other == this` is in `step`). -/
def merge (cfg : Cfg α) (less : α → α → Bool) (l o : Lst) : M α (Lst × Lst) := do
  dbgAssert cfg l.head.isSome
  dbgAssert cfg o.head.isSome
  if o.len = 0 then return (l, o)
  else do
    let a ← getNext l.head
    let b ← getNext o.head
    setNext cfg o.head o.tail
    let r ← mergeChains cfg less a b
    setNext cfg l.head r.1
    if r.2 ≠ none then setNext cfg r.2 l.tail else pure ()
    return ({ l with len := l.len + o.len }, { o with len := 0 })

/-- L1509-1533 `merge(BaseList&& other, p)` for another list. -/
def mergeMove (cfg : Cfg α) (less : α → α → Bool) (l o : Lst) : M α (Lst × Lst) := do
  dbgAssert cfg l.head.isSome
  dbgAssert cfg o.head.isSome
  if o.len = 0 then return (l, o)
  else do
    let a ← getNext l.head
    let b ← getNext o.head
    destroyNode cfg o.alloc o.head
    destroyNode cfg o.alloc o.tail
    let r ← mergeChains cfg less a b
    setNext cfg l.head r.1
    if r.2 ≠ none then setNext cfg r.2 l.tail else pure ()
    return ({ l with len := l.len + o.len }, husk o)

/-- L1928-1934 the loop of `real_tail` for ForwardList. -/
def realTailLoop (tail p : Ptr) : M α Ptr := do
  let nx ← getNext p
  if nx = tail then return p else realTailLoop tail nx
partial_fixpoint

/-- L1928-1938 `real_tail`. -/
def realTail (cfg : Cfg α) (l : Lst) : M α Ptr :=
  if cfg.dbl then getPrev l.tail else realTailLoop l.tail l.head

/-- L1535-1545 `splice_after(pos, other)` for another list. -/
def spliceAfter (cfg : Cfg α) (l : Lst) (pos : Ptr) (o : Lst) : M α (Lst × Lst) := do
  let h ← getNext o.head
  let t ← realTail cfg o
  let nx ← getNext pos
  setNext cfg t nx
  setNext cfg pos h
  setNext cfg o.head o.tail
  return ({ l with len := l.len + o.len }, { o with len := 0 })

/-- L1547-1558 `splice(pos, other)` for another list. -/
def splice (cfg : Cfg α) (l : Lst) (pos : Ptr) (o : Lst) : M α (Lst × Lst) := do
  let h ← getNext o.head
  let t ← realTail cfg o
  let pv ← getPrev pos
  setNext cfg pv h
  setNext cfg t pos
  setNext cfg o.head o.tail
  return ({ l with len := l.len + o.len }, { o with len := 0 })

/-- L1560-1572 `splice_after(pos, BaseList&& other)`. -/
def spliceAfterMove (cfg : Cfg α) (l : Lst) (pos : Ptr) (o : Lst) : M α (Lst × Lst) := do
  let h ← getNext o.head
  let t ← realTail cfg o
  let nx ← getNext pos
  setNext cfg t nx
  setNext cfg pos h
  destroyNode cfg o.alloc o.head
  destroyNode cfg o.alloc o.tail
  return ({ l with len := l.len + o.len }, husk o)

/-- L1574-1587 `splice(pos, BaseList&& other)`. -/
def spliceMove (cfg : Cfg α) (l : Lst) (pos : Ptr) (o : Lst) : M α (Lst × Lst) := do
  let h ← getNext o.head
  let t ← realTail cfg o
  let pv ← getPrev pos
  setNext cfg pv h
  setNext cfg t pos
  destroyNode cfg o.alloc o.head
  destroyNode cfg o.alloc o.tail
  return ({ l with len := l.len + o.len }, husk o)

/-- L1622-1632, the loop of `remove_if`.  The predicate may keep a state `s` of its own. -/
def removeLoop (cfg : Cfg α) (own : Nat) (tail : Ptr) (p : σ → α → M α (Bool × σ)) (s : σ) (cur last : Ptr) (len cnt : Nat) :
    M α (Nat × Nat × σ) :=
  if cur = tail then return (len, cnt, s)
  else do
    let x ← load cur
    let b ← p s x
    if b.1 then do
      let nx ← getNext cur
      setNext cfg last nx
      destroyNode cfg own cur
      let cur' ← getNext last
      removeLoop cfg own tail p b.2 cur' last (dec len) (cnt + 1)
    else do
      let cur' ← getNext cur
      let last' ← getNext last
      removeLoop cfg own tail p b.2 cur' last' len cnt
partial_fixpoint

/-- L1611-1635 `remove_if`: the list, the count returned, the final state of the predicate. -/
def removeIf (cfg : Cfg α) (l : Lst) (p : σ → α → M α (Bool × σ)) (s : σ) : M α (Lst × Nat × σ) := do
  dbgAssert cfg l.head.isSome
  if l.len = 0 then return (l, 0, s)
  else do
    let cur ← getNext l.head
    let r ← removeLoop cfg l.alloc l.tail p s cur l.head l.len 0
    return ({ l with len := r.1 }, r.2.1, r.2.2)

/-- L1598-1602 `remove(val)`: the predicate compares with `val`, a reference, at every call. -/
def remove (cfg : Cfg α) (eq : α → α → Bool) (l : Lst) (r : Ref α) : M α (Lst × Nat) := do
  let q ← removeIf cfg l (fun (_ : Unit) x => do
    let v ← deref r
    return (eq v x, ())) ()
  return (q.1, q.2.1)

/-- L1648-1653, the loop of `reverse` for ForwardList. -/
def reverseLoop (cfg : Cfg α) (tail p pr : Ptr) : M α Ptr :=
  if p = tail then return pr
  else do
    let tmp ← getNext p
    setNext cfg p pr
    reverseLoop cfg tail tmp p
partial_fixpoint

/-- L1664-1669, the loop of `reverse` for List. -/
def reverseLoop2 (p ap : Ptr) : M α Unit :=
  if p = none then return ()
  else do
    let nx ← getNext p
    let pv ← getPrev p
    putNext p pv
    putPrev p nx
    let ap' ← match ap with
      | none => pure none
      | some _ => getNext ap
    reverseLoop2 ap ap'
partial_fixpoint

/-- L1640-1671 `reverse`. -/
def reverse (cfg : Cfg α) (l : Lst) : M α Lst := do
  dbgAssert cfg l.head.isSome
  if cfg.dbl then do
    let ap ← getNext l.head
    reverseLoop2 l.head ap
    return { l with head := l.tail, tail := l.head }
  else if l.len < 2 then return l
  else do
    let p ← getNext l.head
    let pr ← reverseLoop cfg l.tail p l.tail
    setNext cfg l.head pr
    return l

/-- L1700-1712, the loop of `unique`. -/
def uniqueLoop (cfg : Cfg α) (own : Nat) (tail : Ptr) (p : α → α → Bool) (cur before last : Ptr) (len cnt : Nat) :
    M α (Nat × Nat) :=
  if cur = tail then return (len, cnt)
  else do
    let x ← load cur
    let y ← load last
    if p x y then do
      let nx ← getNext cur
      setNext cfg before nx
      destroyNode cfg own cur
      let cur' ← getNext before
      uniqueLoop cfg own tail p cur' before last (dec len) (cnt + 1)
    else do
      let cur' ← getNext cur
      uniqueLoop cfg own tail p cur' cur cur len cnt
partial_fixpoint

/-- L1691-1714 `unique(p)`. -/
def unique (cfg : Cfg α) (l : Lst) (p : α → α → Bool) : M α (Lst × Nat) := do
  dbgAssert cfg l.head.isSome
  if l.len < 2 then return (l, 0)
  else do
    let first ← getNext l.head
    let cur ← getNext first
    let r ← uniqueLoop cfg l.alloc l.tail p cur first first l.len 0
    return ({ l with len := r.1 }, r.2)

/-! ## `ListIntoIter` (L1983-2015): owns a list -/

/-- L1995-2003 `next`. -/
def intoNext (cfg : Cfg α) (l : Lst) : M α (Option α × Lst) :=
  if l.len ≠ 0 then do
    let p ← getNext l.head
    let x ← take cfg p
    let l ← popFront cfg l
    return (some x, l)
  else return (none, l)

/-- L2005-2014 `prev`. -/
def intoPrev (cfg : Cfg α) (l : Lst) : M α (Option α × Lst) :=
  if l.len ≠ 0 then do
    let p ← getPrev l.tail
    let x ← take cfg p
    let l ← popBack cfg l
    return (some x, l)
  else return (none, l)

/-- Any sequence of requests, then the iterator is destroyed. -/
def drain (cfg : Cfg α) (l : Lst) : List End → M α (List (Option α))
  | [] => do
    destruct cfg l
    return []
  | e :: es => do
    let r ← match e with
      | .front => intoNext cfg l
      | .back => intoPrev cfg l
    let rest ← drain cfg r.2 es
    return r.1 :: rest

/-! ## Printing -/

/-- L1953-1960, L1971-1978, the loop of `operator<<`. -/
def printLoop (shw : α → String) (size : Nat) (hi lo : Ptr) (i : Nat) (out : String) : M α String :=
  if lo = hi then return out
  else do
    let x ← load lo
    let out := out ++ shw x
    let out := if i ≠ dec size then out ++ ", " else out
    let lo' ← getNext lo
    printLoop shw size hi lo' (i + 1) out
partial_fixpoint

/-- L1946-1981 `operator<<`. -/
def print (cfg : Cfg α) (shw : α → String) (l : Lst) : M α String := do
  let out := if cfg.dbl then "List [" else "ForwardList ["
  let lo ← getNext l.head
  let out ← printLoop shw l.len l.tail lo 0 out
  return out ++ "]"

end Verif.Model.LL
