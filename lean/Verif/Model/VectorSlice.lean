import Verif.Model.VectorLive
/-!
# Slices over vectors that live across calls (include/mstl/slice.h, vector.h:374-380)

A program makes slices from `data()` of its vectors, and iterators from the slices, and keeps both in variables while it goes on calling the
vectors.  `Model/Slice.lean` has the same members for a storage region that never changes.  A slice is a pointer and a number, an iterator two
pointers; neither knows what happens to the vector.  A slice of one element is a `T*` or a reference.
-/
namespace Verif.Model.VSlice
open Verif Verif.Model.Mem Verif.Model.Vector

variable {α β : Type}

/-- slice.h:117-118 -/
structure Sl where
  ptr : Ptr
  size : Nat
  deriving DecidableEq

/-- slice.h:69-70 -/
structure SIt where
  start : Ptr
  stop : Ptr
  deriving DecidableEq

/-- slice.h:83 the constructor, 88-91 `from_raw`. -/
def Sl.fromRaw (p : Ptr) (n : Nat) : Sl := ⟨p, n⟩

/-- vector.h:374-380 `data()`. -/
def data (v : Vec) : Ptr := ⟨v.ptr, 0⟩

/-- slice.h:19 the constructor. -/
def SIt.make (p : Ptr) (n : Nat) : M α SIt := do
  let e ← p.move n
  return ⟨p, e⟩

/-- slice.h:102-104 `iter`, 107-109 `iter_mut`. -/
def Sl.iter (s : Sl) : M α SIt := SIt.make s.ptr s.size

/-- slice.h:94-99 `into_iter`: the iterator and what is left of the slice. -/
def Sl.intoIter (s : Sl) : M α (SIt × Sl) := do
  let it ← SIt.make s.ptr s.size
  return (it, ⟨⟨none, 0⟩, 0⟩)

/-- `p >= q`. -/
def ptrGe (p q : Ptr) : M α Bool := do
  let d ← p.diff q
  return decide (0 ≤ d)

/-- slice.h:22-30 `next`: the reference and the iterator afterwards. -/
def SIt.next (it : SIt) : M α (Option Ptr × SIt) := do
  let b ← ptrGe it.start it.stop
  if b then return (none, it)
  else do
    let c ← it.start.move 1
    return (some it.start, { it with start := c })

/-- slice.h:33-41 `prev`. -/
def SIt.prev (it : SIt) : M α (Option Ptr × SIt) := do
  let b ← ptrGe it.start it.stop
  if b then return (none, it)
  else do
    let c ← it.stop.move (-1)
    return (some c, { it with stop := c })

/-- slice.h:44-46 `len`. -/
def SIt.len (it : SIt) : M α Nat := do
  let d ← it.stop.diff it.start
  return toUsize d

/-- slice.h:49-51 `is_empty`. -/
def SIt.isEmpty (it : SIt) : Bool := it.start == it.stop

/-- slice.h:54-60 `last`. -/
def SIt.last (it : SIt) : M α (Option Ptr) :=
  if it.isEmpty then return none
  else do
    let p ← it.stop.move (-1)
    return some p

structure SWorld (α : Type) where
  base : World α := {}
  slices : Nat → Option Sl := fun _ => none
  its : Nat → Option SIt := fun _ => none

inductive SOp (α : Type) where
  /-- any call on the vectors -/
  | vec (op : Op α)
  /-- `auto s = Slice<T>::from_raw(v_i.data() + off, n)` -/
  | slice (s i off n : Nat)
  /-- `auto s = t` -/
  | copySlice (s t : Nat)
  /-- `auto k = s.iter()` or `s.iter_mut()` -/
  | iter (k s : Nat)
  /-- `auto k = s.into_iter()` -/
  | intoIter (k s : Nat)
  /-- `auto k = l` -/
  | copyIter (k l : Nat)
  /-- `k.next()`, and the element is read -/
  | next (k : Nat)
  /-- `k.prev()`, and the element is read -/
  | prev (k : Nat)
  /-- `k.last()`, and the element is read -/
  | last (k : Nat)
  /-- `k.next()`, and the element, if there is one, is assigned; the result tells if there was one -/
  | setNext (k : Nat) (x : α)
  /-- `k.prev()`, and the element is assigned -/
  | setPrev (k : Nat) (x : α)
  | len (k : Nat)
  | isEmpty (k : Nat)

def inBase (f : Prog (World α) β) : Prog (SWorld α) β := fun w => f w.base >>= fun p => .ok (p.1, { w with base := p.2 })

def theSlice (s : Nat) : Prog (SWorld α) Sl := fun w =>
  match w.slices s with
  | none => .ub
  | some x => .ok (x, w)

def theIt (k : Nat) : Prog (SWorld α) SIt := fun w =>
  match w.its k with
  | none => .ub
  | some x => .ok (x, w)

def setSlice (s : Nat) (x : Sl) : Prog (SWorld α) Unit := fun w =>
  .ok ((), { w with slices := fun s' => if s' = s then some x else w.slices s' })

def setIt (k : Nat) (x : SIt) : Prog (SWorld α) Unit := fun w =>
  .ok ((), { w with its := fun k' => if k' = k then some x else w.its k' })

/-- The client reads the element a reference refers to. -/
def readRef : Option Ptr → M α (Option α)
  | none => return none
  | some p => do
    let x ← p.read
    return some x

/-- The client assigns it. -/
def writeRef (x : α) : Option Ptr → M α Bool
  | none => return false
  | some p => do
    store p.blk p.off x
    return true

def sstep (ty : ElemTy α) : SOp α → Prog (SWorld α) (Res α)
  | .vec op => inBase (step ty op)
  | .slice s i off n => do
    let v ← inBase (var i)
    let p ← inBase (inHeap ((data v).move off))
    setSlice s (Sl.fromRaw p n)
    return .unit
  -- slice.h:85-86
  | .copySlice s t => do
    let x ← theSlice t
    setSlice s x
    return .unit
  | .iter k s => do
    let x ← theSlice s
    let it ← inBase (inHeap x.iter)
    setIt k it
    return .unit
  | .intoIter k s => do
    let x ← theSlice s
    let q ← inBase (inHeap x.intoIter)
    setSlice s q.2
    setIt k q.1
    return .unit
  | .copyIter k l => do
    let it ← theIt l
    setIt k it
    return .unit
  | .next k => do
    let it ← theIt k
    let q ← inBase (inHeap it.next)
    setIt k q.2
    let x ← inBase (inHeap (readRef q.1))
    return .opt x
  | .prev k => do
    let it ← theIt k
    let q ← inBase (inHeap it.prev)
    setIt k q.2
    let x ← inBase (inHeap (readRef q.1))
    return .opt x
  | .last k => do
    let it ← theIt k
    let q ← inBase (inHeap it.last)
    let x ← inBase (inHeap (readRef q))
    return .opt x
  | .setNext k x => do
    let it ← theIt k
    let q ← inBase (inHeap it.next)
    setIt k q.2
    let b ← inBase (inHeap (writeRef x q.1))
    return .bool b
  | .setPrev k x => do
    let it ← theIt k
    let q ← inBase (inHeap it.prev)
    setIt k q.2
    let b ← inBase (inHeap (writeRef x q.1))
    return .bool b
  | .len k => do
    let it ← theIt k
    let n ← inBase (inHeap it.len)
    return .num n
  | .isEmpty k => do
    let it ← theIt k
    return .bool it.isEmpty

def srun (ty : ElemTy α) : List (SOp α) → Prog (SWorld α) (List (Res α))
  | [] => return []
  | op :: ops => do
    let r ← sstep ty op
    let rs ← srun ty ops
    return r :: rs

end Verif.Model.VSlice
