import Verif.Model.ArrayHist
/-!
# Views of arrays that live across calls (include/mstl/collection/array.h:100-144, 228-230, 276-294, include/mstl/slice.h)

A program makes reference iterators (`iter()`) and slices (`Slice<T>::from_raw(a.begin() + off, n)`) of its arrays, iterators of the slices, and
keeps them in variables while it goes on using the arrays.  A view consists of pointers; it does not know what happens to the array.
`Model/Slice.lean` has the same members for storage that never changes.  A slice of one element is a `T*` or a reference.

An array object is named by its variable and the number of arrays that were made under that variable before it.  Using a pointer to an
array that was destroyed in any way is `ub` (the language leaves it to the implementation).
-/
namespace Verif.Model.ArrLive
open Verif Verif.Model.Array

variable {α β : Type}

structure Ptr where
  obj : Option (Nat × Nat)
  off : Nat

/-- array.h:142-143 (`sl = false`), slice.h:69-70 (`sl = true`) -/
structure It where
  sl : Bool
  start : Ptr
  stop : Ptr

/-- slice.h:117-118 -/
structure Sl where
  ptr : Ptr
  size : Nat

structure AWorld (α : Type) where
  base : World α := World.init
  made : Nat → Nat := fun _ => 0
  slices : Nat → Option Sl := fun _ => none
  its : Nat → Option It := fun _ => none

abbrev AM (α : Type) := Prog (AWorld α)

/-- The array object a pointer points into. -/
def cellsOf (w : AWorld α) (o : Nat × Nat) : Option (Nat × Cells α) := if w.made o.1 = o.2 then w.base.arr o.1 else none

/-- `p + d`. -/
def Ptr.move (p : Ptr) (d : Int) : AM α Ptr := fun w =>
  match p.obj with
  | none => if d = 0 then .ok (p, w) else .ub
  | some o =>
    match cellsOf w o with
    | none => .ub
    | some (N, _) => if 0 ≤ p.off + d ∧ p.off + d ≤ N then .ok ({ p with off := (p.off + d).toNat }, w) else .ub

/-- `p - q`. -/
def Ptr.diff (p q : Ptr) : AM α Int := fun w =>
  if p.obj ≠ q.obj then .ub
  else
    match p.obj with
    | none => .ok (0, w)
    | some o => if (cellsOf w o).isSome then .ok ((p.off : Int) - q.off, w) else .ub

/-- `*p`, read. -/
def Ptr.read (p : Ptr) : AM α α := fun w =>
  match p.obj.bind (cellsOf w) with
  | none => .ub
  | some (_, c) => readCell c p.off >>= fun x => .ok (x, w)

/-- `*p = x`. -/
def Ptr.write (p : Ptr) (x : α) : AM α Unit := fun w =>
  match p.obj with
  | none => .ub
  | some o =>
    match cellsOf w o with
    | none => .ub
    | some (N, c) => writeCell c p.off x >>= fun c => setArr o.1 N c w.base >>= fun q => .ok ((), { w with base := q.2 })

/-- array.h:276-284 `begin()`. -/
def begin (i : Nat) : AM α Ptr := fun w =>
  match w.base.arr i with
  | none => .ub
  | some _ => .ok (⟨some (i, w.made i), 0⟩, w)

/-- array.h:228-230 `iter()`, 104 the constructor of `ArrayIterRef`. -/
def iterRef (i : Nat) : AM α It := fun w =>
  match w.base.arr i with
  | none => .ub
  | some (N, _) => (do
    let p ← begin i
    let e ← p.move N
    return ⟨false, p, e⟩ : AM α It) w

/-- slice.h:19 the constructor of `SliceRefIter`, 101-109 `iter`, `iter_mut`. -/
def Sl.iter (s : Sl) : AM α It := do
  let e ← s.ptr.move s.size
  return ⟨true, s.ptr, e⟩

/-- slice.h:94-99 `into_iter`: the iterator and what is left of the slice. -/
def Sl.intoIter (s : Sl) : AM α (It × Sl) := do
  let it ← s.iter
  return (it, ⟨⟨none, 0⟩, 0⟩)

/-- array.h:132-135, slice.h:49-51 `is_empty`: `start == end`. -/
def It.isEmpty (it : It) : AM α Bool := do
  let d ← it.start.diff it.stop
  return decide (d = 0)

/-- The test in `next` and `prev`: array.h:108, 119 `is_empty()`; slice.h:23, 34 `start >= end`. -/
def It.done (it : It) : AM α Bool :=
  if it.sl then do
    let d ← it.start.diff it.stop
    return decide (0 ≤ d)
  else it.isEmpty

/-- array.h:107-115, slice.h:22-30 `next`: the reference and the iterator afterwards. -/
def It.next (it : It) : AM α (Option Ptr × It) := do
  let b ← it.done
  if b then return (none, it)
  else do
    let c ← it.start.move 1
    return (some it.start, { it with start := c })

/-- array.h:118-126, slice.h:33-41 `prev`. -/
def It.prev (it : It) : AM α (Option Ptr × It) := do
  let b ← it.done
  if b then return (none, it)
  else do
    let c ← it.stop.move (-1)
    return (some c, { it with stop := c })

/-- array.h:129-131, slice.h:44-46 `len`; the difference is not negative. -/
def It.len (it : It) : AM α Nat := do
  let d ← it.stop.diff it.start
  return d.toNat

/-- slice.h:54-60 `last`; `ArrayIterRef` has no such member. -/
def It.last (it : It) : AM α (Option Ptr) :=
  if it.sl then do
    let b ← it.isEmpty
    if b then return none
    else do
      let p ← it.stop.move (-1)
      return some p
  else Prog.ub

inductive AOp (α : Type) where
  /-- any call on the arrays and their owning iterators -/
  | arr (op : Op α)
  /-- `auto k = a_i.iter()` -/
  | iter (k i : Nat)
  /-- `auto s = Slice<T>::from_raw(a_i.begin() + off, n)` -/
  | slice (s i off n : Nat)
  /-- `auto s = t` -/
  | copySlice (s t : Nat)
  /-- `auto k = s.iter()` or `s.iter_mut()` -/
  | sliceIter (k s : Nat)
  /-- `auto k = s.into_iter()` -/
  | sliceIntoIter (k s : Nat)
  /-- `auto k = l` -/
  | copyIter (k l : Nat)
  /-- `k.next()`, and the element is read -/
  | next (k : Nat)
  /-- `k.prev()`, and the element is read -/
  | prev (k : Nat)
  /-- `k.last()`, and the element is read -/
  | last (k : Nat)
  /-- `k.next()`, and the element, if there is one, is assigned (slices only: array iterators give `const T&`) -/
  | setNext (k : Nat) (x : α)
  /-- `k.prev()`, and the element is assigned -/
  | setPrev (k : Nat) (x : α)
  | len (k : Nat)
  | isEmpty (k : Nat)

/-- The variable a call makes an array in. -/
def makes : Op α → Option Nat
  | .newDefault i _ => some i
  | .newZero i _ => some i
  | .newList i _ _ => some i
  | .newRaw i _ => some i
  | .newCopy i _ => some i
  | .newMove i _ => some i
  | _ => none

def theSlice (s : Nat) : AM α Sl := fun w =>
  match w.slices s with
  | none => .ub
  | some x => .ok (x, w)

def theIt (k : Nat) : AM α It := fun w =>
  match w.its k with
  | none => .ub
  | some x => .ok (x, w)

def setSlice (s : Nat) (x : Sl) : AM α Unit := fun w =>
  .ok ((), { w with slices := fun s' => if s' = s then some x else w.slices s' })

def setIt (k : Nat) (x : It) : AM α Unit := fun w =>
  .ok ((), { w with its := fun k' => if k' = k then some x else w.its k' })

/-- The client reads the element a reference refers to. -/
def readRef : Option Ptr → AM α (Option α)
  | none => return none
  | some p => do
    let x ← p.read
    return some x

/-- The client assigns it. -/
def writeRef (x : α) : Option Ptr → AM α Bool
  | none => return false
  | some p => do
    p.write x
    return true

def astep (E : Elem α) (ne : α → α → Bool) : AOp α → AM α (Ret α)
  | .arr op => fun w => step E ne op w.base >>= fun p => .ok (p.1, { w with
      base := p.2
      made := match makes op with
        | some i => fun k => if k = i then w.made i + 1 else w.made k
        | none => w.made })
  | .iter k i => do
    let it ← iterRef i
    setIt k it
    return .unit
  | .slice s i off n => do
    let p ← begin i
    let p ← p.move off
    setSlice s ⟨p, n⟩
    return .unit
  | .copySlice s t => do
    let x ← theSlice t
    setSlice s x
    return .unit
  | .sliceIter k s => do
    let x ← theSlice s
    let it ← x.iter
    setIt k it
    return .unit
  | .sliceIntoIter k s => do
    let x ← theSlice s
    let q ← x.intoIter
    setSlice s q.2
    setIt k q.1
    return .unit
  | .copyIter k l => do
    let it ← theIt l
    setIt k it
    return .unit
  | .next k => do
    let it ← theIt k
    let q ← it.next
    setIt k q.2
    let x ← readRef q.1
    return .opt x
  | .prev k => do
    let it ← theIt k
    let q ← it.prev
    setIt k q.2
    let x ← readRef q.1
    return .opt x
  | .last k => do
    let it ← theIt k
    let q ← it.last
    let x ← readRef q
    return .opt x
  | .setNext k x => do
    let it ← theIt k
    if it.sl then do
      let q ← it.next
      setIt k q.2
      let b ← writeRef x q.1
      return .bool b
    else Prog.ub
  | .setPrev k x => do
    let it ← theIt k
    if it.sl then do
      let q ← it.prev
      setIt k q.2
      let b ← writeRef x q.1
      return .bool b
    else Prog.ub
  | .len k => do
    let it ← theIt k
    let n ← it.len
    return .num n
  | .isEmpty k => do
    let it ← theIt k
    let b ← it.isEmpty
    return .bool b

def arun (E : Elem α) (ne : α → α → Bool) : List (AOp α) → AM α (List (Ret α))
  | [] => return []
  | op :: ops => do
    let r ← astep E ne op
    let rs ← arun E ne ops
    return r :: rs

end Verif.Model.ArrLive
