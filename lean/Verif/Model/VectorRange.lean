import Verif.Model.VectorIter
/-!
# Model of the range calls of `Vector` when the range is given by vector iterators
(include/mstl/collection/vector.h:103-111, 649-666)

`Model/Vector.lean` has the two calls with a source that nobody changes.  Here the source is a pair of `VectorIter`s, read
through their operators while the call changes the memory: it may be a range of the very vector that is being extended.
-/
namespace Verif.Model.Vector
open Verif Verif.Model.Mem

variable {α : Type}

/-- `usize distance = std::abs(std::distance(first, last))` (vector.h:105, 652).  `std::distance` is `last - first`, a
`usize` (vector.h:961-963) turned into a `ptrdiff_t`. -/
def absDistance (first last : RIter) : M α Nat := do
  let d ← last.dist first
  return if d < 9223372036854775808 then d else wordSize - d

/-- vector.h:107-110 the loop of the constructor: `construct_at(len++, *first); first++`. -/
def appendRange (v : Vec) (first last : RIter) : M α Vec :=
  if first.eq last then pure v
  else do
    let x ← first.deref
    construct v.ptr v.len x
    let q ← first.postInc
    appendRange { v with len := wrap (v.len + 1) } q.2 last
partial_fixpoint

/-- vector.h:660-662 the loop of `insert`: `for (auto i = p; first != last; ++i, ++first) construct_at(i, *first)`. -/
def fillRange (p : Option Nat) (i : Nat) (first last : RIter) : M α Unit :=
  if first.eq last then pure ()
  else do
    let x ← first.deref
    construct p (wrap i) x
    let first ← first.preInc
    fillRange p (i + 1) first last
partial_fixpoint

variable (ty : ElemTy α)

/-- vector.h:103-111 `Vector(first, last, allocator)`. -/
def newRangeIn (first last : RIter) (a : Nat) : M α Vec := do
  let distance ← absDistance first last
  let v ← allocate ty (Vec.blank a) distance
  appendRange v first last

/-- vector.h:649-666 `insert(pos, first, last)`; `pos` is the position of the iterator, the result that of the returned one. -/
def insertRangeIn (v : Vec) (pos : Nat) (first last : RIter) : M α (Vec × Nat) := do
  let distance ← absDistance first last
  let v ← (if wrap (v.len + distance) > v.cap then allocateReserve ty v (wrap (v.len + distance)) else pure v)
  let v ← moveElementsBack ty v pos distance
  fillRange v.ptr pos first last
  return (v, pos)

/-- Calls of a client: those of `Op`, and the two calls with the range `[begin() + lo, begin() + hi)` of vector `j`. -/
inductive ROp (α : Type) where
  | op (o : Op α)
  | newRangeOf (i j lo hi a : Nat)
  | insertRangeOf (i p j lo hi : Nat)

/-- The client's two iterators into vector `j`: `begin() + lo` and `begin() + hi`. -/
def rangeOf (j lo hi : Nat) : Prog (World α) (RIter × RIter) := do
  let v ← var j
  let b ← inHeap (begin v)
  let first ← inHeap (b.plus lo)
  let b' ← inHeap (begin v)
  let last ← inHeap (b'.plus hi)
  return (first, last)

def rstep : ROp α → Prog (World α) (Res α)
  | .op o => step ty o
  | .newRangeOf i j lo hi a => do
    let r ← rangeOf j lo hi
    create i (newRangeIn ty r.1 r.2 a)
  | .insertRangeOf i p j lo hi => do
    let r ← rangeOf j lo hi
    change' i fun v => do
      let q ← insertRangeIn ty v p r.1 r.2
      return (q.1, some q.2)

def rrun : List (ROp α) → Prog (World α) (List (Res α))
  | [] => return []
  | o :: os => do
    let r ← rstep ty o
    let rs ← rrun os
    return r :: rs

end Verif.Model.Vector
