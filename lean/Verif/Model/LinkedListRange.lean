import Verif.Model.LinkedListHist
/-!
# Ranges given by list iterators (include/mstl/collection/linked_list.h)

`Model/LinkedList` gives the calls that take a pair of iterators the values between them, which are outside any list there.  Here the
iterators are those of a list, possibly of the very list that is inserted into: the loops read the nodes as they go, after having linked
new ones.
-/
namespace Verif.Model.LL
open Verif

variable {α : Type}

/-- linked_list.h:513-519, the loop of the constructor from a range: `construct_node(*first++)`; `n` is `len`. -/
def ctorRangeLoop (cfg : Cfg α) (own : Nat) (last first p : Ptr) (n : Nat) : M α (Ptr × Nat) :=
  if first = last then return (p, n)
  else do
    let cur := first
    let first ← getNext first
    let x ← load cur
    let tmp ← constructNode cfg own x
    setNext cfg p tmp
    ctorRangeLoop cfg own last first tmp (n + 1)
partial_fixpoint

/-- linked_list.h:503-524 `BaseList(first, last, allocator)`. -/
def newRangeIn (cfg : Cfg α) (first last : Ptr) (a : Nat) : M α Lst :=
  if first = last then newAlloc cfg a
  else do
    let h ← buildVirtual cfg a
    let t ← buildVirtual cfg a
    let q ← ctorRangeLoop cfg a last first h 0
    setNext cfg q.1 t
    setNext cfg t none
    return ⟨h, t, q.2, a⟩

/-- linked_list.h:979-985, 1192-1198, the loop of `insert_after` and `insert` for a range: `construct_node(*first); ++first; len++`. -/
def insertRangeLoop (cfg : Cfg α) (own : Nat) (last first p : Ptr) (n : Nat) : M α (Ptr × Nat) :=
  if first = last then return (p, n)
  else do
    let x ← load first
    let tmp ← constructNode cfg own x
    let first ← getNext first
    setNext cfg p tmp
    insertRangeLoop cfg own last first tmp (n + 1)
partial_fixpoint

/-- linked_list.h:970-988 `insert_after(pos, first, last)`. -/
def insertAfterRangeIn (cfg : Cfg α) (l : Lst) (pos first last : Ptr) : M α (Lst × Ptr) := do
  dbgAssert cfg (pos ≠ l.tail)
  if first = last then return (l, pos)
  else do
    let t ← getNext pos
    let q ← insertRangeLoop cfg l.alloc last first pos l.len
    setNext cfg q.1 t
    let r ← getNext pos
    return ({ l with len := q.2 }, r)

/-- linked_list.h:1183-1201 `insert(pos, first, last)`. -/
def insertRangeIn (cfg : Cfg α) (l : Lst) (pos first last : Ptr) : M α (Lst × Ptr) :=
  if first = last then return (l, pos)
  else do
    let pv ← getPrev pos
    let q ← insertRangeLoop cfg l.alloc last first pv l.len
    setNext cfg q.1 pos
    let r ← getNext pv
    return ({ l with len := q.2 }, r)

/-- Calls of a client: those of `LinkedListHist`, and those that are given the range from position `lo` up to position `hi` of list `j`. -/
inductive ROp (α : Type) where
  | op (o : Op α)
  | newRangeIn (i j lo hi a : Nat)
  | insertAfterRangeIn (i p j lo hi : Nat)
  | insertRangeIn (i p j lo hi : Nat)

/-- The iterators at positions `lo` and `hi` of list `j`. -/
def itersOf (j lo hi : Nat) : Prog (World α) (Ptr × Ptr) := do
  let o ← var j
  let first ← inHeap (iterAt o lo)
  let last ← inHeap (iterAt o hi)
  return (first, last)

def rstep (cfg : Cfg α) : ROp α → Prog (World α) (Res α)
  | .op o => step cfg o
  | .newRangeIn i j lo hi a => do
    let q ← itersOf j lo hi
    create i (newRangeIn cfg q.1 q.2 a)
  | .insertAfterRangeIn i p j lo hi => do
    let q ← itersOf j lo hi
    changeP i fun l => do
      let it ← iterAt l p
      insertAfterRangeIn cfg l it q.1 q.2
  | .insertRangeIn i p j lo hi => do
    let q ← itersOf j lo hi
    changeP i fun l => do
      let it ← iterAt l p
      insertRangeIn cfg l it q.1 q.2

/-- A program. -/
def rrun (cfg : Cfg α) : List (ROp α) → Prog (World α) (List (Res α))
  | [] => return []
  | o :: os => do
    let r ← rstep cfg o
    let rs ← rrun cfg os
    return r :: rs

end Verif.Model.LL
