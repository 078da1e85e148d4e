import Verif.Model.LinkedListHist
/-!
# Model of `ListIterSTL`, the standard-style iterators of a list (include/mstl/collection/linked_list.h:143-222)

An iterator is the pointer `cur`; copying (L156), assigning (L158-164) and converting to the const iterator (L166-168) copy `cur`.
Moving through a null pointer or a deallocated node is undefined (`getNext`, `getPrev`).  `L` stands for linked_list.h.
-/
namespace Verif.Model.LL
open Verif

variable {α : Type}

/-- L178-181 `++it`: the returned reference is the iterator itself. -/
def itInc (cur : Ptr) : M α Ptr := getNext cur

/-- L183-187 `it++`: the old iterator and the new one. -/
def itPostInc (cur : Ptr) : M α (Ptr × Ptr) := do
  let tmp := cur
  let c ← getNext cur
  return (tmp, c)

/-- L207-211 `--it`, only for doubly linked lists. -/
def itDec (cur : Ptr) : M α Ptr := getPrev cur

/-- L213-218 `it--`, only for doubly linked lists. -/
def itPostDec (cur : Ptr) : M α (Ptr × Ptr) := do
  let tmp := cur
  let c ← getPrev cur
  return (tmp, c)

/-- L220-222 `operator==`. -/
def itEq (p q : Ptr) : Bool := decide (p = q)

/-- L193-195 `operator++(int) requires Reversed { return operator--(0); }` and L202-205 `operator--(int) requires … && Reversed
{ return operator++(0); }`: `up = true` is the first, `up = false` the second. -/
def postRev (up : Bool) (cur : Ptr) : M α (Ptr × Ptr) := postRev (!up) cur
partial_fixpoint

/-- Ways a client moves an iterator.  `old`: the client goes on with what the postfix operator returned. -/
inductive Move where
  | inc
  | postInc (old : Bool)
  | dec
  | postDec (old : Bool)
  deriving DecidableEq, Repr

/-- Client code. -/
def itApply (cur : Ptr) : Move → M α Ptr
  | .inc => itInc cur
  | .postInc old => do
    let p ← itPostInc cur
    return if old then p.1 else p.2
  | .dec => itDec cur
  | .postDec old => do
    let p ← itPostDec cur
    return if old then p.1 else p.2

/-- Client code. -/
def itApplyAll (cur : Ptr) : List Move → M α Ptr
  | [] => return cur
  | m :: ms => do
    let cur ← itApply cur m
    itApplyAll cur ms

/-- Where a client starts. -/
inductive Start where
  | beforeBegin
  | begin
  | fin
  deriving DecidableEq, Repr

/-- L780-790 `before_begin`, L792-802 `begin`, L804-814 `end`, with their const forms. -/
def startIt (l : Lst) : Start → M α Ptr
  | .beforeBegin => return l.head
  | .begin => getNext l.head
  | .fin => return l.tail

/-- A client takes an iterator of list variable `i` and moves it. -/
def walkIn (i : Nat) (s : Start) (ms : List Move) : Prog (World α) Ptr := do
  let l ← var i
  let it ← inHeap (startIt l s)
  inHeap (itApplyAll it ms)

end Verif.Model.LL
