import Verif.Model.LinkedListHist
/-!
# Moving elements out of lists

A client may write `std::move(*it)` for an element of any of its lists, as a value of its own or as the argument of a member that takes `T&&`
or forwards its arguments.  The element moved from stays in its node with the value `mv x`.  As in `Model/LinkedList.lean` the argument is looked
at just before the new node is requested; in the library it is looked at just after, when the element is constructed in the node.
-/
namespace Verif.Model.LLGive
open Verif Verif.Model.LL

variable {α : Type}

/-- linked_list.h:1008-1015 `emplace_after(pos, std::move(…))`, also 926-929 `insert_after(pos, T&&)`. -/
def emplaceAfterMove (cfg : Cfg α) (l : Lst) (pos r : Ptr) : M α (Lst × Ptr) := do
  dbgAssert cfg (pos ≠ l.tail)
  let x ← take cfg r
  let tmp ← constructNode cfg l.alloc x
  let nx ← getNext pos
  setNext cfg tmp nx
  setNext cfg pos tmp
  return ({ l with len := l.len + 1 }, tmp)

/-- linked_list.h:1079-1089 `emplace(pos, std::move(…))`, also 1133-1136 `insert(pos, T&&)`. -/
def emplaceMove (cfg : Cfg α) (l : Lst) (pos r : Ptr) : M α (Lst × Ptr) := do
  dbgAssert cfg (pos ≠ l.head)
  let x ← take cfg r
  let tmp ← constructNode cfg l.alloc x
  let pv ← getPrev pos
  setNext cfg pv tmp
  setNext cfg tmp pos
  return ({ l with len := l.len + 1 }, tmp)

/-- linked_list.h:1277-1280 `push_front(T&&)`, 1296-1303 `emplace_front(std::move(…))`. -/
def pushFrontMove (cfg : Cfg α) (l : Lst) (r : Ptr) : M α Lst := do
  let x ← take cfg r
  let node ← constructNode cfg l.alloc x
  let nx ← getNext l.head
  setNext cfg node nx
  setNext cfg l.head node
  return { l with len := l.len + 1 }

/-- linked_list.h:1324-1327 `push_back(T&&)`, 1351-1361 `emplace_back(std::move(…))`. -/
def pushBackMove (cfg : Cfg α) (l : Lst) (r : Ptr) : M α Lst := do
  let x ← take cfg r
  let node ← constructNode cfg l.alloc x
  let pv ← getPrev l.tail
  setNext cfg pv node
  setNext cfg node l.tail
  return { l with len := l.len + 1 }

/-- Elements moved from are numbered from 0, positions from `before_begin()`. -/
inductive GOp (α : Type) where
  /-- a call without moved elements -/
  | base (op : Op α)
  /-- `T x = std::move(*it);` for element `k` of list `j`; the result is `x` (linked_list.h:170-172) -/
  | takeOut (j k : Nat)
  /-- `*to = std::move(*it);` where `to` is position `p` of list `i` (linked_list.h:170-172) -/
  | setMove (i p j k : Nat)
  /-- `i.push_front(std::move(*it))` -/
  | pushFront (i j k : Nat)
  /-- `i.push_back(std::move(*it))` -/
  | pushBack (i j k : Nat)
  /-- `i.insert_after(pos, std::move(*it))` -/
  | insertAfter (i p j k : Nat)
  /-- `i.insert(pos, std::move(*it))` -/
  | insert (i p j k : Nat)

/-- The node of element `k` of list `j`. -/
def nodeAt (j k : Nat) : Prog (World α) Ptr := do
  let l ← var j
  inHeap (iterAt l (k + 1))

def gstep (cfg : Cfg α) : GOp α → Prog (World α) (Res α)
  | .base op => step cfg op
  | .takeOut j k => do
    let r ← nodeAt j k
    let x ← inHeap (take cfg r)
    return .val x
  | .setMove i p j k => do
    let r ← nodeAt j k
    look i fun l => do
      let it ← iterAt l p
      let x ← take cfg r
      store it x
      return .unit
  | .pushFront i j k => do
    let r ← nodeAt j k
    change i fun l => pushFrontMove cfg l r
  | .pushBack i j k => do
    let r ← nodeAt j k
    change i fun l => pushBackMove cfg l r
  | .insertAfter i p j k => do
    let r ← nodeAt j k
    changeP i fun l => do
      let it ← iterAt l p
      emplaceAfterMove cfg l it r
  | .insert i p j k => do
    let r ← nodeAt j k
    changeP i fun l => do
      let it ← iterAt l p
      emplaceMove cfg l it r

def grun (cfg : Cfg α) : List (GOp α) → Prog (World α) (List (Res α))
  | [] => return []
  | op :: ops => do
    let r ← gstep cfg op
    let rs ← grun cfg ops
    return r :: rs

end Verif.Model.LLGive
