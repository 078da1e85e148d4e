import Verif.Model.NestedCmp
/-!
# `remove_if`, `unique` and `sort` of linked lists of objects

The predicate is a program that runs on the elements, in their nodes, like the comparisons of Model/NestedCmp.lean.  It takes its arguments by
reference.  `LL` names the functions of Model/LinkedList.lean, of which those used here touch only nodes.
-/
namespace Verif.Model.Nested
open Verif Verif.Model.Mem

variable {S : Sig} {σ : Type} (C : Cls S σ) (lcfg : LL.Cfg Unit)

/-- linked_list.h:1622-1632, the loop of `remove_if`: the new length and the count. -/
def lremoveLoop (own : Nat) (tail : LL.Ptr) (pred : Nat → Prog σ Bool) (cur last : LL.Ptr) (len cnt : Nat) : Prog (LSt σ) (Nat × Nat) :=
  if cur = tail then return (len, cnt)
  else do
    let a ← dataOf cur
    let b ← inElems (pred a)
    if b then do
      let nx ← inNodes (LL.getNext cur)
      inNodes (LL.setNext lcfg last nx)
      killNode C lcfg own cur
      let cur' ← inNodes (LL.getNext last)
      lremoveLoop own tail pred cur' last (LL.dec len) (cnt + 1)
    else do
      let cur' ← inNodes (LL.getNext cur)
      let last' ← inNodes (LL.getNext last)
      lremoveLoop own tail pred cur' last' len cnt
partial_fixpoint

/-- linked_list.h:1611-1635 `remove_if(predicate)`. -/
def lremoveIf (pred : Nat → Prog σ Bool) (l : LL.Lst) : Prog (LSt σ) (LL.Lst × Nat) := do
  inNodes (LL.dbgAssert lcfg l.head.isSome)
  if l.len = 0 then return (l, 0)
  else do
    let cur ← inNodes (LL.getNext l.head)
    let r ← lremoveLoop C lcfg l.alloc l.tail pred cur l.head l.len 0
    return ({ l with len := r.1 }, r.2)

/-- linked_list.h:1700-1712, the loop of `unique`: the new length and the count. -/
def luniqueLoop (own : Nat) (tail : LL.Ptr) (pred : Nat → Nat → Prog σ Bool) (cur before last : LL.Ptr) (len cnt : Nat) :
    Prog (LSt σ) (Nat × Nat) :=
  if cur = tail then return (len, cnt)
  else do
    let a ← dataOf cur
    let b ← dataOf last
    let t ← inElems (pred a b)
    if t then do
      let nx ← inNodes (LL.getNext cur)
      inNodes (LL.setNext lcfg before nx)
      killNode C lcfg own cur
      let cur' ← inNodes (LL.getNext before)
      luniqueLoop own tail pred cur' before last (LL.dec len) (cnt + 1)
    else do
      let cur' ← inNodes (LL.getNext cur)
      luniqueLoop own tail pred cur' cur cur len cnt
partial_fixpoint

/-- linked_list.h:1677-1679, 1691-1714 `unique(p)`. -/
def lunique (pred : Nat → Nat → Prog σ Bool) (l : LL.Lst) : Prog (LSt σ) (LL.Lst × Nat) := do
  inNodes (LL.dbgAssert lcfg l.head.isSome)
  if l.len < 2 then return (l, 0)
  else do
    let first ← inNodes (LL.getNext l.head)
    let cur ← inNodes (LL.getNext first)
    let r ← luniqueLoop C lcfg l.alloc l.tail pred cur first first l.len 0
    return ({ l with len := r.1 }, r.2)

/-- A member that may change the list at an address and returns a number. -/
def changeCount (d : Nat) (f : LL.Lst → Prog (LSt σ) (LL.Lst × Nat)) : Prog (LWorld σ) Nat := do
  let l ← lobj d
  let q ← inLSt (f l)
  setLobj d (some q.1)
  return q.2

/-- `x.remove_if(...)` for the list at an address (linked_list.h:1611-1635); the predicate calls a member of the element and tests the
result. -/
def removeIfAt (c : S.Call) (test : S.Ret → Bool) (d : Nat) : Prog (LWorld σ) Nat :=
  changeCount d (lremoveIf C lcfg fun a => do
    let r ← C.call c a
    return test r)

/-- `x.unique(p)` for the list at an address (linked_list.h:1677-1714). -/
def uniqueAt (pred : Nat → Nat → Prog σ Bool) (d : Nat) : Prog (LWorld σ) Nat := changeCount d (lunique C lcfg pred)

/-! ## Sorting: only links change, and the predicate reads the elements in their nodes -/

/-- linked_list.h:281-290, the loop of `merge`. -/
def lmergeLoop (pred : Nat → Nat → Prog σ Bool) (a b p : LL.Ptr) : Prog (LSt σ) (LL.Ptr × LL.Ptr × LL.Ptr) := do
  let ea ← inNodes (LL.isEnd a)
  if ea then return (a, b, p)
  else do
    let eb ← inNodes (LL.isEnd b)
    if eb then return (a, b, p)
    else do
      let x ← dataOf a
      let y ← dataOf b
      let t ← inElems (pred x y)
      if t then do
        inNodes (LL.setNext lcfg p a)
        let a' ← inNodes (LL.getNext a)
        let p' ← inNodes (LL.getNext p)
        lmergeLoop pred a' b p'
      else do
        inNodes (LL.setNext lcfg p b)
        let b' ← inNodes (LL.getNext b)
        let p' ← inNodes (LL.getNext p)
        lmergeLoop pred a b' p'
partial_fixpoint

/-- linked_list.h:259-301 `_private::merge`: first and last node of the merged chain; no last node if one chain was empty. -/
def lmergeChains (pred : Nat → Nat → Prog σ Bool) (a b : LL.Ptr) : Prog (LSt σ) (LL.Ptr × LL.Ptr) := do
  let ea ← inNodes (LL.isEnd a)
  if ea then return (b, none)
  else do
    let eb ← inNodes (LL.isEnd b)
    if eb then return (a, none)
    else do
      let x ← dataOf a
      let y ← dataOf b
      let t ← inElems (pred x y)
      let (res, a, b) ← if t then do
          let a' ← inNodes (LL.getNext a)
          pure (a, a', b)
        else do
          let b' ← inNodes (LL.getNext b)
          pure (b, a, b')
      let (a, b, p) ← lmergeLoop lcfg pred a b res
      let ea ← inNodes (LL.isEnd a)
      if !ea then inNodes (LL.setNext lcfg p a)
      else do
        let eb ← inNodes (LL.isEnd b)
        if !eb then inNodes (LL.setNext lcfg p b) else pure ()
      let t ← inNodes (LL.lastLoop p)
      return (res, t)

/-- linked_list.h:232-255 `mergeSort`. -/
def lmergeSort (pred : Nat → Nat → Prog σ Bool) (head : LL.Ptr) : Prog (LSt σ) (LL.Ptr × LL.Ptr) :=
  if head = none then return (head, none)
  else do
    let nx ← inNodes (LL.getNext head)
    if nx = none then return (head, none)
    else do
      let fast ← inNodes (LL.midLoop head head)
      let slow ← inNodes (LL.getNext fast)
      inNodes (LL.putNext fast none)
      let g1 ← lmergeSort pred head
      let g2 ← lmergeSort pred slow
      lmergeChains lcfg pred g1.1 g2.1
partial_fixpoint

/-- linked_list.h:1729-1737 `sort(predicate)`. -/
def lsort (pred : Nat → Nat → Prog σ Bool) (l : LL.Lst) : Prog (LSt σ) LL.Lst := do
  inNodes (LL.dbgAssert lcfg l.head.isSome)
  let b ← inNodes (LL.getNext l.head)
  let r ← lmergeSort lcfg pred b
  inNodes (LL.setNext lcfg l.head r.1)
  if r.2 ≠ none then inNodes (LL.setNext lcfg r.2 l.tail) else pure ()
  return l

/-- `x.sort(p)` for the list at an address (linked_list.h:1729-1737). -/
def sortAt (pred : Nat → Nat → Prog σ Bool) (d : Nat) : Prog (LWorld σ) Unit := do
  let l ← lobj d
  let l' ← inLSt (lsort lcfg pred l)
  setLobj d (some l')

/-- `a < b`, by `operator<=>` (vector.h:1086-1107), for elements at two addresses. -/
def lessBy (cmp : Nat → Nat → Prog σ (Option Ordering)) (a b : Nat) : Prog σ Bool := do
  let p ← cmp a b
  return p == some .lt

end Verif.Model.Nested
