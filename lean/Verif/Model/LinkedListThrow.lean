import Verif.Model.LinkedListHist
/-!
# Linked lists when the comparison function throws

`sort`, `merge` and `unique` once more, for a predicate that answers like `less` but throws at its `k`-th call (counted from
0 within one call of the member) if `thr k`.  None of these members is `noexcept` and none catches: the exception leaves the
member and the objects stay as they are at that moment.  Every program whose predicate throws depending on its arguments
runs like one of these, because the calls of one run have numbers.

The results say whether the predicate threw (`none`, or `true` in a first component) together with the objects as they are
then.  `remove`, `remove_if` are `noexcept`: there a throw is `std::terminate`.
-/
namespace Verif.Model.LL
open Verif

variable {α : Type}

/-- linked_list.h:281-290, the loop of `merge`; `k` counts the calls of the predicate. -/
def mergeLoopT (cfg : Cfg α) (less : α → α → Bool) (thr : Nat → Bool) (a b p : Ptr) (k : Nat) : M α (Option (Ptr × Ptr × Ptr) × Nat) := do
  let ea ← isEnd a
  if ea then return (some (a, b, p), k)
  else do
    let eb ← isEnd b
    if eb then return (some (a, b, p), k)
    else do
      let x ← load a
      let y ← load b
      if thr k then return (none, k + 1)
      else if less x y then do
        setNext cfg p a
        let a' ← getNext a
        let p' ← getNext p
        mergeLoopT cfg less thr a' b p' (k + 1)
      else do
        setNext cfg p b
        let b' ← getNext b
        let p' ← getNext p
        mergeLoopT cfg less thr a b' p' (k + 1)
partial_fixpoint

/-- linked_list.h:281-300, what follows the choice of the first node in `merge`. -/
def mergeRestT (cfg : Cfg α) (less : α → α → Bool) (thr : Nat → Bool) (res a b : Ptr) (k : Nat) : M α (Option (Ptr × Ptr) × Nat) := do
  let r ← mergeLoopT cfg less thr a b res k
  match r.1 with
  | none => return (none, r.2)
  | some (a, b, p) => do
    let ea ← isEnd a
    if !ea then setNext cfg p a
    else do
      let eb ← isEnd b
      if !eb then setNext cfg p b else pure ()
    let t ← lastLoop p
    return (some (res, t), r.2)

/-- linked_list.h:259-301 `_private::merge`. -/
def mergeChainsT (cfg : Cfg α) (less : α → α → Bool) (thr : Nat → Bool) (a b : Ptr) (k : Nat) : M α (Option (Ptr × Ptr) × Nat) := do
  let ea ← isEnd a
  if ea then return (some (b, none), k)
  else do
    let eb ← isEnd b
    if eb then return (some (a, none), k)
    else do
      let x ← load a
      let y ← load b
      if thr k then return (none, k + 1)
      else if less x y then do
        let a' ← getNext a
        mergeRestT cfg less thr a a' b (k + 1)
      else do
        let b' ← getNext b
        mergeRestT cfg less thr b a b' (k + 1)

/-- linked_list.h:232-255 `mergeSort`. -/
def mergeSortT (cfg : Cfg α) (less : α → α → Bool) (thr : Nat → Bool) (head : Ptr) (k : Nat) : M α (Option (Ptr × Ptr) × Nat) :=
  if head = none then return (some (head, none), k)
  else do
    let nx ← getNext head
    if nx = none then return (some (head, none), k)
    else do
      let fast ← midLoop head head
      let slow ← getNext fast
      putNext fast none
      let g1 ← mergeSortT cfg less thr head k
      match g1.1 with
      | none => return (none, g1.2)
      | some r1 => do
        let g2 ← mergeSortT cfg less thr slow g1.2
        match g2.1 with
        | none => return (none, g2.2)
        | some r2 => mergeChainsT cfg less thr r1.1 r2.1 g2.2
partial_fixpoint

/-- linked_list.h:1729-1737 `sort(predicate)`. -/
def sortT (cfg : Cfg α) (less : α → α → Bool) (thr : Nat → Bool) (l : Lst) : M α (Bool × Lst) := do
  dbgAssert cfg l.head.isSome
  let b ← getNext l.head
  let r ← mergeSortT cfg less thr b 0
  match r.1 with
  | none => return (true, l)
  | some r => do
    setNext cfg l.head r.1
    if r.2 ≠ none then setNext cfg r.2 l.tail else pure ()
    return (false, l)

/-- linked_list.h:1465-1487 `merge(BaseList& other, p)` for another list; both sizes are written before the chains
are merged. -/
def mergeT (cfg : Cfg α) (less : α → α → Bool) (thr : Nat → Bool) (l o : Lst) : M α (Bool × Lst × Lst) := do
  dbgAssert cfg l.head.isSome
  dbgAssert cfg o.head.isSome
  if o.len = 0 then return (false, l, o)
  else do
    let a ← getNext l.head
    let b ← getNext o.head
    setNext cfg o.head o.tail
    let r ← mergeChainsT cfg less thr a b 0
    match r.1 with
    | none => return (true, { l with len := l.len + o.len }, { o with len := 0 })
    | some r => do
      setNext cfg l.head r.1
      if r.2 ≠ none then setNext cfg r.2 l.tail else pure ()
      return (false, { l with len := l.len + o.len }, { o with len := 0 })

/-- linked_list.h:1700-1712, the loop of `unique`; the member `len` is decremented as the loop runs. -/
def uniqueLoopT (cfg : Cfg α) (thr : Nat → Bool) (own : Nat) (tail : Ptr) (p : α → α → Bool) (cur before last : Ptr) (len cnt k : Nat) :
    M α (Bool × Nat × Nat) :=
  if cur = tail then return (false, len, cnt)
  else do
    let x ← load cur
    let y ← load last
    if thr k then return (true, len, cnt)
    else if p x y then do
      let nx ← getNext cur
      setNext cfg before nx
      destroyNode cfg own cur
      let cur' ← getNext before
      uniqueLoopT cfg thr own tail p cur' before last (dec len) (cnt + 1) (k + 1)
    else do
      let cur' ← getNext cur
      uniqueLoopT cfg thr own tail p cur' cur cur len cnt (k + 1)
partial_fixpoint

/-- linked_list.h:1691-1714 `unique(p)`. -/
def uniqueT (cfg : Cfg α) (thr : Nat → Bool) (l : Lst) (p : α → α → Bool) : M α (Bool × Lst × Nat) := do
  dbgAssert cfg l.head.isSome
  if l.len < 2 then return (false, l, 0)
  else do
    let first ← getNext l.head
    let cur ← getNext first
    let r ← uniqueLoopT cfg thr l.alloc l.tail p cur first first l.len 0 0
    return (r.1, { l with len := r.2.1 }, r.2.2)

end Verif.Model.LL
