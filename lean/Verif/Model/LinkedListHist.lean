import Verif.Model.LinkedList
/-!
# Programs over any number of lists of one kind

A world is the heap and the list variables of the program.  `step` runs one call of a client; it passes the variables to
the members modelled in `Model/LinkedList.lean`.  Iterator arguments are given as a number of increments from
`before_begin()`: 0 is `before_begin()`, `1, …, size()` are the elements, `size() + 1` is `end()`; returned iterators are
reported the same way.
-/
namespace Verif.Model.LL
open Verif
open Verif.Spec (End)

structure World (α : Type) where
  heap : Heap α := {}
  vars : Nat → Option Lst := fun _ => none

/-- A `const T&` argument as the client writes it: an own value, or element `k` (from 0) of list variable `j`. -/
inductive Arg (α : Type) where
  | val (x : α)
  | elem (j k : Nat)

/-- Calls.  The first index is the variable constructed or called upon. -/
inductive Op (α : Type) where
  | newAlloc (i a : Nat)
  | newFill (i n : Nat) (r : Arg α) (a : Nat)
  | newCount (i n a : Nat)
  | newRange (i : Nat) (xs : List α) (a : Nat)
  | newMove (i j : Nat)
  | newMoveAlloc (i j a : Nat)
  | newCopy (i j : Nat)
  | newCopyAlloc (i j a : Nat)
  | fromIter (i : Nat) (xs : List α)
  | copyAssign (i j : Nat)
  | moveAssign (i j : Nat)
  | listAssign (i : Nat) (xs : List α)
  | swap (i j : Nat)
  | drop (i : Nat)
  | moved (i : Nat)
  | clear (i : Nat)
  | front (i : Nat)
  | frontUnchecked (i : Nat)
  | frontUncheckedConst (i : Nat)
  | back (i : Nat)
  | backUnchecked (i : Nat)
  | size (i : Nat)
  | empty (i : Nat)
  | set (i p : Nat) (x : α)
  | get (i p : Nat)
  | insertAfter (i p : Nat) (r : Arg α)
  | insertAfterFill (i p n : Nat) (r : Arg α)
  | insertAfterRange (i p : Nat) (xs : List α)
  | eraseAfter (i p : Nat)
  | eraseAfterRange (i lo hi : Nat)
  | insert (i p : Nat) (r : Arg α)
  | insertFill (i p n : Nat) (r : Arg α)
  | insertRange (i p : Nat) (xs : List α)
  | erase (i p : Nat)
  | eraseRange (i lo hi : Nat)
  | pushFront (i : Nat) (r : Arg α)
  | popFront (i : Nat)
  | pushBack (i : Nat) (r : Arg α)
  | popBack (i : Nat)
  | resize (i n : Nat)
  | resizeFill (i n : Nat) (r : Arg α)
  | merge (i j : Nat) (less : α → α → Bool)
  | mergeMove (i j : Nat) (less : α → α → Bool)
  | spliceAfter (i p j : Nat)
  | splice (i p j : Nat)
  | spliceAfterMove (i p j : Nat)
  | spliceMove (i p j : Nat)
  | remove (i : Nat) (eq : α → α → Bool) (r : Arg α)
  | removeIf (i : Nat) (p : α → Bool)
  | reverse (i : Nat)
  | unique (i : Nat) (p : α → α → Bool)
  | sort (i : Nat) (less : α → α → Bool)
  | traverse (i : Nat)
  | traverseBack (i : Nat)
  | traverseRev (i : Nat)
  | iter (i : Nat) (es : List End)
  | drain (i : Nat) (es : List End)
  | print (i : Nat) (shw : α → String)

/-- What the calls return. -/
inductive Res (α : Type) where
  | unit
  | val (x : α)
  | opt (x : Option α)
  | num (n : Nat)
  | bool (b : Bool)
  | pos (p : Nat)
  | seq (xs : List α)
  | opts (xs : List (Option α))
  | text (s : String)

variable {α β : Type}

/-- Runs a heap program. -/
def inHeap (f : M α β) : Prog (World α) β := fun w => f w.heap >>= fun p => .ok (p.1, { w with heap := p.2 })

/-- The list in variable `i`; a variable without list is undefined. -/
def var (i : Nat) : Prog (World α) Lst := fun w =>
  match w.vars i with
  | none => .ub
  | some l => .ok (l, w)

def setVar (i : Nat) (o : Option Lst) : Prog (World α) Unit := fun w => .ok ((), { w with vars := upd w.vars i o })

/-- The reference an argument denotes: `*it` for the iterator at element `k`. -/
def argRef : Arg α → Prog (World α) (Ref α)
  | .val x => return .tmp x
  | .elem j k => do
    let l ← var j
    let p ← inHeap (iterAt l (k + 1))
    return .node p

def create (i : Nat) (f : M α Lst) : Prog (World α) (Res α) := do
  let l ← inHeap f
  setVar i (some l)
  return .unit

def change (i : Nat) (f : Lst → M α Lst) : Prog (World α) (Res α) := do
  let l ← var i
  let l' ← inHeap (f l)
  setVar i (some l')
  return .unit

/-- A member returning a count. -/
def changeN (i : Nat) (f : Lst → M α (Lst × Nat)) : Prog (World α) (Res α) := do
  let l ← var i
  let q ← inHeap (f l)
  setVar i (some q.1)
  return .num q.2

/-- A member returning an iterator. -/
def changeP (i : Nat) (f : Lst → M α (Lst × Ptr)) : Prog (World α) (Res α) := do
  let l ← var i
  let q ← inHeap (f l)
  setVar i (some q.1)
  let n ← inHeap (distFrom q.2 q.1.head 0)
  return .pos n

/-- A member changing two lists. -/
def change2 (i j : Nat) (f : Lst → Lst → M α (Lst × Lst)) : Prog (World α) (Res α) := do
  let l ← var i
  let o ← var j
  let q ← inHeap (f l o)
  setVar i (some q.1)
  setVar j (some q.2)
  return .unit

def look (i : Nat) (f : Lst → M α (Res α)) : Prog (World α) (Res α) := do
  let l ← var i
  inHeap (f l)

def step (cfg : Cfg α) : Op α → Prog (World α) (Res α)
  | .newAlloc i a => create i (newAlloc cfg a)
  | .newFill i n r a => do
    let r ← argRef r
    create i (newFill cfg n r a)
  | .newCount i n a => create i (newCount cfg n a)
  | .newRange i xs a => create i (newRange cfg xs a)
  | .newMove i j => do
    let l ← var j
    setVar i (some (newMove l).1)
    setVar j (some (newMove l).2)
    return .unit
  | .newMoveAlloc i j a => do
    let l ← var j
    let q ← inHeap (newMoveAlloc cfg l a)
    setVar i (some q.1)
    setVar j (some q.2)
    return .unit
  | .newCopy i j => do
    let l ← var j
    create i (newCopy cfg l)
  | .newCopyAlloc i j a => do
    let l ← var j
    create i (newCopyAlloc cfg l a)
  | .fromIter i xs => create i (fromIter cfg xs)
  -- L603-605 `if (&rhs == this) return *this;`
  | .copyAssign i j => if i = j then look i fun _ => return .unit else do
    let o ← var j
    change i fun l => copyAssign cfg l o
  -- L613-615
  | .moveAssign i j => if i = j then look i fun _ => return .unit else change2 i j (moveAssign cfg)
  | .listAssign i xs => change i fun l => listAssign cfg l xs
  -- L1422-1427
  | .swap i j => do
    let l ← var i
    let o ← var j
    setVar i (some o)
    setVar j (some l)
    return .unit
  | .drop i => do
    let l ← var i
    inHeap (destruct cfg l)
    setVar i none
    return .unit
  | .moved i => look i fun l => return .bool (moved l)
  | .clear i => change i (clear cfg)
  | .front i => look i fun l => do
    let x ← front l
    return .opt x
  | .frontUnchecked i => look i fun l => do
    let x ← frontUnchecked l
    return .val x
  | .frontUncheckedConst i => look i fun l => do
    let x ← frontUncheckedConst cfg l
    return .val x
  | .back i => look i fun l => do
    let x ← back l
    return .opt x
  | .backUnchecked i => look i fun l => do
    let x ← backUnchecked l
    return .val x
  -- L859-861
  | .size i => look i fun l => return .num l.len
  -- L851-853
  | .empty i => look i fun l => return .bool (l.len == 0)
  | .set i p x => look i fun l => do
    let it ← iterAt l p
    store it x
    return .unit
  | .get i p => look i fun l => do
    let it ← iterAt l p
    let x ← load it
    return .val x
  | .insertAfter i p r => do
    let r ← argRef r
    changeP i fun l => do
      let it ← iterAt l p
      emplaceAfter cfg l it r
  | .insertAfterFill i p n r => do
    let r ← argRef r
    changeP i fun l => do
      let it ← iterAt l p
      insertAfterFill cfg l it n r
  | .insertAfterRange i p xs => changeP i fun l => do
    let it ← iterAt l p
    insertAfterRange cfg l it xs
  | .eraseAfter i p => changeP i fun l => do
    let it ← iterAt l p
    eraseAfter cfg l it
  | .eraseAfterRange i lo hi => changeP i fun l => do
    let a ← iterAt l lo
    let b ← iterAt l hi
    eraseAfterRange cfg l a b
  | .insert i p r => do
    let r ← argRef r
    changeP i fun l => do
      let it ← iterAt l p
      emplace cfg l it r
  | .insertFill i p n r => do
    let r ← argRef r
    changeP i fun l => do
      let it ← iterAt l p
      insertFill cfg l it n r
  | .insertRange i p xs => changeP i fun l => do
    let it ← iterAt l p
    insertRange cfg l it xs
  | .erase i p => changeP i fun l => do
    let it ← iterAt l p
    erase cfg l it
  | .eraseRange i lo hi => changeP i fun l => do
    let a ← iterAt l lo
    let b ← iterAt l hi
    eraseRange cfg l a b
  | .pushFront i r => do
    let r ← argRef r
    change i fun l => pushFront cfg l r
  | .popFront i => change i (popFront cfg)
  | .pushBack i r => do
    let r ← argRef r
    change i fun l => pushBack cfg l r
  | .popBack i => change i (popBack cfg)
  | .resize i n => change i fun l => resize cfg l n
  | .resizeFill i n r => do
    let r ← argRef r
    change i fun l => resizeFill cfg l n r
  -- L1470 `if (&other == this || other.empty()) return;`
  | .merge i j less => if i = j then look i fun l => do
      dbgAssert cfg l.head.isSome
      return .unit
    else change2 i j (merge cfg less)
  -- L1514
  | .mergeMove i j less => if i = j then look i fun l => do
      dbgAssert cfg l.head.isSome
      return .unit
    else change2 i j (mergeMove cfg less)
  | .spliceAfter i p j => change2 i j fun l o => do
    let it ← iterAt l p
    spliceAfter cfg l it o
  | .splice i p j => change2 i j fun l o => do
    let it ← iterAt l p
    splice cfg l it o
  | .spliceAfterMove i p j => change2 i j fun l o => do
    let it ← iterAt l p
    spliceAfterMove cfg l it o
  | .spliceMove i p j => change2 i j fun l o => do
    let it ← iterAt l p
    spliceMove cfg l it o
  | .remove i eq r => do
    let r ← argRef r
    changeN i fun l => remove cfg eq l r
  | .removeIf i p => changeN i fun l => do
    let q ← removeIf cfg l (fun (_ : Unit) x => return (p x, ())) ()
    return (q.1, q.2.1)
  | .reverse i => change i (reverse cfg)
  | .unique i p => changeN i fun l => unique cfg l p
  | .sort i less => change i (sort cfg less)
  | .traverse i => look i fun l => do
    let xs ← traverse l
    return .seq xs
  | .traverseBack i => look i fun l => do
    let xs ← traverseBack l
    return .seq xs
  | .traverseRev i => look i fun l => do
    let xs ← traverseRev l
    return .seq xs
  | .iter i es => look i fun l => do
    let it ← iter l
    let rs ← it.takes es
    return .opts rs
  -- L742-744: the iterator takes the list over
  | .drain i es => do
    let l ← var i
    setVar i (some (newMove l).2)
    let rs ← inHeap (drain cfg (newMove l).1 es)
    return .opts rs
  | .print i shw => look i fun l => do
    let s ← print cfg shw l
    return .text s

def run (cfg : Cfg α) : List (Op α) → Prog (World α) (List (Res α))
  | [] => return []
  | op :: ops => do
    let r ← step cfg op
    let rs ← run cfg ops
    return r :: rs

end Verif.Model.LL
