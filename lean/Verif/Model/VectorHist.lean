import Verif.Model.Vector
/-!
# Programs over any number of Vectors

A world is the heap and the vector variables of the program.  `step` runs one call of a client on them; it only passes
the variables to the members modelled in `Model/Vector.lean` and models no further library code, except `swap`,
destruction and the self-assignment tests, cited below.
-/
namespace Verif.Model.Vector
open Verif Verif.Model.Mem

structure World (α : Type) where
  heap : Heap α := {}
  vars : Nat → Option Vec := fun _ => none

/-- A `const T&` argument as the client writes it: an own value, or element `k` of vector variable `j`. -/
inductive Arg (α : Type) where
  | val (x : α)
  | elem (j k : Nat)

/-- Calls.  The first index is the variable constructed or called upon. -/
inductive Op (α : Type) where
  | newDefault (i : Nat)
  | newAlloc (i a : Nat)
  | newFill (i n : Nat) (r : Arg α) (a : Nat)
  | newCount (i n a : Nat)
  | newList (i : Nat) (xs : List α) (a : Nat)
  | newRange (i : Nat) (xs : List α) (a : Nat)
  | newCopy (i j : Nat)
  | newCopyAlloc (i j a : Nat)
  | newMove (i j a : Nat)
  | fromIter (i : Nat) (xs : List α)
  | copyAssign (i j : Nat)
  | moveAssign (i j : Nat)
  | listAssign (i : Nat) (xs : List α)
  | swap (i j : Nat)
  | drop (i : Nat)
  | clear (i : Nat)
  | reserve (i n : Nat)
  | push (i : Nat) (r : Arg α)
  | pop (i : Nat)
  | assignFill (i n : Nat) (r : Arg α)
  | assignList (i : Nat) (xs : List α)
  | set (i k : Nat) (x : α)
  | get (i k : Nat)
  | at (i k : Nat)
  | front (i : Nat)
  | back (i : Nat)
  | size (i : Nat)
  | capacity (i : Nat)
  | empty (i : Nat)
  | insert (i p : Nat) (r : Arg α)
  | emplace (i p : Nat) (x : α)
  | insertFill (i p n : Nat) (r : Arg α)
  | insertRange (i p : Nat) (xs : List α)
  | erase (i p : Nat)
  | eraseRange (i lo hi : Nat)
  | resize (i n : Nat)
  | resizeFill (i n : Nat) (r : Arg α)
  | collect (i : Nat)
  | drain (i n : Nat)
  | drainRev (i n : Nat)
  | equal (i j : Nat) (eq : α → α → Bool)
  | compare (i j : Nat) (cmp : α → α → Option Ordering)
  | print (i : Nat) (shw : α → String)

/-- What the calls return. -/
inductive Res (α : Type) where
  | unit
  | val (x : α)
  | opt (x : Option α)
  | num (n : Nat)
  | bool (b : Bool)
  | pos (p : Option Nat)
  | seq (xs : List α)
  | opts (xs : List (Option α))
  | ord (o : Option Ordering)
  | text (s : String)

variable {α β : Type}

/-- Runs a heap program. -/
def inHeap (f : M α β) : Prog (World α) β := fun w => f w.heap >>= fun p => .ok (p.1, { w with heap := p.2 })

/-- The vector in variable `i`; a variable without vector is undefined. -/
def var (i : Nat) : Prog (World α) Vec := fun w =>
  match w.vars i with
  | none => .ub
  | some v => .ok (v, w)

def bindVar (f : Nat → Option Vec) (i : Nat) (o : Option Vec) : Nat → Option Vec := fun j => if j = i then o else f j

def setVar (i : Nat) (o : Option Vec) : Prog (World α) Unit := fun w => .ok ((), { w with vars := bindVar w.vars i o })

/-- The reference an argument denotes. -/
def argRef : Arg α → Prog (World α) (Ref α)
  | .val x => return .tmp x
  | .elem j k => do
    let v ← var j
    return .slot v.ptr k

def create (i : Nat) (f : M α Vec) : Prog (World α) (Res α) := do
  let v ← inHeap f
  setVar i (some v)
  return .unit

def change (i : Nat) (f : Vec → M α Vec) : Prog (World α) (Res α) := do
  let v ← var i
  let v' ← inHeap (f v)
  setVar i (some v')
  return .unit

def change' (i : Nat) (f : Vec → M α (Vec × Option Nat)) : Prog (World α) (Res α) := do
  let v ← var i
  let p ← inHeap (f v)
  setVar i (some p.1)
  return .pos p.2

def look (i : Nat) (f : Vec → M α (Res α)) : Prog (World α) (Res α) := do
  let v ← var i
  inHeap (f v)

/-- `n` calls of `next`, then the iterator is destroyed (vector.h:113-115 for the vector inside). -/
def drainN (ty : ElemTy α) (it : IntoIter) : Nat → M α (List (Option α))
  | 0 => do
    let _ ← clear ty it.vec
    return []
  | n + 1 => do
    let r ← it.next ty
    let rest ← drainN ty r.2 n
    return r.1 :: rest

def drainRevN (ty : ElemTy α) (v : Vec) : Nat → M α (List (Option α))
  | 0 => do
    let _ ← clear ty v
    return []
  | n + 1 => do
    let r ← intoNextReversed ty v
    let rest ← drainRevN ty r.2 n
    return r.1 :: rest

def step (ty : ElemTy α) : Op α → Prog (World α) (Res α)
  | .newDefault i => create i (newDefault ty)
  | .newAlloc i a => create i (newAlloc a)
  | .newFill i n r a => do
    let r ← argRef r
    create i (newFill ty n r a)
  | .newCount i n a => create i (newCount ty n a)
  | .newList i xs a => create i (newList ty xs a)
  | .newRange i xs a => create i (newRange ty xs a)
  | .newCopy i j => do
    let v ← var j
    create i (newCopy ty v)
  | .newCopyAlloc i j a => do
    let v ← var j
    create i (newCopyAlloc ty v a)
  | .newMove i j a => do
    let v ← var j
    let p := newMove v a
    setVar i (some p.1)
    setVar j (some p.2)
    return .unit
  | .fromIter i xs => create i (fromIter ty xs)
  -- vector.h:118-120: `if (&other == this) return *this`
  | .copyAssign i j => if i = j then look i fun _ => return .unit else do
    let w ← var j
    change i fun v => copyAssign ty v w
  -- vector.h:148-150
  | .moveAssign i j => if i = j then look i fun _ => return .unit else do
    let v ← var i
    let w ← var j
    let p ← inHeap (moveAssign ty v w)
    setVar i (some p.1)
    setVar j (some p.2)
    return .unit
  | .listAssign i xs => change i fun v => listAssign ty v xs
  -- vector.h:772-779
  | .swap i j => do
    let v ← var i
    let w ← var j
    setVar i (some w)
    setVar j (some v)
    return .unit
  -- vector.h:113-115 `~Vector`
  | .drop i => do
    let v ← var i
    let _ ← inHeap (clear ty v)
    setVar i none
    return .unit
  | .clear i => change i (clear ty)
  | .reserve i n => change i fun v => reserve ty v n
  | .push i r => do
    let r ← argRef r
    change i fun v => pushBack ty v r
  | .pop i => change i popBack
  | .assignFill i n r => do
    let r ← argRef r
    change i fun v => assignFill ty v n r
  | .assignList i xs => change i fun v => assignList ty v xs
  | .set i k x => look i fun v => do
    indexSet v k x
    return .unit
  | .get i k => look i fun v => do
    let x ← index v k
    return .val x
  | .at i k => look i fun v => do
    let x ← getAt v k
    return .opt x
  | .front i => look i fun v => do
    let x ← front v
    return .opt x
  | .back i => look i fun v => do
    let x ← back v
    return .opt x
  -- vector.h:484-486
  | .size i => look i fun v => return .num v.len
  -- vector.h:505-507
  | .capacity i => look i fun v => return .num v.cap
  -- vector.h:476-478
  | .empty i => look i fun v => return .bool (v.len == 0)
  | .insert i p r => do
    let r ← argRef r
    change' i fun v => do
      let q ← insert ty v p r
      return (q.1, some q.2)
  | .emplace i p x => change i fun v => emplace ty v p x
  | .insertFill i p n r => do
    let r ← argRef r
    change' i fun v => do
      let q ← insertFill ty v p n r
      return (q.1, some q.2)
  | .insertRange i p xs => change' i fun v => do
    let q ← insertRange ty v p xs
    return (q.1, some q.2)
  | .erase i p => change' i fun v => erase ty v p
  | .eraseRange i lo hi => change' i fun v => eraseRange ty v lo hi
  | .resize i n => change i fun v => resize ty v n
  | .resizeFill i n r => do
    let r ← argRef r
    change i fun v => resizeFill ty v n r
  | .collect i => look i fun v => do
    let xs ← (iter v).drain []
    return .seq xs
  | .drain i n => do
    let v ← var i
    let p := intoIter v
    setVar i (some p.2)
    let rs ← inHeap (drainN ty p.1 n)
    return .opts rs
  | .drainRev i n => do
    let v ← var i
    let p := newMove v dfltAlloc
    setVar i (some p.2)
    let rs ← inHeap (drainRevN ty p.1 n)
    return .opts rs
  | .equal i j eq => do
    let w ← var j
    look i fun v => do
      let b ← equal eq v w
      return .bool b
  | .compare i j cmp => do
    let w ← var j
    look i fun v => do
      let o ← threeWay cmp v w
      return .ord o
  | .print i shw => look i fun v => do
    let s ← print shw v
    return .text s

def run (ty : ElemTy α) : List (Op α) → Prog (World α) (List (Res α))
  | [] => return []
  | op :: ops => do
    let r ← step ty op
    let rs ← run ty ops
    return r :: rs

end Verif.Model.Vector
