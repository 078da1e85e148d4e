import Verif.Model.VectorHist
/-!
# Programs over Vectors and owning iterators

vector.h:34-41, 391-405, 993-1056.  The iterators `into_iter()` and `into_iter_reversed()` give are objects with a life of
their own: they are advanced, moved and destroyed while the program goes on using its vectors.  Variable `i` of a program
holds a vector or an iterator; the vector inside an iterator is kept in `base.vars i`, what else the iterator consists of
in `its i`.
-/
namespace Verif.Model.VectorOwn
open Verif Verif.Model.Mem Verif.Model.Vector

/-- The members of an iterator besides its vector: vector.h:1024-1025 `pos`, `len` of `VectorIntoIter<T, A, false>`;
`VectorIntoIter<T, A, true>` has none (L1055). -/
inductive Kind where
  | fwd (pos len : Nat)
  | rev
  deriving DecidableEq

structure OWorld (α : Type) where
  base : World α := {}
  its : Nat → Option Kind := fun _ => none

inductive OOp (α : Type) where
  /-- a call on vectors only -/
  | vec (op : Op α)
  /-- `auto i = j.into_iter();` -/
  | make (i j : Nat)
  /-- `auto i = j.into_iter_reversed();` -/
  | makeRev (i j : Nat)
  /-- `i.next()` -/
  | next (i : Nat)
  /-- `auto i = std::move(j);` for iterators of the first kind -/
  | move (i j : Nat)
  /-- the end of the life of iterator `i` -/
  | drop (i : Nat)

variable {α β : Type} (ty : ElemTy α)

def onBase (f : Prog (World α) β) : Prog (OWorld α) β := fun w =>
  f w.base >>= fun p => .ok (p.1, { w with base := p.2 })

def kind (i : Nat) : Prog (OWorld α) Kind := fun w =>
  match w.its i with
  | none => .ub
  | some k => .ok (k, w)

def setKind (i : Nat) (k : Option Kind) : Prog (OWorld α) Unit := fun w =>
  .ok ((), { w with its := fun j => if j = i then k else w.its j })

/-- vector.h:34-36, 391-393, 998. -/
def makeIter (i j : Nat) : Prog (OWorld α) (Res α) := do
  let v ← onBase (var j)
  let p := intoIter v
  onBase (setVar i (some p.1.vec))
  onBase (setVar j (some p.2))
  setKind i (some (.fwd p.1.pos p.1.len))
  return .unit

/-- vector.h:39-41, 403-405, 1035. -/
def makeRev (i j : Nat) : Prog (OWorld α) (Res α) := do
  let v ← onBase (var j)
  let p := newMove v dfltAlloc
  onBase (setVar i (some p.1))
  onBase (setVar j (some p.2))
  setKind i (some .rev)
  return .unit

/-- vector.h:1009-1020, 1043-1053 `next()`. -/
def next (i : Nat) : Prog (OWorld α) (Res α) := do
  let k ← kind i
  let v ← onBase (var i)
  match k with
  | .fwd pos len => do
    let r ← onBase (inHeap (IntoIter.next ty ⟨v, pos, len⟩))
    onBase (setVar i (some r.2.vec))
    setKind i (some (.fwd r.2.pos r.2.len))
    return .opt r.1
  | .rev => do
    let r ← onBase (inHeap (intoNextReversed ty v))
    onBase (setVar i (some r.2))
    return .opt r.1

/-- vector.h:1000-1005 `VectorIntoIter(VectorIntoIter&& v)`: the own vector is default-constructed first (it has no
initializer), then assigned to; `v.len` stays.  The same constructor of reversed iterators names a member they do not
have (L1039) and does not compile: no move of those. -/
def move (i j : Nat) : Prog (OWorld α) (Res α) := do
  let k ← kind j
  match k with
  | .rev => fun _ => .ub
  | .fwd pos len => do
    let other ← onBase (var j)
    let vec ← onBase (inHeap (newDefault ty))
    let p ← onBase (inHeap (moveAssign ty vec other))
    onBase (setVar i (some p.1))
    onBase (setVar j (some p.2))
    setKind i (some (.fwd pos p.1.len))
    setKind j (some (.fwd 0 len))
    return .unit

/-- The implicit destructor: that of the member `vec` (vector.h:113-115). -/
def drop (i : Nat) : Prog (OWorld α) (Res α) := do
  let _ ← kind i
  let v ← onBase (var i)
  let _ ← onBase (inHeap (clear ty v))
  onBase (setVar i none)
  setKind i none
  return .unit

def ostep : OOp α → Prog (OWorld α) (Res α)
  | .vec op => onBase (step ty op)
  | .make i j => makeIter i j
  | .makeRev i j => makeRev i j
  | .next i => next ty i
  | .move i j => move ty i j
  | .drop i => drop ty i

def orun : List (OOp α) → Prog (OWorld α) (List (Res α))
  | [] => return []
  | op :: ops => do
    let r ← ostep ty op
    let rs ← orun ops
    return r :: rs

end Verif.Model.VectorOwn
