import Verif.Model.VectorIter
/-!
# Programs over vectors and iterators that live across calls (include/mstl/collection/vector.h:895-992)

`Model/VectorIter.lean` has the iterator operators for an iterator used at once.  Here a program keeps iterators in variables while it
goes on calling the vectors: an iterator is three pointers and knows nothing of what happens to the vector it came from.  A state is the
vectors (`Model/VectorHist.lean`) and the iterator variables.  Iterators cannot be assigned (`beg` and `end` are `const`, 989-991):
giving an iterator variable a new iterator is constructing another object under that number, the old one being trivially destroyed.
-/
namespace Verif.Model.Vector
open Verif Verif.Model.Mem

variable {α β : Type}

structure LWorld (α : Type) where
  base : World α := {}
  its : Nat → Option RIter := fun _ => none

/-- Calls.  `k`, `l`, `m` are iterator variables, `i` a vector variable. -/
inductive LOp (α : Type) where
  /-- any call on the vectors -/
  | vec (op : Op α)
  /-- `auto k = v_i.begin()` -/
  | start (k i : Nat)
  /-- `auto k = v_i.end()` -/
  | stop (k i : Nat)
  /-- `k` constructed from `l` -/
  | copy (k l : Nat)
  /-- `++`, `--`, `+= n`, `-= n` on `k` -/
  | move (k : Nat) (m : Move)
  /-- `k.next()` -/
  | next (k : Nat)
  /-- `*k` read -/
  | read (k : Nat)
  /-- `*k = x` -/
  | write (k : Nat) (x : α)
  /-- `k.pos()` -/
  | pos (k : Nat)
  /-- `k - l` -/
  | dist (k l : Nat)
  /-- `k == l` -/
  | eq (k l : Nat)
  /-- `k <=> l` -/
  | cmp (k l : Nat)
  /-- `auto m = v_i.insert(k, r)` -/
  | insertAt (m i k : Nat) (r : Arg α)
  /-- `auto m = v_i.erase(k)` -/
  | eraseAt (m i k : Nat)
  /-- `auto m = v_i.erase(k, l)` -/
  | eraseBetween (m i k l : Nat)

def inBase (f : Prog (World α) β) : Prog (LWorld α) β := fun w => f w.base >>= fun p => .ok (p.1, { w with base := p.2 })

def theIt (k : Nat) : Prog (LWorld α) RIter := fun w =>
  match w.its k with
  | none => .ub
  | some it => .ok (it, w)

def setIt (k : Nat) (it : RIter) : Prog (LWorld α) Unit := fun w =>
  .ok ((), { w with its := fun k' => if k' = k then some it else w.its k' })

/-- vector.h:911-917 `next()`: `*cur++`; the reference is read. -/
def RIter.next (it : RIter) : M α (Option α × RIter) :=
  if it.cur ≠ it.stop then do
    let old := it.cur
    let c ← it.cur.move 1
    let x ← old.read
    return (some x, { it with cur := c })
  else return (none, it)

/-- vector.h:901 `VectorIter(nullptr, nullptr)`. -/
def RIter.null : RIter := ⟨⟨none, 0⟩, ⟨none, 0⟩, ⟨none, 0⟩⟩

/-- The iterators `insert` and `erase` return: `begin() + p` (vector.h:611, 622, 600), `{beginPtr, beginPtr + len, beginPtr + p}` (572),
`end()` (568, here `begin() + len`), the null iterator (575, 588). -/
def giveBack (m i : Nat) : Res α → Prog (LWorld α) (Res α)
  | .pos (some p) => do
    let v ← inBase (var i)
    let b ← inBase (inHeap (begin v))
    let it ← inBase (inHeap (b.plus p))
    setIt m it
    return .unit
  | _ => do
    setIt m RIter.null
    return .unit

def lstep (ty : ElemTy α) : LOp α → Prog (LWorld α) (Res α)
  | .vec op => inBase (step ty op)
  -- vector.h:429-431
  | .start k i => do
    let v ← inBase (var i)
    let it ← inBase (inHeap (begin v))
    setIt k it
    return .unit
  -- vector.h:433-435
  | .stop k i => do
    let v ← inBase (var i)
    let it ← inBase (inHeap (endIt v))
    setIt k it
    return .unit
  -- vector.h:905
  | .copy k l => do
    let it ← theIt l
    setIt k it
    return .unit
  -- vector.h:927-959, 965-973
  | .move k m => do
    let it ← theIt k
    let it ← inBase (inHeap (it.apply m))
    setIt k it
    return .unit
  -- vector.h:911-917
  | .next k => do
    let it ← theIt k
    let p ← inBase (inHeap it.next)
    setIt k p.2
    return .opt p.1
  -- vector.h:919-925
  | .read k => do
    let it ← theIt k
    let x ← inBase (inHeap it.deref)
    return .val x
  | .write k x => do
    let it ← theIt k
    inBase (inHeap (store it.cur.blk it.cur.off x))
    return .unit
  -- vector.h:985-987
  | .pos k => do
    let it ← theIt k
    let n ← inBase (inHeap it.pos)
    return .num n
  -- vector.h:961-963
  | .dist k l => do
    let it ← theIt k
    let jt ← theIt l
    let n ← inBase (inHeap (it.dist jt))
    return .num n
  -- vector.h:975-979
  | .eq k l => do
    let it ← theIt k
    let jt ← theIt l
    return .bool (it.eq jt)
  -- vector.h:981-983
  | .cmp k l => do
    let it ← theIt k
    let jt ← theIt l
    let o ← inBase (inHeap (it.cmp jt))
    return .ord (some o)
  -- vector.h:608-623
  | .insertAt m i k r => do
    let it ← theIt k
    let p ← inBase (inHeap it.pos)
    let res ← inBase (step ty (.insert i p r))
    giveBack m i res
  -- vector.h:565-577
  | .eraseAt m i k => do
    let it ← theIt k
    let p ← inBase (inHeap it.pos)
    let res ← inBase (step ty (.erase i p))
    giveBack m i res
  -- vector.h:586-601
  | .eraseBetween m i k l => do
    let it ← theIt k
    let jt ← theIt l
    let lo ← inBase (inHeap it.pos)
    let hi ← inBase (inHeap jt.pos)
    let res ← inBase (step ty (.eraseRange i lo hi))
    giveBack m i res

def lrun (ty : ElemTy α) : List (LOp α) → Prog (LWorld α) (List (Res α))
  | [] => return []
  | op :: ops => do
    let r ← lstep ty op
    let rs ← lrun ty ops
    return r :: rs

end Verif.Model.Vector
