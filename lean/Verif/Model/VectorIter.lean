import Verif.Model.VectorHist
/-!
# Model of `VectorIter` as a random access iterator (include/mstl/collection/vector.h:895-992)

`Model/Vector.lean` has `VectorIter::next`; here are the operators.  A pointer is null or an offset into a block.  Moving a
pointer is undefined unless the block still exists and the result lies between its first slot and one past its last
([expr.add]; null plus 0 is null); subtracting and ordering pointers into different blocks is undefined.
-/
namespace Verif.Model.Vector
open Verif Verif.Model.Mem

variable {α : Type}

/-- A `T*`. -/
structure Ptr where
  blk : Option Nat
  off : Nat
  deriving DecidableEq, Repr

/-- `p + d`, `p - d`, `p++`, `p--`. -/
def Ptr.move (p : Ptr) (d : Int) : M α Ptr := fun h =>
  match p.blk with
  | none => if d = 0 then .ok (p, h) else .ub
  | some b =>
    match h.blocks b with
    | none => .ub
    | some blk => if 0 ≤ p.off + d ∧ p.off + d ≤ blk.slots.length then .ok (⟨p.blk, (p.off + d).toNat⟩, h) else .ub

/-- `p - q`. -/
def Ptr.diff (p q : Ptr) : M α Int := fun h => if p.blk = q.blk then .ok ((p.off : Int) - q.off, h) else .ub

/-- `*p`, read. -/
def Ptr.read (p : Ptr) : M α α := load p.blk p.off

/-- Conversion of a `ptrdiff_t` to `usize`. -/
def toUsize (d : Int) : Nat := (d % wordSize).toNat

/-- vector.h:989-991. -/
structure RIter where
  beg : Ptr
  cur : Ptr
  stop : Ptr
  deriving DecidableEq, Repr

/-- vector.h:429-431, 437-439, 445-447 `begin()`, `cbegin()`. -/
def begin (v : Vec) : M α RIter := do
  let p : Ptr := ⟨v.ptr, 0⟩
  let e ← p.move v.len
  return ⟨p, p, e⟩

/-- vector.h:433-435, 441-443, 449-451 `end()`, `cend()`. -/
def endIt (v : Vec) : M α RIter := do
  let p : Ptr := ⟨v.ptr, 0⟩
  let e ← p.move v.len
  let c ← p.move v.len
  return ⟨p, c, e⟩

/-- vector.h:919-925 `operator*`. -/
def RIter.deref (it : RIter) : M α α := it.cur.read

/-- vector.h:927-930 `++it`: the returned reference is the iterator itself. -/
def RIter.preInc (it : RIter) : M α RIter := do
  let c ← it.cur.move 1
  return { it with cur := c }

/-- vector.h:932-936 `it++`: the old iterator and the new one. -/
def RIter.postInc (it : RIter) : M α (RIter × RIter) := do
  let tmp := it
  let c ← it.cur.move 1
  return (tmp, { it with cur := c })

/-- vector.h:938-941 `--it`. -/
def RIter.preDec (it : RIter) : M α RIter := do
  let c ← it.cur.move (-1)
  return { it with cur := c }

/-- vector.h:943-947 `it--`. -/
def RIter.postDec (it : RIter) : M α (RIter × RIter) := do
  let tmp := it
  let c ← it.cur.move (-1)
  return (tmp, { it with cur := c })

/-- vector.h:949-953 `it + i`, `i` a `usize`; also 965-968 `it += i`. -/
def RIter.plus (it : RIter) (i : Nat) : M α RIter := do
  let c ← it.cur.move i
  return { it with cur := c }

/-- vector.h:955-959 `it - i`; also 970-973 `it -= i`. -/
def RIter.minus (it : RIter) (i : Nat) : M α RIter := do
  let c ← it.cur.move (-i)
  return { it with cur := c }

/-- vector.h:961-963 `it - jt`: a `usize`. -/
def RIter.dist (it jt : RIter) : M α Nat := do
  let d ← it.cur.diff jt.cur
  return toUsize d

/-- vector.h:975-979 `operator==`. -/
def RIter.eq (it jt : RIter) : Bool := it.beg == jt.beg && it.cur == jt.cur && it.stop == jt.stop

/-- vector.h:981-983 `operator<=>`. -/
def RIter.cmp (it jt : RIter) : M α Ordering := do
  let d ← it.cur.diff jt.cur
  return compare d 0

/-- vector.h:985-987 `pos()`. -/
def RIter.pos (it : RIter) : M α Nat := do
  let d ← it.cur.diff it.beg
  return toUsize d

/-- Ways a client moves an iterator.  `old`: the client goes on with what the postfix operator returned. -/
inductive Move where
  | inc
  | postInc (old : Bool)
  | dec
  | postDec (old : Bool)
  | plus (n : Nat)
  | minus (n : Nat)
  deriving DecidableEq, Repr

def RIter.apply (it : RIter) : Move → M α RIter
  | .inc => it.preInc
  | .postInc old => do
    let p ← it.postInc
    return if old then p.1 else p.2
  | .dec => it.preDec
  | .postDec old => do
    let p ← it.postDec
    return if old then p.1 else p.2
  | .plus n => it.plus n
  | .minus n => it.minus n

def RIter.applyAll (it : RIter) : List Move → M α RIter
  | [] => return it
  | m :: ms => do
    let it ← it.apply m
    it.applyAll ms

/-- A client takes `begin()` (or `end()`) of variable `i` and moves it. -/
def walkIn (i : Nat) (fromEnd : Bool) (ms : List Move) : Prog (World α) RIter := do
  let v ← var i
  let it ← inHeap (if fromEnd then endIt v else begin v)
  inHeap (it.applyAll ms)

/-- `for (; it != e; ++it) use(*it)`: what is used, in order (the loop of range-based `for` and of standard algorithms). -/
def stlLoop (it e : RIter) (acc : List α) : M α (List α) :=
  if it.eq e then return acc
  else do
    let x ← it.deref
    let it ← it.preInc
    stlLoop it e (acc ++ [x])
partial_fixpoint

/-- The same over a whole vector. -/
def stlFor (i : Nat) : Prog (World α) (List α) := do
  let v ← var i
  let b ← inHeap (begin v)
  let e ← inHeap (endIt v)
  inHeap (stlLoop b e [])

end Verif.Model.Vector
