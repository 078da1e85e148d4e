import Verif.Model.NestedResult
/-!
# Comparing nested vectors and results

`operator==` and `operator<=>` read two objects, so they are not calls of a class (`Cls`): they are programs on
the state of the class that get the addresses of their operands.  The comparison of vectors runs the comparison of the elements at their
addresses, in the buffers of the two vectors; that of results runs the comparison of the objects in them.

Simplification: both operands have the same type (vector.h:1058-1060 also allows different element types and allocators).  Linked lists,
strings and options have no comparison in the library.
-/
namespace Verif.Model.Nested
open Verif Verif.Model.Mem
open Verif.Model.Vector (Vec)

variable {σ ε α : Type}

/-- vector.h:1064-1068, the loop of `operator==`, where `eq` is `==` of the elements (`!=` is its negation). -/
def veqLoop (eq : Nat → Nat → Prog σ Bool) (l r : Vec) (i : Nat) : Nat → Prog (St σ) Bool
  | 0 => return true
  | n + 1 => do
    let a ← address l.ptr i
    let b ← address r.ptr i
    let t ← inObjs (eq a b)
    if t then veqLoop eq l r (i + 1) n else return false

/-- vector.h:1060-1071 `operator==` of the vectors at two addresses. -/
def vectorEq (eq : Nat → Nat → Prog σ Bool) (d e : Nat) : Prog (NWorld σ) Bool := do
  let l ← obj d
  let r ← obj e
  if l.len ≠ r.len then return false else inSt (veqLoop eq l r 0 l.len)

/-- vector.h:1095-1106, the loop of `operator<=>`, where `cmp` is `<=>` of the elements; `none`: unordered. -/
def vcmpLoop (cmp : Nat → Nat → Prog σ (Option Ordering)) (l r : Vec) (i : Nat) : Nat → Prog (St σ) (Option Ordering)
  | 0 => return some (compare l.len r.len)
  | n + 1 => do
    let a ← address l.ptr i
    let b ← address r.ptr i
    let p ← inObjs (cmp a b)
    if p = some .eq then vcmpLoop cmp l r (i + 1) n else return p

/-- vector.h:1087-1107 `operator<=>` of the vectors at two addresses. -/
def vectorCmp (cmp : Nat → Nat → Prog σ (Option Ordering)) (d e : Nat) : Prog (NWorld σ) (Option Ordering) := do
  let l ← obj d
  let r ← obj e
  inSt (vcmpLoop cmp l r 0 (min l.len r.len))

/-- result.h:106-116 `operator==` of the results at two addresses, where `eq` is `==` of the objects and `eqE` that of the errors. -/
def resultEq (eqE : ε → ε → Bool) (eq : Nat → Nat → Prog σ Bool) (d e : Nat) : Prog (RWorld ε σ) Bool := do
  let t ← typeOf d
  let b ← typeOf e
  if t ≠ b then return false
  else if t then inOk (eq (cell d) (cell e))
  else do
    let x ← errOf d
    let y ← errOf e
    return eqE x y

/-- vector.h:1060-1071 `operator==` of vectors of values. -/
def valueEq (eq : α → α → Bool) (d e : Nat) : Prog (Vector.World α) Bool := do
  let l ← Vector.var d
  let r ← Vector.var e
  Vector.inHeap (Vector.equal eq l r)

/-- vector.h:1087-1107 `operator<=>` of vectors of values. -/
def valueCmp (cmp : α → α → Option Ordering) (d e : Nat) : Prog (Vector.World α) (Option Ordering) := do
  let l ← Vector.var d
  let r ← Vector.var e
  Vector.inHeap (Vector.threeWay cmp l r)

/-- Types with `operator==`: vectors of values, and vectors and results of these, to any depth (vector.h:1058-1071, result.h:106-116). -/
inductive Equated (α : Type) where
  | values (ety : ElemTy α)
  | vector (ty : ElemTy Unit) (c : Equated α)
  | result (c : Equated α)

/-- Types with `operator<=>`: vectors of values, and vectors of these, to any depth (vector.h:1086-1107). -/
inductive Ordered (α : Type) where
  | values (ety : ElemTy α)
  | vector (ty : ElemTy Unit) (c : Ordered α)

/-- The class of these objects (vector.h:60-893, result.h:26-438). -/
def Equated.full : Equated α → Full α
  | .values ety => .base (.values ety)
  | .vector ty c => .vector ty c.full
  | .result c => .result c.full

/-- The class of these objects (vector.h:60-893). -/
def Ordered.full : Ordered α → Full α
  | .values ety => .base (.values ety)
  | .vector ty c => .vector ty c.full

/-- `a == b` for the objects at two addresses (vector.h:1060-1071, result.h:106-116). -/
def eqAt (eqA : α → α → Bool) (eqE : ε → ε → Bool) : (c : Equated α) → Nat → Nat → Prog (c.full.State ε) Bool
  | .values _ => valueEq eqA
  | .vector _ c => vectorEq (eqAt eqA eqE c)
  | .result c => resultEq eqE (eqAt eqA eqE c)

variable (ε)

/-- `a <=> b` for the objects at two addresses (vector.h:1087-1107). -/
def cmpAt (cmp : α → α → Option Ordering) : (c : Ordered α) → Nat → Nat → Prog (c.full.State ε) (Option Ordering)
  | .values _ => valueCmp cmp
  | .vector _ c => vectorCmp (cmpAt cmp c)

end Verif.Model.Nested
