import Verif.Model.NestedResult
/-!
# Printing nested vectors and linked lists

`operator<<` of a container runs `operator<<` of its elements at their addresses.  Like the comparisons (Model/NestedCmp.lean) it is a program on
the state of the class.

Simplification: the stream is the text written; it never fails.  Strings as elements are not modelled (what `operator<<` of a string writes are
bytes, C45); options and results have no `operator<<` in the library.
-/
namespace Verif.Model.Nested
open Verif Verif.Model.Mem
open Verif.Model.Vector (Vec)

variable {σ α : Type}

/-- vector.h:1076-1081, the loop of `operator<<`, where `shw` is `<<` of the elements. -/
def vshowLoop (shw : Nat → Prog σ String) (v : Vec) (i : Nat) : Nat → Prog (St σ) String
  | 0 => return ""
  | n + 1 => do
    let a ← address v.ptr i
    let s ← inObjs (shw a)
    let rest ← vshowLoop shw v (i + 1) n
    return s ++ (if i ≠ wsub v.len 1 then ", " else "") ++ rest

/-- vector.h:1073-1084 `operator<<` of the vector at an address: what it writes. -/
def vectorShow (shw : Nat → Prog σ String) (d : Nat) : Prog (NWorld σ) String := do
  let v ← obj d
  let s ← inSt (vshowLoop shw v 0 v.len)
  return "Vec [" ++ s ++ "]"

/-- linked_list.h:1953-1960, 1971-1978, the loop of `operator<<`, where `shw` is `<<` of the elements. -/
def lshowLoop (shw : Nat → Prog σ String) (size : Nat) (hi lo : LL.Ptr) (i : Nat) (out : String) : Prog (LSt σ) String :=
  if lo = hi then return out
  else do
    let a ← dataOf lo
    let s ← inElems (shw a)
    let out := out ++ s
    let out := if i ≠ LL.dec size then out ++ ", " else out
    let lo' ← inNodes (LL.getNext lo)
    lshowLoop shw size hi lo' (i + 1) out
partial_fixpoint

/-- linked_list.h:1947-1981 `operator<<` of the linked list at an address. -/
def linkedShow (dbl : Bool) (shw : Nat → Prog σ String) (d : Nat) : Prog (LWorld σ) String := do
  let l ← lobj d
  let out := if dbl then "List [" else "ForwardList ["
  let lo ← inLSt (inNodes (LL.getNext l.head))
  let out ← inLSt (lshowLoop shw l.len l.tail lo 0 out)
  return out ++ "]"

/-- vector.h:1073-1084 `operator<<` of vectors of values. -/
def valueShow (shw : α → String) (d : Nat) : Prog (Vector.World α) String := do
  let v ← Vector.var d
  Vector.inHeap (Vector.print shw v)

/-- linked_list.h:1947-1981 `operator<<` of linked lists of values. -/
def listShow (cfg : LL.Cfg α) (shw : α → String) (d : Nat) : Prog (LL.World α) String := do
  let l ← LL.var d
  LL.inHeap (LL.print cfg shw l)

/-- Types with `operator<<`: vectors and linked lists of values, and vectors and linked lists of these, to any depth (vector.h:1073-1084,
linked_list.h:1947-1981). -/
inductive Printed (α : Type) where
  | values (ety : ElemTy α)
  | lists (cfg : LL.Cfg α)
  | vector (ty : ElemTy Unit) (c : Printed α)
  | linked (cfg : LL.Cfg Unit) (c : Printed α)

/-- The class of these objects (vector.h:60-893, linked_list.h:434-1939). -/
def Printed.shape : Printed α → Shape α
  | .values ety => .values ety
  | .lists cfg => .lists cfg
  | .vector ty c => .vector ty c.shape
  | .linked cfg c => .linked cfg c.shape

/-- `os << a` for the object at an address: what it writes (vector.h:1073-1084, linked_list.h:1947-1981). -/
def showAt (shw : α → String) : (c : Printed α) → Nat → Prog c.shape.State String
  | .values _ => valueShow shw
  | .lists cfg => listShow cfg shw
  | .vector _ c => vectorShow (showAt shw c)
  | .linked cfg c => linkedShow cfg.dbl (showAt shw c)

end Verif.Model.Nested
