import Verif.Model.Opt
import Verif.Model.ResultRef
import Verif.Model.VectorHist
/-!
# Accessors that do not check, and writing through borrowed payloads

option.h, result.h, vector.h.  Using a union member that is not active, a null pointer, or an element that does not exist is `ub`.
-/
namespace Verif.Model.Opt
open Verif
variable {α : Type}

/-- option.h:69-76 `as_ref_uncheck`, read. -/
def asRefUncheckRead (i : Nat) : Prog (World α) α := do
  let _ ← obj i
  readVal i

/-- option.h:69-71 `as_ref_uncheck`, written. -/
def asRefUncheckWrite (i : Nat) (x : α) : Prog (World α) Unit := do
  let _ ← obj i
  assignVal i x

/-- option.h:255-259 `unwrap_unchecked` of `Option<T&>`: `*tmp` with `tmp` null is undefined. -/
def refUnwrapUnchecked (i : Nat) : Prog (RefWorld α) Nat := fun w =>
  let tmp := w.refs i
  let w' : RefWorld α := { w with refs := fun k => if k = i then none else w.refs k }
  match tmp with
  | none => .ub
  | some a => .ok (a, w')

/-- option.h:280-287 `as_ref_uncheck` of `Option<T&>`. -/
def refAsRefUncheck (i : Nat) : Prog (RefWorld α) Nat := fun w =>
  match w.refs i with
  | none => .ub
  | some a => .ok (a, w)

end Verif.Model.Opt

namespace Verif.Model.Res
open Verif
variable {τ ε α : Type}

/-- result.h:225-227 `unwrap_unchecked`, with the returned rvalue reference moved from. -/
def unwrapUnchecked (C : Cfg τ ε) (i : Nat) : Prog (World τ ε) τ := do
  let _ ← obj i
  moveT C i

/-- result.h:265-267 `unwrap_err_unchecked`. -/
def unwrapErrUnchecked (C : Cfg τ ε) (i : Nat) : Prog (World τ ε) ε := do
  let _ ← obj i
  moveE C i

/-- result.h:296-298 `ok_unchecked`, 374-380 `ok_ref_unchecked` read through. -/
def okUnchecked (i : Nat) : Prog (World τ ε) τ := do
  let _ ← obj i
  readT i

/-- result.h:342-344 `err_unchecked`, 388-394 `err_ref_unchecked` read through. -/
def errUnchecked (i : Nat) : Prog (World τ ε) ε := do
  let _ ← obj i
  readE i

/-- result.h:374-376 `ok_ref_unchecked() = t`. -/
def okSetUnchecked (i : Nat) (t : τ) : Prog (World τ ε) Unit := do
  let _ ← obj i
  assignT i t

/-- result.h:388-390 `err_ref_unchecked() = e`. -/
def errSetUnchecked (i : Nat) (e : ε) : Prog (World τ ε) Unit := do
  let _ ← obj i
  assignE i e

/-- result.h:306-312 `ok_ref()`; if there is a reference `t` is assigned through it.  Answers whether there is one. -/
def okRefSet (i : Nat) (t : τ) : Prog (World τ ε) Bool := do
  let o ← obj i
  if o.ok then do
    assignT i t
    return true
  else return false

/-- result.h:352-358 `err_ref()`, likewise. -/
def errRefSet (i : Nat) (e : ε) : Prog (World τ ε) Bool := do
  let o ← obj i
  if o.ok then return false
  else do
    assignE i e
    return true

/-- result.h:539-545 `ok_unchecked`, 561-567 `ok_ref_unchecked` of `Result<T&, E>`: the object referred to. -/
def refOkUnchecked (i : Nat) : Prog (RefWorld α ε) Nat := do
  let _ ← onRes (obj i)
  onRes (readT i)

end Verif.Model.Res

namespace Verif.Model.Vector
open Verif Verif.Model.Mem
variable {α : Type}

/-- vector.h:275-281 `at_unchecked`, 374-380 `data()[pos]`, read. -/
def atUnchecked (v : Vec) (pos : Nat) : M α α := load v.ptr pos

/-- vector.h:275-277 `at_unchecked(pos) = x`. -/
def atSetUnchecked (v : Vec) (pos : Nat) (x : α) : M α Unit := store v.ptr pos x

/-- vector.h:315-321 `front_unchecked`. -/
def frontUnchecked (v : Vec) : M α α := load v.ptr 0

/-- vector.h:355-361 `back_unchecked`. -/
def backUnchecked (v : Vec) : M α α := load v.ptr (wsub v.len 1)

/-- The member on variable `i`. -/
def lookAt {β : Type} (i : Nat) (f : Vec → M α β) : Prog (World α) β := do
  let v ← var i
  inHeap (f v)

end Verif.Model.Vector
