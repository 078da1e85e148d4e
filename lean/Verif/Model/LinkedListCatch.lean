import Verif.Model.LinkedListFault
/-!
# Programs over lists that catch the exceptions of element constructors

`stepC cfg op none` is the call `op` during which no constructor throws: the call of `Model/LinkedListHist.lean`.
`stepC cfg op (some m)` is the call during which constructing the element number `m` (from 0, counted from the start of the
call) throws; the members are those of `Model/LinkedListFault.lean`.  The answer `none` says that the exception reached the
caller, who catches it and goes on with the variables as they are.

Every call gets its own `m`, so a constructor that threw once may work the next time.
-/
namespace Verif.Model.LL
open Verif

variable {α : Type}

/-- The constructions that throw when number `m` of the call throws; `k` elements had been constructed before the call. -/
def throwAt (k m : Nat) : Nat → Bool := fun n => n == k + m

/-- A constructor of list variable `i`; one that threw gives no object.  Answers whether it threw. -/
def createC (i : Nat) (f : M α (Option Lst)) : Prog (World α) Bool := do
  let o ← inHeap f
  match o with
  | none => return true
  | some l => do
    setVar i (some l)
    return false

/-- A member called on list variable `i` that may throw; the object keeps the fields it has at that moment. -/
def changeC (i : Nat) (f : Lst → M α (Bool × Lst)) : Prog (World α) Bool := do
  let l ← var i
  let q ← inHeap (f l)
  setVar i (some q.2)
  return q.1

/-- A `noexcept` member called on list variable `i`. -/
def changeQ (i : Nat) (f : Lst → M α Lst) : Prog (World α) Bool := changeC i fun l => do
  let l' ← f l
  return (false, l')

/-- The calls that construct elements in nodes (linked_list.h; the lines are given at the members), with constructors that
throw; the others do not depend on `thr`.  Answers whether an exception reached the caller. -/
def throwStep (cfg : Cfg α) (thr : Nat → Bool) : Op α → Prog (World α) Bool
  | .newFill i n r a => do
    let r ← argRef r
    createC i (newFillT cfg thr n r a)
  | .newCount i n a => createC i (newFillT cfg thr n (.tmp cfg.dflt) a)
  | .newRange i xs a => createC i (newRangeT cfg thr xs a)
  | .newCopy i j => do
    let l ← var j
    createC i (newCopyT cfg thr l l.alloc)
  | .newCopyAlloc i j a => do
    let l ← var j
    createC i (newCopyT cfg thr l a)
  | .fromIter i xs => createC i (fromIterT cfg thr xs)
  | .copyAssign i j => if i = j then return false else do
    let o ← var j
    changeC i fun l => copyAssignT cfg thr l o
  | .listAssign i xs => changeC i fun l => listAssignT cfg thr l xs
  | .insertAfter i p r => do
    let r ← argRef r
    changeC i fun l => do
      let it ← iterAt l p
      emplaceAfterT cfg thr l it r
  | .insertAfterFill i p n r => do
    let r ← argRef r
    changeC i fun l => do
      let it ← iterAt l p
      insertAfterFillT cfg thr l it n r
  | .insertAfterRange i p xs => changeC i fun l => do
    let it ← iterAt l p
    insertAfterRangeT cfg thr l it xs
  | .insert i p r => do
    let r ← argRef r
    changeC i fun l => do
      let it ← iterAt l p
      emplaceT cfg thr l it r
  | .insertFill i p n r => do
    let r ← argRef r
    changeC i fun l => do
      let it ← iterAt l p
      insertFillT cfg thr l it n r
  | .insertRange i p xs => changeC i fun l => do
    let it ← iterAt l p
    insertRangeT cfg thr l it xs
  | .pushFront i r => do
    let r ← argRef r
    changeQ i fun l => pushFrontT cfg thr l r
  | .pushBack i r => do
    let r ← argRef r
    changeQ i fun l => pushBackT cfg thr l r
  | .resize i n => changeQ i fun l => resizeFillT cfg thr l n (.tmp cfg.dflt)
  | .resizeFill i n r => do
    let r ← argRef r
    changeQ i fun l => resizeFillT cfg thr l n r
  | _ => return false

/-- One call of a program that catches exceptions.  If there is no construction number `m`, nothing is thrown and the call
is the ordinary one. -/
def stepC (cfg : Cfg α) (op : Op α) : Option Nat → Prog (World α) (Option (Res α))
  | none => do
    let r ← step cfg op
    return some r
  | some m => fun w => do
    let q ← throwStep cfg (throwAt w.heap.ctors m) op w
    if q.1 then .ok (none, q.2)
    else do
      let q ← step cfg op w
      .ok (some q.1, q.2)

def runC (cfg : Cfg α) : List (Op α × Option Nat) → Prog (World α) (List (Option (Res α)))
  | [] => return []
  | op :: ops => do
    let r ← stepC cfg op.1 op.2
    let rs ← runC cfg ops
    return r :: rs

end Verif.Model.LL
