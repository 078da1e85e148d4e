import Verif.Model.Result
/-!
# Model of `Result<T&, E>` (include/mstl/result/result.h:476-568)

`ResultRef<T&, E>` derives from `ResultBase<T*, E>`: the ok payload is a pointer, so the base model is used with
`τ := Nat` (addresses), no destructor and no moved-from state for the pointer.  `mem` holds the objects referred to
(`none`: no object is alive at this address; using it is `ub`).
-/
namespace Verif.Model.Res
open Verif

/-- Client objects and result objects. -/
structure RefWorld (α ε : Type) where
  mem : Nat → Option α
  res : World Nat ε

variable {α ε : Type}

/-- result.h:476-478: the base class is `ResultBase<T*, E>`. -/
def refCfg (classE : Bool) (mvE : ε → ε) : Cfg Nat ε := ⟨false, classE, id, mvE⟩

/-- Runs a member of the base class. -/
def onRes {β : Type} (p : Prog (World Nat ε) β) : Prog (RefWorld α ε) β := fun w =>
  match p w.res with
  | .ok (b, r) => .ok (b, { w with res := r })
  | .panic => .panic
  | .oom => .oom
  | .ub => .ub
  | .div => .div

/-- Reads, writes, creates and destroys a client object. -/
def load (a : Nat) : Prog (RefWorld α ε) α := fun w =>
  match w.mem a with
  | some v => .ok (v, w)
  | none => .ub
def store (a : Nat) (v : α) : Prog (RefWorld α ε) Unit := fun w =>
  match w.mem a with
  | some _ => .ok ((), { w with mem := fun k => if k = a then some v else w.mem k })
  | none => .ub
def newObj (a : Nat) (v : α) : Prog (RefWorld α ε) Unit := fun w =>
  match w.mem a with
  | some _ => .ub
  | none => .ok ((), { w with mem := fun k => if k = a then some v else w.mem k })
def endObj (a : Nat) : Prog (RefWorld α ε) Unit := fun w =>
  match w.mem a with
  | some _ => .ok ((), { w with mem := fun k => if k = a then none else w.mem k })
  | none => .ub

/-- result.h:481 `ResultRef(T t) : Base(&t)`, 519-521 `ok(t)`. -/
def refOk (i a : Nat) : Prog (RefWorld α ε) Unit := onRes (mkOk i a)

/-- result.h:483, 485 constructors from an error. -/
def refErr (i : Nat) (e : ε) : Prog (RefWorld α ε) Unit := onRes (mkErr i e)

/-- result.h:487, 489 copy and move constructors. -/
def refCopyCtor (i j : Nat) : Prog (RefWorld α ε) Unit := onRes (copyCtor i j)
def refMoveCtor (C : Cfg Nat ε) (i j : Nat) : Prog (RefWorld α ε) Unit := onRes (moveCtor C i j)

/-- result.h:491-497 move assignment. -/
def refMoveAssign (C : Cfg Nat ε) (i j : Nat) : Prog (RefWorld α ε) Unit :=
  if i = j then pure () else onRes (moveAssign C i j)

/-- result.h:499-505 copy assignment. -/
def refCopyAssign (C : Cfg Nat ε) (i j : Nat) : Prog (RefWorld α ε) Unit :=
  if i = j then pure () else onRes (copyAssign C i j)

/-- result.h:524-529 `unwrap`: the object referred to. -/
def refUnwrap (i : Nat) : Prog (RefWorld α ε) Nat := do
  let o ← onRes (obj i)
  if o.ok then onRes (readT i) else Prog.panic

/-- result.h:531-559 `ok()`, `ok_ref()`: the object referred to, if any. -/
def refOkRef (i : Nat) : Prog (RefWorld α ε) (Option Nat) := do
  let o ← onRes (obj i)
  if o.ok then do
    let a ← onRes (readT i)
    return some a
  else return none

/-- result.h:507-517 `operator==`; the referents are compared. -/
def refEq (eqT : α → α → Bool) (eqE : ε → ε → Bool) (i j : Nat) : Prog (RefWorld α ε) Bool := do
  let a ← onRes (obj i)
  let b ← onRes (obj j)
  if a.ok ≠ b.ok then return false
  else if a.ok then do
    let x ← onRes (readT i)
    let y ← onRes (readT j)
    let u ← load x
    let v ← load y
    return eqT u v
  else do
    let x ← onRes (readE i)
    let y ← onRes (readE j)
    return eqE x y

/-- Calls of a client: on its own objects, and on results referring to them. -/
inductive RefOp (α ε : Type) where
  | newObj (a : Nat) (v : α)
  | setObj (a : Nat) (v : α)
  | endObj (a : Nat)
  | mkOk (i a : Nat)
  | mkErr (i : Nat) (e : ε)
  | copyCtor (i j : Nat)
  | moveCtor (i j : Nat)
  | copyAssign (i j : Nat)
  | moveAssign (i j : Nat)
  | isOk (i : Nat)
  | which (i : Nat)
  | unwrapErr (i : Nat)
  | read (i : Nat)
  | write (i : Nat) (v : α)
  | eq (i j : Nat)
  | destroy (i : Nat)

inductive RefRet (α ε : Type) where
  | unit
  | bool (b : Bool)
  | val (v : α)
  | valE (e : ε)
  | addr (o : Option Nat)

/-- `read i` is `x = r.unwrap()`, `write i v` is `r.unwrap() = v`, `which i` is the address of `*r.ok_ref()`. -/
def refStep (C : Cfg Nat ε) (eqT : α → α → Bool) (eqE : ε → ε → Bool) :
    RefOp α ε → Prog (RefWorld α ε) (RefRet α ε)
  | .newObj a v => do newObj a v; return .unit
  | .setObj a v => do store a v; return .unit
  | .endObj a => do endObj a; return .unit
  | .mkOk i a => do refOk i a; return .unit
  | .mkErr i e => do refErr i e; return .unit
  | .copyCtor i j => do refCopyCtor i j; return .unit
  | .moveCtor i j => do refMoveCtor C i j; return .unit
  | .copyAssign i j => do refCopyAssign C i j; return .unit
  | .moveAssign i j => do refMoveAssign C i j; return .unit
  | .isOk i => do return .bool (← onRes (isOk i))
  | .which i => do return .addr (← refOkRef i)
  | .unwrapErr i => do return .valE (← onRes (unwrapErr C i))
  | .read i => do
    let a ← refUnwrap i
    let v ← load a
    return .val v
  | .write i v => do
    let a ← refUnwrap i
    store a v
    return .unit
  | .eq i j => do return .bool (← refEq eqT eqE i j)
  | .destroy i => do onRes (destroy C i); return .unit

def refRun (C : Cfg Nat ε) (eqT : α → α → Bool) (eqE : ε → ε → Bool) :
    List (RefOp α ε) → Prog (RefWorld α ε) (List (RefRet α ε))
  | [] => pure []
  | op :: ops => do
    let r ← refStep C eqT eqE op
    let rs ← refRun C eqT eqE ops
    return r :: rs

def RefWorld.init : RefWorld α ε := ⟨fun _ => none, World.init⟩

end Verif.Model.Res
