import Verif.Base.Out
/-!
# Model of include/mstl/result/result.h

`Obj` is one `Result<T, E>` object: lifetime, the enumerator `type` (`true`: `Ok`) and the union storage (`none`: no
live payload, `some (.inl t)` / `some (.inr e)`: a live `T` / `E`).  `ctor`/`dtor` are ghost counters of payload
constructions and destructions in this object's storage.  Reading, assigning or destroying the inactive union member
is `ub`.  `C` says whether `T` and `E` are class types (result.h:407-417 run destructors for class types only) and what
a move leaves behind.
-/
namespace Verif.Model.Res
open Verif

structure Cfg (τ ε : Type) where
  classT : Bool
  classE : Bool
  mvT : τ → τ
  mvE : ε → ε

/-- result.h:396-405. -/
structure Obj (τ ε : Type) where
  alive : Bool := false
  ok : Bool := true
  cell : Option (τ ⊕ ε) := none
  ctor : Nat := 0
  dtor : Nat := 0

abbrev World (τ ε : Type) := Nat → Obj τ ε

variable {τ ε : Type}

def upd (w : World τ ε) (i : Nat) (o : Obj τ ε) : World τ ε := fun j => if j = i then o else w j

def obj (i : Nat) : Prog (World τ ε) (Obj τ ε) := fun w => if (w i).alive then .ok (w i, w) else .ub

/-- `std::construct_at(&t, v)` / `std::construct_at(&e, v)`. -/
def construct (i : Nat) (v : τ ⊕ ε) : Prog (World τ ε) Unit := fun w =>
  .ok ((), upd w i { w i with cell := some v, ctor := (w i).ctor + 1 })

/-- result.h:407-411 `destroy_t`: for class types the destructor of member `t`; otherwise nothing is run, the storage
may be reused. -/
def destroyT (C : Cfg τ ε) (i : Nat) : Prog (World τ ε) Unit := fun w =>
  match (w i).cell with
  | some (.inl _) => .ok ((), upd w i { w i with cell := none, dtor := (w i).dtor + 1 })
  | _ => if C.classT then .ub else .ok ((), w)

/-- result.h:413-417 `destroy_e`. -/
def destroyE (C : Cfg τ ε) (i : Nat) : Prog (World τ ε) Unit := fun w =>
  match (w i).cell with
  | some (.inr _) => .ok ((), upd w i { w i with cell := none, dtor := (w i).dtor + 1 })
  | _ => if C.classE then .ub else .ok ((), w)

/-- Reading member `t` (result.h:374-380 `ok_ref_unchecked`). -/
def readT (i : Nat) : Prog (World τ ε) τ := fun w =>
  match (w i).cell with
  | some (.inl t) => .ok (t, w)
  | _ => .ub

/-- Reading member `e` (result.h:388-394 `err_ref_unchecked`). -/
def readE (i : Nat) : Prog (World τ ε) ε := fun w =>
  match (w i).cell with
  | some (.inr e) => .ok (e, w)
  | _ => .ub

/-- Moving out of member `t`. -/
def moveT (C : Cfg τ ε) (i : Nat) : Prog (World τ ε) τ := fun w =>
  match (w i).cell with
  | some (.inl t) => .ok (t, upd w i { w i with cell := some (.inl (C.mvT t)) })
  | _ => .ub

/-- Moving out of member `e`. -/
def moveE (C : Cfg τ ε) (i : Nat) : Prog (World τ ε) ε := fun w =>
  match (w i).cell with
  | some (.inr e) => .ok (e, upd w i { w i with cell := some (.inr (C.mvE e)) })
  | _ => .ub

/-- Assigning to member `t` / `e`. -/
def assignT (i : Nat) (t : τ) : Prog (World τ ε) Unit := fun w =>
  match (w i).cell with
  | some (.inl _) => .ok ((), upd w i { w i with cell := some (.inl t) })
  | _ => .ub
def assignE (i : Nat) (e : ε) : Prog (World τ ε) Unit := fun w =>
  match (w i).cell with
  | some (.inr _) => .ok ((), upd w i { w i with cell := some (.inr e) })
  | _ => .ub

def born (i : Nat) (ok : Bool) : Prog (World τ ε) Unit := fun w =>
  if (w i).alive then .ub else .ok ((), upd w i { w i with alive := true, ok := ok, cell := none })

/-- result.h:29-37 constructors from `T`. -/
def mkOk (i : Nat) (t : τ) : Prog (World τ ε) Unit := do
  born i true
  construct i (.inl t)

/-- result.h:39-45 constructors from `E`. -/
def mkErr (i : Nat) (e : ε) : Prog (World τ ε) Unit := do
  born i false
  construct i (.inr e)

/-- result.h:423-429 `move_impl(r)`. -/
def moveImpl (C : Cfg τ ε) (i j : Nat) : Prog (World τ ε) Unit := do
  let r ← obj j
  if r.ok then do
    let t ← moveT C j
    construct i (.inl t)
  else do
    let e ← moveE C j
    construct i (.inr e)

/-- result.h:431-437 `copy_impl(r)`. -/
def copyImpl (i j : Nat) : Prog (World τ ε) Unit := do
  let r ← obj j
  if r.ok then do
    let t ← readT j
    construct i (.inl t)
  else do
    let e ← readE j
    construct i (.inr e)

/-- result.h:46-48 copy constructor. -/
def copyCtor (i j : Nat) : Prog (World τ ε) Unit := do
  let r ← obj j
  born i r.ok
  copyImpl i j

/-- result.h:50-53 move constructor. -/
def moveCtor (C : Cfg τ ε) (i j : Nat) : Prog (World τ ε) Unit := do
  let r ← obj j
  born i r.ok
  moveImpl C i j

/-- End of the lifetime of an object. -/
def die (i : Nat) : Prog (World τ ε) Unit := fun w => .ok ((), upd w i { w i with alive := false })

/-- result.h:55-61 destructor. -/
def destroy (C : Cfg τ ε) (i : Nat) : Prog (World τ ε) Unit := do
  let o ← obj i
  if o.ok then destroyT C i else destroyE C i
  die i

/-- result.h:200-206 `unwrap`, with the returned rvalue reference moved from. -/
def unwrap (C : Cfg τ ε) (i : Nat) : Prog (World τ ε) τ := do
  let o ← obj i
  if o.ok then moveT C i else Prog.panic

/-- result.h:243-249 `unwrap_err`. -/
def unwrapErr (C : Cfg τ ε) (i : Nat) : Prog (World τ ε) ε := do
  let o ← obj i
  if o.ok then Prog.panic else moveE C i

/-- result.h:63-83 move assignment.  Note that `type` is not updated. -/
def moveAssign (C : Cfg τ ε) (i j : Nat) : Prog (World τ ε) Unit := do
  let this ← obj i
  let rhs ← obj j
  if i = j then return ()
  else if this.ok ≠ rhs.ok then do
    if this.ok then destroyT C i else destroyE C i
    moveImpl C i j
  else if this.ok then do
    let t ← unwrap C j
    assignT i t
  else do
    let e ← unwrapErr C j
    assignE i e

/-- result.h:85-104 copy assignment.  Note that `type` is not updated. -/
def copyAssign (C : Cfg τ ε) (i j : Nat) : Prog (World τ ε) Unit := do
  let this ← obj i
  let rhs ← obj j
  if i = j then return ()
  else if this.ok ≠ rhs.ok then do
    if this.ok then destroyT C i else destroyE C i
    copyImpl i j
  else if this.ok then do
    let t ← readT j
    assignT i t
  else do
    let e ← readE j
    assignE i e

/-- result.h:164-166, 179-181 `is_ok`, `is_err`. -/
def isOk (i : Nat) : Prog (World τ ε) Bool := do
  let o ← obj i
  return o.ok
def isErr (i : Nat) : Prog (World τ ε) Bool := do
  let o ← obj i
  return !o.ok

/-- result.h:282-288 `ok()`, 306-320 `ok_ref()` read through. -/
def okOpt (i : Nat) : Prog (World τ ε) (Option τ) := do
  let o ← obj i
  if o.ok then do
    let t ← readT i
    return some t
  else return none

/-- result.h:328-334 `err()`, 352-366 `err_ref()` read through. -/
def errOpt (i : Nat) : Prog (World τ ε) (Option ε) := do
  let o ← obj i
  if o.ok then return none
  else do
    let e ← readE i
    return some e

/-- result.h:106-116 `operator==`. -/
def eq [BEq τ] [BEq ε] (i j : Nat) : Prog (World τ ε) Bool := do
  let a ← obj i
  let b ← obj j
  if a.ok ≠ b.ok then return false
  else if a.ok then do
    let x ← readT i
    let y ← readT j
    return x == y
  else do
    let x ← readE i
    let y ← readE j
    return x == y

/-- result.h:507-517 `operator==` of `Result<T&, E>`: the ok payload is a pointer, the referents are compared. -/
def eqRef {α : Type} [BEq α] [BEq ε] (mem : Nat → α) (i j : Nat) : Prog (World Nat ε) Bool := do
  let a ← obj i
  let b ← obj j
  if a.ok ≠ b.ok then return false
  else if a.ok then do
    let x ← readT i
    let y ← readT j
    return mem x == mem y
  else do
    let x ← readE i
    let y ← readE j
    return x == y

inductive Op (τ ε : Type) where
  | mkOk (i : Nat) (t : τ)
  | mkErr (i : Nat) (e : ε)
  | copyCtor (i j : Nat)
  | moveCtor (i j : Nat)
  | copyAssign (i j : Nat)
  | moveAssign (i j : Nat)
  | isOk (i : Nat)
  | isErr (i : Nat)
  | unwrap (i : Nat)
  | unwrapErr (i : Nat)
  | ok (i : Nat)
  | err (i : Nat)
  | destroy (i : Nat)

inductive Ret (τ ε : Type) where
  | unit
  | bool (b : Bool)
  | valT (t : τ)
  | valE (e : ε)
  | optT (o : Option τ)
  | optE (o : Option ε)

def step (C : Cfg τ ε) : Op τ ε → Prog (World τ ε) (Ret τ ε)
  | .mkOk i t => do mkOk i t; return .unit
  | .mkErr i e => do mkErr i e; return .unit
  | .copyCtor i j => do copyCtor i j; return .unit
  | .moveCtor i j => do moveCtor C i j; return .unit
  | .copyAssign i j => do copyAssign C i j; return .unit
  | .moveAssign i j => do moveAssign C i j; return .unit
  | .isOk i => do return .bool (← isOk i)
  | .isErr i => do return .bool (← isErr i)
  | .unwrap i => do return .valT (← unwrap C i)
  | .unwrapErr i => do return .valE (← unwrapErr C i)
  | .ok i => do return .optT (← okOpt i)
  | .err i => do return .optE (← errOpt i)
  | .destroy i => do destroy C i; return .unit

def run (C : Cfg τ ε) : List (Op τ ε) → Prog (World τ ε) (List (Ret τ ε))
  | [] => pure []
  | op :: ops => do
    let r ← step C op
    let rs ← run C ops
    return r :: rs

def World.init : World τ ε := fun _ => {}

end Verif.Model.Res
