import Verif.Base.Out
/-!
# Model of include/mstl/option/option.h

`Obj` is one `Option<T>` object: its lifetime, the flag `hold_value` and the storage of the union member `value`
(`none`: no live payload).  `ctor`/`dtor` are ghost counters of payload constructions and destructions in this
object's storage.  The empty union member `non_value` (option.h:16, 194-200) has no state.  Reading, assigning or
destroying a payload that is not alive is `ub`.  `mv v` is the value a move leaves behind.
-/
namespace Verif.Model.Opt
open Verif

/-- option.h:208-213. -/
structure Obj (α : Type) where
  alive : Bool := false
  hold : Bool := false
  cell : Option α := none
  ctor : Nat := 0
  dtor : Nat := 0

/-- All option objects of a program, by name. -/
abbrev World (α : Type) := Nat → Obj α

variable {α β : Type}

def upd (w : World α) (i : Nat) (o : Obj α) : World α := fun j => if j = i then o else w j

def modObj (i : Nat) (f : Obj α → Obj α) : Prog (World α) Unit := fun w => .ok ((), upd w i (f (w i)))

/-- Names an existing object; using an object outside its lifetime is `ub`. -/
def obj (i : Nat) : Prog (World α) (Obj α) := fun w => if (w i).alive then .ok (w i, w) else .ub

/-- option.h:185-188 `construct_val`. -/
def constructVal (i : Nat) (v : α) : Prog (World α) Unit :=
  modObj i fun o => { o with cell := some v, ctor := o.ctor + 1 }

/-- option.h:190-192 `destroy_val`. -/
def destroyVal (i : Nat) : Prog (World α) Unit := fun w =>
  match (w i).cell with
  | none => .ub
  | some _ => .ok ((), upd w i { w i with cell := none, dtor := (w i).dtor + 1 })

/-- Reading the payload. -/
def readVal (i : Nat) : Prog (World α) α := fun w =>
  match (w i).cell with
  | none => .ub
  | some v => .ok (v, w)

/-- `std::move(value)` consumed by a constructor or an assignment: hands the value over and leaves `mv v`. -/
def moveVal (mv : α → α) (i : Nat) : Prog (World α) α := fun w =>
  match (w i).cell with
  | none => .ub
  | some v => .ok (v, upd w i { w i with cell := some (mv v) })

/-- `value = x`. -/
def assignVal (i : Nat) (x : α) : Prog (World α) Unit := fun w =>
  match (w i).cell with
  | none => .ub
  | some _ => .ok ((), upd w i { w i with cell := some x })

def setHold (i : Nat) (b : Bool) : Prog (World α) Unit := modObj i fun o => { o with hold := b }

/-- Start of the lifetime of an object (all constructors). -/
def born (i : Nat) : Prog (World α) Unit := fun w =>
  if (w i).alive then .ub else .ok ((), upd w i { w i with alive := true, hold := false, cell := none })

/-- option.h:202-206 `reset`. -/
def reset (i : Nat) : Prog (World α) Unit := do
  destroyVal i
  setHold i false

/-- option.h:24-27, 181-182 `Option<T>::some(v)` initialising object `i` (copy elision is guaranteed). -/
def mkSome (i : Nat) (v : α) : Prog (World α) Unit := do
  born i
  constructVal i v
  setHold i true

/-- option.h:28-29, 183 `Option<T>::none()`. -/
def mkNone (i : Nat) : Prog (World α) Unit := do
  born i
  setHold i false

/-- option.h:31 `is_some`. -/
def isSome (i : Nat) : Prog (World α) Bool := do
  let o ← obj i
  return o.hold

/-- option.h:32 `is_none`. -/
def isNone (i : Nat) : Prog (World α) Bool := do
  let o ← obj i
  return !o.hold

/-- option.h:44-48 `unwrap_unchecked`. -/
def unwrapUnchecked (mv : α → α) (i : Nat) : Prog (World α) α := do
  let _ ← obj i
  let res ← moveVal mv i
  reset i
  return res

/-- option.h:35-41 `unwrap`. -/
def unwrap (mv : α → α) (i : Nat) : Prog (World α) α := do
  let o ← obj i
  if o.hold then unwrapUnchecked mv i else Prog.panic

/-- option.h:51-66 `as_ref`, used to read. -/
def asRefRead (i : Nat) : Prog (World α) α := do
  let o ← obj i
  if o.hold then readVal i else Prog.panic

/-- option.h:51-57 `as_ref`, used to write. -/
def asRefWrite (i : Nat) (x : α) : Prog (World α) Unit := do
  let o ← obj i
  if o.hold then assignVal i x else Prog.panic

/-- option.h:94-104 move constructor `Option i(std::move(j))`. -/
def moveCtor (mv : α → α) (i j : Nat) : Prog (World α) Unit := do
  let other ← obj j
  born i
  setHold i other.hold
  if other.hold then do
    let v ← moveVal mv j
    constructVal i v
    reset j
  else return ()

/-- option.h:109-131 move assignment `i = std::move(j)`. -/
def moveAssign (mv : α → α) (i j : Nat) : Prog (World α) Unit := do
  let this ← obj i
  let other ← obj j
  if i = j then return ()
  else if this.hold = other.hold then
    if this.hold then do
      let v ← moveVal mv j
      assignVal i v
    else return ()
  else do
    setHold i other.hold
    if other.hold then do
      let v ← moveVal mv j
      constructVal i v
      reset j
    else destroyVal i

/-- option.h:136-145 copy constructor. -/
def copyCtor (i j : Nat) : Prog (World α) Unit := do
  let other ← obj j
  born i
  setHold i other.hold
  if other.hold then do
    let v ← readVal j
    constructVal i v
  else return ()

/-- option.h:150-170 copy assignment. -/
def copyAssign (i j : Nat) : Prog (World α) Unit := do
  let this ← obj i
  let other ← obj j
  if i = j then return ()
  else if this.hold = other.hold then
    if this.hold then do
      let v ← readVal j
      assignVal i v
    else return ()
  else do
    setHold i other.hold
    if other.hold then do
      let v ← readVal j
      constructVal i v
    else destroyVal i

/-- option.h:172-178 destructor. -/
def destroy (i : Nat) : Prog (World α) Unit := do
  let o ← obj i
  if o.hold then destroyVal i else pure ()
  modObj i fun o => { o with alive := false }

/-- option.h:82-89 `map`: the function receives `std::move(value)`; it returns its result and what it leaves in
the referenced payload (`f v = (result, left)`), because a lambda taking a reference need not move.  The result is
the content of the returned `Option`. -/
def map (f : α → β × α) (i : Nat) : Prog (World α) (Option β) := fun w =>
  if (w i).alive then
    if (w i).hold then
      match (w i).cell with
      | none => .ub
      | some v => .ok (some (f v).1, upd w i { w i with cell := some (f v).2 })
    else .ok (none, w)
  else .ub

/-- The public operations on `Option<T>` objects. -/
inductive Op (α : Type) where
  | mkSome (i : Nat) (v : α)
  | mkNone (i : Nat)
  | copyCtor (i j : Nat)
  | moveCtor (i j : Nat)
  | copyAssign (i j : Nat)
  | moveAssign (i j : Nat)
  | unwrap (i : Nat)
  | read (i : Nat)
  | write (i : Nat) (v : α)
  | isSome (i : Nat)
  | isNone (i : Nat)
  | mapSelf (f : α → α × α) (i : Nat)
  | destroy (i : Nat)

/-- What a call reports to the caller. -/
inductive Res (α : Type) where
  | unit
  | bool (b : Bool)
  | val (v : α)
  | opt (o : Option α)

def step (mv : α → α) : Op α → Prog (World α) (Res α)
  | .mkSome i v => do mkSome i v; return .unit
  | .mkNone i => do mkNone i; return .unit
  | .copyCtor i j => do copyCtor i j; return .unit
  | .moveCtor i j => do moveCtor mv i j; return .unit
  | .copyAssign i j => do copyAssign i j; return .unit
  | .moveAssign i j => do moveAssign mv i j; return .unit
  | .unwrap i => do return .val (← unwrap mv i)
  | .read i => do return .val (← asRefRead i)
  | .write i v => do asRefWrite i v; return .unit
  | .isSome i => do return .bool (← isSome i)
  | .isNone i => do return .bool (← isNone i)
  | .mapSelf f i => do return .opt (← map f i)
  | .destroy i => do destroy i; return .unit

/-- A history of calls. -/
def run (mv : α → α) : List (Op α) → Prog (World α) (List (Res α))
  | [] => pure []
  | op :: ops => do
    let r ← step mv op
    let rs ← run mv ops
    return r :: rs

/-- Before anything is constructed. -/
def World.init : World α := fun _ => {}

end Verif.Model.Opt

namespace Verif.Model.Opt
open Verif
variable {α β : Type}

/-- option.h:82-89 `map` again, with a function that may have effects on a state `ω` (output, counters, ...). -/
def mapEff {ω : Type} (f : α → ω → Out ((β × α) × ω)) (i : Nat) (w : World α) (s : ω) :
    Out (Option β × World α × ω) :=
  if (w i).alive then
    if (w i).hold then
      match (w i).cell with
      | none => .ub
      | some v => do
        let ((b, left), s) ← f v s
        return (some b, upd w i { w i with cell := some left }, s)
    else .ok (none, w, s)
  else .ub

/-! ## `Option<T&>` (option.h:224-334)

Objects live at addresses; an `Option<T&>` is a pointer, `none` for `nullptr`. -/

structure RefWorld (α : Type) where
  mem : Nat → α
  refs : Nat → Option Nat

/-- option.h:231-234 `some(t)`. -/
def refSome (i addr : Nat) : Prog (RefWorld α) Unit := fun w =>
  .ok ((), { w with refs := fun k => if k = i then some addr else w.refs k })

/-- option.h:235-236 `none()`. -/
def refNone (i : Nat) : Prog (RefWorld α) Unit := fun w =>
  .ok ((), { w with refs := fun k => if k = i then none else w.refs k })

/-- option.h:302-312 copy construction and copy assignment. -/
def refCopy (i j : Nat) : Prog (RefWorld α) Unit := fun w =>
  .ok ((), { w with refs := fun k => if k = i then w.refs j else w.refs k })

/-- option.h:314-318 move construction (`i` and `j` are different objects). -/
def refMoveCtor (i j : Nat) : Prog (RefWorld α) Unit := fun w =>
  let w1 : RefWorld α := { w with refs := fun k => if k = i then w.refs j else w.refs k }
  .ok ((), { w1 with refs := fun k => if k = j then none else w1.refs k })

/-- option.h:320-327 move assignment. -/
def refMoveAssign (i j : Nat) : Prog (RefWorld α) Unit := fun w =>
  if i = j then .ok ((), w) else refMoveCtor i j w

/-- option.h:244-252 `unwrap`: the address referred to. -/
def refUnwrap (i : Nat) : Prog (RefWorld α) Nat := fun w =>
  match w.refs i with
  | none => .panic
  | some a => .ok (a, { w with refs := fun k => if k = i then none else w.refs k })

/-- option.h:262-277 `as_ref`. -/
def refAsRef (i : Nat) : Prog (RefWorld α) Nat := fun w =>
  match w.refs i with
  | none => .panic
  | some a => .ok (a, w)

/-- Reading and writing an object through a reference. -/
def load (a : Nat) : Prog (RefWorld α) α := fun w => .ok (w.mem a, w)
def store (a : Nat) (v : α) : Prog (RefWorld α) Unit := fun w =>
  .ok ((), { w with mem := fun k => if k = a then v else w.mem k })

/-- option.h:293-300 `map` of `Option<T&>`: passes the object, does not consume the option. -/
def refMap (f : α → β × α) (i : Nat) : Prog (RefWorld α) (ULift (Option β)) := fun w =>
  match w.refs i with
  | none => .ok (⟨none⟩, w)
  | some a => .ok (⟨some (f (w.mem a)).1⟩, { w with mem := fun k => if k = a then (f (w.mem a)).2 else w.mem k })

end Verif.Model.Opt
