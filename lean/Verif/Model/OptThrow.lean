import Verif.Model.Opt
/-!
# Option when copying the payload throws

The members of option.h that copy a payload, or call a function, once more: copying a value `v` with `bad v = true` throws.
A failed copy assignment over `u` leaves the target payload alive with the value `part u v`.  Moving and destruction do not throw.
A member returns whether it threw; the objects are then as they are at that moment.  A constructor that throws leaves no object.
-/
namespace Verif.Model.Opt
open Verif

variable {α β : Type} (bad : α → Bool) (part : α → α → α)

/-- An object whose constructor throws never lives; it holds no payload (option.h:208-213: a union). -/
def unborn (i : Nat) : Prog (World α) Unit := modObj i fun o => { o with alive := false }

/-- option.h:26-27, 182 `Option<T>::some(const T&)`. -/
def mkSomeT (i : Nat) (v : α) : Prog (World α) Bool := do
  born i
  if bad v then do
    unborn i
    return true
  else do
    constructVal i v
    setHold i true
    return false

/-- option.h:136-145 copy constructor. -/
def copyCtorT (i j : Nat) : Prog (World α) Bool := do
  let other ← obj j
  born i
  setHold i other.hold
  if other.hold then do
    let v ← readVal j
    if bad v then do
      unborn i
      return true
    else do
      constructVal i v
      return false
  else return false

/-- option.h:150-170 copy assignment: `hold_value` is set (L160) before the copy is made (L163). -/
def copyAssignT (i j : Nat) : Prog (World α) Bool := do
  let this ← obj i
  let other ← obj j
  if i = j then return false
  else if this.hold = other.hold then
    if this.hold then do
      let v ← readVal j
      if bad v then do
        let u ← readVal i
        assignVal i (part u v)
        return true
      else do
        assignVal i v
        return false
    else return false
  else do
    setHold i other.hold
    if other.hold then do
      let v ← readVal j
      if bad v then return true
      else do
        constructVal i v
        return false
    else do
      destroyVal i
      return false

/-- option.h:82-89 `map` with a function that may throw (`(f v).1 = none`); `(f v).2` is what it leaves in the payload. -/
def mapT (f : α → Option β × α) (i : Nat) : Prog (World α) (Option (Option β)) := fun w =>
  if (w i).alive then
    if (w i).hold then
      match (w i).cell with
      | none => .ub
      | some v => .ok ((f v).1.map some, upd w i { w i with cell := some (f v).2 })
    else .ok (some none, w)
  else .ub

/-- Calls of a program that goes on after an exception. -/
inductive OpT (α : Type) where
  | plain (op : Op α)
  | someCopy (i : Nat) (v : α)
  | map (f : α → Option α × α) (i : Nat)

/-- A call; the answer is `none` if it threw. -/
def stepT (mv : α → α) : OpT α → Prog (World α) (Option (Res α))
  | .someCopy i v => do
    let t ← mkSomeT bad i v
    return if t then none else some .unit
  | .map f i => do
    let r ← mapT f i
    return r.map .opt
  | .plain (.copyCtor i j) => do
    let t ← copyCtorT bad i j
    return if t then none else some .unit
  | .plain (.copyAssign i j) => do
    let t ← copyAssignT bad part i j
    return if t then none else some .unit
  | .plain op => do
    let r ← step mv op
    return some r

def runT (mv : α → α) : List (OpT α) → Prog (World α) (List (Option (Res α)))
  | [] => pure []
  | op :: ops => do
    let r ← stepT bad part mv op
    let rs ← runT mv ops
    return r :: rs

end Verif.Model.Opt
