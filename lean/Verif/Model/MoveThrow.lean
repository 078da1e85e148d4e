import Verif.Model.OptThrow
import Verif.Model.ResultThrow
/-!
# Option and Result when moving the payload throws

The members of option.h and result.h that move a payload, once more: moving a value `v` with `badMove v = true` throws and leaves
`half v` in the source, which is still alive.  Copying may throw as well (`bad`, `part`: Model/OptThrow.lean, Model/ResultThrow.lean);
destruction does not throw.  A throw in a member declared `noexcept` is `std::terminate` (outcome `panic`).
-/
namespace Verif.Model.Opt
open Verif

variable {α : Type} (bad badMove ret : α → Bool) (part : α → α → α) (half mv : α → α)

/-- option.h:19-25, 181 `Option<T>::some(T&&)` and `emplace`. -/
def mkSomeM (i : Nat) (v : α) : Prog (World α) Bool := do
  born i
  if badMove v then do
    unborn i
    return true
  else do
    constructVal i v
    setHold i true
    return false

/-- option.h:35-48 `unwrap` with `unwrap_unchecked`; `none`: threw.  `ret v`: the move of `res` into the object the caller gets (L47)
is made and throws.  Compilers construct `res` in place of that object, then there is no such move (`ret` is never true). -/
def unwrapM (i : Nat) : Prog (World α) (Option α) := do
  let o ← obj i
  if o.hold then do
    let v ← readVal i
    if badMove v then do
      assignVal i (half v)
      return none
    else do
      let res ← moveVal mv i
      reset i
      return if ret res then none else some res
  else Prog.panic

/-- option.h:94-104 move constructor, `noexcept`. -/
def moveCtorM (i j : Nat) : Prog (World α) Unit := do
  let other ← obj j
  born i
  setHold i other.hold
  if other.hold then do
    let v ← readVal j
    if badMove v then Prog.panic
    else do
      let v ← moveVal mv j
      constructVal i v
      reset j
  else return ()

/-- option.h:109-131 move assignment, `noexcept`. -/
def moveAssignM (i j : Nat) : Prog (World α) Unit := do
  let this ← obj i
  let other ← obj j
  if i = j then return ()
  else if this.hold = other.hold then
    if this.hold then do
      let v ← readVal j
      if badMove v then Prog.panic
      else do
        let v ← moveVal mv j
        assignVal i v
    else return ()
  else do
    setHold i other.hold
    if other.hold then do
      let v ← readVal j
      if badMove v then Prog.panic
      else do
        let v ← moveVal mv j
        constructVal i v
        reset j
    else destroyVal i

/-- A call; the answer is `none` if it threw. -/
def stepM : OpT α → Prog (World α) (Option (Res α))
  | .plain (.mkSome i v) => do
    let t ← mkSomeM badMove i v
    return if t then none else some .unit
  | .plain (.unwrap i) => do
    let r ← unwrapM badMove ret half mv i
    return r.map .val
  | .plain (.moveCtor i j) => do
    moveCtorM badMove mv i j
    return some .unit
  | .plain (.moveAssign i j) => do
    moveAssignM badMove mv i j
    return some .unit
  | op => stepT bad part mv op

def runM : List (OpT α) → Prog (World α) (List (Option (Res α)))
  | [] => pure []
  | op :: ops => do
    let r ← stepM bad badMove ret part half mv op
    let rs ← runM ops
    return r :: rs

end Verif.Model.Opt

namespace Verif.Model.Res
open Verif

variable {τ ε : Type} (bad badMove : τ ⊕ ε → Bool) (halfT : τ → τ) (halfE : ε → ε)

/-- result.h:34-37, 129-132 `Result(T&&)` and `ok(args...)`. -/
def mkOkM (i : Nat) (t : τ) : Prog (World τ ε) Bool := do
  born i true
  if badMove (.inl t) then do
    die i
    return true
  else do
    construct i (.inl t)
    return false

/-- result.h:43-45, 145-149 `Result(E&&)` and `err(args...)`. -/
def mkErrM (i : Nat) (e : ε) : Prog (World τ ε) Bool := do
  born i false
  if badMove (.inr e) then do
    die i
    return true
  else do
    construct i (.inr e)
    return false

/-- result.h:423-429 `move_impl(r)`, called from `noexcept` members only. -/
def moveImplM (C : Cfg τ ε) (i j : Nat) : Prog (World τ ε) Unit := do
  let r ← obj j
  if r.ok then do
    let t ← readT j
    if badMove (.inl t) then Prog.panic
    else do
      let t ← moveT C j
      construct i (.inl t)
  else do
    let e ← readE j
    if badMove (.inr e) then Prog.panic
    else do
      let e ← moveE C j
      construct i (.inr e)

/-- result.h:50-53 move constructor, `noexcept`. -/
def moveCtorM (C : Cfg τ ε) (i j : Nat) : Prog (World τ ε) Unit := do
  let r ← obj j
  born i r.ok
  moveImplM badMove C i j

/-- result.h:63-83 move assignment, `noexcept`. -/
def moveAssignM (C : Cfg τ ε) (i j : Nat) : Prog (World τ ε) Unit := do
  let this ← obj i
  let rhs ← obj j
  if i = j then return ()
  else if this.ok ≠ rhs.ok then do
    if this.ok then destroyT C i else destroyE C i
    moveImplM badMove C i j
  else if this.ok then do
    let t ← readT j
    if badMove (.inl t) then Prog.panic
    else do
      let t ← unwrap C j
      assignT i t
  else do
    let e ← readE j
    if badMove (.inr e) then Prog.panic
    else do
      let e ← unwrapErr C j
      assignE i e

/-- result.h:200-206 `unwrap`, the caller moving from the returned rvalue reference; `none`: that move threw. -/
def unwrapM (C : Cfg τ ε) (i : Nat) : Prog (World τ ε) (Option τ) := do
  let o ← obj i
  if o.ok then do
    let t ← readT i
    if badMove (.inl t) then do
      assignT i (halfT t)
      return none
    else do
      let t ← moveT C i
      return some t
  else Prog.panic

/-- result.h:243-249 `unwrap_err`, likewise. -/
def unwrapErrM (C : Cfg τ ε) (i : Nat) : Prog (World τ ε) (Option ε) := do
  let o ← obj i
  if o.ok then Prog.panic
  else do
    let e ← readE i
    if badMove (.inr e) then do
      assignE i (halfE e)
      return none
    else do
      let e ← moveE C i
      return some e

/-- A call; the answer is `none` if it threw. -/
def stepM (C : Cfg τ ε) : OpT τ ε → Prog (World τ ε) (Option (Ret τ ε))
  | .plain (.mkOk i t) => do
    let b ← mkOkM badMove i t
    return if b then none else some .unit
  | .plain (.mkErr i e) => do
    let b ← mkErrM badMove i e
    return if b then none else some .unit
  | .plain (.moveCtor i j) => do
    moveCtorM badMove C i j
    return some .unit
  | .plain (.moveAssign i j) => do
    moveAssignM badMove C i j
    return some .unit
  | .plain (.unwrap i) => do
    let r ← unwrapM badMove halfT C i
    return r.map .valT
  | .plain (.unwrapErr i) => do
    let r ← unwrapErrM badMove halfE C i
    return r.map .valE
  | op => stepT bad C op

def runM (C : Cfg τ ε) : List (OpT τ ε) → Prog (World τ ε) (List (Option (Ret τ ε)))
  | [] => pure []
  | op :: ops => do
    let r ← stepM bad badMove halfT halfE C op
    let rs ← runM C ops
    return r :: rs

end Verif.Model.Res
