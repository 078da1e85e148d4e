import Verif.Model.Result
/-!
# Result when copying the payload throws

The members of result.h that copy a payload, once more: copying a payload `v` with `bad v = true` throws.  Moving, comparing and
destruction do not throw.  A member returns whether it threw; a constructor that throws leaves no object.  In a member declared
`noexcept` a throw is `std::terminate` (outcome `panic`).
-/
namespace Verif.Model.Res
open Verif

variable {τ ε : Type} (bad : τ ⊕ ε → Bool)

/-- result.h:29-31 `Result(const T&)`. -/
def mkOkT (i : Nat) (t : τ) : Prog (World τ ε) Bool := do
  born i true
  if bad (.inl t) then do
    die i
    return true
  else do
    construct i (.inl t)
    return false

/-- result.h:39-40 `Result(const E&)`. -/
def mkErrT (i : Nat) (e : ε) : Prog (World τ ε) Bool := do
  born i false
  if bad (.inr e) then do
    die i
    return true
  else do
    construct i (.inr e)
    return false

/-- result.h:431-437 `copy_impl(r)`, called from `noexcept` members only. -/
def copyImplT (i j : Nat) : Prog (World τ ε) Unit := do
  let r ← obj j
  if r.ok then do
    let t ← readT j
    if bad (.inl t) then Prog.panic
    else construct i (.inl t)
  else do
    let e ← readE j
    if bad (.inr e) then Prog.panic
    else construct i (.inr e)

/-- result.h:46-48, 449-450 copy constructor, `noexcept`. -/
def copyCtorT (i j : Nat) : Prog (World τ ε) Unit := do
  let r ← obj j
  born i r.ok
  copyImplT bad i j

/-- result.h:85-104, 460-466 copy assignment, `noexcept`. -/
def copyAssignT (C : Cfg τ ε) (i j : Nat) : Prog (World τ ε) Unit := do
  let this ← obj i
  let rhs ← obj j
  if i = j then return ()
  else if this.ok ≠ rhs.ok then do
    if this.ok then destroyT C i else destroyE C i
    copyImplT bad i j
  else if this.ok then do
    let t ← readT j
    if bad (.inl t) then Prog.panic
    else assignT i t
  else do
    let e ← readE j
    if bad (.inr e) then Prog.panic
    else assignE i e

/-- result.h:282-288 `ok()` and 296-298 `ok_unchecked()` after a check; `none`: threw. -/
def okOptT (i : Nat) : Prog (World τ ε) (Option (Option τ)) := do
  let o ← obj i
  if o.ok then do
    let t ← readT i
    return if bad (.inl t) then none else some (some t)
  else return some none

/-- result.h:328-334 `err()` and 342-344 `err_unchecked()` after a check; `none`: threw. -/
def errOptT (i : Nat) : Prog (World τ ε) (Option (Option ε)) := do
  let o ← obj i
  if o.ok then return some none
  else do
    let e ← readE i
    return if bad (.inr e) then none else some (some e)

/-- Calls of a program that goes on after an exception. -/
inductive OpT (τ ε : Type) where
  | plain (op : Op τ ε)
  | okCopy (i : Nat) (t : τ)
  | errCopy (i : Nat) (e : ε)

/-- A call; the answer is `none` if it threw. -/
def stepT (C : Cfg τ ε) : OpT τ ε → Prog (World τ ε) (Option (Ret τ ε))
  | .okCopy i t => do
    let b ← mkOkT bad i t
    return if b then none else some .unit
  | .errCopy i e => do
    let b ← mkErrT bad i e
    return if b then none else some .unit
  | .plain (.copyCtor i j) => do
    copyCtorT bad i j
    return some .unit
  | .plain (.copyAssign i j) => do
    copyAssignT bad C i j
    return some .unit
  | .plain (.ok i) => do
    let r ← okOptT bad i
    return r.map .optT
  | .plain (.err i) => do
    let r ← errOptT bad i
    return r.map .optE
  | .plain op => do
    let r ← step C op
    return some r

def runT (C : Cfg τ ε) : List (OpT τ ε) → Prog (World τ ε) (List (Option (Ret τ ε)))
  | [] => pure []
  | op :: ops => do
    let r ← stepT bad C op
    let rs ← runT C ops
    return r :: rs

end Verif.Model.Res
