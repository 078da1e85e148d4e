import Verif.Model.MoveThrow
import Verif.Spec.OptThrow
import Verif.Spec.ResultThrow
/-!
# Specification: options and results whose payload moves may throw

`badMove v`: moving `v` throws and leaves `half v` behind.
* Making an option or a result from such a value throws; the object does not come to exist.
* Unwrapping such a value throws; the option or result still holds a value, the one the failed move left.
* Moving a whole option or result with such a value, by construction or assignment, promises not to throw: the program ends.
All other calls are those of Spec/OptThrow.lean and Spec/ResultThrow.lean, where copies may throw too.
-/
namespace Verif.Spec.Opt
open Verif
open Verif.Model.Opt (Op OpT Res)

variable {α : Type}

def specStepM (bad badMove : α → Bool) (part : α → α → α) (half mv : α → α) : OpT α → Ideal α → Option (Out (Option (Res α) × Ideal α))
  | .plain (.mkSome i v), A =>
    if A i = none then some (.ok (if badMove v then (none, A) else (some .unit, put A i (some (some v))))) else none
  | .plain (.unwrap i), A =>
    match A i with
    | none => none
    | some none => some .panic
    | some (some v) =>
      some (.ok (if badMove v then (none, put A i (some (some (half v)))) else (some (.val v), put A i (some none))))
  | .plain (.moveCtor i j), A =>
    match A i, A j with
    | none, some o => if throws badMove o then some .panic else specStepT false bad part mv (.plain (.moveCtor i j)) A
    | _, _ => none
  | .plain (.moveAssign i j), A =>
    match A i, A j with
    | some _, some o =>
      if i ≠ j ∧ throws badMove o then some .panic else specStepT false bad part mv (.plain (.moveAssign i j)) A
    | _, _ => none
  | op, A => specStepT false bad part mv op A

def specRunM (bad badMove : α → Bool) (part : α → α → α) (half mv : α → α) :
    List (OpT α) → Ideal α → Option (Out (List (Option (Res α)) × Ideal α))
  | [], A => some (.ok ([], A))
  | op :: ops, A =>
    match specStepM bad badMove part half mv op A with
    | some (.ok (r, A')) =>
      match specRunM bad badMove part half mv ops A' with
      | some (.ok (rs, A'')) => some (.ok (r :: rs, A''))
      | some .panic => some .panic
      | _ => none
    | some .panic => some .panic
    | _ => none

end Verif.Spec.Opt

namespace Verif.Spec.Res
open Verif
open Verif.Model.Res (Op OpT Ret)

variable {τ ε : Type}

def specStepM (bad badMove : τ ⊕ ε → Bool) (halfT mvT : τ → τ) (halfE mvE : ε → ε) :
    OpT τ ε → Ideal τ ε → Option (Out (Option (Ret τ ε) × Ideal τ ε))
  | .plain (.mkOk i t), A =>
    if (A i).isNone then some (.ok (if badMove (.inl t) then (none, A) else (some .unit, put A i (some (.inl t))))) else none
  | .plain (.mkErr i e), A =>
    if (A i).isNone then some (.ok (if badMove (.inr e) then (none, A) else (some .unit, put A i (some (.inr e))))) else none
  | .plain (.unwrap i), A =>
    match A i with
    | none => none
    | some (.inl t) =>
      some (.ok (if badMove (.inl t) then (none, put A i (some (.inl (halfT t)))) else (some (.valT t), put A i (some (.inl (mvT t))))))
    | some (.inr _) => some .panic
  | .plain (.unwrapErr i), A =>
    match A i with
    | none => none
    | some (.inl _) => some .panic
    | some (.inr e) =>
      some (.ok (if badMove (.inr e) then (none, put A i (some (.inr (halfE e)))) else (some (.valE e), put A i (some (.inr (mvE e))))))
  | .plain (.moveCtor i j), A =>
    match A i, A j with
    | none, some s => if badMove s then some .panic else specStepT false bad mvT mvE (.plain (.moveCtor i j)) A
    | _, _ => none
  | .plain (.moveAssign i j), A =>
    match A i, A j with
    | some _, some s =>
      if i ≠ j ∧ badMove s then some .panic else specStepT false bad mvT mvE (.plain (.moveAssign i j)) A
    | _, _ => none
  | op, A => specStepT false bad mvT mvE op A

def specRunM (bad badMove : τ ⊕ ε → Bool) (halfT mvT : τ → τ) (halfE mvE : ε → ε) :
    List (OpT τ ε) → Ideal τ ε → Option (Out (List (Option (Ret τ ε)) × Ideal τ ε))
  | [], A => some (.ok ([], A))
  | op :: ops, A =>
    match specStepM bad badMove halfT mvT halfE mvE op A with
    | some (.ok (r, A')) =>
      match specRunM bad badMove halfT mvT halfE mvE ops A' with
      | some (.ok (rs, A'')) => some (.ok (r :: rs, A''))
      | some .panic => some .panic
      | _ => none
    | some .panic => some .panic
    | _ => none

end Verif.Spec.Res
