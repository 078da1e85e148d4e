import Verif.Spec.Result
import Verif.Model.ResultThrow
/-!
# Specification: results whose payload copies may throw

A call that throws (answer `none`) leaves every result as it was.  `reach = true` is what a user relies on: the exception of a
copy reaches the caller whichever call made the copy.  `reach = false` is the same except that the exception of a copy made by
the copy constructor or by copy assignment ends the program.  Assignments between different variants are left out (they go
wrong without exceptions already).
-/
namespace Verif.Spec.Res
open Verif
open Verif.Model.Res (Op OpT Ret)

variable {τ ε : Type}

def specStepT (reach : Bool) (bad : τ ⊕ ε → Bool) (mvT : τ → τ) (mvE : ε → ε) :
    OpT τ ε → Ideal τ ε → Option (Out (Option (Ret τ ε) × Ideal τ ε))
  | .okCopy i t, A => if (A i).isNone then some (.ok (if bad (.inl t) then (none, A) else (some .unit, put A i (some (.inl t))))) else none
  | .errCopy i e, A => if (A i).isNone then some (.ok (if bad (.inr e) then (none, A) else (some .unit, put A i (some (.inr e))))) else none
  | .plain (.copyCtor i j), A =>
    match A i, A j with
    | none, some s =>
      if bad s then some (if reach then .ok (none, A) else .panic)
      else some (.ok (some .unit, put A i (some s)))
    | _, _ => none
  | .plain (.copyAssign i j), A =>
    match A i, A j with
    | some old, some s =>
      if i = j then some (.ok (some .unit, A))
      else if bad s then some (if reach then .ok (none, A) else .panic)
      else if old.isLeft = s.isLeft then some (.ok (some .unit, put A i (some s)))
      else none
    | _, _ => none
  | .plain (.ok i), A =>
    match A i with
    | none => none
    | some (.inl t) => some (.ok (if bad (.inl t) then none else some (.optT (some t)), A))
    | some (.inr _) => some (.ok (some (.optT none), A))
  | .plain (.err i), A =>
    match A i with
    | none => none
    | some (.inl _) => some (.ok (some (.optE none), A))
    | some (.inr e) => some (.ok (if bad (.inr e) then none else some (.optE (some e)), A))
  | .plain op, A =>
    match specStep false mvT mvE op A with
    | some (.ok (r, A')) => some (.ok (some r, A'))
    | some .panic => some .panic
    | _ => none

def specRunT (reach : Bool) (bad : τ ⊕ ε → Bool) (mvT : τ → τ) (mvE : ε → ε) :
    List (OpT τ ε) → Ideal τ ε → Option (Out (List (Option (Ret τ ε)) × Ideal τ ε))
  | [], A => some (.ok ([], A))
  | op :: ops, A =>
    match specStepT reach bad mvT mvE op A with
    | some (.ok (r, A')) =>
      match specRunT reach bad mvT mvE ops A' with
      | some (.ok (rs, A'')) => some (.ok (r :: rs, A''))
      | some .panic => some .panic
      | _ => none
    | some .panic => some .panic
    | _ => none

end Verif.Spec.Res
