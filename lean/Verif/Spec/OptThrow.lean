import Verif.Spec.Opt
import Verif.Model.OptThrow
/-!
# Specification: options whose payload copies may throw

A call that throws (answer `none`) leaves every option as it was, except that a failed assignment to a held value leaves what
the failed assignment of the payload leaves.  `full = false` leaves out the assignment of a held value whose copy throws to an
option that holds none, which goes wrong in the code.
-/
namespace Verif.Spec.Opt
open Verif
open Verif.Model.Opt (Op OpT Res)

variable {α : Type}

/-- The content is a value whose copy throws. -/
def throws (bad : α → Bool) : Option α → Bool
  | some v => bad v
  | none => false

def specStepT (full : Bool) (bad : α → Bool) (part : α → α → α) (mv : α → α) : OpT α → Ideal α → Option (Out (Option (Res α) × Ideal α))
  | .someCopy i v, A => if A i = none then some (.ok (if bad v then (none, A) else (some .unit, put A i (some (some v))))) else none
  | .map f i, A =>
    match A i with
    | none => none
    | some none => some (.ok (some (.opt none), A))
    | some (some v) => some (.ok ((f v).1.map fun b => .opt (some b), put A i (some (some (f v).2))))
  | .plain (.copyCtor i j), A =>
    match A i, A j with
    | none, some o => some (.ok (if throws bad o then (none, A) else (some .unit, put A i (some o))))
    | _, _ => none
  | .plain (.copyAssign i j), A =>
    match A i, A j with
    | some old, some o =>
      if i = j ∨ throws bad o = false then some (.ok (some .unit, put A i (some o)))
      else
        match old, o with
        | some u, some v => some (.ok (none, put A i (some (some (part u v)))))
        | _, _ => if full then some (.ok (none, A)) else none
    | _, _ => none
  | .plain op, A =>
    match specStep mv op A with
    | some (.ok (r, A')) => some (.ok (some r, A'))
    | some .panic => some .panic
    | _ => none

def specRunT (full : Bool) (bad : α → Bool) (part : α → α → α) (mv : α → α) : List (OpT α) → Ideal α → Option (Out (List (Option (Res α)) × Ideal α))
  | [], A => some (.ok ([], A))
  | op :: ops, A =>
    match specStepT full bad part mv op A with
    | some (.ok (r, A')) =>
      match specRunT full bad part mv ops A' with
      | some (.ok (rs, A'')) => some (.ok (r :: rs, A''))
      | some .panic => some .panic
      | _ => none
    | some .panic => some .panic
    | _ => none

end Verif.Spec.Opt
