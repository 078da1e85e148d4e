import Verif.Base.Out
import Verif.Model.Opt
/-!
# Specification: option objects as variables of type `Option α`

`Ideal α` maps a name to `none` (no such object) or `some o` (object with abstract content `o`).  Only the list of
calls (`Op`) and results (`Res`) is shared with the model.  `specStep` answers `none` for calls that a program may
not make (using an object that does not exist, constructing twice).
-/
namespace Verif.Spec.Opt
open Verif
open Verif.Model.Opt (Op Res)

variable {α : Type}

abbrev Ideal (α : Type) := Nat → Option (Option α)

def put (A : Ideal α) (i : Nat) (x : Option (Option α)) : Ideal α := fun j => if j = i then x else A j

/-- Effect of one call on the ideal variables.  Move assignment between two different engaged options hands the
value over but leaves the source engaged with the moved-from value `mv v`: this is what the library does, and it is
*not* what C47 asks for (see `C47_fails`). -/
def specStep (mv : α → α) : Op α → Ideal α → Option (Out (Res α × Ideal α))
  | .mkSome i v, A => if A i = none then some (.ok (.unit, put A i (some (some v)))) else none
  | .mkNone i, A => if A i = none then some (.ok (.unit, put A i (some none))) else none
  | .copyCtor i j, A =>
    match A i, A j with
    | none, some o => some (.ok (.unit, put A i (some o)))
    | _, _ => none
  | .moveCtor i j, A =>
    match A i, A j with
    | none, some o => some (.ok (.unit, put (put A j (some none)) i (some o)))
    | _, _ => none
  | .copyAssign i j, A =>
    match A i, A j with
    | some _, some o => some (.ok (.unit, put A i (some o)))
    | _, _ => none
  | .moveAssign i j, A =>
    match A i, A j with
    | some old, some o =>
      if i = j then some (.ok (.unit, A))
      else some (.ok (.unit, put (put A j (some (if old.isSome then o.map mv else none))) i (some o)))
    | _, _ => none
  | .unwrap i, A =>
    match A i with
    | none => none
    | some none => some .panic
    | some (some v) => some (.ok (.val v, put A i (some none)))
  | .read i, A =>
    match A i with
    | none => none
    | some none => some .panic
    | some (some v) => some (.ok (.val v, A))
  | .write i x, A =>
    match A i with
    | none => none
    | some none => some .panic
    | some (some _) => some (.ok (.unit, put A i (some (some x))))
  | .isSome i, A =>
    match A i with
    | none => none
    | some o => some (.ok (.bool o.isSome, A))
  | .isNone i, A =>
    match A i with
    | none => none
    | some o => some (.ok (.bool o.isNone, A))
  | .mapSelf f i, A =>
    match A i with
    | none => none
    | some o => some (.ok (.opt (o.map fun v => (f v).1), put A i (some (o.map fun v => (f v).2))))
  | .destroy i, A =>
    match A i with
    | none => none
    | some _ => some (.ok (.unit, put A i none))

/-- Effect of a history; `none` when some call is not allowed. -/
def specRun (mv : α → α) : List (Op α) → Ideal α → Option (Out (List (Res α) × Ideal α))
  | [], A => some (.ok ([], A))
  | op :: ops, A =>
    match specStep mv op A with
    | some (.ok (r, A')) =>
      match specRun mv ops A' with
      | some (.ok (rs, A'')) => some (.ok (r :: rs, A''))
      | some .panic => some .panic
      | _ => none
    | some .panic => some .panic
    | _ => none

end Verif.Spec.Opt
