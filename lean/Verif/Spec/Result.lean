import Verif.Model.Result
/-!
# Specification: result objects as variables of type `τ ⊕ ε`

Only the list of calls and results is shared with the model.  `specStep` answers `none` for calls a program may not
make (object does not exist, constructed twice).  `mvT`/`mvE` say what moving leaves behind; nothing else of the
configuration matters.  The parameter `mixed` says whether assignments between different variants are part of the
histories considered.
-/
namespace Verif.Spec.Res
open Verif
open Verif.Model.Res (Op Ret)

variable {τ ε : Type}

abbrev Ideal (τ ε : Type) := Nat → Option (τ ⊕ ε)

def put (A : Ideal τ ε) (i : Nat) (x : Option (τ ⊕ ε)) : Ideal τ ε := fun j => if j = i then x else A j

/-- What a move leaves in the source. -/
def movedFrom (mvT : τ → τ) (mvE : ε → ε) : τ ⊕ ε → τ ⊕ ε
  | .inl t => .inl (mvT t)
  | .inr e => .inr (mvE e)

def specStep (mixed : Bool) (mvT : τ → τ) (mvE : ε → ε) : Op τ ε → Ideal τ ε → Option (Out (Ret τ ε × Ideal τ ε))
  | .mkOk i t, A => if (A i).isNone then some (.ok (.unit, put A i (some (.inl t)))) else none
  | .mkErr i e, A => if (A i).isNone then some (.ok (.unit, put A i (some (.inr e)))) else none
  | .copyCtor i j, A =>
    match A i, A j with
    | none, some s => some (.ok (.unit, put A i (some s)))
    | _, _ => none
  | .moveCtor i j, A =>
    match A i, A j with
    | none, some s => some (.ok (.unit, put (put A j (some (movedFrom mvT mvE s))) i (some s)))
    | _, _ => none
  | .copyAssign i j, A =>
    match A i, A j with
    | some old, some s =>
      if mixed ∨ old.isLeft = s.isLeft then some (.ok (.unit, put A i (some s))) else none
    | _, _ => none
  | .moveAssign i j, A =>
    match A i, A j with
    | some old, some s =>
      if i = j then some (.ok (.unit, A))
      else if mixed ∨ old.isLeft = s.isLeft then
        some (.ok (.unit, put (put A j (some (movedFrom mvT mvE s))) i (some s)))
      else none
    | _, _ => none
  | .isOk i, A => match A i with
    | none => none
    | some s => some (.ok (.bool s.isLeft, A))
  | .isErr i, A => match A i with
    | none => none
    | some s => some (.ok (.bool s.isRight, A))
  | .unwrap i, A => match A i with
    | none => none
    | some (.inl t) => some (.ok (.valT t, put A i (some (.inl (mvT t)))))
    | some (.inr _) => some .panic
  | .unwrapErr i, A => match A i with
    | none => none
    | some (.inl _) => some .panic
    | some (.inr e) => some (.ok (.valE e, put A i (some (.inr (mvE e)))))
  | .ok i, A => match A i with
    | none => none
    | some s => some (.ok (.optT s.getLeft?, A))
  | .err i, A => match A i with
    | none => none
    | some s => some (.ok (.optE s.getRight?, A))
  | .destroy i, A => match A i with
    | none => none
    | some _ => some (.ok (.unit, put A i none))

def specRun (mixed : Bool) (mvT : τ → τ) (mvE : ε → ε) :
    List (Op τ ε) → Ideal τ ε → Option (Out (List (Ret τ ε) × Ideal τ ε))
  | [], A => some (.ok ([], A))
  | op :: ops, A =>
    match specStep mixed mvT mvE op A with
    | some (.ok (r, A')) =>
      match specRun mixed mvT mvE ops A' with
      | some (.ok (rs, A'')) => some (.ok (r :: rs, A''))
      | some .panic => some .panic
      | _ => none
    | some .panic => some .panic
    | _ => none

end Verif.Spec.Res
