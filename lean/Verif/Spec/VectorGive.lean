import Verif.Spec.VectorView
import Verif.Model.VectorGive
/-!
# Specification: moving elements out of vectors

Moving an element out leaves the moved-from value in its place; then the value goes where the call puts it.
-/
namespace Verif.Spec.VectorGive
open Verif Verif.Spec.Vector
open Verif.Model.Vector (Res)
open Verif.Model.VectorGive (GOp)

variable {α : Type}

/-- The value of element `k` of vector `j`, and the vectors once it has been moved out. -/
def moveOut (mv : α → α) (A : Ideal α) (j k : Nat) : Option (α × Ideal α) :=
  (A j).bind fun v => v.xs[k]?.map fun x => (x, put A j (some ⟨v.xs.set k (mv x), v.cap, v.alloc⟩))

/-- One call.  With `full = false`: no `push_back` of an own element into a full vector, no insertion at the beginning. -/
def giveStep (full : Bool) (size : Nat) (dflt : α) (mv : α → α) : GOp α → Ideal α → Option (Res α × Ideal α)
  | .base op, A => specStep full size dflt op A
  | .takeOut j k, A => (moveOut mv A j k).map fun q => (.val q.1, q.2)
  -- an element assigned to itself: what that does is the element type's business
  | .setMove i p j k, A => if i = j ∧ p = k then none else (moveOut mv A j k).bind fun q => upd q.2 i fun v =>
    if p < v.xs.length then some (.unit, ⟨v.xs.set p q.1, v.cap, v.alloc⟩) else none
  | .pushMove i j k, A => (moveOut mv A j k).bind fun q => upd q.2 i fun v =>
    only full (i ≠ j ∨ v.xs.length < v.cap) <| some (.unit, ⟨v.xs ++ [q.1], afterPush v.xs.length v.cap, v.alloc⟩)
  | .insertMove i p j k, A => (moveOut mv A j k).bind fun q => upd q.2 i fun v =>
    if p ≤ v.xs.length then only full (1 ≤ p) <|
      some (.pos (some p), ⟨v.xs.take p ++ q.1 :: v.xs.drop p, afterPush v.xs.length v.cap, v.alloc⟩)
    else none
  | .emplaceMove i p j k, A => (moveOut mv A j k).bind fun q => upd q.2 i fun v =>
    if p ≤ v.xs.length then only full (1 ≤ p) <|
      some (.unit, ⟨v.xs.take p ++ q.1 :: v.xs.drop p, afterPush v.xs.length v.cap, v.alloc⟩)
    else none

def giveRun (full : Bool) (size : Nat) (dflt : α) (mv : α → α) : List (GOp α) → Ideal α → Option (List (Res α) × Ideal α)
  | [], A => some ([], A)
  | op :: ops, A => (giveStep full size dflt mv op A).bind fun p =>
    (giveRun full size dflt mv ops p.2).map fun q => (p.1 :: q.1, q.2)

end Verif.Spec.VectorGive
