import Verif.Spec.LinkedListView
import Verif.Model.LinkedListGive
/-!
# Specification: moving elements out of lists

Moving an element out leaves the moved-from value in its place; then the value goes where the call puts it.
-/
namespace Verif.Spec.LLGive
open Verif Verif.Spec.LL
open Verif.Model.LL (Res)
open Verif.Model.LLGive (GOp)

variable {α : Type}

/-- The value of element `k` of list `j`, and the lists once it has been moved out. -/
def moveOut (mv : α → α) (A : Ideal α) (j k : Nat) : Option (α × Ideal α) :=
  (A j).bind fun v => v.items.bind fun xs => xs[k]?.map fun x => (x, put A j (some ⟨some (xs.set k (mv x)), v.alloc⟩))

def giveStep (full dbl : Bool) (dflt : α) (mv : α → α) : GOp α → Ideal α → Option (Res α × Ideal α)
  | .base op, A => specStep full dbl dflt op A
  | .takeOut j k, A => (moveOut mv A j k).map fun q => (.val q.1, q.2)
  -- an element assigned to itself: what that does is the element type's business
  | .setMove i p j k, A => needs (¬ (i = j ∧ p = k + 1)) <| (moveOut mv A j k).bind fun q => edit q.2 i fun xs =>
    needs (1 ≤ p ∧ p ≤ xs.length) <| some (.unit, xs.set (p - 1) q.1)
  | .pushFront i j k, A => (moveOut mv A j k).bind fun q => edit q.2 i fun xs => some (.unit, q.1 :: xs)
  | .pushBack i j k, A => needs (dbl = true) <| (moveOut mv A j k).bind fun q => edit q.2 i fun xs => some (.unit, xs ++ [q.1])
  | .insertAfter i p j k, A => (moveOut mv A j k).bind fun q => edit q.2 i fun xs => needs (p ≤ xs.length) <|
    some (.pos (p + 1), xs.take p ++ q.1 :: xs.drop p)
  | .insert i p j k, A => needs (dbl = true) <| (moveOut mv A j k).bind fun q => edit q.2 i fun xs =>
    needs (1 ≤ p ∧ p ≤ xs.length + 1) <| some (.pos p, xs.take (p - 1) ++ q.1 :: xs.drop (p - 1))

def giveRun (full dbl : Bool) (dflt : α) (mv : α → α) : List (GOp α) → Ideal α → Option (List (Res α) × Ideal α)
  | [], A => some ([], A)
  | op :: ops, A => (giveStep full dbl dflt mv op A).bind fun p =>
    (giveRun full dbl dflt mv ops p.2).map fun q => (p.1 :: q.1, q.2)

end Verif.Spec.LLGive
