import Verif.Model.LinkedListRange
import Verif.Spec.LinkedList
/-!
# Specification: ranges of lists as arguments

A range of a list stands for the elements that lie in it when the call is made.
-/
namespace Verif.Spec.LL
open Verif Verif.Model.LL

variable {α : Type}

/-- The elements from position `lo` (1 is `begin()`) up to, but not including, position `hi` of list `j`. -/
def between (A : Ideal α) (j lo hi : Nat) : Option (List α) :=
  (contents A j).bind fun xs => if 1 ≤ lo ∧ lo ≤ hi ∧ hi ≤ xs.length + 1 then some ((xs.drop (lo - 1)).take (hi - lo)) else none

/-- The call of the same member with the elements as values of the client's own. -/
def inline (A : Ideal α) : ROp α → Option (Op α)
  | .op o => some o
  | .newRangeIn i j lo hi a => (between A j lo hi).map fun xs => .newRange i xs a
  | .insertAfterRangeIn i p j lo hi => (between A j lo hi).map fun xs => .insertAfterRange i p xs
  | .insertRangeIn i p j lo hi => (between A j lo hi).map fun xs => .insertRange i p xs

/-- What a call does by its documentation, `full = false`: leaving out the calls that the code does wrong (C16, C17). -/
def rspecStep (full dbl : Bool) (dflt : α) (o : ROp α) (A : Ideal α) : Option (Res α × Ideal α) :=
  (inline A o).bind fun op => specStep full dbl dflt op A

/-- The node after which the new ones are put lies in the range given, but is not its first: the loop comes to its own new nodes. -/
def chases : ROp α → Bool
  | .insertAfterRangeIn i p j lo hi => i == j && decide (lo < p ∧ p < hi)
  | .insertRangeIn i p j lo hi => i == j && decide (lo < p - 1 ∧ p - 1 < hi)
  | _ => false

/-- Programs. -/
def rspecRun (full dbl : Bool) (dflt : α) : List (ROp α) → Ideal α → Option (List (Res α) × Ideal α)
  | [], A => some ([], A)
  | o :: os, A =>
    if chases o then none
    else (rspecStep full dbl dflt o A).bind fun q => (rspecRun full dbl dflt os q.2).map fun r => (q.1 :: r.1, r.2)

end Verif.Spec.LL
