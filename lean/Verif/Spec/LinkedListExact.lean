import Verif.Spec.LinkedList
/-!
# Lists: mistakes no result shows

Used to say that the restricted specification of `Verif.Spec.LL` leaves out nothing the code does correctly.
-/
namespace Verif.Spec.LL
open Verif.Model.LL (Op Res Arg)

variable {α : Type}

/-- Calls that go wrong without a wrong result: construction from an empty list with another allocator (memory is lost,
see C30), and the `const` overload of `front_unchecked` when the first and the last element are equal. -/
def unseen (dbl : Bool) : Op α → Ideal α → Prop
  | .newMoveAlloc _ j a, A => ∃ b, A j = some ⟨some [], b⟩ ∧ a ≠ b
  | .frontUncheckedConst i, A => dbl = true ∧ ∃ xs, contents A i = some xs ∧ xs.head? = xs.getLast?
  | _, _ => False

end Verif.Spec.LL
