import Verif.Spec.BStringNeed
/-! # Strings: calls whose outcome depends on the room of a string -/
namespace Verif.Spec.BStr
open Verif Verif.Model.BStr

/-- Copy assignment of a longer string to a string on the heap that has room for it.  Under the strict reading of
`Allocate::operator=` it works because the allocator is then not assigned. -/
def byRoom (w : World) (op : Op) : Prop :=
  ∃ i j xs ys, op = .copyAssign i j ∧ view w i = some xs ∧ view w j = some ys ∧
    16 < xs.length ∧ xs.length < ys.length ∧ ys.length ≤ room w i

end Verif.Spec.BStr
