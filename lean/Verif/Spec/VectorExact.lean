import Verif.Spec.Vector
/-!
# Vectors: requests that fit, and calls that are right by accident

Used to say that the restricted specification of `Verif.Spec.Vector` leaves out nothing the code does correctly.
-/
namespace Verif.Spec.Vector
open Verif Verif.Model.Vector

variable {α : Type}

/-- The number of bytes the call has to make room for is a machine word. -/
def fits (size : Nat) : Op α → Ideal α → Prop
  | .newFill _ n _ _, _ | .newCount _ n _, _ | .reserve _ n, _ | .assignFill _ n _, _ | .resize _ n, _ | .resizeFill _ n _, _ =>
    n * size < wordSize
  | .newList _ xs _, _ | .newRange _ xs _, _ | .assignList _ xs, _ => xs.length * size < wordSize
  | .insertFill i _ n _, A => ∀ v, A i = some v → (v.xs.length + n) * size < wordSize
  | .insertRange i _ ys, A => ∀ v, A i = some v → (v.xs.length + ys.length) * size < wordSize
  | _, _ => True

/-- `v.insert(v.begin() + p, n, v[k])` with `k` at least `n` places behind the position, where `v[k]` and the element `n`
places in front of it are equal. -/
def coincidence : Op α → Ideal α → Prop
  | .insertFill i p n (.elem j k), A => j = i ∧ p + n ≤ k ∧ ∃ v x, A i = some v ∧ v.xs[k]? = some x ∧ v.xs[k - n]? = some x
  | _, _ => False

end Verif.Spec.Vector
