import Verif.Spec.Vector
/-!
# How much storage a vector call has to obtain

`need op A` is the number of elements for which call `op` must obtain new storage when the vectors are as in `A`; `none`: the
call must do without asking the allocator.
-/
namespace Verif.Spec.Vector
open Verif.Model.Vector (Op)

variable {α : Type}

/-- New storage only for a capacity that exceeds the old one. -/
def grows (old new : Nat) : Option Nat := if old < new then some new else none

def need : Op α → Ideal α → Option Nat
  | .newDefault _, _ => some 2
  | .newFill _ n _ _, _ | .newCount _ n _, _ => grows 0 n
  | .newList _ xs _, _ | .newRange _ xs _, _ => some xs.length
  | .newCopy _ j, A | .newCopyAlloc _ j _, A => (A j).map fun w => w.xs.length
  | .fromIter _ xs, _ => some (afterPushes xs.length 0 2)
  | .copyAssign i j, A => if i = j then none else
    (A i).bind fun v => (A j).bind fun w => if v.alloc = w.alloc then grows v.cap w.cap else some w.xs.length
  | .reserve i n, A | .assignFill i n _, A | .resize i n, A | .resizeFill i n _, A => (A i).bind fun v => grows v.cap n
  | .assignList i xs, A | .listAssign i xs, A => (A i).bind fun v => grows v.cap xs.length
  | .push i _, A | .insert i _ _, A | .emplace i _ _, A => (A i).bind fun v => grows v.cap (afterPush v.xs.length v.cap)
  | .insertFill i _ n _, A => (A i).bind fun v => grows v.cap (v.xs.length + n)
  | .insertRange i _ ys, A => (A i).bind fun v => grows v.cap (v.xs.length + ys.length)
  | .newAlloc _ _, _ | .newMove _ _ _, _ | .moveAssign _ _, _ | .swap _ _, _ | .drop _, _ | .clear _, _ | .pop _, _ | .set _ _ _, _
  | .get _ _, _ | .at _ _, _ | .front _, _ | .back _, _ | .size _, _ | .capacity _, _ | .empty _, _ | .erase _ _, _
  | .eraseRange _ _ _, _ | .collect _, _ | .drain _ _, _ | .drainRev _ _, _ | .equal _ _ _, _ | .compare _ _ _, _
  | .print _ _, _ => none

/-- No call of the history needs storage for `limit` bytes or more. -/
def modest (size : Nat) (dflt : α) (limit : Nat) : List (Op α) → Ideal α → Prop
  | [], _ => True
  | op :: ops, A => (∀ m, need op A = some m → size * m < limit) ∧
    ∀ r A', specStep false size dflt op A = some (r, A') → modest size dflt limit ops A'

end Verif.Spec.Vector
