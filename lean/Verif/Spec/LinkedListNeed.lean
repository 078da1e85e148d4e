import Verif.Spec.LinkedListView
/-!
# How much memory a list call needs

A list keeps every element in a node of its own and has two more nodes before the first and after the last element.
`nodesFor A op` is the number of nodes the call `op` has to obtain when the lists hold `A`.
-/
namespace Verif.Spec.LL
open Verif Verif.Model.LL

variable {α : Type}

/-- `size()` of list `i`, 0 if it has none. -/
def count (A : Ideal α) (i : Nat) : Nat := ((contents A i).map List.length).getD 0

/-- New nodes a call needs: two and one per element for a new list, one for each element added to a list, and none for
anything else. -/
def nodesFor (A : Ideal α) : Op α → Nat
  | .newAlloc _ _ => 2
  | .newFill _ n _ _ | .newCount _ n _ => n + 2
  | .newRange _ xs _ | .fromIter _ xs => xs.length + 2
  | .newCopy _ j | .newCopyAlloc _ j _ => count A j + 2
  | .copyAssign i j => if i = j then 0 else count A j + 2
  | .listAssign _ xs | .insertAfterRange _ _ xs | .insertRange _ _ xs => xs.length
  | .insertAfter _ _ _ | .insert _ _ _ | .pushFront _ _ | .pushBack _ _ => 1
  | .insertAfterFill _ _ n _ | .insertFill _ _ n _ => n
  | .resize i n | .resizeFill i n _ => n - count A i
  | _ => 0

/-- The calls that may need nodes at all. -/
def mayGrow : Op α → Bool
  | .newAlloc _ _ | .newFill _ _ _ _ | .newCount _ _ _ | .newRange _ _ _ | .newMoveAlloc _ _ _ | .newCopy _ _ | .newCopyAlloc _ _ _
  | .fromIter _ _ | .copyAssign _ _ | .listAssign _ _ | .insertAfter _ _ _ | .insertAfterFill _ _ _ _ | .insertAfterRange _ _ _
  | .insert _ _ _ | .insertFill _ _ _ _ | .insertRange _ _ _ | .pushFront _ _ | .pushBack _ _ | .resize _ _ | .resizeFill _ _ _ => true
  | _ => false

/-- The requests to the allocator numbered `lo, …, lo + n - 1`, each for one node, are all granted. -/
def Granted (cfg : Cfg α) (lo n : Nat) : Prop :=
  ∀ k, lo ≤ k → k < lo + n → cfg.refuse k cfg.vsize = false ∧ cfg.refuse k cfg.dsize = false

/-- One of the requests numbered `lo, …, lo + n - 1`, each for one node, is refused. -/
def Refused (cfg : Cfg α) (lo n : Nat) : Prop :=
  ∃ k, lo ≤ k ∧ k < lo + n ∧ (cfg.refuse k cfg.vsize = true ∨ cfg.refuse k cfg.dsize = true)

end Verif.Spec.LL
