import Verif.Model.Consume
import Verif.Spec.Collect
/-!
# Specification: what a client observes of `list.into_iter() | … | collect<Container>()`
-/
namespace Verif.Spec.Consume
open Verif Verif.Model.Collect Verif.Spec.Collect
open Verif.Model.Consume (Call adapts)

variable {α β γ : Type}

/-- The variables from `t` on hold no lists, so they are free for the iterator objects of the expression. -/
def Free (m : Memory α β) (t : Nat) : Prop := ∀ i, t ≤ i → LL.view m.lists i = none

/-- The variable to be initialised is not one of those. -/
def Below (t : Nat) : Dst α β γ → Prop
  | .list i => i < t
  | _ => True

/-- Afterwards list `j` is moved-from, the new container is there, and all other containers are as before: contents,
capacities, allocators.  In particular the iterator objects are gone. -/
def Others (m m' : Memory α β) (j : Nat) : Dst α β γ → Prop
  | .vec i => (∀ k, k ≠ i → Vector.view m'.vecs k = Vector.view m.vecs k) ∧ (∀ k, k ≠ j → LL.view m'.lists k = LL.view m.lists k) ∧
      m'.vecs' = m.vecs' ∧ m'.lists' = m.lists'
  | .list i => (∀ k, k ≠ i → k ≠ j → LL.view m'.lists k = LL.view m.lists k) ∧ m'.vecs = m.vecs ∧ m'.vecs' = m.vecs' ∧ m'.lists' = m.lists'
  | .vec' i => (∀ k, k ≠ i → Vector.view m'.vecs' k = Vector.view m.vecs' k) ∧ (∀ k, k ≠ j → LL.view m'.lists k = LL.view m.lists k) ∧
      m'.vecs = m.vecs ∧ m'.lists' = m.lists'
  | .list' i => (∀ k, k ≠ i → LL.view m'.lists' k = LL.view m.lists' k) ∧ (∀ k, k ≠ j → LL.view m'.lists k = LL.view m.lists k) ∧
      m'.vecs = m.vecs ∧ m'.vecs' = m.vecs'

/-- The same effects as calls one after the other: the iterator objects are made by moves and copies of lists, `ys` are put into
the new container, all `n` elements are taken from the last iterator object, and the iterator objects are destroyed. -/
def plainly (K : Kinds α β) (j t stages n : Nat) (call : Call) (ys : List γ) (d : Dst α β γ) : Prog (Memory α β) Unit := do
  let a := t + 3 * stages
  let _ ← lists.on (Model.LL.run K.cfg (.newMove t j :: (adapts t stages ++ call.enter a)))
  plain K ys d
  let _ ← lists.on (Model.LL.run K.cfg (.drain (call.param a) (List.replicate n .front) :: call.leave a))
  return ()

/-- The number of adapters in a pipeline. -/
def adapters {κ : Type} : {α β : Type} → Model.Iter.Pipe κ α β → Nat
  | _, _, .source => 0
  | _, _, .map pipe _ | _, _, .filter pipe _ => adapters pipe + 1

/-- How often the expression copies the list: once per adapter, and once more if it is piped into `collect`. -/
def copies (adapters : Nat) : Call → Nat
  | .piped => adapters + 1
  | .direct => adapters

/-- Elements and nodes of the new container, as far as they are among the nodes of lists of `α`. -/
def newElems (n : Nat) : Dst α β γ → Nat
  | .list _ => n
  | _ => 0

def newNodes (n : Nat) : Dst α β γ → Nat
  | .list _ => n + 2
  | _ => 0

end Verif.Spec.Consume
