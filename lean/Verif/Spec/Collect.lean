import Verif.Model.Collect
import Verif.Spec.VectorView
import Verif.Spec.LinkedListView
/-!
# Specification: what a client observes of `container.iter() | … | collect<Container>()`

Contents of the containers before and after, in terms of the views of vectors and lists (`Spec/VectorView.lean`,
`Spec/LinkedListView.lean`).
-/
namespace Verif.Spec.Collect
open Verif Verif.Model.Collect

variable {α β γ : Type}

/-- Every family of containers is in a state that an allowed history reaches. -/
structure Good (K : Kinds α β) (m : Memory α β) : Prop where
  vecs : Vector.Reach K.ty m.vecs
  lists : LL.Reach K.cfg m.lists
  vecs' : Vector.Reach K.ty' m.vecs'
  lists' : LL.Reach K.cfg' m.lists'

/-- The elements of the container that is iterated (`none`: there is no such container, or it was moved from). -/
def items (m : Memory α β) : Src → Option (List α)
  | .vec j => (Vector.view m.vecs j).map Vector.Var.xs
  | .list j => (LL.view m.lists j).bind LL.Var.items

/-- The variable to be initialised holds no container yet. -/
def Unused (m : Memory α β) : Dst α β γ → Prop
  | .vec i => Vector.view m.vecs i = none
  | .list i => LL.view m.lists i = none
  | .vec' i => Vector.view m.vecs' i = none
  | .list' i => LL.view m.lists' i = none

/-- The elements of the new container. -/
def made (m : Memory α β) : Dst α β γ → Option (List γ)
  | .vec i => (Vector.view m.vecs i).map Vector.Var.xs
  | .list i => (LL.view m.lists i).bind LL.Var.items
  | .vec' i => (Vector.view m.vecs' i).map Vector.Var.xs
  | .list' i => (LL.view m.lists' i).bind LL.Var.items

/-- All containers but the new one are as before: contents, capacities, allocators. -/
def Others (m m' : Memory α β) : Dst α β γ → Prop
  | .vec i => (∀ j, j ≠ i → Vector.view m'.vecs j = Vector.view m.vecs j) ∧ m'.lists = m.lists ∧ m'.vecs' = m.vecs' ∧ m'.lists' = m.lists'
  | .list i => (∀ j, j ≠ i → LL.view m'.lists j = LL.view m.lists j) ∧ m'.vecs = m.vecs ∧ m'.vecs' = m.vecs' ∧ m'.lists' = m.lists'
  | .vec' i => (∀ j, j ≠ i → Vector.view m'.vecs' j = Vector.view m.vecs' j) ∧ m'.vecs = m.vecs ∧ m'.lists = m.lists ∧ m'.lists' = m.lists'
  | .list' i => (∀ j, j ≠ i → LL.view m'.lists' j = LL.view m.lists' j) ∧ m'.vecs = m.vecs ∧ m'.lists = m.lists ∧ m'.vecs' = m.vecs'

/-- `Container d = Container::from_iter(it)` for an iterator that hands out `ys` and has no effects: the call of the
histories of `Model/VectorHist.lean` and `Model/LinkedListHist.lean`. -/
def plain (K : Kinds α β) (ys : List γ) : Dst α β γ → Prog (Memory α β) Unit
  | .vec i => vecs.on (Model.Vector.step K.ty (.fromIter i ys) >>= fun _ => pure ())
  | .list i => lists.on (Model.LL.step K.cfg (.fromIter i ys) >>= fun _ => pure ())
  | .vec' i => vecs'.on (Model.Vector.step K.ty' (.fromIter i ys) >>= fun _ => pure ())
  | .list' i => lists'.on (Model.LL.step K.cfg' (.fromIter i ys) >>= fun _ => pure ())

end Verif.Spec.Collect
