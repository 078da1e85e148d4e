import Verif.Spec.VectorView
import Verif.Spec.LinkedListView
import Verif.Spec.BString
/-!
# Specification: threads that share some objects and own others

Several threads make calls.  A schedule is the order in which the calls take place, each with the thread that makes it.  Every object either
belongs to one thread, which may do anything with it, or to nobody: then all threads may look at it, but none may change it.

Simplification: a call takes place as a whole.  Which memory a call reads and writes in the meantime is not recorded, so that two calls do not
race is not what is proved here; that no call's outcome depends on, or affects, objects other than the ones it names, is.
-/
namespace Verif.Spec.Threads
open Verif

variable {Op Res : Type}

abbrev Schedule (Op : Type) := List (Nat × Op)

/-- The calls thread `t` makes, in its order. -/
def calls (t : Nat) (s : Schedule Op) : List Op := (s.filter fun c => c.1 == t).map Prod.snd

/-- What thread `t` gets back, if `rs` are the results of all the calls. -/
def answers (t : Nat) (s : Schedule Op) (rs : List Res) : List Res := ((s.zip rs).filter fun c => c.1.1 == t).map Prod.snd

/-- Whose is object `i`?  `none`: nobody's. -/
abbrev Owner := Nat → Option Nat

/-- Threads change only what is theirs, and look only at that and at what is nobody's. -/
def Behaved (owner : Owner) (writes reads : Op → List Nat) (s : Schedule Op) : Prop :=
  ∀ c ∈ s, (∀ i ∈ writes c.2, owner i = some c.1) ∧ ∀ i ∈ reads c.2, owner i = some c.1 ∨ owner i = none

end Verif.Spec.Threads

namespace Verif.Spec.Vector
open Verif.Model.Vector (Op Arg)
variable {α : Type}

/-- The vector a reference argument refers into. -/
def argReads : Arg α → List Nat
  | .val _ => []
  | .elem j _ => [j]

/-- The vectors a call only looks at; those it may change are `writes` (Spec/VectorView.lean). -/
def reads : Op α → List Nat
  | .newFill _ _ r _ | .push _ r | .assignFill _ _ r | .insert _ _ r | .insertFill _ _ _ r | .resizeFill _ _ r => argReads r
  | .newCopy _ j | .newCopyAlloc _ j _ | .copyAssign _ j => [j]
  | .get i _ | .at i _ | .front i | .back i | .size i | .capacity i | .empty i | .collect i | .print i _ => [i]
  | .equal i j _ | .compare i j _ => [i, j]
  | _ => []

end Verif.Spec.Vector

namespace Verif.Spec.LL
open Verif.Model.LL (Op Arg)
variable {α : Type}

/-- The list a reference argument refers into. -/
def argReads : Arg α → List Nat
  | .val _ => []
  | .elem j _ => [j]

/-- The lists a call only looks at; those it may change are `writes` (Spec/LinkedListView.lean). -/
def reads : Op α → List Nat
  | .newFill _ _ r _ | .insertAfter _ _ r | .insertAfterFill _ _ _ r | .insert _ _ r | .insertFill _ _ _ r | .pushFront _ r | .pushBack _ r
  | .resizeFill _ _ r | .remove _ _ r => argReads r
  | .newCopy _ j | .newCopyAlloc _ j _ | .copyAssign _ j => [j]
  | .moved i | .front i | .frontUnchecked i | .frontUncheckedConst i | .back i | .backUnchecked i | .size i | .empty i | .get i _
  | .traverse i | .traverseBack i | .traverseRev i | .iter i _ | .print i _ => [i]
  | _ => []

end Verif.Spec.LL

namespace Verif.Spec.BStr
open Verif.Model.BStr (Op)

/-- The strings a call may change. -/
def writes : Op → List Nat
  | .newAlloc i _ | .newLit i _ _ | .newCopy i _ | .copyAssign i _ | .drop i | .pushBack i _ | .insert i _ _ | .popBack i => [i]
  | .newMove i j | .moveAssign i j => [i, j]
  | .size _ | .isCharBoundary _ _ | .chars _ | .print _ => []

/-- The strings a call only looks at. -/
def reads : Op → List Nat
  | .newCopy _ j | .copyAssign _ j => [j]
  | .size i | .isCharBoundary i _ | .chars i | .print i => [i]
  | _ => []

end Verif.Spec.BStr
