import Verif.Model.VectorOwn
import Verif.Model.LinkedListHist
import Verif.Model.BString
/-!
# Which container objects exist

What a program sees: a call constructs one object, destroys one, or works on objects that exist.  `objects` follows that through a
program and fails when a program constructs an object in a variable that has one, or names a variable that has none.
-/
namespace Verif.Spec.AllocLife
open Verif.Model

inductive Life where
  /-- constructs the object `i`; the objects `js` are arguments -/
  | born (i : Nat) (js : List Nat)
  /-- a call on or with the objects `js` -/
  | call (js : List Nat)
  /-- destroys `i` -/
  | dies (i : Nat)

def Life.step : Life → List Nat → Option (List Nat)
  | .born i js, s => if i ∉ s ∧ ∀ j ∈ js, j ∈ s then some (i :: s) else none
  | .call js, s => if ∀ j ∈ js, j ∈ s then some s else none
  | .dies i, s => if i ∈ s then some (s.erase i) else none

/-- The objects that exist after `ops` if those in `s` do before. -/
def objects {Op : Type} (life : Op → Life) : List Op → List Nat → Option (List Nat)
  | [], s => some s
  | op :: ops, s => (life op).step s >>= objects life ops

/-- An argument that is an element of a container. -/
def vecArg {α : Type} : Vector.Arg α → List Nat
  | .val _ => []
  | .elem j _ => [j]

def vector {α : Type} : Vector.Op α → Life
  | .newDefault i | .newAlloc i _ | .newCount i _ _ | .newList i _ _ | .newRange i _ _ | .fromIter i _ => .born i []
  | .newFill i _ r _ => .born i (vecArg r)
  | .newCopy i j | .newCopyAlloc i j _ | .newMove i j _ => .born i [j]
  | .drop i => .dies i
  | .copyAssign i j | .moveAssign i j | .swap i j | .equal i j _ | .compare i j _ => .call [i, j]
  | .push i r | .assignFill i _ r | .insert i _ r | .insertFill i _ _ r | .resizeFill i _ r => .call (i :: vecArg r)
  | .listAssign i _ | .clear i | .reserve i _ | .pop i | .assignList i _ | .set i _ _ | .get i _ | .at i _ | .front i | .back i
  | .size i | .capacity i | .empty i | .emplace i _ _ | .insertRange i _ _ | .erase i _ | .eraseRange i _ _ | .resize i _
  | .collect i | .drain i _ | .drainRev i _ | .print i _ => .call [i]

/-- Vectors and the iterators that own one. -/
def owning {α : Type} : VectorOwn.OOp α → Life
  | .vec op => vector op
  | .make i j | .makeRev i j | .move i j => .born i [j]
  | .next i => .call [i]
  | .drop i => .dies i

def listArg {α : Type} : LL.Arg α → List Nat
  | .val _ => []
  | .elem j _ => [j]

def list {α : Type} : LL.Op α → Life
  | .newAlloc i _ | .newCount i _ _ | .newRange i _ _ | .fromIter i _ => .born i []
  | .newFill i _ r _ => .born i (listArg r)
  | .newMove i j | .newMoveAlloc i j _ | .newCopy i j | .newCopyAlloc i j _ => .born i [j]
  | .drop i => .dies i
  | .copyAssign i j | .moveAssign i j | .swap i j | .merge i j _ | .mergeMove i j _ | .spliceAfter i _ j | .splice i _ j
  | .spliceAfterMove i _ j | .spliceMove i _ j => .call [i, j]
  | .insertAfter i _ r | .insertAfterFill i _ _ r | .insert i _ r | .insertFill i _ _ r | .pushFront i r | .pushBack i r
  | .resizeFill i _ r | .remove i _ r => .call (i :: listArg r)
  | .listAssign i _ | .moved i | .clear i | .front i | .frontUnchecked i | .frontUncheckedConst i | .back i | .backUnchecked i
  | .size i | .empty i | .set i _ _ | .get i _ | .insertAfterRange i _ _ | .eraseAfter i _ | .eraseAfterRange i _ _
  | .insertRange i _ _ | .erase i _ | .eraseRange i _ _ | .popFront i | .popBack i | .resize i _ | .removeIf i _ | .reverse i
  | .unique i _ | .sort i _ | .traverse i | .traverseBack i | .traverseRev i | .iter i _ | .drain i _ | .print i _ => .call [i]

def string : BStr.Op → Life
  | .newAlloc i _ | .newLit i _ _ => .born i []
  | .newCopy i j | .newMove i j => .born i [j]
  | .drop i => .dies i
  | .copyAssign i j | .moveAssign i j => .call [i, j]
  | .pushBack i _ | .insert i _ _ | .popBack i | .size i | .isCharBoundary i _ | .chars i | .print i => .call [i]

/-- How many container objects a call constructs, each with an allocator: the one that is born, or the iterator object of an
expression `i.into_iter()…` that is used up at once. -/
def vectorNew {α : Type} : Vector.Op α → Nat
  | .drain _ _ | .drainRev _ _ => 1
  -- `swap` exchanges the allocators through a third one
  | .swap _ _ => 1
  | op => match vector op with
    | .born _ _ => 1
    | _ => 0

def owningNew {α : Type} : VectorOwn.OOp α → Nat
  | .vec op => vectorNew op
  | .make _ _ | .makeRev _ _ | .move _ _ => 1
  | .next _ | .drop _ => 0

def listNew {α : Type} : LL.Op α → Nat
  | .drain _ _ | .swap _ _ => 1
  | op => match list op with
    | .born _ _ => 1
    | _ => 0

def stringNew (op : BStr.Op) : Nat :=
  match string op with
  | .born _ _ => 1
  | _ => 0

/-- The calls that assign one list to another, different one. -/
def assigns {α : Type} : LL.Op α → Bool
  | .copyAssign i j | .moveAssign i j => i != j
  | _ => false

end Verif.Spec.AllocLife
