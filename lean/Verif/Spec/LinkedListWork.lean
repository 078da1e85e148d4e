import Verif.Spec.LinkedListView
/-!
# Specification: the work of each list call

How many elements a call constructs in nodes (copies, moves and value-initialisations alike), how many it destroys there, and how
many nodes it asks the allocator for (every list has two nodes without an element), as a function of the contents and the arguments
only.  Arguments and results passed by value live outside nodes and are not counted.
-/
namespace Verif.Spec.LL
open Verif Verif.Model.LL

variable {α : Type}

structure Work where
  made : Nat
  ended : Nat
  nodes : Nat
  deriving DecidableEq

instance : Add Work := ⟨fun a b => ⟨a.made + b.made, a.ended + b.ended, a.nodes + b.nodes⟩⟩

def nothing : Work := ⟨0, 0, 0⟩

/-- The elements of a list variable; a moved-from list has none. -/
def Var.elems (v : Var α) : List α := v.items.getD []

def lenOf (A : Ideal α) (i : Nat) : Nat := match A i with | none => 0 | some v => v.elems.length

/-- Making a list of `n` elements. -/
def build (n : Nat) : Work := ⟨n, 0, n + 2⟩

/-- Adding `n` elements to a list. -/
def add (n : Nat) : Work := ⟨n, 0, n⟩

/-- Removing `n` elements. -/
def lose (n : Nat) : Work := ⟨0, n, 0⟩

def work (A : Ideal α) : Op α → Work
  | .newAlloc _ _ => build 0
  | .newFill _ n _ _ | .newCount _ n _ => build n
  | .newRange _ xs _ | .fromIter _ xs => build xs.length
  | .newCopy _ j | .newCopyAlloc _ j _ => build (lenOf A j)
  | .newMove _ _ | .newMoveAlloc _ _ _ | .swap _ _ => nothing
  -- the old elements are destroyed and a new list is made
  | .copyAssign i j => if i = j then nothing else lose (lenOf A i) + build (lenOf A j)
  | .moveAssign i j => if i = j then nothing else lose (lenOf A i)
  | .listAssign i xs => lose (lenOf A i) + add xs.length
  | .drop i | .clear i => lose (lenOf A i)
  | .insertAfter _ _ _ | .insert _ _ _ | .pushFront _ _ | .pushBack _ _ => add 1
  | .insertAfterFill _ _ n _ | .insertFill _ _ n _ => add n
  | .insertAfterRange _ _ ys | .insertRange _ _ ys => add ys.length
  -- nothing follows the last element
  | .eraseAfter i p => lose (if p < lenOf A i then 1 else 0)
  -- the element at `lo` stays
  | .eraseAfterRange _ lo hi => lose (hi - lo - 1)
  -- neither end of the list is an element
  | .erase i p => lose (if p = 0 ∨ p = lenOf A i + 1 then 0 else 1)
  | .eraseRange _ lo hi => lose (hi - lo)
  | .popFront _ | .popBack _ => lose 1
  | .resize i n | .resizeFill i n _ => if n ≤ lenOf A i then lose (lenOf A i - n) else add (n - lenOf A i)
  | .remove i eq r => lose (((A i).elim [] Var.elems).countP fun y => (argVal A r).elim false fun x => eq x y)
  | .removeIf i p => lose (((A i).elim [] Var.elems).countP p)
  | .unique i p => lose (lenOf A i - (uniqueBy p ((A i).elim [] Var.elems)).length)
  -- the elements the iterator took over end with it
  | .drain i _ => lose (lenOf A i)
  -- these relink nodes
  | .merge _ _ _ | .mergeMove _ _ _ | .spliceAfter _ _ _ | .splice _ _ _ | .spliceAfterMove _ _ _ | .spliceMove _ _ _ | .reverse _
  | .sort _ _ => nothing
  -- these look, or assign to an element
  | .moved _ | .front _ | .frontUnchecked _ | .frontUncheckedConst _ | .back _ | .backUnchecked _ | .size _ | .empty _ | .get _ _
  | .set _ _ _ | .traverse _ | .traverseBack _ | .traverseRev _ | .iter _ _ | .print _ _ => nothing

/-- The work of a whole history. -/
def workRun (dbl : Bool) (dflt : α) : List (Op α) → Ideal α → Work
  | [], _ => nothing
  | op :: ops, A =>
    match specStep false dbl dflt op A with
    | none => nothing
    | some (_, A') => work A op + workRun dbl dflt ops A'

/-- How many elements the caller asks a call to put into the list. -/
def asked (A : Ideal α) : Op α → Nat
  | .newFill _ n _ _ | .newCount _ n _ | .insertAfterFill _ _ n _ | .insertFill _ _ n _ | .resize _ n | .resizeFill _ n _ => n
  | .newRange _ xs _ | .fromIter _ xs | .listAssign _ xs | .insertAfterRange _ _ xs | .insertRange _ _ xs => xs.length
  | .newCopy _ j | .newCopyAlloc _ j _ | .copyAssign _ j => lenOf A j
  | .insertAfter _ _ _ | .insert _ _ _ | .pushFront _ _ | .pushBack _ _ => 1
  | _ => 0

/-- How many elements the list changed by a call has before it. -/
def had (A : Ideal α) : Op α → Nat
  | .copyAssign i _ | .moveAssign i _ | .listAssign i _ | .drop i | .clear i | .eraseAfter i _ | .eraseAfterRange i _ _ | .erase i _
  | .eraseRange i _ _ | .popFront i | .popBack i | .resize i _ | .resizeFill i _ _ | .remove i _ _ | .removeIf i _ | .unique i _
  | .drain i _ => lenOf A i
  | _ => 0

end Verif.Spec.LL
