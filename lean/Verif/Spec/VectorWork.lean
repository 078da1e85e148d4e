import Verif.Spec.Vector
/-!
# Specification: the work of each vector call

How many elements a call constructs in the vectors' storage (copies, moves and value-initialisations alike), how many it destroys there,
and how many blocks of memory it asks for, as a function of sizes, capacities and allocators only.  Arguments and results passed by value
(the parameter of `emplace`, the value an iterator hands out) live outside that storage and are not counted.
-/
namespace Verif.Spec.Vector
open Verif
open Verif.Model.Vector (Op)

variable {α : Type}

structure Work where
  made : Nat
  ended : Nat
  blocks : Nat
  deriving DecidableEq

instance : Add Work := ⟨fun a b => ⟨a.made + b.made, a.ended + b.ended, a.blocks + b.blocks⟩⟩

def nothing : Work := ⟨0, 0, 0⟩

/-- Making room for `n` elements in a vector of `len`: if the capacity is too small, every element moves to a new block. -/
def room (len cap n : Nat) : Work := if n ≤ cap then nothing else ⟨len, len, 1⟩

/-- Appending one element. -/
def append (len cap : Nat) : Work := room len cap (len + 1) + ⟨1, 0, 0⟩

/-- Appending `n` elements one by one. -/
def appends : Nat → Nat → Nat → Work
  | 0, _, _ => nothing
  | n + 1, len, cap => append len cap + appends n (len + 1) (afterPush len cap)

/-- Shifting the elements from position `p` on. -/
def shift (len p : Nat) : Work := ⟨len - p, len - p, 0⟩

def lenOf (A : Ideal α) (i : Nat) : Nat := match A i with | none => 0 | some v => v.xs.length
def capOf (A : Ideal α) (i : Nat) : Nat := match A i with | none => 0 | some v => v.cap
def sameAlloc (A : Ideal α) (i j : Nat) : Bool := (A i).map (·.alloc) == (A j).map (·.alloc)

def work (A : Ideal α) : Op α → Work
  | .newDefault _ => ⟨0, 0, 1⟩
  | .newAlloc _ _ => nothing
  | .newFill _ n _ _ | .newCount _ n _ => room 0 0 n + ⟨n, 0, 0⟩
  | .newList _ xs _ | .newRange _ xs _ => ⟨xs.length, 0, 1⟩
  | .newCopy _ j | .newCopyAlloc _ j _ => ⟨lenOf A j, 0, 1⟩
  | .newMove _ _ _ => nothing
  | .fromIter _ xs => ⟨0, 0, 1⟩ + appends xs.length 0 2
  | .copyAssign i j =>
    if i = j then nothing
    else if sameAlloc A i j then
      -- common elements are assigned, not constructed
      room (lenOf A i) (capOf A i) (capOf A j) + ⟨lenOf A j - lenOf A i, lenOf A i - lenOf A j, 0⟩
    else ⟨lenOf A j, lenOf A i, 1⟩
  | .moveAssign i j => if i = j then nothing else ⟨0, lenOf A i, 0⟩
  | .listAssign _ _ => nothing
  | .swap _ _ => nothing
  | .drop i | .clear i => ⟨0, lenOf A i, 0⟩
  | .reserve i n => room (lenOf A i) (capOf A i) n
  | .push i _ => append (lenOf A i) (capOf A i)
  | .pop _ => ⟨0, 1, 0⟩
  | .assignFill i n _ => ⟨0, lenOf A i, 0⟩ + room 0 (capOf A i) n + ⟨n, 0, 0⟩
  | .assignList i xs => ⟨0, lenOf A i, 0⟩ + room 0 (capOf A i) xs.length + ⟨xs.length, 0, 0⟩
  | .insert i p _ | .emplace i p _ =>
    room (lenOf A i) (capOf A i) (lenOf A i + 1) + shift (lenOf A i) p + ⟨1, 0, 0⟩
  | .insertFill i p n _ => room (lenOf A i) (capOf A i) (lenOf A i + n) + shift (lenOf A i) p + ⟨n, 0, 0⟩
  | .insertRange i p ys =>
    room (lenOf A i) (capOf A i) (lenOf A i + ys.length) + shift (lenOf A i) p + ⟨ys.length, 0, 0⟩
  | .erase _ _ => ⟨0, 1, 0⟩
  | .eraseRange _ lo hi => ⟨0, hi - lo, 0⟩
  | .resize i n | .resizeFill i n _ =>
    if n ≤ lenOf A i then ⟨0, lenOf A i - n, 0⟩
    else room (lenOf A i) (capOf A i) n + ⟨n - lenOf A i, 0, 0⟩
  -- the elements the iterator took over end with it
  | .drain i _ | .drainRev i _ => ⟨0, lenOf A i, 0⟩
  | .set _ _ _ | .get _ _ | .at _ _ | .front _ | .back _ | .size _ | .capacity _ | .empty _ | .collect _ | .equal _ _ _ | .compare _ _ _
  | .print _ _ => nothing

/-- The work of a whole history. -/
def workRun (size : Nat) (dflt : α) : List (Op α) → Ideal α → Work
  | [], _ => nothing
  | op :: ops, A =>
    match specStep false size dflt op A with
    | none => nothing
    | some (_, A') => work A op + workRun size dflt ops A'

end Verif.Spec.Vector

namespace Verif.Spec.Vector
open Verif.Model.Vector (Op)

variable {α : Type}

/-- How many elements the caller asks a call to put into the vector. -/
def asked (A : Ideal α) : Op α → Nat
  | .newFill _ n _ _ | .newCount _ n _ | .assignFill _ n _ | .insertFill _ _ n _ | .resize _ n | .resizeFill _ n _ => n
  | .newList _ xs _ | .newRange _ xs _ | .fromIter _ xs | .assignList _ xs | .insertRange _ _ xs => xs.length
  | .newCopy _ j | .newCopyAlloc _ j _ | .copyAssign _ j => lenOf A j
  | .push _ _ | .insert _ _ _ | .emplace _ _ _ => 1
  | _ => 0

/-- How many elements the vector changed by a call has before it. -/
def had (A : Ideal α) : Op α → Nat
  | .copyAssign i _ | .moveAssign i _ | .drop i | .clear i | .reserve i _ | .push i _ | .pop i | .assignFill i _ _ | .assignList i _
  | .insert i _ _ | .emplace i _ _ | .insertFill i _ _ _ | .insertRange i _ _ | .erase i _ | .eraseRange i _ _ | .resize i _
  | .resizeFill i _ _ | .drain i _ | .drainRev i _ => lenOf A i
  | _ => 0

end Verif.Spec.Vector
