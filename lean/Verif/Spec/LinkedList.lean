import Verif.Model.LinkedListHist
/-!
# Specification: linked lists as lists

Only the calls and results are shared with the model.  An ideal list variable holds a list of values, or nothing when it
has been moved from, and the number of its allocator.  `specStep` answers `none` for calls a client may not make (no such
list, moved-from list, position out of range, popping an empty list, a predicate that is no strict weak order, merging
unsorted lists, mixing lists with different allocators, splicing a list into itself, a member the kind of list lacks).

Positions count from `before_begin()`: 0 is `before_begin()`, `1, …, size()` the elements, `size() + 1` is `end()`.

The flag `full` selects the histories.  With `full = true` every call the documentation allows is in, and sorting and
merging keep equivalent elements in order.  With `full = false` the calls marked `only` are restricted to the stated
condition, and equivalent elements come out of `sort` in reverse order and out of `merge` with those of the argument
first: this is what the library does.  Theorems with suffix `_partial` use `full = false`; for each restriction another
theorem shows that a call outside goes wrong.
-/
namespace Verif.Spec.LL
open Verif
open Verif.Model.LL (Op Res Arg)
open Verif.Spec (End takes)

variable {α β : Type}

structure Var (α : Type) where
  /-- `none`: moved from -/
  items : Option (List α)
  alloc : Nat
  deriving DecidableEq

abbrev Ideal (α : Type) := Nat → Option (Var α)

def put (A : Ideal α) (i : Nat) (x : Option (Var α)) : Ideal α := fun j => if j = i then x else A j

/-- The contents of list `i`, if there is one and it has not been moved from. -/
def contents (A : Ideal α) (i : Nat) : Option (List α) := (A i).bind fun v => v.items

/-- The value a reference argument has when the call is made. -/
def argVal (A : Ideal α) : Arg α → Option α
  | .val x => some x
  | .elem j k => (contents A j).bind fun xs => xs[k]?

/-- `less` is a strict weak order on the values in `xs`: asymmetric, and whenever `x < z` every `y` is above `x` or
below `z`. -/
def swoOn (less : α → α → Bool) (xs : List α) : Bool :=
  xs.all fun x => xs.all fun y => !(less x y && less y x) && xs.all fun z => !less x z || less x y || less y z

/-- No later element is less than an earlier one. -/
def sorted (less : α → α → Bool) : List α → Bool
  | [] => true
  | x :: xs => xs.all (fun y => !less y x) && sorted less xs

/-- Puts `x` in front of the first element that is not less than `x`. -/
def insertBy (less : α → α → Bool) (x : α) : List α → List α
  | [] => [x]
  | y :: ys => if less y x then y :: insertBy less x ys else x :: y :: ys

/-- Insertion sort; equivalent elements stay in order. -/
def sortBy (less : α → α → Bool) : List α → List α
  | [] => []
  | x :: xs => insertBy less x (sortBy less xs)

/-- What follows a kept element `x`: elements equivalent to it are dropped. -/
def uniqueAfter (p : α → α → Bool) (x : α) : List α → List α
  | [] => []
  | y :: ys => if p y x then uniqueAfter p x ys else y :: uniqueAfter p y ys

/-- Every run of elements equivalent to the first one of the run is reduced to that first element. -/
def uniqueBy (p : α → α → Bool) : List α → List α
  | [] => []
  | x :: xs => x :: uniqueAfter p x xs

/-- Elements separated by comma and blank. -/
def joinSeq : List String → String
  | [] => ""
  | [s] => s
  | s :: ss => s ++ ", " ++ joinSeq ss

/-- The argument of `remove(val)` on list `i` with contents `xs` is not an element of this list, or is the last one, or is
not itself removed. -/
def outlives (i : Nat) (eq : α → α → Bool) (xs : List α) : Arg α → Bool
  | .val _ => true
  | .elem j k => j != i || k + 1 == xs.length || (xs[k]?.any fun x => !eq x x)

/-- `only full g x`: the call is in the restricted histories only if `g`. -/
def only (full : Bool) (g : Prop) [Decidable g] (x : Option β) : Option β := if full = true ∨ g then x else none

/-- `needs g x`: the call is allowed only if `g`. -/
def needs (g : Prop) [Decidable g] (x : Option β) : Option β := if g then x else none

def born (A : Ideal α) (i : Nat) (v : Var α) : Option (Res α × Ideal α) :=
  needs ((A i).isNone) <| some (.unit, put A i (some v))

/-- A call that changes the contents of list `i` only. -/
def edit (A : Ideal α) (i : Nat) (f : List α → Option (Res α × List α)) : Option (Res α × Ideal α) :=
  (A i).bind fun v => v.items.bind fun xs => (f xs).map fun p => (p.1, put A i (some ⟨some p.2, v.alloc⟩))

def ask (A : Ideal α) (i : Nat) (f : List α → Option (Res α)) : Option (Res α × Ideal α) :=
  (A i).bind fun v => v.items.bind fun xs => (f xs).map fun r => (r, A)

/-- A call that moves elements from list `j` to list `i`, which must be different and have the same allocator. -/
def edit2 (A : Ideal α) (i j : Nat) (f : List α → List α → Option (List α × Option (List α))) : Option (Res α × Ideal α) :=
  (A i).bind fun v => v.items.bind fun xs => (A j).bind fun w => w.items.bind fun ys =>
    needs (i ≠ j ∧ v.alloc = w.alloc) <| (f xs ys).map fun p =>
      (.unit, put (put A i (some ⟨some p.1, v.alloc⟩)) j (some ⟨p.2, w.alloc⟩))

/-- `dbl`: the lists are `List`s, otherwise `ForwardList`s.  `dflt`: the value-initialised element. -/
def specStep (full dbl : Bool) (dflt : α) : Op α → Ideal α → Option (Res α × Ideal α)
  | .newAlloc i a, A => born A i ⟨some [], a⟩
  | .newFill i n r a, A => (argVal A r).bind fun x => born A i ⟨some (List.replicate n x), a⟩
  | .newCount i n a, A => born A i ⟨some (List.replicate n dflt), a⟩
  | .newRange i xs a, A => born A i ⟨some xs, a⟩
  | .newMove i j, A => (A j).bind fun w => needs ((A i).isNone) <|
    some (.unit, put (put A i (some w)) j (some ⟨none, w.alloc⟩))
  | .newMoveAlloc i j a, A => (A j).bind fun w => w.items.bind fun ys => needs ((A i).isNone) <| only full (a = w.alloc) <|
    some (.unit, put (put A i (some ⟨some ys, a⟩)) j (some ⟨none, w.alloc⟩))
  | .newCopy i j, A => (A j).bind fun w => w.items.bind fun ys => born A i ⟨some ys, w.alloc⟩
  | .newCopyAlloc i j a, A => (A j).bind fun w => w.items.bind fun ys => born A i ⟨some ys, a⟩
  | .fromIter i xs, A => born A i ⟨some xs, 0⟩
  | .copyAssign i j, A => (A i).bind fun _ => (A j).bind fun w => w.items.bind fun ys =>
    if i = j then some (.unit, A) else some (.unit, put A i (some ⟨some ys, w.alloc⟩))
  | .moveAssign i j, A => (A i).bind fun _ => (A j).bind fun w =>
    if i = j then some (.unit, A) else some (.unit, put (put A i (some w)) j (some ⟨none, w.alloc⟩))
  | .listAssign i xs, A => edit A i fun _ => some (.unit, xs)
  | .swap i j, A => (A i).bind fun v => (A j).bind fun w => some (.unit, put (put A i (some w)) j (some v))
  | .drop i, A => (A i).bind fun _ => some (.unit, put A i none)
  | .moved i, A => (A i).bind fun v => some (.bool v.items.isNone, A)
  | .clear i, A => edit A i fun _ => some (.unit, [])
  | .front i, A => ask A i fun xs => some (.opt xs.head?)
  | .frontUnchecked i, A => ask A i fun xs => xs.head?.map .val
  | .frontUncheckedConst i, A => ask A i fun xs => only full (dbl = false ∨ xs.length = 1) <| xs.head?.map .val
  | .back i, A => needs (dbl = true) <| ask A i fun xs => some (.opt xs.getLast?)
  | .backUnchecked i, A => needs (dbl = true) <| ask A i fun xs => xs.getLast?.map .val
  | .size i, A => ask A i fun xs => some (.num xs.length)
  | .empty i, A => ask A i fun xs => some (.bool xs.isEmpty)
  | .set i p x, A => edit A i fun xs => needs (1 ≤ p ∧ p ≤ xs.length) <| some (.unit, xs.set (p - 1) x)
  | .get i p, A => ask A i fun xs => needs (1 ≤ p) <| xs[p - 1]?.map .val
  | .insertAfter i p r, A => (argVal A r).bind fun x => edit A i fun xs => needs (p ≤ xs.length) <|
    some (.pos (p + 1), xs.take p ++ x :: xs.drop p)
  | .insertAfterFill i p n r, A => (argVal A r).bind fun x => edit A i fun xs => needs (p ≤ xs.length) <|
    some (.pos (if n = 0 then p else p + 1), xs.take p ++ (List.replicate n x ++ xs.drop p))
  | .insertAfterRange i p ys, A => edit A i fun xs => needs (p ≤ xs.length) <|
    some (.pos (if ys.length = 0 then p else p + 1), xs.take p ++ (ys ++ xs.drop p))
  | .eraseAfter i p, A => edit A i fun xs => needs (p ≤ xs.length) <| some (.pos (p + 1), xs.take p ++ xs.drop (p + 1))
  | .eraseAfterRange i lo hi, A => edit A i fun xs => needs (lo ≤ hi ∧ hi ≤ xs.length + 1) <|
    if lo = hi then some (.pos lo, xs) else some (.pos (lo + 1), xs.take lo ++ xs.drop (hi - 1))
  | .insert i p r, A => needs (dbl = true) <| (argVal A r).bind fun x => edit A i fun xs =>
    needs (1 ≤ p ∧ p ≤ xs.length + 1) <| some (.pos p, xs.take (p - 1) ++ x :: xs.drop (p - 1))
  | .insertFill i p n r, A => needs (dbl = true) <| (argVal A r).bind fun x => edit A i fun xs =>
    needs (1 ≤ p ∧ p ≤ xs.length + 1) <| some (.pos p, xs.take (p - 1) ++ (List.replicate n x ++ xs.drop (p - 1)))
  | .insertRange i p ys, A => needs (dbl = true) <| edit A i fun xs =>
    needs (1 ≤ p ∧ p ≤ xs.length + 1) <| some (.pos p, xs.take (p - 1) ++ (ys ++ xs.drop (p - 1)))
  | .erase i p, A => needs (dbl = true) <| edit A i fun xs => needs (p ≤ xs.length + 1) <|
    if p = 0 ∨ p = xs.length + 1 then some (.pos p, xs) else some (.pos p, xs.take (p - 1) ++ xs.drop p)
  | .eraseRange i lo hi, A => needs (dbl = true) <| edit A i fun xs => needs (1 ≤ lo ∧ lo ≤ hi ∧ hi ≤ xs.length + 1) <|
    some (.pos lo, xs.take (lo - 1) ++ xs.drop (hi - 1))
  | .pushFront i r, A => (argVal A r).bind fun x => edit A i fun xs => some (.unit, x :: xs)
  | .popFront i, A => edit A i fun xs => needs (xs ≠ []) <| some (.unit, xs.tail)
  | .pushBack i r, A => needs (dbl = true) <| (argVal A r).bind fun x => edit A i fun xs => some (.unit, xs ++ [x])
  | .popBack i, A => needs (dbl = true) <| edit A i fun xs => needs (xs ≠ []) <| some (.unit, xs.dropLast)
  | .resize i n, A => edit A i fun xs => some (.unit, xs.take n ++ List.replicate (n - xs.length) dflt)
  | .resizeFill i n r, A => (argVal A r).bind fun x => edit A i fun xs =>
    some (.unit, xs.take n ++ List.replicate (n - xs.length) x)
  | .merge i j less, A => if i = j then ask A i fun _ => some .unit else edit2 A i j fun xs ys =>
    needs (swoOn less (xs ++ ys) = true ∧ sorted less xs = true ∧ sorted less ys = true) <|
    only full (xs ≠ [] ∨ ys = []) <|
    some (if full then sortBy less (xs ++ ys) else sortBy less (ys ++ xs), some [])
  | .mergeMove i j less, A => if i = j then ask A i fun _ => some .unit else edit2 A i j fun xs ys =>
    needs (swoOn less (xs ++ ys) = true ∧ sorted less xs = true ∧ sorted less ys = true) <|
    only full (ys = []) <|
    some (if ys = [] then (xs, some []) else (sortBy less (xs ++ ys), none))
  | .spliceAfter i p j, A => edit2 A i j fun xs ys => needs (p ≤ xs.length) <| only full (ys ≠ []) <|
    some (xs.take p ++ (ys ++ xs.drop p), some [])
  | .splice i p j, A => needs (dbl = true) <| edit2 A i j fun xs ys => needs (1 ≤ p ∧ p ≤ xs.length + 1) <|
    only full (ys ≠ []) <| some (xs.take (p - 1) ++ (ys ++ xs.drop (p - 1)), some [])
  | .spliceAfterMove i p j, A => edit2 A i j fun xs ys => needs (p ≤ xs.length) <| only full (ys ≠ []) <|
    some (xs.take p ++ (ys ++ xs.drop p), none)
  | .spliceMove i p j, A => needs (dbl = true) <| edit2 A i j fun xs ys => needs (1 ≤ p ∧ p ≤ xs.length + 1) <|
    only full (ys ≠ []) <| some (xs.take (p - 1) ++ (ys ++ xs.drop (p - 1)), none)
  | .remove i eq r, A => (argVal A r).bind fun x => edit A i fun xs => only full (outlives i eq xs r = true) <|
    some (.num (xs.filter fun y => eq x y).length, xs.filter fun y => !eq x y)
  | .removeIf i p, A => edit A i fun xs => some (.num (xs.filter p).length, xs.filter fun y => !p y)
  | .reverse i, A => edit A i fun xs => some (.unit, xs.reverse)
  | .unique i p, A => edit A i fun xs => some (.num (xs.length - (uniqueBy p xs).length), uniqueBy p xs)
  | .sort i less, A => edit A i fun xs => needs (swoOn less xs = true) <| only full (xs.length ≠ 1) <|
    some (.unit, if full then sortBy less xs else sortBy less xs.reverse)
  | .traverse i, A => ask A i fun xs => some (.seq xs)
  | .traverseBack i, A => needs (dbl = true) <| ask A i fun xs => some (.seq xs.reverse)
  | .traverseRev i, A => needs (dbl = true) <| ask A i fun xs => only full (xs = []) <| some (.seq xs.reverse)
  | .iter i es, A => ask A i fun xs => needs (dbl = true ∨ es.all (· == .front) = true) <| some (.opts (takes es xs).1)
  | .drain i es, A => (A i).bind fun v => v.items.bind fun xs => needs (dbl = true ∨ es.all (· == .front) = true) <|
    some (.opts (takes es xs).1, put A i (some ⟨none, v.alloc⟩))
  | .print i shw, A => ask A i fun xs =>
    some (.text ((if dbl then "List [" else "ForwardList [") ++ joinSeq (xs.map shw) ++ "]"))

def specRun (full dbl : Bool) (dflt : α) : List (Op α) → Ideal α → Option (List (Res α) × Ideal α)
  | [], A => some ([], A)
  | op :: ops, A =>
    match specStep full dbl dflt op A with
    | none => none
    | some (r, A') =>
      match specRun full dbl dflt ops A' with
      | none => none
      | some (rs, A'') => some (r :: rs, A'')

end Verif.Spec.LL
