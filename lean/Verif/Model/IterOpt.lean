import Verif.Model.Collect
import Verif.Model.Opt
/-!
# Model of include/mstl/iter with the `Option` objects the elements travel in

`next()` returns an `Option<Item>`, and the adapters and terminals keep such objects in local variables: they take the payload
out, assign the next result to them and return them.  `Model/Iter.lean` treats them as values; here they are the objects of
`Model/Opt.lean`, with a lifetime, a payload that is constructed, moved and destroyed, and the library's own move assignment.

Objects are named by numbers.  A call gets the number `k` of the object it initialises, or of its first local variable, and uses
only numbers from `k` on.  All items have one type `α` (the sum of all types that occur).  Items that are references have
options that are plain pointers (Model/OptRef.lean) and nothing to construct or destroy.
`mv` is what moving from a value leaves.
-/
namespace Verif.Model.IterOpt
open Verif
open Verif.Model.Iter (Next Pipe)
open Verif.Model.Collect (World onClient onMem)
open Verif.Model.Opt (mkSome mkNone isSome unwrapUnchecked moveAssign moveCtor destroy readVal assignVal)

variable {κ σ α ρ : Type}

/-- The program: what the iterator and the client's functions affect, and the option objects. -/
abbrev W (κ α : Type) := World κ (Opt.World α)

/-- `next()` of an iterator: the state it is in, the object the result initialises; the new state. -/
abbrev ONext (κ σ α : Type) := σ → Nat → Prog (W κ α) σ

/-- `next()` of a source: `return Option<Item>::some(...)` or `return Option<Item>::none()` (vector.h:911-917, 1009-1020,
linked_list.h:108-116, 1995-2003, range.h, array.h). -/
def source (next : Next κ σ α) : ONext κ σ α := fun s k => do
  let r ← onClient (next s)
  match r.1 with
  | some a => onMem (mkSome k a)
  | none => onMem (mkNone k)
  return r.2

variable (mv : α → α)

/-- map.h:29-38 `MapIter::next`; `next_item` is object `k + 1`. -/
def mapNext (next : ONext κ σ α) (f : α → Prog κ α) : ONext κ σ α := fun s k => do
  let s ← next s (k + 1)
  let b ← onMem (isSome (k + 1))
  if b then
    let a ← onMem (unwrapUnchecked mv (k + 1))
    let item ← onClient (f a)
    onMem (mkSome k item)
  else
    onMem (mkNone k)
  onMem (destroy (k + 1))
  return s

/-- `o = iter.next();` for the object `j`: the result is a temporary, here object `j + 1`, that is moved from and destroyed. -/
def refill (next : ONext κ σ α) (s : σ) (j : Nat) : Prog (W κ α) σ := do
  let s ← next s (j + 1)
  onMem (moveAssign mv j (j + 1))
  onMem (destroy (j + 1))
  return s

/-- find.h:19-25, the loop; `next_value` is object `j`.  The predicate gets a reference to the payload. -/
def findLoop (next : ONext κ σ α) (p : α → Prog κ (Bool × α)) (j : Nat) (s : σ) : Prog (W κ α) σ := do
  let b ← onMem (isSome j)
  if b then
    let a ← onMem (readVal j)
    let c ← onClient (p a)
    onMem (assignVal j c.2)
    if c.1 then return s
    else
      let s ← refill mv next s j
      findLoop next p j s
  else return s
partial_fixpoint

/-- find.h:12-27 `find`; the local `next_value` is object `k + 1` and moved into the result.  (A compiler may also construct it
in place.) -/
def find (next : ONext κ σ α) (p : α → Prog κ (Bool × α)) : ONext κ σ α := fun s k => do
  let s ← next s (k + 1)
  let s ← findLoop mv next p (k + 1) s
  onMem (moveCtor mv k (k + 1))
  onMem (destroy (k + 1))
  return s

/-- filter.h:30-33, 52-55 `FilterIter::next`. -/
def filterNext (next : ONext κ σ α) (p : α → Prog κ (Bool × α)) : ONext κ σ α := find mv next p

/-- fold.h:17-23, for_each.h:16-19, vector.h:463-466, linked_list.h:758-764: the loop that takes every payload out of the object
`j` and asks for the next. -/
def eachLoop (next : ONext κ σ α) (f : ρ → α → Prog κ ρ) (j : Nat) (acc : ρ) (s : σ) : Prog (W κ α) ρ := do
  let b ← onMem (isSome j)
  if b then
    let a ← onMem (unwrapUnchecked mv j)
    let acc ← onClient (f acc a)
    let s ← refill mv next s j
    eachLoop next f j acc s
  else return acc
partial_fixpoint

/-- fold.h:13-27 `fold`. -/
def fold (next : ONext κ σ α) (f : ρ → α → Prog κ ρ) (init : ρ) (s : σ) (k : Nat) : Prog (W κ α) ρ := do
  let s ← next s k
  let r ← eachLoop mv next f k init s
  onMem (destroy k)
  return r

/-- for_each.h:12-21 `for_each`. -/
def forEach (next : ONext κ σ α) (f : α → Prog κ Unit) (s : σ) (k : Nat) : Prog (W κ α) Unit := do
  let s ← next s k
  eachLoop mv next (fun _ => f) k () s
  onMem (destroy k)

/-- vector.h:460-469, linked_list.h:754-768 `from_iter`; the container is the list of its elements. -/
def collect (next : ONext κ σ α) (s : σ) (k : Nat) : Prog (W κ α) (List α) := do
  let s ← next s k
  let r ← eachLoop mv next (fun acc a => return acc ++ [a]) k [] s
  onMem (destroy k)
  return r

/-- reduce.h:14-26 `reduce`; `first` is object `k + 1`, the result object `k`. -/
def reduce (next : ONext κ σ α) (f : α → α → Prog κ α) (s : σ) (k : Nat) : Prog (W κ α) Unit := do
  let s ← next s (k + 1)
  let b ← onMem (isSome (k + 1))
  if b then
    let a ← onMem (unwrapUnchecked mv (k + 1))
    let v ← fold mv next f a s (k + 2)
    onMem (mkSome k v)
  else
    onMem (mkNone k)
  onMem (destroy (k + 1))

/-- last.h:28-31, the loop; `prev` is object `k`, `current` is object `k + 1`. -/
def lastLoop (next : ONext κ σ α) (k : Nat) (s : σ) : Prog (W κ α) σ := do
  let b ← onMem (isSome (k + 1))
  if b then
    onMem (moveAssign mv k (k + 1))
    let s ← refill mv next s (k + 1)
    lastLoop next k s
  else return s
partial_fixpoint

/-- last.h:18-35 `last` for iterators without their own `last()`; the result is object `k`. -/
def last (next : ONext κ σ α) : ONext κ σ α := fun s k => do
  let s ← next s (k + 1)
  let s ← next s (k + 2)
  let s ← lastLoop mv next (k + 1) s
  onMem (moveCtor mv k (k + 1))
  onMem (destroy (k + 2))
  onMem (destroy (k + 1))
  return s

/-- One adapter. -/
inductive Stage (κ α : Type) where
  | map (f : α → Prog κ α)
  | filter (p : α → Prog κ (Bool × α))

/-- `it | stage | stage | …` over a source (utility.h:124-129). -/
def next (src : Next κ σ α) : List (Stage κ α) → ONext κ σ α
  | [] => source src
  | .map f :: st => mapNext mv (next src st) f
  | .filter p :: st => filterNext mv (next src st) p

end Verif.Model.IterOpt
