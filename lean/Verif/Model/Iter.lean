import Verif.Base.Out
/-!
# Model of include/mstl/iter: adapters, terminals, combine and `|`

An iterator is a state `σ` with `next : σ → Prog ω (Option α × σ)`; `ω` is everything user functions and sources can
affect (output, counters, ...), so equality of programs includes the effects and their order, panics and
non-termination.  An adapter object consists of the inner iterator and a function (map.h:44-46, filter.h:39-41); the
function never changes, so the state of an adapter is the state of its inner iterator.  User functions keep no private
mutable state (Model/IterState.lean models those that do).  `Option` objects
holding an element between two calls are values (Model/IterOpt.lean has them as objects of Model/Opt.lean).
-/
namespace Verif.Model.Iter
open Verif

variable {ω α β γ σ ρ : Type}

abbrev Next (ω σ α : Type) := σ → Prog ω (Option α × σ)

/-- map.h:29-38 `MapIter::next`. -/
def mapNext (next : Next ω σ α) (f : α → Prog ω β) : Next ω σ β := fun s => do
  let r ← next s
  match r.1 with
  | some a => do
    let item ← f a
    return (some item, r.2)
  | none => return (none, r.2)

/-- find.h:12-27 (and 29-50, which differ in branch hints only) `find(iter, predicate)`; the iterator is taken by
reference, the predicate receives the element by reference and may change it. -/
def find (next : Next ω σ α) (p : α → Prog ω (Bool × α)) (s : σ) : Prog ω (Option α × σ) := do
  let r ← next s
  match r.1 with
  | none => return (none, r.2)
  | some a => do
    let c ← p a
    if c.1 then return (some c.2, r.2)
    else find next p r.2
partial_fixpoint

/-- filter.h:30-33, 52-55 `FilterIter::next`. -/
def filterNext (next : Next ω σ α) (p : α → Prog ω (Bool × α)) : Next ω σ α := fun s => find next p s

/-- fold.h:13-27 `fold(iter, init, lambda)`. -/
def fold (next : Next ω σ α) (f : β → α → Prog ω β) (init : β) (s : σ) : Prog ω β := do
  let r ← next s
  match r.1 with
  | none => return init
  | some a => do
    let init ← f init a
    fold next f init r.2
partial_fixpoint

/-- reduce.h:14-26 `reduce(iter, lambda)`. -/
def reduce (next : Next ω σ α) (f : α → α → Prog ω α) (s : σ) : Prog ω (Option α) := do
  let r ← next s
  match r.1 with
  | some a => do
    let v ← fold next f a r.2
    return some v
  | none => return none

/-- for_each.h:12-21 `for_each(iter, lambda)`. -/
def forEach (next : Next ω σ α) (f : α → Prog ω Unit) (s : σ) : Prog ω Unit := do
  let r ← next s
  match r.1 with
  | none => return ()
  | some a => do
    f a
    forEach next f r.2
partial_fixpoint

/-- last.h:28-31, the loop. -/
def lastLoop (next : Next ω σ α) (prev : Option α) (current : Option α) (s : σ) : Prog ω (Option α × σ) :=
  match current with
  | none => return (prev, s)
  | some a => do
    let r ← next s
    lastLoop next (some a) r.1 r.2
partial_fixpoint

/-- last.h:18-35 `last(iter)` for iterators without their own `last()`. -/
def last (next : Next ω σ α) (s : σ) : Prog ω (Option α × σ) := do
  let prev ← next s
  let current ← next prev.2
  lastLoop next prev.1 current.1 current.2

/-- collect.h:12-17 `collect` into a container whose `from_iter` appends every element (vector.h:460-467,
linked_list.h:754-761); the container is represented by the list of its elements. -/
def collect (next : Next ω σ α) (acc : List α) (s : σ) : Prog ω (List α) := do
  let r ← next s
  match r.1 with
  | none => return acc
  | some a => collect next (acc ++ [a]) r.2
partial_fixpoint

/-- A pipeline of adapters, the last stage outermost: `it | map(f) | filter(p) | ...` (utility.h:124-129, map.h:60-65,
filter.h:79-84, 94-99). -/
inductive Pipe (ω : Type) : Type → Type → Type 1 where
  | source {α : Type} : Pipe ω α α
  | map {α β γ : Type} (pipe : Pipe ω α β) (f : β → Prog ω γ) : Pipe ω α γ
  | filter {α β : Type} (pipe : Pipe ω α β) (p : β → Prog ω (Bool × β)) : Pipe ω α β

/-- `next()` of the iterator a pipeline builds over a source. -/
def Pipe.next : {α β : Type} → Pipe ω α β → Next ω σ α → Next ω σ β
  | _, _, .source, src => src
  | _, _, .map pipe f, src => mapNext (pipe.next src) f
  | _, _, .filter pipe p, src => filterNext (pipe.next src) p

/-! ## combine (utility.h) -/

/-- A terminal operation with its arguments: a function of the iterator it is applied to. -/
abbrev Terminal (ω σ β ρ : Type) := Next ω σ β → σ → Prog ω ρ

/-- The argument list of `combine(iter, Com, lambda, Com, lambda, ..., Ter, args...)`. -/
inductive Args (ω : Type) : Type → Type → Type 1 where
  | done {α : Type} : Args ω α α
  | map {α β γ : Type} (f : α → Prog ω β) (rest : Args ω β γ) : Args ω α γ
  | filter {α γ : Type} (p : α → Prog ω (Bool × α)) (rest : Args ω α γ) : Args ω α γ

/-- utility.h:19-27 and 84-93 `combine`: applies the first combinator, then recurs on the remaining arguments.  -/
def combine : {α β : Type} → Args ω α β → Next ω σ α → Next ω σ β
  | _, _, .done, it => it
  | _, _, .map f rest, it => combine rest (mapNext it f)
  | _, _, .filter p rest, it => combine rest (filterNext it p)

/-- utility.h:32-40 and 84-93 `combine` ending in a terminal. -/
def combineTerminal : {α β : Type} → Args ω α β → Terminal ω σ β ρ → Next ω σ α → σ → Prog ω ρ
  | _, _, .done, t, it, s => t it s
  | _, _, .map f rest, t, it, s => combineTerminal rest t (mapNext it f) s
  | _, _, .filter p rest, t, it, s => combineTerminal rest t (filterNext it p) s

/-- One holder object of a `|` chain: what `to_adapter` builds (map.h:60-65, filter.h:79-84). -/
inductive Holder (ω : Type) : Type → Type → Type 1 where
  | map {α β : Type} (f : α → Prog ω β) : Holder ω α β
  | filter {α : Type} (p : α → Prog ω (Bool × α)) : Holder ω α α

def Holder.toAdapter : {α β : Type} → Holder ω α β → Next ω σ α → Next ω σ β
  | _, _, .map f, it => mapNext it f
  | _, _, .filter p, it => filterNext it p

end Verif.Model.Iter
