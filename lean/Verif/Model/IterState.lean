import Verif.Model.Iter
/-!
# Pipelines whose functions are objects with a state of their own

include/mstl/iter, once more for function objects (mutable lambdas): a function has a private state `τ`, each call gives
a result and the next state.  Who copies the object decides which calls see which state.  `ω` is, as in Model/Iter.lean,
everything else the functions affect.
-/
namespace Verif.Model.Iter
open Verif

variable {ω α β γ σ τ ρ : Type}

/-- A function object: what a call does from a state. -/
abbrev Fn (ω τ α β : Type) := τ → α → Prog ω (β × τ)

/-- map.h:29-38 `MapIter::next`: calls its member `func` (L46), which keeps the state. -/
def mapNextS (next : Next ω σ α) (f : Fn ω τ α β) : Next ω (σ × τ) β := fun s => do
  let r ← next s.1
  match r.1 with
  | some a => do
    let item ← f s.2 a
    return (some item.1, (r.2, item.2))
  | none => return (none, (r.2, s.2))

/-- find.h:12-27 and 29-50 `find(iter, predicate)`: the predicate is a parameter passed by value, its state lives for
this call only.  `u` is the state of that copy. -/
def findS (next : Next ω σ α) (p : Fn ω τ α (Bool × α)) (u : τ) (s : σ) : Prog ω (Option α × σ) := do
  let r ← next s
  match r.1 with
  | none => return (none, r.2)
  | some a => do
    let c ← p u a
    if c.1.1 then return (some c.1.2, r.2)
    else findS next p c.2 r.2
partial_fixpoint

/-- filter.h:30-33, 52-55 `FilterIter::next`: hands a copy of the member `predicate` (L41, 63) to `find`; the member stays
as it is. -/
def filterNextS (next : Next ω σ α) (p : Fn ω τ α (Bool × α)) : Next ω (σ × τ) α := fun s => do
  let r ← findS next p s.2 s.1
  return (r.1, (r.2, s.2))

/-- fold.h:13-27 `fold(iter, init, lambda)`: one object for the whole loop. -/
def foldS (next : Next ω σ α) (f : τ → β → α → Prog ω (β × τ)) (u : τ) (init : β) (s : σ) : Prog ω β := do
  let r ← next s
  match r.1 with
  | none => return init
  | some a => do
    let init ← f u init a
    foldS next f init.2 init.1 r.2
partial_fixpoint

/-- reduce.h:14-26 `reduce(iter, lambda)`. -/
def reduceS (next : Next ω σ α) (f : τ → α → α → Prog ω (α × τ)) (u : τ) (s : σ) : Prog ω (Option α) := do
  let r ← next s
  match r.1 with
  | some a => do
    let v ← foldS next f u a r.2
    return some v
  | none => return none

/-- for_each.h:12-21 `for_each(iter, lambda)`. -/
def forEachS (next : Next ω σ α) (f : τ → α → Prog ω (Unit × τ)) (u : τ) (s : σ) : Prog ω Unit := do
  let r ← next s
  match r.1 with
  | none => return ()
  | some a => do
    let c ← f u a
    forEachS next f c.2 r.2
partial_fixpoint

/-- A pipeline of adapters with function objects, the last stage outermost (utility.h:124-129).  `T` collects the states
of the objects stored in the adapters. -/
inductive SPipe (ω α : Type) : Type → Type → Type 1 where
  | source : SPipe ω α α Unit
  | map {β γ T τ : Type} (pipe : SPipe ω α β T) (f : Fn ω τ β γ) : SPipe ω α γ (T × τ)
  | filter {β T τ : Type} (pipe : SPipe ω α β T) (p : Fn ω τ β (Bool × β)) : SPipe ω α β (T × τ)

/-- `next()` of the iterator a pipeline builds over a source; its state is that of the source and of the objects. -/
def SPipe.next (src : Next ω σ α) : {β T : Type} → SPipe ω α β T → Next ω (σ × T) β
  | _, _, .source => fun s => do
    let r ← src s.1
    return (r.1, (r.2, ()))
  | _, _, .map pipe f => fun s => do
    let r ← mapNextS (pipe.next src) f ((s.1, s.2.1), s.2.2)
    return (r.1, (r.2.1.1, (r.2.1.2, r.2.2)))
  | _, _, .filter pipe p => fun s => do
    let r ← filterNextS (pipe.next src) p ((s.1, s.2.1), s.2.2)
    return (r.1, (r.2.1.1, (r.2.1.2, r.2.2)))

end Verif.Model.Iter
