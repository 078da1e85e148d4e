import Verif.Model.Iter
/-!
# Specification: pipelines and terminals as programs over the list of elements

Only the syntax of pipelines (`Pipe`) is shared with the model.
-/
namespace Verif.Spec.Pipe
open Verif
open Verif.Model.Iter (Pipe Next)

variable {ω σ α β γ ρ : Type}

/-- What happens to one element on its way through the stages: each function is called once, in stage order, until the
element is dropped. -/
def one : {α β : Type} → Pipe ω α β → α → Prog ω (Option β)
  | _, _, .source, a => return some a
  | _, _, .map pipe f, a => do
    let r ← one pipe a
    match r with
    | none => return none
    | some b => do
      let c ← f b
      return some c
  | _, _, .filter pipe p, a => do
    let r ← one pipe a
    match r with
    | none => return none
    | some b => do
      let c ← p b
      if c.1 then return some c.2 else return none

/-- One element at a time: ask the source for one element, push it through all stages, and only ask the source again if
the element was dropped.  The source may have effects of its own and may never end. -/
def pull (src : Next ω σ α) (g : α → Prog ω (Option β)) (s : σ) : Prog ω (Option β × σ) := do
  let r ← src s
  match r.1 with
  | none => return (none, r.2)
  | some a => do
    let o ← g a
    match o with
    | some b => return (some b, r.2)
    | none => pull src g r.2
partial_fixpoint

/-- All elements, one after the other; the survivors. -/
def all (g : α → Prog ω (Option β)) : List α → Prog ω (List β)
  | [] => return []
  | a :: as => do
    let r ← g a
    let rs ← all g as
    match r with
    | none => return rs
    | some b => return b :: rs

/-- Left fold over the survivors, element by element. -/
def foldOver (g : α → Prog ω (Option β)) (f : ρ → β → Prog ω ρ) : ρ → List α → Prog ω ρ
  | acc, [] => return acc
  | acc, a :: as => do
    let r ← g a
    match r with
    | none => foldOver g f acc as
    | some b => do
      let acc ← f acc b
      foldOver g f acc as

/-- The first survivor is the start of a left fold over the others. -/
def reduceOver (g : α → Prog ω (Option β)) (f : β → β → Prog ω β) : List α → Prog ω (Option β)
  | [] => return none
  | a :: as => do
    let r ← g a
    match r with
    | none => reduceOver g f as
    | some b => do
      let v ← foldOver g f b as
      return some v

/-- The first survivor that satisfies `p`; the rest of the list is returned untouched. -/
def findOver (g : α → Prog ω (Option β)) (p : β → Prog ω (Bool × β)) : List α → Prog ω (Option (β × List α))
  | [] => return none
  | a :: as => do
    let r ← g a
    match r with
    | none => findOver g p as
    | some b => do
      let c ← p b
      if c.1 then return some (c.2, as) else findOver g p as

/-- A source whose own steps do not touch `ω`. -/
def quiet (next : σ → Out (Option α × σ)) : Next ω σ α := fun s w => next s >>= fun r => .ok (r, w)

/-- A pipeline of pure functions, as a function on lists. -/
inductive PurePipe : Type → Type → Type 1 where
  | source {α : Type} : PurePipe α α
  | map {α β γ : Type} (pipe : PurePipe α β) (f : β → γ) : PurePipe α γ
  | filter {α β : Type} (pipe : PurePipe α β) (p : β → Bool) : PurePipe α β

def PurePipe.onList : {α β : Type} → PurePipe α β → List α → List β
  | _, _, .source, xs => xs
  | _, _, .map pipe f, xs => (pipe.onList xs).map f
  | _, _, .filter pipe p, xs => (pipe.onList xs).filter p

/-- The same pipeline in the library, with functions that have no effects. -/
def PurePipe.toPipe (ω : Type) : {α β : Type} → PurePipe α β → Pipe ω α β
  | _, _, .source => .source
  | _, _, .map pipe f => .map (pipe.toPipe ω) fun b => return f b
  | _, _, .filter pipe p => .filter (pipe.toPipe ω) fun b => return (p b, b)

end Verif.Spec.Pipe
