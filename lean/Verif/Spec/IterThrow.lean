import Verif.Model.IterThrow
import Verif.Spec.Iter
/-!
# Specification: pipelines over lists whose functions may throw

What a caller expects: an exception thrown by any function ends the whole operation and reaches the caller.  The definitions
are those of Spec/Pipe.lean in the monad of calls that return or throw: `do` stops at the first exception.  Only the syntax
of pipelines is shared with the model.
-/
namespace Verif.Spec.IterThrow
open Verif
open Verif.Model.IterThrow (Pipe Args Exc)

variable {ω σ α β γ ρ : Type}

/-- One element on its way through the stages, up to the first exception. -/
def one : {α β : Type} → Pipe ω α β → α → Exc ω (Option β)
  | _, _, .source, a => return some a
  | _, _, .map pipe f, a => do
    let r ← one pipe a
    match r with
    | none => return none
    | some b => do
      let c ← f b
      return some c
  | _, _, .filter pipe p, a => do
    let r ← one pipe a
    match r with
    | none => return none
    | some b => do
      let c ← p b
      if c.1 then return some c.2 else return none

/-- All elements, one after the other; the survivors. -/
def all (g : α → Exc ω (Option β)) : List α → Exc ω (List β)
  | [] => return []
  | a :: as => do
    let r ← g a
    let rs ← all g as
    match r with
    | none => return rs
    | some b => return b :: rs

/-- Left fold over the survivors, element by element. -/
def foldOver (g : α → Exc ω (Option β)) (f : ρ → β → Exc ω ρ) : ρ → List α → Exc ω ρ
  | acc, [] => return acc
  | acc, a :: as => do
    let r ← g a
    match r with
    | none => foldOver g f acc as
    | some b => do
      let acc ← f acc b
      foldOver g f acc as

/-- The first survivor is the start of a left fold over the others. -/
def reduceOver (g : α → Exc ω (Option β)) (f : β → β → Exc ω β) : List α → Exc ω (Option β)
  | [] => return none
  | a :: as => do
    let r ← g a
    match r with
    | none => reduceOver g f as
    | some b => do
      let v ← foldOver g f b as
      return some v

/-- The first survivor that satisfies `p`. -/
def findOver (g : α → Exc ω (Option β)) (p : β → Exc ω (Bool × β)) : List α → Exc ω (Option β)
  | [] => return none
  | a :: as => do
    let r ← g a
    match r with
    | none => findOver g p as
    | some b => do
      let c ← p b
      if c.1 then return some c.2 else findOver g p as

/-- The `|` chain the arguments of `combine` stand for, behind `pipe`. -/
def after : {α β γ : Type} → Pipe ω α β → Args ω β γ → Pipe ω α γ
  | _, _, _, pipe, .done => pipe
  | _, _, _, pipe, .map f rest => after (pipe.map f) rest
  | _, _, _, pipe, .filter p rest => after (pipe.filter p) rest

/-- The call does not throw, in whatever state of the world it is made. -/
def NoThrow (x : Exc ω β) : Prop := ∀ w w', x.run w ≠ .ok (none, w')

/-- A source whose own steps neither throw nor touch `ω`. -/
def quiet (next : σ → Out (Option α × σ)) : σ → Exc ω (Option α × σ) :=
  fun s => OptionT.mk fun w => next s >>= fun r => .ok (some r, w)

end Verif.Spec.IterThrow
