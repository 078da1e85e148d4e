import Verif.Spec.VectorLive
import Verif.Model.VectorSlice
/-!
# Specification: slices as stretches of a vector's storage

An ideal slice is a vector, a first position and a number of elements; an ideal iterator is a vector and the stretch of positions it has still to
give.  Both follow the storage (`whereTo`, Spec/VectorLive.lean) or are gone with it.  What they show is what the vector holds at that time.
-/
namespace Verif.Spec.VSlice
open Verif Verif.Spec.Vector
open Verif.Model.Vector (Op Res)
open Verif.Model.VSlice (SOp)

variable {α : Type}

/-- Positions `lo, …, hi - 1` of vector `i`; nothing at all (a slice that was consumed); or storage that is gone. -/
inductive View where
  | at (i lo hi : Nat)
  | empty
  | gone
  deriving DecidableEq

def View.follow (A : Ideal α) (op : Op α) : View → View
  | .at i lo hi =>
    match whereTo A op i with
    | some j => .at j lo hi
    | none => .gone
  | v => v

structure State (α : Type) where
  vecs : Ideal α := fun _ => none
  slices : Nat → Option View := fun _ => none
  its : Nat → Option View := fun _ => none

def State.setSlice (S : State α) (s : Nat) (v : View) : State α := { S with slices := fun s' => if s' = s then some v else S.slices s' }
def State.setIt (S : State α) (k : Nat) (v : View) : State α := { S with its := fun k' => if k' = k then some v else S.its k' }

def elem (A : Ideal α) (i p : Nat) : Option α := (A i).bind fun v => v.xs[p]?

/-- The vectors after position `p` of vector `i` was assigned; there must be an element. -/
def assign (A : Ideal α) (i p : Nat) (x : α) : Option (Ideal α) :=
  (A i).bind fun v => if p < v.xs.length then some (put A i (some ⟨v.xs.set p x, v.cap, v.alloc⟩)) else none

/-- The position `next()` gives, and what is left. -/
def View.first : View → Option (Option (Nat × Nat) × View)
  | .at i lo hi => some (if lo < hi then (some (i, lo), .at i (lo + 1) hi) else (none, .at i lo hi))
  | .empty => some (none, .empty)
  | .gone => none

/-- The position `prev()` gives, and what is left. -/
def View.final : View → Option (Option (Nat × Nat) × View)
  | .at i lo hi => some (if lo < hi then (some (i, hi - 1), .at i lo (hi - 1)) else (none, .at i lo hi))
  | .empty => some (none, .empty)
  | .gone => none

/-- The element at a position, if it is one; the position must hold an element. -/
def shown (A : Ideal α) : Option (Nat × Nat) → Option (Option α)
  | none => some none
  | some q => (elem A q.1 q.2).map some

def assigned (A : Ideal α) (x : α) : Option (Nat × Nat) → Option (Bool × Ideal α)
  | none => some (false, A)
  | some q => (assign A q.1 q.2 x).map fun A' => (true, A')

def sliceStep (full : Bool) (size : Nat) (dflt : α) : SOp α → State α → Option (Res α × State α)
  | .vec op, S => (specStep full size dflt op S.vecs).map fun q =>
    (q.1, ⟨q.2, fun s => (S.slices s).map (View.follow S.vecs op), fun k => (S.its k).map (View.follow S.vecs op)⟩)
  | .slice s i off n, S => (S.vecs i).bind fun v => if off ≤ v.cap then some (.unit, S.setSlice s (.at i off (off + n))) else none
  | .copySlice s t, S => (S.slices t).map fun v => (.unit, S.setSlice s v)
  -- a slice may be longer than the storage, an iterator may not
  | .iter k s, S => (S.slices s).bind fun v =>
    match v with
    | .at i lo hi => if hi ≤ capOf S.vecs i then some (.unit, S.setIt k (.at i lo hi)) else none
    | .empty => some (.unit, S.setIt k .empty)
    | .gone => none
  | .intoIter k s, S => (S.slices s).bind fun v =>
    match v with
    | .at i lo hi => if hi ≤ capOf S.vecs i then some (.unit, (S.setSlice s .empty).setIt k (.at i lo hi)) else none
    | .empty => some (.unit, (S.setSlice s .empty).setIt k .empty)
    | .gone => none
  | .copyIter k l, S => (S.its l).map fun v => (.unit, S.setIt k v)
  | .next k, S => (S.its k).bind fun v => v.first.bind fun q => (shown S.vecs q.1).map fun x => (.opt x, S.setIt k q.2)
  | .prev k, S => (S.its k).bind fun v => v.final.bind fun q => (shown S.vecs q.1).map fun x => (.opt x, S.setIt k q.2)
  | .last k, S => (S.its k).bind fun v => v.final.bind fun q => (shown S.vecs q.1).map fun x => (.opt x, S)
  | .setNext k x, S => (S.its k).bind fun v => v.first.bind fun q =>
    (assigned S.vecs x q.1).map fun r => (.bool r.1, { S.setIt k q.2 with vecs := r.2 })
  | .setPrev k x, S => (S.its k).bind fun v => v.final.bind fun q =>
    (assigned S.vecs x q.1).map fun r => (.bool r.1, { S.setIt k q.2 with vecs := r.2 })
  | .len k, S => (S.its k).bind fun v =>
    match v with
    | .at _ lo hi => some (.num (hi - lo), S)
    | .empty => some (.num 0, S)
    | .gone => none
  | .isEmpty k, S => (S.its k).bind fun v =>
    match v with
    | .at _ lo hi => some (.bool (decide (lo = hi)), S)
    | .empty => some (.bool true, S)
    | .gone => none

def sliceRun (full : Bool) (size : Nat) (dflt : α) : List (SOp α) → State α → Option (List (Res α) × State α)
  | [], S => some ([], S)
  | op :: ops, S => (sliceStep full size dflt op S).bind fun p => (sliceRun full size dflt ops p.2).map fun q => (p.1 :: q.1, q.2)

end Verif.Spec.VSlice
