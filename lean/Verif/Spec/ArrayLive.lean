import Verif.Spec.Array
import Verif.Model.ArrayLive
/-!
# Specification: views as stretches of an array

An ideal view is an array and the stretch of positions it covers (a slice) or has still to give (an iterator).  It is gone when the array is
destroyed, and nothing else happens to it.  What it shows is what the array holds at that time.
-/
namespace Verif.Spec.ArrLive
open Verif Verif.Spec.Arr
open Verif.Model.Array (Op Ret Elem)
open Verif.Model.ArrLive (AOp)

variable {α : Type}

/-- Positions `lo, …, hi - 1` of array `i`; nothing at all (a slice that was consumed); or an array that was destroyed. -/
inductive View where
  | at (i lo hi : Nat)
  | empty
  | gone
  deriving DecidableEq

/-- The array a call destroys. -/
def destroys : Op α → Option Nat
  | .drop i => some i
  | _ => none

def View.follow (op : Op α) : View → View
  | .at i lo hi => if destroys op = some i then .gone else .at i lo hi
  | v => v

structure State (α : Type) where
  arrs : Ideal α := ⟨fun _ => none, fun _ => none⟩
  slices : Nat → Option View := fun _ => none
  /-- with the information whether it is an iterator over a slice -/
  its : Nat → Option (Bool × View) := fun _ => none

def State.setSlice (S : State α) (s : Nat) (v : View) : State α := { S with slices := fun s' => if s' = s then some v else S.slices s' }
def State.setIt (S : State α) (k : Nat) (v : Bool × View) : State α := { S with its := fun k' => if k' = k then some v else S.its k' }

/-- The length of array `i`. -/
def lenOf (A : Ideal α) (i : Nat) : Nat := ((A.arr i).map List.length).getD 0

/-- The position `next()` gives, and what is left. -/
def View.first : View → Option (Option (Nat × Nat) × View)
  | .at i lo hi => some (if lo < hi then (some (i, lo), .at i (lo + 1) hi) else (none, .at i lo hi))
  | .empty => some (none, .empty)
  | .gone => none

/-- The position `prev()` gives, and what is left. -/
def View.final : View → Option (Option (Nat × Nat) × View)
  | .at i lo hi => some (if lo < hi then (some (i, hi - 1), .at i lo (hi - 1)) else (none, .at i lo hi))
  | .empty => some (none, .empty)
  | .gone => none

/-- The value at a position, if it is one; the cell must have been given a value. -/
def shown (A : Ideal α) : Option (Nat × Nat) → Option (Option α)
  | none => some none
  | some q =>
    match (A.arr q.1).bind fun c => c[q.2]? with
    | some (some v) => some (some v)
    | _ => none

/-- The arrays after a position was assigned. -/
def assigned (A : Ideal α) (x : α) : Option (Nat × Nat) → Option (Bool × Ideal α)
  | none => some (false, A)
  | some q => (A.arr q.1).bind fun c => if q.2 < c.length then some (true, A.setArr q.1 (some (c.set q.2 (some x)))) else none

def viewStep : AOp α → State α → Option (Ret α × State α)
  | .arr _, _ => none
  | .iter k i, S => (S.arrs.arr i).map fun c => (.unit, S.setIt k (false, .at i 0 c.length))
  | .slice s i off n, S => (S.arrs.arr i).bind fun c => if off ≤ c.length then some (.unit, S.setSlice s (.at i off (off + n))) else none
  | .copySlice s t, S => (S.slices t).map fun v => (.unit, S.setSlice s v)
  -- a slice may be longer than the array, an iterator may not
  | .sliceIter k s, S => (S.slices s).bind fun v =>
    match v with
    | .at i lo hi => if hi ≤ lenOf S.arrs i then some (.unit, S.setIt k (true, .at i lo hi)) else none
    | .empty => some (.unit, S.setIt k (true, .empty))
    | .gone => none
  | .sliceIntoIter k s, S => (S.slices s).bind fun v =>
    match v with
    | .at i lo hi => if hi ≤ lenOf S.arrs i then some (.unit, (S.setSlice s .empty).setIt k (true, .at i lo hi)) else none
    | .empty => some (.unit, (S.setSlice s .empty).setIt k (true, .empty))
    | .gone => none
  | .copyIter k l, S => (S.its l).map fun v => (.unit, S.setIt k v)
  | .next k, S => (S.its k).bind fun v => v.2.first.bind fun q => (shown S.arrs q.1).map fun x => (.opt x, S.setIt k (v.1, q.2))
  | .prev k, S => (S.its k).bind fun v => v.2.final.bind fun q => (shown S.arrs q.1).map fun x => (.opt x, S.setIt k (v.1, q.2))
  | .last k, S => (S.its k).bind fun v =>
    if v.1 then v.2.final.bind fun q => (shown S.arrs q.1).map fun x => (.opt x, S) else none
  | .setNext k x, S => (S.its k).bind fun v =>
    if v.1 then v.2.first.bind fun q => (assigned S.arrs x q.1).map fun r => (.bool r.1, { S.setIt k (v.1, q.2) with arrs := r.2 }) else none
  | .setPrev k x, S => (S.its k).bind fun v =>
    if v.1 then v.2.final.bind fun q => (assigned S.arrs x q.1).map fun r => (.bool r.1, { S.setIt k (v.1, q.2) with arrs := r.2 }) else none
  | .len k, S => (S.its k).bind fun v =>
    match v.2 with
    | .at _ lo hi => some (.num (hi - lo), S)
    | .empty => some (.num 0, S)
    | .gone => none
  | .isEmpty k, S => (S.its k).bind fun v =>
    match v.2 with
    | .at _ lo hi => some (.bool (decide (lo = hi)), S)
    | .empty => some (.bool true, S)
    | .gone => none

/-- A call on the arrays is the call of Spec/Array.lean; all others are calls on views. -/
def liveStep (full : Bool) (E : Elem α) (ne : α → α → Bool) : AOp α → State α → Option (Out (Ret α × State α))
  | .arr op, S =>
    match specStep full E ne op S.arrs with
    | some (.ok (r, A)) =>
      some (.ok (r, ⟨A, fun s => (S.slices s).map (View.follow op), fun k => (S.its k).map fun v => (v.1, v.2.follow op)⟩))
    | some .panic => some .panic
    | _ => none
  | op, S => (viewStep op S).map .ok

def liveRun (full : Bool) (E : Elem α) (ne : α → α → Bool) : List (AOp α) → State α → Option (Out (List (Ret α) × State α))
  | [], S => some (.ok ([], S))
  | op :: ops, S =>
    match liveStep full E ne op S with
    | some (.ok (r, S')) =>
      match liveRun full E ne ops S' with
      | some (.ok (rs, S'')) => some (.ok (r :: rs, S''))
      | some .panic => some .panic
      | _ => none
    | some .panic => some .panic
    | _ => none

end Verif.Spec.ArrLive
