import Verif.Model.VectorRange
import Verif.Spec.Vector
/-!
# Specification: ranges of vectors as lists

The elements a call with a range of a vector should take are the ones between the two positions when the call is made.
-/
namespace Verif.Spec.Vector
open Verif
open Verif.Model.Vector (Op Res ROp)

variable {α : Type}

/-- The elements of `xs` from position `lo` up to, not including, position `hi`. -/
def cut (xs : List α) (lo hi : Nat) : List α := (xs.drop lo).take (hi - lo)

/-- The elements of the range `[lo, hi)` of vector `j`, if there is such a range. -/
def between (A : Ideal α) (j lo hi : Nat) : Option (List α) :=
  (A j).bind fun v => if lo ≤ hi ∧ hi ≤ v.xs.length then some (cut v.xs lo hi) else none

/-- The same call with the elements of the range written out: what the call with a range promises to do. -/
def written (A : Ideal α) : ROp α → Option (Op α)
  | .op o => some o
  | .newRangeOf i j lo hi a => (between A j lo hi).map fun ys => .newRange i ys a
  | .insertRangeOf i p j lo hi => (between A j lo hi).map fun ys => .insertRange i p ys

/-- Do `n` more elements fit into vector `i` without new memory? -/
def roomFor (A : Ideal α) (i n : Nat) : Bool := (A i).any fun v => decide (v.xs.length + n ≤ v.cap)

/-- An `insert` is harmless if its range is empty, or belongs to another vector, or lies before the insertion point of a
vector with room for it. -/
def harmless (A : Ideal α) : ROp α → Bool
  | .insertRangeOf i p j lo hi => lo == hi || i != j || (decide (hi ≤ p) && roomFor A i (hi - lo))
  | _ => true

def rspecStep (size : Nat) (dflt : α) (o : ROp α) (A : Ideal α) : Option (Res α × Ideal α) :=
  (written A o).bind fun o' => specStep false size dflt o' A

/-- Histories of harmless calls. -/
def rspecRun (size : Nat) (dflt : α) : List (ROp α) → Ideal α → Option (List (Res α) × Ideal α)
  | [], A => some ([], A)
  | o :: os, A =>
    if harmless A o then
      match rspecStep size dflt o A with
      | none => none
      | some (r, A') =>
        match rspecRun size dflt os A' with
        | none => none
        | some (rs, A'') => some (r :: rs, A'')
    else none

/-- `n` elements: those of `zs` over and over. -/
def cycle (zs : List α) (n : Nat) : List α := (List.range n).filterMap fun k => zs[k % zs.length]?

end Verif.Spec.Vector
