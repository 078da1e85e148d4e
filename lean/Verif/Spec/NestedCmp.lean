import Verif.Spec.NestedResult
import Verif.Model.NestedCmp
/-!
# Comparing nested vectors and results, said about their values

Only the names of the types (`Equated`, `Ordered`) are shared with the model.  Two vectors are compared element by element (`eqSeq`, `lexSeq`, as
for vectors of values, C11), whatever their capacities and allocators.
-/
namespace Verif.Spec.Nested
open Verif Verif.Model.Nested
open Verif.Spec.Vector (Var eqSeq lexSeq)

variable {α ε : Type}

/-- What is in an object, without capacities and allocators: nested lists and errors. -/
def Inside (ε : Type) : Equated α → Type
  | .values _ => List α
  | .vector _ c => List (Inside ε c)
  | .result c => Except ε (Inside ε c)

/-- The contents of an object. -/
def inside : (c : Equated α) → FVal ε c.full → Inside ε c
  | .values _ => fun (v : Var α) => v.xs
  | .vector _ c => fun (v : Var (FVal ε c.full)) => v.xs.map (inside c)
  | .result c => fun (v : Except ε (FVal ε c.full)) => v.map (inside c)

/-- Results are equal if both are values, and equal, or both are errors, and equal. -/
def eqKinds {V : Type} (eqE : ε → ε → Bool) (eq : V → V → Bool) : Except ε V → Except ε V → Bool
  | .ok x, .ok y => eq x y
  | .error x, .error y => eqE x y
  | _, _ => false

/-- Equality at every depth. -/
def eqVal (eqA : α → α → Bool) (eqE : ε → ε → Bool) : (c : Equated α) → FVal ε c.full → FVal ε c.full → Bool
  | .values _ => fun (v w : Var α) => eqSeq eqA v.xs w.xs
  | .vector _ c => fun (v w : Var (FVal ε c.full)) => eqSeq (eqVal eqA eqE c) v.xs w.xs
  | .result c => eqKinds eqE (eqVal eqA eqE c)

/-- Nested lists. -/
def Nest : Ordered α → Type
  | .values _ => List α
  | .vector _ c => List (Nest c)

/-- The nested lists in an object. -/
def nest : (c : Ordered α) → FVal ε c.full → Nest c
  | .values _ => fun (v : Var α) => v.xs
  | .vector _ c => fun (v : Var (FVal ε c.full)) => v.xs.map (nest c)

/-- The lexicographic order of nested lists, at every depth. -/
def order (cmp : α → α → Option Ordering) : (c : Ordered α) → Nest c → Nest c → Option Ordering
  | .values _ => lexSeq cmp
  | .vector _ c => lexSeq (order cmp c)

end Verif.Spec.Nested
