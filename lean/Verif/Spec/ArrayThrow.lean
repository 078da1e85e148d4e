import Verif.Spec.Array
/-!
# Specification: arrays and owning iterators whose elements can throw

A call comes with `x`, the number of its first copy or move of an element that throws, counted from 0; `none`: none throws.  A
call that is allowed and makes fewer copies and moves than that does what `specStep` says.  `fate` says how the others end.
-/
namespace Verif.Spec.ArrT
open Verif
open Verif.Model.Array (Op Ret Elem)
open Verif.Spec.Arr

variable {α : Type}

/-- How a call ends whose copy or move number `n` throws. -/
inductive Fate (α : Type) where
  /-- it does not get that far -/
  | fine
  /-- the exception reaches the caller, who sees this -/
  | thrown (A : Ideal α)
  /-- the program is ended -/
  | ends

/-- Array `i`, as a list of cells. -/
def cells (A : Ideal α) (i : Nat) : List (Option α) := (A.arr i).getD []

def fate (E : Elem α) (A : Ideal α) (n : Nat) : Op α → Fate α
  | .newList _ _ xs => if n < 2 * xs.length then .thrown A else .fine
  | .newRaw _ xs => if n < xs.length then .thrown A else .fine
  | .newCopy _ j => if n < (cells A j).length then .thrown A else .fine
  | .newMove _ j => if n < (cells A j).length then .ends else .fine
  | .copyAssign i j =>
    if i ≠ j ∧ n < (cells A j).length then .thrown (A.setArr i (some ((cells A j).take n ++ (cells A i).drop n))) else .fine
  | .moveAssign i j => if i ≠ j ∧ n < (cells A j).length then .ends else .fine
  | .set _ _ _ => if n < 1 then .thrown A else .fine
  | .intoIter _ i =>
    if n < (cells A i).length then
      .thrown (A.setArr i (some (((cells A i).take n).map (·.map E.mv) ++ (cells A i).drop n)))
    else .fine
  | .next k =>
    match A.it k with
    | some (N, _ :: vs) => if n < 2 then .thrown (A.setIt k (some (N, vs))) else .fine
    | _ => .fine
  | .itCopy _ l =>
    match A.it l with
    | some (N, _) => if n < N then .thrown A else .fine
    | none => .fine
  | .itMove _ l =>
    match A.it l with
    | some (N, _) => if n < N then .ends else .fine
    | none => .fine
  | .itCopyAssign k l =>
    match A.it k, A.it l with
    | some (N, ts), some (_, vs) =>
      if k ≠ l ∧ n < N then
        -- the first `N - ts.length` copies are those of the elements both have handed out already
        let m := n - (N - ts.length)
        .thrown (A.setIt k (some (N, vs.take m ++ ts.drop m)))
      else .fine
    | _, _ => .fine
  | _ => .fine

/-- One call: the answer `none` is an exception the client catches. -/
def callT (E : Elem α) (ne : α → α → Bool) (x : Option Nat) (op : Op α) (A : Ideal α) : Option (Out (Option (Ret α) × Ideal α)) :=
  match specStep false E ne op A with
  | some (.ok (r, A')) =>
    match x with
    | none => some (.ok (some r, A'))
    | some n =>
      match fate E A n op with
      | .fine => some (.ok (some r, A'))
      | .thrown A'' => some (.ok (none, A''))
      | .ends => some .panic
  | some .panic => some .panic
  | _ => none

def runT (E : Elem α) (ne : α → α → Bool) : List (Op α × Option Nat) → Ideal α → Option (Out (List (Option (Ret α)) × Ideal α))
  | [], A => some (.ok ([], A))
  | (op, x) :: ops, A =>
    match callT E ne x op A with
    | some (.ok (r, A')) =>
      match runT E ne ops A' with
      | some (.ok (rs, A'')) => some (.ok (r :: rs, A''))
      | some .panic => some .panic
      | _ => none
    | some .panic => some .panic
    | _ => none

end Verif.Spec.ArrT
