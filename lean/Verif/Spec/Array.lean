import Verif.Model.ArrayHist
/-!
# Specification: arrays as lists of fixed length, owning iterators as the list of elements still to come

An array is a list of `N` cells, `none` being a cell that was never given a value (default-initialised `int`s); reading
such a cell is not allowed.  `full`: all calls a client may make; `full = false` leaves out the calls marked `only`.
From the element type only the default value, the zero value and what a move leaves behind are used.
-/
namespace Verif.Spec.Arr
open Verif
open Verif.Model.Array (Op Ret Elem)

structure Ideal (α : Type) where
  arr : Nat → Option (List (Option α))
  /-- `N` and the elements still to come -/
  it : Nat → Option (Nat × List α)

variable {α : Type}

def Ideal.setArr (A : Ideal α) (i : Nat) (x : Option (List (Option α))) : Ideal α :=
  { A with arr := fun k => if k = i then x else A.arr k }
def Ideal.setIt (A : Ideal α) (i : Nat) (x : Option (Nat × List α)) : Ideal α :=
  { A with it := fun k => if k = i then x else A.it k }

/-- The values, if all cells have one. -/
def values : List (Option α) → Option (List α)
  | [] => some []
  | none :: _ => none
  | some v :: cs => match values cs with
    | some vs => some (v :: vs)
    | none => none

def only (full b : Bool) (x : Option β) : Option β := if full || b then x else none

/-- Lengths of array types: positive, representable. -/
def okLen (N : Nat) : Bool := 0 < N && N < 18446744073709551616

def specStep (full : Bool) (E : Elem α) (ne : α → α → Bool) : Op α → Ideal α → Option (Out (Ret α × Ideal α))
  | .newDefault i N, A =>
    if okLen N ∧ (A.arr i).isNone then some (.ok (.unit, A.setArr i (some (List.replicate N E.dflt)))) else none
  | .newZero i N, A =>
    if okLen N ∧ (A.arr i).isNone then some (.ok (.unit, A.setArr i (some (List.replicate N (some E.zero))))) else none
  | .newList i N xs, A =>
    if okLen N ∧ (A.arr i).isNone then
      if N < xs.length then some .panic
      else some (.ok (.unit, A.setArr i (some (xs.map some ++ List.replicate (N - xs.length) E.dflt))))
    else none
  | .newRaw i xs, A =>
    if okLen xs.length ∧ (A.arr i).isNone then some (.ok (.unit, A.setArr i (some (xs.map some)))) else none
  | .newCopy i j, A =>
    match A.arr i, A.arr j with
    | none, some c => match values c with
      | some vs => some (.ok (.unit, A.setArr i (some (vs.map some))))
      | none => none
    | _, _ => none
  | .newMove i j, A =>
    match A.arr i, A.arr j with
    | none, some c => match values c with
      | some vs => some (.ok (.unit, (A.setArr j (some (vs.map fun v => some (E.mv v)))).setArr i (some (vs.map some))))
      | none => none
    | _, _ => none
  | .copyAssign i j, A =>
    match A.arr i, A.arr j with
    | some d, some c =>
      if d.length ≠ c.length then none
      else if i = j then some (.ok (.unit, A))
      else match values c with
        | some vs => some (.ok (.unit, A.setArr i (some (vs.map some))))
        | none => none
    | _, _ => none
  | .moveAssign i j, A =>
    match A.arr i, A.arr j with
    | some d, some c =>
      if d.length ≠ c.length then none
      else if i = j then some (.ok (.unit, A))
      else match values c with
        | some vs => some (.ok (.unit, (A.setArr j (some (vs.map fun v => some (E.mv v)))).setArr i (some (vs.map some))))
        | none => none
    | _, _ => none
  | .get i p, A =>
    match A.arr i with
    | some c => match c[p]? with
      | none => some .panic
      | some none => none
      | some (some v) => some (.ok (.val v, A))
    | none => none
  | .set i p x, A =>
    match A.arr i with
    | some c => if p < c.length then some (.ok (.unit, A.setArr i (some (c.set p (some x))))) else some .panic
    | none => none
  | .size i, A =>
    match A.arr i with
    | some c => some (.ok (.num c.length, A))
    | none => none
  | .eq i j, A =>
    match A.arr i, A.arr j with
    | some c, some d => match values c, values d with
      | some xs, some ys =>
        if xs.length ≠ ys.length then none else some (.ok (.bool ((xs.zip ys).all fun p => !ne p.1 p.2), A))
      | _, _ => none
    | _, _ => none
  | .forEach i, A =>
    match A.arr i with
    | some c => match values c with
      | some vs => some (.ok (.vals vs, A))
      | none => none
    | none => none
  | .drop i, A =>
    match A.arr i with
    | some _ => some (.ok (.unit, A.setArr i none))
    | none => none
  | .intoIter k i, A =>
    match A.it k, A.arr i with
    | none, some c => match values c with
      | some vs => some (.ok (.unit, (A.setArr i (some (vs.map fun v => some (E.mv v)))).setIt k (some (c.length, vs))))
      | none => none
    | _, _ => none
  | .next k, A =>
    match A.it k with
    | some (_, []) => some (.ok (.opt none, A))
    | some (N, v :: vs) => some (.ok (.opt (some v), A.setIt k (some (N, vs))))
    | none => none
  | .isEmpty k, A =>
    match A.it k with
    | some (_, vs) => some (.ok (.bool vs.isEmpty, A))
    | none => none
  | .itCopy k l, A =>
    match A.it k, A.it l with
    | none, some s => some (.ok (.unit, A.setIt k (some s)))
    | _, _ => none
  | .itMove k l, A =>
    match A.it k, A.it l with
    | none, some (N, vs) => some (.ok (.unit, (A.setIt l (some (N, vs.map E.mv))).setIt k (some (N, vs))))
    | _, _ => none
  | .itCopyAssign k l, A =>
    match A.it k, A.it l with
    | some (N, ts), some (N', vs) =>
      if N ≠ N' then none
      else only full (k = l ∨ ts.length = vs.length) (some (.ok (.unit, A.setIt k (some (N', vs)))))
    | _, _ => none
  | .itMoveAssign k l, A =>
    match A.it k, A.it l with
    | some (N, _), some (N', vs) =>
      if N ≠ N' then none
      else if k = l then some (.ok (.unit, A))
      else only full false (some (.ok (.unit, (A.setIt l (some (N, vs.map E.mv))).setIt k (some (N, vs)))))
    | _, _ => none
  | .itDrop k, A =>
    match A.it k with
    | some _ => some (.ok (.unit, A.setIt k none))
    | none => none

def specRun (full : Bool) (E : Elem α) (ne : α → α → Bool) : List (Op α) → Ideal α → Option (Out (List (Ret α) × Ideal α))
  | [], A => some (.ok ([], A))
  | op :: ops, A =>
    match specStep full E ne op A with
    | some (.ok (r, A')) =>
      match specRun full E ne ops A' with
      | some (.ok (rs, A'')) => some (.ok (r :: rs, A''))
      | some .panic => some .panic
      | _ => none
    | some .panic => some .panic
    | _ => none

end Verif.Spec.Arr
