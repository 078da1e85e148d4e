import Verif.Model.BString
/-!
# Specification of strings: every variable is a list of bytes

Calls and results are those of `Model/BString.lean` (`Op`, `Res`); nothing else of the model is used.

`specStep full` answers `none` when the call is outside the specification.  `full = true` is the documented meaning.
`full = false` additionally leaves out the calls that go wrong in the code as it is (each has a `_fails` theorem in
`Props/BString.lean`); `lenient` is the assumption on `Allocate::operator=` explained in `Model/BString.lean`.
-/
namespace Verif.Spec.BStr
open Verif Verif.Model.BStr

abbrev Ideal := Nat → Option (List UInt8)

def put (A : Ideal) (i : Nat) (x : Option (List UInt8)) : Ideal := fun k => if k = i then x else A k

/-- A UTF-8 continuation byte, 0x80 to 0xBF. -/
def contByte (b : UInt8) : Bool := decide (0x80 ≤ b.toNat) && decide (b.toNat ≤ 0xBF)

/-- `idx` is an end of the text or the index of a byte that starts a character. -/
def boundary (bs : List UInt8) (idx : Nat) : Bool :=
  decide (idx = 0) || decide (idx = bs.length) || (match bs[idx]? with | none => false | some b => !contByte b)

/-- `bs` with `ch` put in at index `idx`. -/
def insertAt (bs ch : List UInt8) (idx : Nat) : List UInt8 := bs.take idx ++ ch ++ bs.drop idx

/-- Both lengths differ from 16. -/
def not16 (xs ys : List UInt8) : Bool := decide (xs.length ≠ 16) && decide (ys.length ≠ 16)

def specStep (full lenient : Bool) (enc : Enc) (op : Op) (A : Ideal) : Option (Res × Ideal) :=
  match op with
  | .newAlloc i _ => if A i = none then some (.unit, put A i (some [])) else none
  | .newLit i lit _ => if A i = none ∧ lit ≠ [] then some (.unit, put A i (some lit)) else none
  | .newCopy i j =>
    match A i, A j with
    | none, some ys => some (.unit, put A i (some ys))
    | _, _ => none
  | .newMove i j =>
    match A i, A j with
    | none, some ys => if full || lenient then some (.unit, put (put A i (some ys)) j (some [])) else none
    | _, _ => none
  | .copyAssign i j =>
    match A i, A j with
    | some xs, some ys =>
      if full || i == j || (lenient && not16 xs ys) || (decide (16 < ys.length) && decide (ys.length ≤ xs.length)) then
        some (.unit, put A i (some ys))
      else none
    | _, _ => none
  | .moveAssign i j =>
    match A i, A j with
    | some xs, some ys =>
      if i = j then some (.unit, A)
      else if full || (lenient && not16 xs ys) then some (.unit, put (put A i (some ys)) j (some []))
      else none
    | _, _ => none
  | .drop i =>
    match A i with
    | some _ => some (.unit, put A i none)
    | none => none
  | .pushBack i ch =>
    match A i with
    | some xs => some (.unit, put A i (some (xs ++ ch)))
    | none => none
  | .insert i ch idx =>
    match A i with
    | some xs => if enc = .utf8 ∧ boundary xs idx then some (.unit, put A i (some (insertAt xs ch idx))) else none
    | none => none
  | .popBack i =>
    match A i with
    | some xs =>
      if enc = .ascii ∧ (full || decide (xs.length ≠ 17)) then
        some (.opt (xs.getLast?.map fun b => [b]), put A i (some xs.dropLast))
      else none
    | none => none
  | .size i =>
    match A i with
    | some xs => some (.num xs.length, A)
    | none => none
  | .isCharBoundary i idx =>
    match A i with
    | some xs => if enc = .utf8 then some (.bool (boundary xs idx), A) else none
    | none => none
  | .chars i =>
    -- for UTF-8 see `C40_chars_utf8_partial`
    match A i with
    | some xs => if enc = .ascii then some (.chars (xs.map fun b => [b]), A) else none
    | none => none
  | .print i =>
    match A i with
    | some xs => if full || decide (xs.length ≠ 16) then some (.text xs, A) else none
    | none => none

def specRun (full lenient : Bool) (enc : Enc) : List Op → Ideal → Option (List Res × Ideal)
  | [], A => some ([], A)
  | op :: ops, A =>
    match specStep full lenient enc op A with
    | none => none
    | some (r, A) =>
      match specRun full lenient enc ops A with
      | none => none
      | some (rs, A) => some (r :: rs, A)

end Verif.Spec.BStr
