import Verif.Model.BStringLive
import Verif.Spec.BStringNeed
/-!
# Specification: `chars()` iterators as positions that follow their string's bytes

An ideal iterator is a string, a position in its bytes and the length the string had when the iterator was taken (where `next()` stops).
The bytes of a string of at most 16 bytes are `inside` the string variable; those of a longer one are in a separate buffer, `outside`, which
has room for `room` bytes.  `whereTo` says what a call does to the buffer of each string: it stays, goes to another string, or is released.
Nothing here mentions pointers, blocks or unions.
-/
namespace Verif.Spec.BStr
open Verif
open Verif.Model.BStr (Op Res Enc LOp)

inductive Place where
  | inside (i p n : Nat)
  | outside (i p n : Nat)
  | gone (p n : Nat)
  deriving DecidableEq

structure LIdeal where
  text : Ideal := fun _ => none
  room : Nat → Nat := fun _ => 16
  its : Nat → Option Place := fun _ => none

def lenOf (A : Ideal) (i : Nat) : Nat := ((A i).map List.length).getD 0

/-- Room of string `k` after the call, given texts `A` and rooms `R` before it. -/
def roomAfter (A : Ideal) (R : Nat → Nat) : Op → Nat → Nat
  | .newAlloc i _, k => if k = i then 16 else R k
  | .newLit i lit _, k => if k = i then (if lit.length ≤ 16 then 16 else roomy lit.length) else R k
  | .newCopy i j, k => if k = i then R j else R k
  | .newMove i j, k => if k = i then R j else if k = j then 16 else R k
  | .moveAssign i j, k => if i = j then R k else if k = i then R j else if k = j then 16 else R k
  | .copyAssign i j, k =>
    if i = j ∨ k ≠ i then R k
    else if lenOf A j ≤ 16 then 16
    else if lenOf A i ≤ 16 then R j
    else if lenOf A j ≤ R i then R i
    else roomy (lenOf A j)
  | .pushBack i ch, k | .insert i ch _, k => if k = i ∧ R i < lenOf A i + ch.length then roomy (lenOf A i + ch.length) else R k
  | _, k => R k

/-- Which string has string `k`'s buffer after the call; `none`: it is released. -/
def whereTo (A : Ideal) (R : Nat → Nat) : Op → Nat → Option Nat
  | .newMove i j, k => if k = j then some i else some k
  | .moveAssign i j, k => if i = j then some k else if k = j then some i else if k = i then none else some k
  | .copyAssign i j, k => if i = j ∨ k ≠ i then some k else if 16 < lenOf A j ∧ lenOf A j ≤ R i then some k else none
  | .pushBack i ch, k | .insert i ch _, k => if k = i ∧ R i < lenOf A i + ch.length then none else some k
  | .drop i, k => if k = i then none else some k
  | _, k => some k

/-- String variable `i` is destroyed. -/
def ends : Op → Nat → Bool
  | .drop j, i => j == i
  | _, _ => false

def follow (A : Ideal) (R : Nat → Nat) (op : Op) : Place → Place
  | .gone p n => .gone p n
  | .inside i p n => if ends op i then .gone p n else .inside i p n
  | .outside i p n =>
    match whereTo A R op i with
    | some j => .outside j p n
    | none => .gone p n

def putIt (S : LIdeal) (k : Nat) (x : Place) : LIdeal := { S with its := fun k' => if k' = k then some x else S.its k' }

/-- Number of bytes of the character that starts with byte `b`. -/
def width (enc : Enc) (b : UInt8) : Nat :=
  match enc with
  | .ascii => 1
  | .utf8 => if b.toNat < 0x80 then 1 else if b.toNat < 0xE0 then 2 else if b.toNat < 0xF0 then 3 else 4

/-- The character that starts at position `p` of `xs`.  `full = false` leaves out U+007F, which the code takes for the beginning of a
two-byte character. -/
def charAt (full : Bool) (enc : Enc) (xs : List UInt8) (p : Nat) : Option (List UInt8) :=
  match xs[p]? with
  | none => none
  | some b =>
    if enc = .utf8 ∧ (contByte b = true ∨ (full = false ∧ b.toNat = 0x7F)) then none
    else if p + width enc b ≤ xs.length then some ((xs.drop p).take (width enc b))
    else none

/-- The bytes the iterator looks at, if they are still there. -/
def seen (S : LIdeal) : Place → Option (List UInt8)
  | .inside i _ n => (S.text i).bind fun xs => if xs.length ≤ 16 then some (xs.take n) else none
  | .outside i _ n => (S.text i).map fun xs => xs.take n
  | .gone _ _ => none

def Place.pos : Place → Nat
  | .inside _ p _ | .outside _ p _ | .gone p _ => p

def Place.stop : Place → Nat
  | .inside _ _ n | .outside _ _ n | .gone _ n => n

def Place.goOn (x : Place) (d : Nat) : Place :=
  match x with
  | .inside i p n => .inside i (p + d) n
  | .outside i p n => .outside i (p + d) n
  | .gone p n => .gone (p + d) n

def lspecStep (full lenient : Bool) (enc : Enc) : LOp → LIdeal → Option (Res × LIdeal)
  | .str op, S => (specStep full lenient enc op S.text).map fun q =>
    (q.1, ⟨q.2, roomAfter S.text S.room op, fun k => (S.its k).map (follow S.text S.room op)⟩)
  | .chars k i, S => (S.text i).map fun xs =>
    (.unit, putIt S k (if xs.length ≤ 16 then .inside i 0 xs.length else .outside i 0 xs.length))
  | .copy k l, S => (S.its l).map fun x => (.unit, putIt S k x)
  | .next k, S => (S.its k).bind fun x =>
    if x.stop ≤ x.pos then some (.opt none, S)
    else (seen S x).bind fun xs => (charAt full enc xs x.pos).map fun c => (.opt (some c), putIt S k (x.goOn c.length))

def lspecRun (full lenient : Bool) (enc : Enc) : List LOp → LIdeal → Option (List Res × LIdeal)
  | [], S => some ([], S)
  | op :: ops, S =>
    match lspecStep full lenient enc op S with
    | none => none
    | some (r, S') =>
      match lspecRun full lenient enc ops S' with
      | none => none
      | some (rs, S'') => some (r :: rs, S'')

end Verif.Spec.BStr
