import Verif.Base.Out
/-!
# Model of include/mstl/str/encoding/utf8.h and of `Chars` (include/mstl/str/basic_string.h:22-38)

A byte iterator (`SliceRefIter<u8, const u8&>`, include/mstl/slice.h:15-71) is modelled by the list of
bytes it has not produced yet: `next()` takes the head (slice.h:22-30).  A `BasicChar<UTF8>`
(include/mstl/str/basic_char.h:83-106) is modelled by the list of its first `get_len()` bytes.
-/
namespace Verif.Model.Utf8
open Verif

/-- utf8.h:216-234 `UTF8_CHAR_WIDTH`, copied row by row. -/
def charWidthTable : List Nat := [
  1, 1, 1, 1, 1, 1, 1, 1, 1, 1, 1, 1, 1, 1, 1, 1,
  1, 1, 1, 1, 1, 1, 1, 1, 1, 1, 1, 1, 1, 1, 1, 1,
  1, 1, 1, 1, 1, 1, 1, 1, 1, 1, 1, 1, 1, 1, 1, 1,
  1, 1, 1, 1, 1, 1, 1, 1, 1, 1, 1, 1, 1, 1, 1, 1,
  1, 1, 1, 1, 1, 1, 1, 1, 1, 1, 1, 1, 1, 1, 1, 1,
  1, 1, 1, 1, 1, 1, 1, 1, 1, 1, 1, 1, 1, 1, 1, 1,
  1, 1, 1, 1, 1, 1, 1, 1, 1, 1, 1, 1, 1, 1, 1, 1,
  1, 1, 1, 1, 1, 1, 1, 1, 1, 1, 1, 1, 1, 1, 1, 1,
  0, 0, 0, 0, 0, 0, 0, 0, 0, 0, 0, 0, 0, 0, 0, 0,
  0, 0, 0, 0, 0, 0, 0, 0, 0, 0, 0, 0, 0, 0, 0, 0,
  0, 0, 0, 0, 0, 0, 0, 0, 0, 0, 0, 0, 0, 0, 0, 0,
  0, 0, 0, 0, 0, 0, 0, 0, 0, 0, 0, 0, 0, 0, 0, 0,
  0, 0, 2, 2, 2, 2, 2, 2, 2, 2, 2, 2, 2, 2, 2, 2,
  2, 2, 2, 2, 2, 2, 2, 2, 2, 2, 2, 2, 2, 2, 2, 2,
  3, 3, 3, 3, 3, 3, 3, 3, 3, 3, 3, 3, 3, 3, 3, 3,
  4, 4, 4, 4, 4, 0, 0, 0, 0, 0, 0, 0, 0, 0, 0, 0]

theorem charWidthTable_length : charWidthTable.length = 256 := by decide +kernel

/-- utf8.h:236-240 `utf8_char_width`: table lookup (a `u8` index is always inside the table). -/
def charWidth (b : UInt8) : Nat :=
  charWidthTable[b.toNat]'(by rw [charWidthTable_length]; exact b.toNat_lt)

/-- utf8.h:209-212 `utf8_is_cont_byte`: the byte reinterpreted as `i8` is less than -64. -/
def isCont (b : UInt8) : Bool := b.toInt8.toInt < -64

/-- utf8.h:153-157, the second-byte check of three-byte sequences. -/
def check3 (first next : UInt8) : Bool :=
  (0xE0 = first.toNat && 0xA0 ≤ next.toNat && next.toNat ≤ 0xBF) ||
  (0xE1 ≤ first.toNat && first.toNat ≤ 0xEC && 0x80 ≤ next.toNat && next.toNat ≤ 0xBF) ||
  (0xED = first.toNat && 0x80 ≤ next.toNat && next.toNat ≤ 0x9F) ||
  (0xEE ≤ first.toNat && first.toNat ≤ 0xEF && 0x80 ≤ next.toNat && next.toNat ≤ 0xBF)

/-- utf8.h:170-173, the second-byte check of four-byte sequences. -/
def check4 (first next : UInt8) : Bool :=
  (0xF0 = first.toNat && 0x90 ≤ next.toNat && next.toNat ≤ 0xBF) ||
  (0xF1 ≤ first.toNat && first.toNat ≤ 0xF3 && 0x80 ≤ next.toNat && next.toNat ≤ 0xBF) ||
  (0xF4 = first.toNat && 0x80 ≤ next.toNat && next.toNat ≤ 0x8F)

/-- utf8.h:116-195, the `while` loop of `validate` with the current `offset`; the result is the
`offset` of the `DecodeError`, if any.  The macro `get_next` (utf8.h:103-110) reports the *unincremented*
offset when the input ends inside a sequence, and increments it otherwise. -/
def validateFrom (offset : Nat) : List UInt8 → Option Nat
  | [] => none
  | first :: rest =>
    match charWidth first with
    | 1 => validateFrom (offset + 1) rest
    | 2 =>
      match rest with
      | [] => some offset
      | b1 :: rest =>
        if !isCont b1 then some (offset + 1)
        else validateFrom (offset + 1 + 1) rest
    | 3 =>
      match rest with
      | [] => some offset
      | b1 :: rest =>
        if !check3 first b1 then some (offset + 1)
        else match rest with
          | [] => some (offset + 1)
          | b2 :: rest =>
            if !isCont b2 then some (offset + 1 + 1)
            else validateFrom (offset + 1 + 1 + 1) rest
    | 4 =>
      match rest with
      | [] => some offset
      | b1 :: rest =>
        if !check4 first b1 then some (offset + 1)
        else match rest with
          | [] => some (offset + 1)
          | b2 :: rest =>
            if !isCont b2 then some (offset + 1 + 1)
            else match rest with
              | [] => some (offset + 1 + 1)
              | b3 :: rest =>
                if !isCont b3 then some (offset + 1 + 1 + 1)
                else validateFrom (offset + 1 + 1 + 1 + 1) rest
    | _ => some offset

/-- utf8.h:100-196 `validate`: `none` means "valid", `some off` is the `DecodeError`. -/
def validate (bytes : List UInt8) : Option Nat := validateFrom 0 bytes

/-- utf8.h:41/50/59 `iter.next().unwrap_unchecked()`: dereferences a null pointer when the iterator is
exhausted (option.h:254-259). -/
def nextByteUnchecked : List UInt8 → Out (UInt8 × List UInt8)
  | [] => .ub
  | b :: rest => .ok (b, rest)

/-- utf8.h:26-62 `next`: decodes one character and advances the byte iterator.
Note the comparison `x < 0x7F` of line 34. -/
def next (bytes : List UInt8) : Out (Option (List UInt8) × List UInt8) :=
  match bytes with
  | [] => .ok (none, [])
  | x :: rest =>
    if x.toNat < 0x7F then .ok (some [x], rest)
    else do
      let (y, rest) ← nextByteUnchecked rest
      if x.toNat < 0xE0 then return (some [x, y], rest)
      let (z, rest) ← nextByteUnchecked rest
      if x.toNat < 0xF0 then return (some [x, y, z], rest)
      let (w, rest) ← nextByteUnchecked rest
      return (some [x, y, z, w], rest)

/-- utf8.h:202-205 `is_char_boundary`: looks at the last byte of the slice it is given
(`iter::last` uses `SliceRefIter::last`, slice.h:54-60; `unwrap` panics on an empty slice). -/
def isCharBoundary (slice : List UInt8) : Out Bool :=
  match slice.getLast? with
  | none => .panic
  | some b => .ok (b.toInt8.toInt ≥ -0x40)

/-- basic_string.h:316-337 `BasicString<UTF8>::is_char_boundary(idx)`, on the string's bytes (where these are
stored is the business of `Model/BString.lean`).  `MAX_LEN` is 4 (utf8.h:21). -/
def stringIsCharBoundary (bytes : List UInt8) (idx : Nat) : Out Bool :=
  if idx = 0 then .ok true
  else if idx ≥ bytes.length then .ok (decide (idx = bytes.length))
  else
    let start := if idx > 4 then idx - 4 else 0
    let stop := idx + 1
    isCharBoundary ((bytes.drop start).take (stop - start))

/-- Iterating `chars()` (basic_string.h:344-347, `Chars::next` basic_string.h:30-34) to the end:
the characters seen by `for (auto c = it.next(); c.is_some(); c = it.next())`. -/
def chars (bytes : List UInt8) : Out (List (List UInt8)) := do
  let (c, rest) ← next bytes
  match c with
  | none => return []
  | some c =>
    let cs ← chars rest
    return c :: cs
partial_fixpoint

end Verif.Model.Utf8
