import Verif.Base.Out
/-!
# Model of include/mstl/str/encoding/ascii.h

Byte iterators and characters are modelled as in `Model/Utf8.lean`: a byte iterator is the list of the bytes
it has not produced, a character is the list of its bytes.  Ascii is a `BlockCode` with `MAX_LEN = 1`, so a
character always has one byte (basic_char.h:60-81).
-/
namespace Verif.Model.Ascii
open Verif

/-- ascii.h:22-33 `next`. -/
def next : List UInt8 → Option (List UInt8) × List UInt8
  | [] => (none, [])
  | b :: rest => (some [b], rest)

/-- ascii.h:35-46 `last`: one `prev()` on the byte iterator (slice.h:33-41). -/
def last (bytes : List UInt8) : Option (List UInt8) × List UInt8 :=
  match bytes.getLast? with
  | none => (none, [])
  | some b => (some [b], bytes.dropLast)

/-- ascii.h:53-60, the loop of `validate`, with the running `pos`.  Note `> 128` in line 54. -/
def validateFrom (pos : Nat) : List UInt8 → Option Nat
  | [] => none
  | b :: rest => if b.toNat > 128 then some pos else validateFrom (pos + 1) rest

/-- ascii.h:48-61 `validate`; `some off` is the `DecodeError`. -/
def validate (bytes : List UInt8) : Option Nat := validateFrom 0 bytes

/-- Iterating `AsciiString::chars()` (basic_string.h:30-34, 344-347) to the end. -/
def chars : List UInt8 → List (List UInt8)
  | [] => []
  | b :: rest => [b] :: chars rest

end Verif.Model.Ascii
