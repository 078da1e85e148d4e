import Verif.Model.BString
/-!
# Model of literals and characters

include/mstl/str/encoding/utility/compile_time_validation.h (`CharsWrap`, `ValidBytes`, the literal suffixes) and
include/mstl/str/basic_char.h (`BasicChar`).  A failing `static_assert` is `none`: the program does not compile.  The conversion
from `char` to `u8` (compile_time_validation.h:40) keeps the bit pattern; a `char` array is modelled by the bytes it holds.
-/
namespace Verif.Model.Literal
open Verif Verif.Model.BStr

/-- The loops `for (i = 0; i < n; i++) dst[i] = src[i]` (compile_time_validation.h:39-41, array.h:180-182,
basic_char.h:71-73, 94-96), after `n` rounds. -/
def copyLoop (src dst : List UInt8) : Nat → List UInt8
  | 0 => dst
  | n + 1 => (copyLoop src dst n).set n (src.getD n 0)

/-- ascii.h:18, utf8.h:19 `MAX_LEN`. -/
def maxLen : Enc → Nat
  | .ascii => 1
  | .utf8 => 4

/-- `encode::validate(arr.iter()).is_none()`, ascii.h:48-61 and utf8.h:96-196. -/
def validates : Enc → List UInt8 → Bool
  | .ascii, bs => (Ascii.validate bs).isNone
  | .utf8, bs => (Utf8.validate bs).isNone

/-- compile_time_validation.h:33-43 `CharsWrap(char const(&s)[N])`. -/
def charsWrap (s : List UInt8) : List UInt8 := copyLoop s (List.replicate (s.length - 1) 0) (s.length - 1)

/-- compile_time_validation.h:12-24 `operator ""_ascii`, `operator ""_utf8` on the array `s` (which ends with the
terminator): the bytes of the `ValidBytes`, L27-31. -/
def suffix (enc : Enc) (s : List UInt8) : Option (List UInt8) :=
  let len := s.length - 1
  if len > 0 then
    let arr := copyLoop (charsWrap s) (List.replicate len 0) len
    if validates enc arr then some arr else none
  else none

/-- basic_char.h:62-106 `BasicChar`; `len` is a member only for encodings of variable length. -/
structure Chr where
  len : Nat
  bytes : List UInt8

/-- basic_char.h:65, 81, 87, 104-105 the default constructor. -/
def Chr.dflt (enc : Enc) : Chr := ⟨0, List.replicate (maxLen enc) 0⟩

/-- basic_char.h:67-74, 89-97 `BasicChar(const ValidBytes<N>&)`. -/
def Chr.ofValid (enc : Enc) (v : List UInt8) : Option Chr :=
  if v.length > 0 ∧ v.length ≤ maxLen enc then
    some { len := if enc = .utf8 then v.length else 0, bytes := copyLoop v (Chr.dflt enc).bytes v.length }
  else none

/-- basic_char.h:76-79, 99-102 `get_len`. -/
def Chr.getLen (enc : Enc) (c : Chr) : Nat :=
  match enc with
  | .ascii => maxLen .ascii
  | .utf8 => c.len

/-- basic_char.h:109-113 `operator<<`: the bytes written.  The same bytes are what push_back and insert copy
(basic_string.h:233, 269, 284). -/
def Chr.text (enc : Enc) (c : Chr) : List UInt8 := c.bytes.take (c.getLen enc)

end Verif.Model.Literal
