/-!
# Specification: well-formed UTF-8 (RFC 3629), independent of the library

Two independent descriptions; `Verif/Proof/Utf8.lean` proves them equivalent.
-/
namespace Verif.Spec

/-- Closed byte interval. -/
def InRange (lo hi : Nat) (b : UInt8) : Prop := lo ≤ b.toNat ∧ b.toNat ≤ hi

/-- `UTF8-tail = %x80-BF` (RFC 3629 §4). -/
abbrev Tail (b : UInt8) : Prop := InRange 0x80 0xBF b

/-- The grammar of one character, RFC 3629 §4 (`UTF8-1` ... `UTF8-4`). -/
inductive Utf8Seq : List UInt8 → Prop
  | one   : InRange 0x00 0x7F a → Utf8Seq [a]
  | two   : InRange 0xC2 0xDF a → Tail b → Utf8Seq [a, b]
  | three_e0 : a.toNat = 0xE0 → InRange 0xA0 0xBF b → Tail c → Utf8Seq [a, b, c]
  | three_e1 : InRange 0xE1 0xEC a → Tail b → Tail c → Utf8Seq [a, b, c]
  | three_ed : a.toNat = 0xED → InRange 0x80 0x9F b → Tail c → Utf8Seq [a, b, c]
  | three_ee : InRange 0xEE 0xEF a → Tail b → Tail c → Utf8Seq [a, b, c]
  | four_f0 : a.toNat = 0xF0 → InRange 0x90 0xBF b → Tail c → Tail d → Utf8Seq [a, b, c, d]
  | four_f1 : InRange 0xF1 0xF3 a → Tail b → Tail c → Tail d → Utf8Seq [a, b, c, d]
  | four_f4 : a.toNat = 0xF4 → InRange 0x80 0x8F b → Tail c → Tail d → Utf8Seq [a, b, c, d]

/-- A byte string is well-formed UTF-8 when it is a concatenation of character sequences. -/
def WellFormed (bs : List UInt8) : Prop :=
  ∃ cs : List (List UInt8), (∀ c ∈ cs, Utf8Seq c) ∧ bs = cs.flatten

/-- Second description: the concatenated encodings of Unicode scalar values, with Lean's own `Char`
(exactly the scalar values: 0..0x10FFFF without surrogates) and its own encoder. -/
def EncodedScalars (bs : List UInt8) : Prop :=
  ∃ cs : List Char, bs = cs.flatMap String.utf8EncodeChar

/-- `bs` can be completed to a well-formed string. -/
def Completable (bs : List UInt8) : Prop := ∃ ext, WellFormed (bs ++ ext)

/-- Position `i` separates two whole-character parts of `bs`. -/
def CharBoundary (bs : List UInt8) (i : Nat) : Prop :=
  ∃ pre post, bs = pre ++ post ∧ pre.length = i ∧ WellFormed pre ∧ WellFormed post

end Verif.Spec
