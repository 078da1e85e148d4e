import Verif.Spec.Utf8
/-! # Specification: literals and the characters of a text -/
namespace Verif.Spec

/-- The array a C++ string literal with the bytes `s` denotes: the bytes and a terminating zero. -/
def literalArray (s : List UInt8) : List UInt8 := s ++ [0]

/-- `cs` are the characters of the text `xs`, in order. -/
def IsText (xs : List UInt8) (cs : List (List UInt8)) : Prop := (∀ c ∈ cs, Utf8Seq c) ∧ cs.flatten = xs

/-- The index of the first byte of character `k` (the length of the text for `k = cs.length`). -/
def charStart (cs : List (List UInt8)) (k : Nat) : Nat := (cs.take k).flatten.length

end Verif.Spec
