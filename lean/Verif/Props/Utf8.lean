import Verif.Proof.Utf8Scalar
import Verif.Proof.Utf8Chars
/-! # Properties C35, C36, C37, C39: the UTF-8 codec -/
namespace Verif.Props
open Verif Verif.Spec Verif.Model.Utf8

/-- A string using all four sequence lengths, both ends of the encoding space: "A¢€𐍈" and U+10FFFF. -/
def sample : List UInt8 :=
  [0x41, 0xC2, 0xA2, 0xE2, 0x82, 0xAC, 0xF0, 0x90, 0x8D, 0x88, 0xF4, 0x8F, 0xBF, 0xBF]

/-- **C35.** `validate` reports no error exactly on well-formed UTF-8 (grammar of RFC 3629). -/
theorem C35_validate_iff_wellFormed (bs : List UInt8) : validate bs = none ↔ WellFormed bs :=
  Proof.Utf8.validateFrom_none_iff 0 bs

/-- **C35**, second reading of "well-formed": exactly the concatenated encodings of Unicode scalar values. -/
theorem C35_validate_iff_encoded (bs : List UInt8) : validate bs = none ↔ EncodedScalars bs :=
  (C35_validate_iff_wellFormed bs).trans (Proof.Utf8.wellFormed_iff_encoded bs)

example : validate sample = none := by decide +kernel
example : WellFormed sample := (C35_validate_iff_wellFormed _).1 (by decide +kernel)
/-- overlong, surrogate, above U+10FFFF, stray tail, truncated: rejected. -/
example : ¬ WellFormed [0xC0, 0x80] ∧ ¬ WellFormed [0xED, 0xA0, 0x80] ∧ ¬ WellFormed [0xF4, 0x90, 0x80, 0x80] ∧
    ¬ WellFormed [0x80] ∧ ¬ WellFormed [0xE2, 0x82] := by
  simp only [← C35_validate_iff_wellFormed]; decide +kernel

/-- **C36.** A reported offset `off` lies inside the input; the bytes before `off` can still be completed to
well-formed UTF-8; and either including the byte at `off` makes that impossible (it is the first offending byte),
or `off` is the last byte of an input that is cut off in the middle of a sequence. -/
theorem C36_error_offset (bs : List UInt8) (off : Nat) (h : validate bs = some off) :
    off < bs.length ∧ Completable (bs.take off) ∧ ¬ WellFormed bs ∧
      (¬ Completable (bs.take (off + 1)) ∨ (off + 1 = bs.length ∧ Completable bs)) := by
  obtain ⟨i, rfl, h1, h2, h3⟩ := Proof.Utf8.validateFrom_some 0 bs off h
  simp only [Nat.zero_add]
  refine ⟨h1, h2, ?_, h3⟩
  rw [← C35_validate_iff_wellFormed, h]; simp

/-- Both alternatives of C36 occur. -/
example : validate [0x41, 0xE2, 0x28, 0xA1] = some 2 ∧ validate [0x41, 0xE2, 0x82] = some 2 := by decide +kernel

/-- The full C37 for one string: iterating `chars()` ends normally, each character is a single well-formed
sequence and together they are the string. -/
def CharsLossless (bs : List UInt8) : Prop :=
  ∃ cs, chars bs = .ok cs ∧ (∀ c ∈ cs, Utf8Seq c) ∧ cs.flatten = bs

/-- **C37 (partial).** `chars()` is lossless on a valid string exactly when the string does not contain the byte
0x7F (U+007F).  Missing from the full property: strings with U+007F, on which the code is wrong
(`C37_fails`). -/
theorem C37_chars_lossless_partial (bs : List UInt8) (h : validate bs = none) :
    CharsLossless bs ↔ (0x7F : UInt8) ∉ bs := by
  have hw := (C35_validate_iff_wellFormed bs).1 h
  constructor
  · rintro ⟨cs, h1, h2, _⟩; exact Proof.Utf8.chars_only hw cs h1 h2
  · exact Proof.Utf8.chars_ok hw

/-- **C37 is false as stated**: the one-character string U+007F is valid, and iterating it reads past its end. -/
theorem C37_fails : ∃ bs, validate bs = none ∧ chars bs = .ub :=
  ⟨[0x7F], by decide +kernel, by rw [chars]; simp [next, nextByteUnchecked]⟩

/-- U+007F followed by 'A' is read as one (malformed) two-byte character. -/
theorem C37_fails' : ∃ bs, validate bs = none ∧ chars bs = .ok [bs] ∧ ¬ Utf8Seq bs := by
  refine ⟨[0x7F, 0x41], by decide +kernel, ?_, ?_⟩
  · rw [chars]; simp [next, nextByteUnchecked]; rw [chars]; simp [next]
  · intro h; have := Proof.Utf8.seq_width h
    revert this; decide

example : validate sample = none ∧ (0x7F : UInt8) ∉ sample ∧
    chars sample = .ok [[0x41], [0xC2, 0xA2], [0xE2, 0x82, 0xAC], [0xF0, 0x90, 0x8D, 0x88], [0xF4, 0x8F, 0xBF, 0xBF]] := by
  refine ⟨by decide +kernel, by decide +kernel, ?_⟩
  simp only [sample]
  iterate 6 (rw [chars]; simp [next, nextByteUnchecked])

/-- **C39.** On a valid string, `is_char_boundary(i)` never fails and answers exactly whether `i` separates
whole characters (0 and the length included; indices past the end are not boundaries). -/
theorem C39_boundary (bs : List UInt8) (h : validate bs = none) (i : Nat) :
    ∃ b, stringIsCharBoundary bs i = .ok b ∧ (b = true ↔ CharBoundary bs i) := by
  have hw := (C35_validate_iff_wellFormed bs).1 h
  by_cases h0 : i = 0
  · subst h0
    exact ⟨true, by simp [stringIsCharBoundary], by
      simpa using ⟨[], bs, rfl, rfl, Proof.Utf8.wf_nil, hw⟩⟩
  by_cases hi : i < bs.length
  · refine ⟨_, Proof.Utf8.stringIsCharBoundary_mid h0 hi, ?_⟩
    rw [Proof.Utf8.boundary_iff hw i hi]; simp
  · refine ⟨decide (i = bs.length), by simp [stringIsCharBoundary, h0]; omega, ?_⟩
    simp only [decide_eq_true_eq]
    constructor
    · rintro rfl; exact ⟨bs, [], by simp, rfl, hw, Proof.Utf8.wf_nil⟩
    · rintro ⟨pre, post, rfl, rfl, _, _⟩
      simp at hi ⊢; omega

example : (List.range 16).map (stringIsCharBoundary sample) =
    [true, true, false, true, false, false, true, false, false, false, true, false, false, false, true, false].map .ok := by
  decide +kernel

end Verif.Props
