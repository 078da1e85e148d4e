import Verif.Model.Ascii
/-! # Property C38: the ASCII codec -/
namespace Verif.Props
open Verif Verif.Model.Ascii

/-- The full C38 for one byte string: `validate` reports the first byte ≥ 0x80, if any. -/
def AsciiValidateExact (bs : List UInt8) : Prop :=
  (validate bs = none ↔ ∀ b ∈ bs, b.toNat < 0x80) ∧
  (∀ off, validate bs = some off ↔ ∃ h : off < bs.length, 0x80 ≤ bs[off].toNat ∧ ∀ j (hj : j < off), bs[j].toNat < 0x80)

/-- What the code does for every byte string: it reports the first byte above 0x80 (not: ≥ 0x80). -/
theorem ascii_validateFrom (pos : Nat) (bs : List UInt8) :
    validateFrom pos bs = (bs.findIdx? (fun b => b.toNat > 0x80)).map (pos + ·) := by
  induction bs generalizing pos with
  | nil => rfl
  | cons b bs ih =>
    simp only [validateFrom, List.findIdx?_cons]
    by_cases h : b.toNat > 128
    · simp [h]
    · simp [h, ih]
      congr 1; funext x; simp; omega

theorem ascii_validate (bs : List UInt8) : validate bs = bs.findIdx? (fun b => b.toNat > 0x80) := by
  rw [validate, ascii_validateFrom]; simp

/-- **C38 (partial).** Exactness holds for every byte string that does not contain the byte 0x80.
Missing from the full property: strings containing 0x80, which the code wrongly accepts (`C38_fails`). -/
theorem C38_ascii_validate_partial (bs : List UInt8) (h80 : (0x80 : UInt8) ∉ bs) : AsciiValidateExact bs := by
  have hb : ∀ b ∈ bs, (b.toNat > 0x80 ↔ 0x80 ≤ b.toNat) := by
    intro b hb
    have : b.toNat ≠ 0x80 := fun e => h80 (by have : b = 0x80 := UInt8.toNat_inj.1 e; exact this ▸ hb)
    omega
  refine ⟨?_, fun off => ?_⟩
  · rw [ascii_validate, List.findIdx?_eq_none_iff]
    constructor
    · intro h b hm; have := h b hm; simp at this; have := hb b hm; omega
    · intro h b hm; have := h b hm; simp; have := hb b hm; omega
  · rw [ascii_validate, List.findIdx?_eq_some_iff_getElem]
    constructor
    · rintro ⟨h, h1, h2⟩
      refine ⟨h, by simp at h1; omega, fun j hj => ?_⟩
      have := h2 j hj; simp at this
      have := hb bs[j] (List.getElem_mem _); omega
    · rintro ⟨h, h1, h2⟩
      refine ⟨h, ?_, fun j hj => ?_⟩
      · have := hb bs[off] (List.getElem_mem _); simp; omega
      · have := h2 j hj; simp; omega

example : (0x80 : UInt8) ∉ [0x48, 0x69, 0x81, 0xFF] ∧ validate [0x48, 0x69, 0x81, 0xFF] = some 2 := by decide

/-- **C38 is false as stated**: the byte 0x80 is accepted as ASCII. -/
theorem C38_fails : ∃ bs : List UInt8, validate bs = none ∧ ¬ ∀ b ∈ bs, b.toNat < 0x80 :=
  ⟨[0x80], by decide, by decide⟩

/-- What the code accepts and reports, for every byte string: all bytes up to and including 0x80, otherwise the first byte above. -/
theorem C38_ascii_accepts (bs : List UInt8) :
    (validate bs = none ↔ ∀ b ∈ bs, b.toNat ≤ 0x80) ∧
    (∀ off, validate bs = some off ↔ ∃ h : off < bs.length, 0x80 < bs[off].toNat ∧ ∀ j (hj : j < off), bs[j].toNat ≤ 0x80) := by
  refine ⟨?_, fun off => ?_⟩
  · rw [ascii_validate, List.findIdx?_eq_none_iff]
    simp
  · rw [ascii_validate, List.findIdx?_eq_some_iff_getElem]
    simp

/-- The first byte that is not ASCII is 0x80. -/
def First80 (bs : List UInt8) : Prop :=
  ∃ off, ∃ h : off < bs.length, bs[off] = 0x80 ∧ ∀ j (hj : j < off), bs[j].toNat < 0x80

theorem ascii_find_eq (bs : List UInt8) (hn : ¬ First80 bs) :
    bs.findIdx? (fun b => decide (b.toNat > 0x80)) = bs.findIdx? (fun b => decide (0x80 ≤ b.toNat)) := by
  induction bs with
  | nil => rfl
  | cons b bs ih =>
    have h0 : b.toNat ≠ 0x80 := fun e => hn ⟨0, by simp, UInt8.toNat_inj.1 e, fun j hj => by omega⟩
    simp only [List.findIdx?_cons]
    by_cases h : 0x80 ≤ b.toNat
    · have h' : b.toNat > 0x80 := by omega
      simp [h, h']
    · have h' : ¬ b.toNat > 0x80 := by omega
      simp only [h, h', decide_false]
      rw [ih]
      rintro ⟨off, h1, h2, h3⟩
      refine hn ⟨off + 1, by simpa using h1, by simpa using h2, fun j hj => ?_⟩
      cases j with
      | zero => simp; omega
      | succ j => simpa using h3 j (by omega)

/-- **C38**, exactly when it holds: validation is exact on a byte string if and only if the first byte that is not ASCII, if there is one,
is not 0x80. -/
theorem C38_ascii_validate_iff (bs : List UInt8) : AsciiValidateExact bs ↔ ¬ First80 bs := by
  constructor
  · rintro ⟨-, h2⟩ ⟨off, h, h3, h4⟩
    obtain ⟨_, h5, _⟩ := ((C38_ascii_accepts bs).2 off).1 ((h2 off).2 ⟨h, by rw [h3]; decide, h4⟩)
    rw [h3] at h5
    exact absurd h5 (by decide)
  · intro hn
    refine ⟨?_, fun off => ?_⟩
    · rw [ascii_validate, ascii_find_eq bs hn, List.findIdx?_eq_none_iff]
      simp
    · rw [ascii_validate, ascii_find_eq bs hn, List.findIdx?_eq_some_iff_getElem]
      simp

example : ¬ First80 [0x48, 0xFF, 0x80] ∧ First80 [0x48, 0x80, 0xFF] := by
  constructor
  · rw [← C38_ascii_validate_iff]
    refine ⟨⟨fun h => absurd h (by decide), fun h => absurd h (by decide)⟩, fun off => ?_⟩
    rw [show validate [0x48, 0xFF, 0x80] = some 1 by decide]
    constructor
    · rintro h; cases h
      exact ⟨by simp, by simp, fun j hj => by obtain rfl : j = 0 := by omega
                                              simp⟩
    · rintro ⟨h, h1, h2⟩
      simp only [List.length_cons, List.length_nil] at h
      obtain rfl | rfl | rfl : off = 0 ∨ off = 1 ∨ off = 2 := by omega
      · simp at h1
      · rfl
      · have := h2 1 (by omega); simp at this
  · exact ⟨1, by simp, rfl, fun j hj => by obtain rfl : j = 0 := by omega
                                           simp⟩

/-- `chars()` of an ASCII string yields its bytes one by one. -/
theorem C38_ascii_chars (bs : List UInt8) : (chars bs).flatten = bs ∧ ∀ c ∈ chars bs, c.length = 1 := by
  induction bs with
  | nil => simp [chars]
  | cons b bs ih => simp [chars, ih.1]; exact ih.2

/-- `last` removes exactly the last byte and returns it. -/
theorem C38_ascii_last (bs : List UInt8) (b : UInt8) : last (bs ++ [b]) = (some [b], bs) := by
  simp [last]

end Verif.Props
