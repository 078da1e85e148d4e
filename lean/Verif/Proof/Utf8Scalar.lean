import Verif.Proof.Utf8
/-! RFC 3629's grammar describes exactly the encodings of Unicode scalar values. -/
namespace Verif.Proof.Utf8
open Verif Verif.Spec

theorem char_range (c : Char) : c.val.toNat < 0xD800 ∨ (0xDFFF < c.val.toNat ∧ c.val.toNat < 0x110000) := by
  have := c.valid
  simpa [UInt32.isValidChar, Nat.isValidChar] using this

theorem seq_encode (c : Char) : Utf8Seq (String.utf8EncodeChar c) := by
  have hv := char_range c
  unfold String.utf8EncodeChar
  generalize hn : c.val.toNat = v at *
  simp only []
  split
  · exact .one ⟨by omega, by simp [Nat.toUInt8]; omega⟩
  split
  · refine .two ⟨?_, ?_⟩ ⟨?_, ?_⟩ <;> simp [Nat.toUInt8] <;> omega
  split
  · by_cases h0 : v < 0x1000
    · refine .three_e0 ?_ ⟨?_, ?_⟩ ⟨?_, ?_⟩ <;> simp [Nat.toUInt8] <;> omega
    by_cases h1 : v < 0xD000
    · refine .three_e1 ⟨?_, ?_⟩ ⟨?_, ?_⟩ ⟨?_, ?_⟩ <;> simp [Nat.toUInt8] <;> omega
    by_cases h2 : v < 0xE000
    · refine .three_ed ?_ ⟨?_, ?_⟩ ⟨?_, ?_⟩ <;> simp [Nat.toUInt8] <;> omega
    · refine .three_ee ⟨?_, ?_⟩ ⟨?_, ?_⟩ ⟨?_, ?_⟩ <;> simp [Nat.toUInt8] <;> omega
  · by_cases h0 : v < 0x40000
    · refine .four_f0 ?_ ⟨?_, ?_⟩ ⟨?_, ?_⟩ ⟨?_, ?_⟩ <;> simp [Nat.toUInt8] <;> omega
    by_cases h1 : v < 0x100000
    · refine .four_f1 ⟨?_, ?_⟩ ⟨?_, ?_⟩ ⟨?_, ?_⟩ ⟨?_, ?_⟩ <;> simp [Nat.toUInt8] <;> omega
    · refine .four_f4 ?_ ⟨?_, ?_⟩ ⟨?_, ?_⟩ ⟨?_, ?_⟩ <;> simp [Nat.toUInt8] <;> omega

theorem exists_char (v : Nat) (h : v < 0xD800 ∨ (0xDFFF < v ∧ v < 0x110000)) : ∃ c : Char, c.val.toNat = v :=
  ⟨⟨UInt32.ofNat v, by simp [UInt32.isValidChar, Nat.isValidChar]; omega⟩, by simp; omega⟩

theorem encode_of_seq {bs : List UInt8} (h : Utf8Seq bs) : ∃ c : Char, bs = String.utf8EncodeChar c := by
  have conv : ∀ {a : UInt8} {n : Nat}, a.toNat = n % 256 → a = n.toUInt8 := by
    intro a n h; apply UInt8.toNat_inj.1; simpa [Nat.toUInt8] using h
  have cc : ∀ {a b : UInt8} {l m : List UInt8}, a = b → l = m → a :: l = b :: m := by
    intro a b l m h1 h2; rw [h1, h2]
  have two : ∀ {a b : UInt8}, InRange 0xC2 0xDF a → Tail b → ∃ c : Char, [a, b] = String.utf8EncodeChar c := by
    intro a b ha hb
    simp only [Tail, InRange] at ha hb
    obtain ⟨c, hc⟩ := exists_char ((a.toNat - 0xC0) * 64 + (b.toNat - 0x80)) (by omega)
    refine ⟨c, ?_⟩
    unfold String.utf8EncodeChar
    simp only [hc]
    rw [if_neg (by omega), if_pos (by omega)]
    exact cc (conv (by omega)) (cc (conv (by omega)) rfl)
  have three : ∀ {a b c : UInt8}, InRange 0xE0 0xEF a → Tail b → Tail c →
      (a.toNat = 0xE0 → 0xA0 ≤ b.toNat) → (a.toNat = 0xED → b.toNat ≤ 0x9F) →
      ∃ ch : Char, [a, b, c] = String.utf8EncodeChar ch := by
    intro a b c ha hb hc h0 hd
    simp only [Tail, InRange] at ha hb hc
    obtain ⟨ch, hch⟩ := exists_char ((a.toNat - 0xE0) * 4096 + (b.toNat - 0x80) * 64 + (c.toNat - 0x80)) (by omega)
    refine ⟨ch, ?_⟩
    unfold String.utf8EncodeChar
    simp only [hch]
    rw [if_neg (by omega), if_neg (by omega), if_pos (by omega)]
    exact cc (conv (by omega)) (cc (conv (by omega)) (cc (conv (by omega)) rfl))
  have four : ∀ {a b c d : UInt8}, InRange 0xF0 0xF4 a → Tail b → Tail c → Tail d →
      (a.toNat = 0xF0 → 0x90 ≤ b.toNat) → (a.toNat = 0xF4 → b.toNat ≤ 0x8F) →
      ∃ ch : Char, [a, b, c, d] = String.utf8EncodeChar ch := by
    intro a b c d ha hb hc hd h0 h4
    simp only [Tail, InRange] at ha hb hc hd
    obtain ⟨ch, hch⟩ := exists_char
      ((a.toNat - 0xF0) * 262144 + (b.toNat - 0x80) * 4096 + (c.toNat - 0x80) * 64 + (d.toNat - 0x80)) (by omega)
    refine ⟨ch, ?_⟩
    unfold String.utf8EncodeChar
    simp only [hch]
    rw [if_neg (by omega), if_neg (by omega), if_neg (by omega)]
    exact cc (conv (by omega)) (cc (conv (by omega)) (cc (conv (by omega))
      (cc (conv (by omega)) rfl)))
  cases h with
  | one h =>
    rename_i a
    obtain ⟨c, hc⟩ := exists_char a.toNat (by have := h.2; omega)
    refine ⟨c, ?_⟩
    unfold String.utf8EncodeChar
    simp only [hc]
    rw [if_pos h.2]
    congr 1; apply conv; have := h.2; omega
  | two ha hb => exact two ha hb
  | three_e0 ha hb hc => exact three ⟨by omega, by omega⟩ ⟨by have := hb.1; omega, hb.2⟩ hc (fun _ => hb.1) (by omega)
  | three_e1 ha hb hc =>
    exact three ⟨by have := ha.1; omega, by have := ha.2; omega⟩ hb hc (by have := ha.1; omega) (by have := ha.2; omega)
  | three_ed ha hb hc => exact three ⟨by omega, by omega⟩ ⟨hb.1, by have := hb.2; omega⟩ hc (by omega) (fun _ => hb.2)
  | three_ee ha hb hc =>
    exact three ⟨by have := ha.1; omega, ha.2⟩ hb hc (by have := ha.1; omega) (by have := ha.1; omega)
  | four_f0 ha hb hc hd =>
    exact four ⟨by omega, by omega⟩ ⟨by have := hb.1; omega, hb.2⟩ hc hd (fun _ => hb.1) (by omega)
  | four_f1 ha hb hc hd =>
    exact four ⟨by have := ha.1; omega, by have := ha.2; omega⟩ hb hc hd (by have := ha.1; omega) (by have := ha.2; omega)
  | four_f4 ha hb hc hd => exact four ⟨by omega, by omega⟩ ⟨hb.1, by have := hb.2; omega⟩ hc hd (by omega) (fun _ => hb.2)

theorem wellFormed_iff_encoded (bs : List UInt8) : WellFormed bs ↔ EncodedScalars bs := by
  constructor
  · rintro ⟨cs, hcs, rfl⟩
    induction cs with
    | nil => exact ⟨[], rfl⟩
    | cons c cs ih =>
      obtain ⟨ch, rfl⟩ := encode_of_seq (hcs c (by simp))
      obtain ⟨chs, h⟩ := ih (fun x hx => hcs x (by simp [hx]))
      exact ⟨ch :: chs, by simp [h]⟩
  · rintro ⟨cs, rfl⟩
    induction cs with
    | nil => exact wf_nil
    | cons c cs ih => simpa using wf_seq_append (seq_encode c) ih

end Verif.Proof.Utf8
