import Verif.Model.Literal
import Verif.Spec.Literal
import Verif.Proof.Utf8Chars
import Verif.Proof.BStringProps
import Verif.Props.Ascii
/-! Proofs about literals and characters. -/
namespace Verif.Proof.Lit
open Verif Verif.Model.BStr Verif.Model.Literal Verif.Spec

theorem copyLoop_length (src dst : List UInt8) (n : Nat) : (copyLoop src dst n).length = dst.length := by
  induction n with
  | zero => rfl
  | succ n ih => simp [copyLoop, ih]

theorem copyLoop_eq (src dst : List UInt8) (n : Nat) (h1 : n ≤ src.length) (h2 : n ≤ dst.length) :
    copyLoop src dst n = src.take n ++ dst.drop n := by
  induction n with
  | zero => simp [copyLoop]
  | succ n ih =>
    have hl : (src.take n).length = n := by simp; omega
    rw [copyLoop, ih (by omega) (by omega), List.set_append_right _ _ (by omega), hl, Nat.sub_self,
      List.drop_eq_getElem_cons (show n < dst.length by omega), List.set_cons_zero,
      List.take_succ_eq_append_getElem (show n < src.length by omega), List.append_assoc]
    simp [List.getD_eq_getElem?_getD, List.getElem?_eq_getElem (show n < src.length by omega)]

theorem charsWrap_eq (s : List UInt8) : charsWrap (literalArray s) = s := by
  rw [charsWrap, copyLoop_eq _ _ _ (by simp [literalArray]) (by simp [literalArray])]
  simp [literalArray]

theorem suffix_eq (enc : Enc) (s : List UInt8) :
    suffix enc (literalArray s) = if s ≠ [] ∧ validates enc s = true then some s else none := by
  have hl : (literalArray s).length - 1 = s.length := by simp [literalArray]
  simp only [suffix, charsWrap_eq, hl]
  rw [copyLoop_eq s _ _ (by omega) (by simp)]
  simp only [List.take_length, List.drop_replicate, Nat.sub_self, List.replicate_zero, List.append_nil]
  by_cases h : s = []
  · subst h; rfl
  · have := List.length_pos_iff.2 h
    simp only [gt_iff_lt, this, if_true, h, ne_eq, not_false_eq_true, true_and]

theorem validates_utf8 (s : List UInt8) : validates .utf8 s = true ↔ WellFormed s := by
  rw [validates, Option.isNone_iff_eq_none]; exact Proof.Utf8.validateFrom_none_iff 0 s

theorem validates_ascii (s : List UInt8) : validates .ascii s = true ↔ ∀ b ∈ s, b.toNat ≤ 0x80 := by
  rw [validates, Option.isNone_iff_eq_none, Props.ascii_validate, List.findIdx?_eq_none_iff]
  simp

theorem suffix_some {enc : Enc} {s bs : List UInt8} :
    suffix enc (literalArray s) = some bs ↔ bs = s ∧ s ≠ [] ∧ validates enc s = true := by
  rw [suffix_eq]
  split
  · rename_i h
    simp only [Option.some.injEq, h, ne_eq, not_false_eq_true, and_self, and_true]
    exact eq_comm
  · rename_i h
    simp only [reduceCtorEq, false_iff]
    exact fun hn => h hn.2

theorem ofValid_text {enc : Enc} {v : List UInt8} {c : Chr} (h : Chr.ofValid enc v = some c) : c.text enc = v ∧ c.getLen enc = v.length := by
  rw [Chr.ofValid] at h
  split at h
  · rename_i hv
    cases h
    have hb : copyLoop v (Chr.dflt enc).bytes v.length = v ++ (Chr.dflt enc).bytes.drop v.length := by
      rw [copyLoop_eq _ _ _ (by omega) (by simpa [Chr.dflt] using hv.2), List.take_length]
    cases enc with
    | ascii =>
      have : v.length = 1 := by have := hv.2; simp [maxLen] at this; omega
      simp only [Chr.text, hb, Chr.getLen, maxLen, this]
      rw [← this, hb, List.take_left]; simp
    | utf8 => simp only [Chr.text, hb, Chr.getLen, if_true, List.take_left]; simp
  · cases h

theorem ofValid_iff {enc : Enc} {v : List UInt8} : (Chr.ofValid enc v).isSome = true ↔ 0 < v.length ∧ v.length ≤ maxLen enc := by
  rw [Chr.ofValid]
  split <;> simp_all

/-! ## The characters of a text -/

theorem seq_len {c : List UInt8} (h : Utf8Seq c) : 0 < c.length ∧ c.length ≤ 4 := by cases h <;> simp

theorem seq_prefix {c d r t : List UInt8} (hc : Utf8Seq c) (hd : Utf8Seq d) (h : c ++ r = d ++ t) : c = d ∧ r = t := by
  have hl : c.length = d.length := by
    cases c with
    | nil => exact absurd rfl (Proof.Utf8.seq_ne_nil hc)
    | cons a u =>
      cases d with
      | nil => exact absurd rfl (Proof.Utf8.seq_ne_nil hd)
      | cons b v =>
        have hab : a = b := by simp at h; exact h.1
        have h1 := Proof.Utf8.seq_width hc
        have h2 := Proof.Utf8.seq_width hd
        rw [hab] at h1
        simp; omega
  exact List.append_inj h hl

theorem text_unique {xs : List UInt8} {cs ds : List (List UInt8)} (h1 : IsText xs cs) (h2 : IsText xs ds) : cs = ds := by
  obtain ⟨h1, rfl⟩ := h1
  obtain ⟨h2, e⟩ := h2
  induction cs generalizing ds with
  | nil =>
    cases ds with
    | nil => rfl
    | cons d ds => exact absurd (by simpa using e : d = [] ∧ _).1 (Proof.Utf8.seq_ne_nil (h2 d (by simp)))
  | cons c cs ih =>
    cases ds with
    | nil => exact absurd (by simpa using e.symm : c = [] ∧ _).1 (Proof.Utf8.seq_ne_nil (h1 c (by simp)))
    | cons d ds =>
      obtain ⟨rfl, e'⟩ := seq_prefix (h2 d (by simp)) (h1 c (by simp)) e
      rw [ih (fun x hx => h1 x (by simp [hx])) (fun x hx => h2 x (by simp [hx])) e']

theorem text_wf {xs : List UInt8} {cs : List (List UInt8)} (h : IsText xs cs) : WellFormed xs := ⟨cs, h.1, h.2.symm⟩

theorem wf_text {xs : List UInt8} (h : WellFormed xs) : ∃ cs, IsText xs cs := by
  obtain ⟨cs, h1, h2⟩ := h
  exact ⟨cs, h1, h2.symm⟩

theorem text_append {xs ys : List UInt8} {cs ds : List (List UInt8)} (h1 : IsText xs cs) (h2 : IsText ys ds) : IsText (xs ++ ys) (cs ++ ds) := by
  refine ⟨fun c hc => ?_, by rw [List.flatten_append, h1.2, h2.2]⟩
  rcases List.mem_append.1 hc with h | h
  · exact h1.1 c h
  · exact h2.1 c h

theorem text_one {ch : List UInt8} (h : Utf8Seq ch) : IsText ch [ch] := ⟨by simpa using h, by simp⟩

theorem text_take {xs : List UInt8} {cs : List (List UInt8)} (h : IsText xs cs) (k : Nat) :
    xs.take (charStart cs k) = (cs.take k).flatten ∧ xs.drop (charStart cs k) = (cs.drop k).flatten := by
  have e : xs = (cs.take k).flatten ++ (cs.drop k).flatten := by rw [← List.flatten_append, List.take_append_drop, h.2]
  rw [charStart]
  constructor
  · conv_lhs => rw [e]
    exact List.take_left
  · conv_lhs => rw [e]
    exact List.drop_left

theorem text_take_text {xs : List UInt8} {cs : List (List UInt8)} (h : IsText xs cs) (k : Nat) : IsText (cs.take k).flatten (cs.take k) :=
  ⟨fun c hc => h.1 c (List.mem_of_mem_take hc), rfl⟩

theorem text_drop_text {xs : List UInt8} {cs : List (List UInt8)} (h : IsText xs cs) (k : Nat) : IsText (cs.drop k).flatten (cs.drop k) :=
  ⟨fun c hc => h.1 c (List.mem_of_mem_drop hc), rfl⟩

theorem boundary_start {xs : List UInt8} {cs : List (List UInt8)} (h : IsText xs cs) (idx : Nat) :
    Spec.BStr.boundary xs idx = true ↔ ∃ k ≤ cs.length, idx = charStart cs k := by
  rw [Proof.BStr.boundary_meaning (text_wf h)]
  constructor
  · rintro ⟨pre, post, rfl, rfl, hp, hq⟩
    obtain ⟨c1, t1⟩ := wf_text hp
    obtain ⟨c2, t2⟩ := wf_text hq
    have := text_unique h (text_append t1 t2)
    subst this
    exact ⟨c1.length, by simp, by rw [charStart, List.take_left, t1.2]⟩
  · rintro ⟨k, hk, rfl⟩
    refine ⟨(cs.take k).flatten, (cs.drop k).flatten, ?_, rfl, text_wf (text_take_text h k), text_wf (text_drop_text h k)⟩
    rw [← List.flatten_append, List.take_append_drop, h.2]

theorem chars_text {xs : List UInt8} {cs : List (List UInt8)} (h : IsText xs cs) (h7 : (0x7F : UInt8) ∉ xs) : Model.Utf8.chars xs = .ok cs := by
  obtain ⟨ds, e, h1, h2⟩ := Proof.Utf8.chars_ok (text_wf h) h7
  rw [e, text_unique h ⟨h1, h2⟩]

/-- Decoding a text whose last character is U+007F runs past its end. -/
theorem chars_del {xs : List UInt8} (h : WellFormed xs) : (0x7F : UInt8) ∉ xs → Model.Utf8.chars (xs ++ [0x7F]) = .ub := by
  induction h using Proof.Utf8.wf_induction with
  | nil => intro; rw [List.nil_append, Model.Utf8.chars]; simp [Model.Utf8.next, Model.Utf8.nextByteUnchecked]
  | cons c r hc hr ih =>
    intro h7
    simp only [List.mem_append, not_or] at h7
    have hne : c ≠ [0x7F] := by rintro rfl; simp at h7
    rw [List.append_assoc, Model.Utf8.chars, Proof.Utf8.next_seq hc hne]
    simp [ih h7.2]

end Verif.Proof.Lit
