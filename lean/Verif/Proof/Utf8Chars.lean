import Verif.Proof.Utf8
/-! `chars()` and character boundaries. -/
namespace Verif.Proof.Utf8
open Verif Verif.Spec Verif.Model.Utf8

theorem wf_induction {P : (bs : List UInt8) → WellFormed bs → Prop} (nil : P [] wf_nil)
    (cons : ∀ c r, (hc : Utf8Seq c) → (hr : WellFormed r) → P r hr → P (c ++ r) (wf_seq_append hc hr))
    {bs} (h : WellFormed bs) : P bs h := by
  obtain ⟨cs, hcs, rfl⟩ := h
  induction cs with
  | nil => exact nil
  | cons c cs ih =>
    have h' : ∀ c ∈ cs, Utf8Seq c := fun x hx => hcs x (by simp [hx])
    have := cons c cs.flatten (hcs c (by simp)) ⟨cs, h', rfl⟩ (ih h')
    simpa using this

theorem next_seq {c r : List UInt8} (h : Utf8Seq c) (hne : c ≠ [0x7F]) : next (c ++ r) = .ok (some c, r) := by
  cases h with
  | one h =>
    rename_i a
    have : a.toNat ≠ 0x7F := fun e => hne (by congr 1; exact UInt8.toNat_inj.1 e)
    have := h.2
    simp [next, nextByteUnchecked]; intro; omega
  | two ha _ =>
    have := ha.1; have := ha.2
    simp only [List.cons_append, List.nil_append, next, nextByteUnchecked, Out.bind_ok, Out.pure_eq]
    rw [if_neg (by omega), if_pos (by omega)]
  | three_e0 ha _ _ =>
    simp only [List.cons_append, List.nil_append, next, nextByteUnchecked, Out.bind_ok, Out.pure_eq]
    rw [if_neg (by omega), if_neg (by omega), if_pos (by omega)]
  | three_e1 ha _ _ =>
    have := ha.1; have := ha.2
    simp only [List.cons_append, List.nil_append, next, nextByteUnchecked, Out.bind_ok, Out.pure_eq]
    rw [if_neg (by omega), if_neg (by omega), if_pos (by omega)]
  | three_ed ha _ _ =>
    simp only [List.cons_append, List.nil_append, next, nextByteUnchecked, Out.bind_ok, Out.pure_eq]
    rw [if_neg (by omega), if_neg (by omega), if_pos (by omega)]
  | three_ee ha _ _ =>
    have := ha.1; have := ha.2
    simp only [List.cons_append, List.nil_append, next, nextByteUnchecked, Out.bind_ok, Out.pure_eq]
    rw [if_neg (by omega), if_neg (by omega), if_pos (by omega)]
  | four_f0 ha _ _ _ =>
    simp only [List.cons_append, List.nil_append, next, nextByteUnchecked, Out.bind_ok, Out.pure_eq]
    rw [if_neg (by omega), if_neg (by omega), if_neg (by omega)]
  | four_f1 ha _ _ _ =>
    have := ha.1; have := ha.2
    simp only [List.cons_append, List.nil_append, next, nextByteUnchecked, Out.bind_ok, Out.pure_eq]
    rw [if_neg (by omega), if_neg (by omega), if_neg (by omega)]
  | four_f4 ha _ _ _ =>
    simp only [List.cons_append, List.nil_append, next, nextByteUnchecked, Out.bind_ok, Out.pure_eq]
    rw [if_neg (by omega), if_neg (by omega), if_neg (by omega)]

theorem not_mem_seq_7f {c : List UInt8} (h : Utf8Seq c) (hne : c ≠ [0x7F]) : (0x7F : UInt8) ∉ c := by
  cases h <;> simp [InRange] at * <;> (try refine ⟨?_, ?_⟩) <;> (try refine ⟨?_, ?_⟩) <;> (try refine ⟨?_, ?_⟩) <;>
    (try rintro rfl) <;> simp_all

theorem chars_ok {bs : List UInt8} (h : WellFormed bs) :
    (0x7F : UInt8) ∉ bs → ∃ cs, chars bs = .ok cs ∧ (∀ c ∈ cs, Utf8Seq c) ∧ cs.flatten = bs := by
  induction h using wf_induction with
  | nil => intro; exact ⟨[], by rw [chars]; simp [next], by simp, rfl⟩
  | cons c r hc hr ih =>
    intro h7
    simp at h7
    obtain ⟨cs, h1, h2, h3⟩ := ih h7.2
    have hne : c ≠ [0x7F] := by rintro rfl; simp at h7
    refine ⟨c :: cs, ?_, by simpa [hc] using h2, by simp [h3]⟩
    rw [chars, next_seq hc hne]; simp [h1]

theorem chars_7f {r : List UInt8} {cs} (h : chars (0x7F :: r) = .ok cs) (hc : ∀ c ∈ cs, Utf8Seq c) : False := by
  rw [chars] at h
  cases r with
  | nil => simp [next, nextByteUnchecked] at h
  | cons y r =>
    simp [next, nextByteUnchecked] at h
    cases hr : chars r with
    | ok cs' =>
      rw [hr] at h
      simp at h; subst h
      have := seq_width (hc [0x7F, y] (by simp))
      have h1 : charWidth 127 = 1 := by decide
      rw [h1] at this; simp at this
    | _ => rw [hr] at h; simp at h

theorem chars_only {bs : List UInt8} (h : WellFormed bs) :
    ∀ cs, chars bs = .ok cs → (∀ c ∈ cs, Utf8Seq c) → (0x7F : UInt8) ∉ bs := by
  induction h using wf_induction with
  | nil => simp
  | cons c r hc hr ih =>
    intro cs hcs hall
    by_cases hne : c = [0x7F]
    · subst hne; exact (chars_7f hcs hall).elim
    · rw [chars, next_seq hc hne] at hcs
      simp at hcs
      cases hr : chars r with
      | ok cs' =>
        rw [hr] at hcs
        simp at hcs; subst hcs
        have := ih _ hr (fun c hc => hall c (by simp [hc]))
        simp [this, not_mem_seq_7f hc hne]
      | _ => rw [hr] at hcs; simp at hcs

/-! ### Boundaries -/

theorem seq_first_not_cont {a : UInt8} {t} (h : Utf8Seq (a :: t)) : ¬ Tail a := by
  have := seq_width h
  rw [charWidth_spec] at this
  rintro ⟨h1, h2⟩
  (repeat' split at this) <;> simp at this <;> omega

theorem seq_rest_cont {c : List UInt8} (h : Utf8Seq c) (i : Nat) (hi : 0 < i) (hl : i < c.length) : Tail c[i] := by
  cases h <;> simp at hl <;> (try omega) <;> (
    rcases (by omega : i = 1 ∨ i = 2 ∨ i = 3) with rfl | rfl | rfl <;> simp_all [InRange] <;> omega)

theorem boundary_iff {bs : List UInt8} (h : WellFormed bs) (i : Nat) (hi : i < bs.length) :
    CharBoundary bs i ↔ isCont bs[i] = false := by
  constructor
  · rintro ⟨pre, post, rfl, rfl, _, hp⟩
    cases post with
    | nil => simp at hi
    | cons a t =>
      obtain ⟨c, r, hc, he, _⟩ := wf_cons_inv hp
      cases c with
      | nil => exact absurd rfl (seq_ne_nil hc)
      | cons x u =>
        simp at he; obtain ⟨rfl, rfl⟩ := he
        have := seq_first_not_cont hc
        rw [← isCont_iff] at this
        simpa using this
  · induction h using wf_induction generalizing i with
    | nil => simp at hi
    | cons c r hc hr ih =>
      intro hn
      by_cases hlt : i < c.length
      · by_cases h0 : i = 0
        · subst h0; exact ⟨[], c ++ r, rfl, rfl, wf_nil, wf_seq_append hc hr⟩
        · have := (isCont_iff _).2 (seq_rest_cont hc i (by omega) hlt)
          rw [List.getElem_append_left hlt] at hn
          rw [hn] at this; simp at this
      · have hge : c.length ≤ i := by omega
        rw [List.getElem_append_right hge] at hn
        simp at hi
        obtain ⟨pre, post, h1, h2, h3, h4⟩ := ih (i - c.length) (by omega) hn
        exact ⟨c ++ pre, post, by simp [h1], by simp; omega, wf_seq_append hc h3, h4⟩

theorem isCharBoundary_concat (l : List UInt8) (b : UInt8) :
    isCharBoundary (l ++ [b]) = .ok (!isCont b) := by
  simp only [isCharBoundary, isCont, List.getLast?_concat]
  by_cases h : b.toInt8.toInt < -64 <;> simp [h] <;> omega

theorem stringIsCharBoundary_mid {bs : List UInt8} {i : Nat} (h0 : i ≠ 0) (hi : i < bs.length) :
    stringIsCharBoundary bs i = .ok (!isCont bs[i]) := by
  unfold stringIsCharBoundary
  rw [if_neg h0, if_neg (by omega)]
  simp only []
  generalize hs : (if i > 4 then i - 4 else 0) = start
  have hle : start ≤ i := by split at hs <;> omega
  have : (bs.drop start).take (i + 1 - start) = (bs.drop start).take (i - start) ++ [bs[i]] := by
    rw [show i + 1 - start = (i - start) + 1 by omega,
      List.take_succ_eq_append_getElem (by simp; omega)]
    congr 2; simp; congr 1; omega
  rw [this, isCharBoundary_concat]

end Verif.Proof.Utf8
