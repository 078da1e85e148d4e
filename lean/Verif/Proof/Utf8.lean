import Verif.Model.Utf8
import Verif.Spec.Utf8
/-! Helper lemmas for the UTF-8 properties. -/
namespace Verif.Proof.Utf8
open Verif Verif.Spec Verif.Model.Utf8

/-- Any statement about a byte can be checked on the 256 bytes. -/
theorem forall_u8 {P : UInt8 → Prop} (h : ∀ n : Fin 256, P (UInt8.ofFin n)) (b : UInt8) : P b := by
  have := h b.toFin
  simpa using this

theorem isCont_iff (b : UInt8) : isCont b = true ↔ Tail b := by
  revert b; apply forall_u8; unfold Tail InRange; decide +kernel

theorem charWidth_spec (b : UInt8) :
    charWidth b = if b.toNat ≤ 0x7F then 1 else if b.toNat < 0xC2 then 0 else if b.toNat ≤ 0xDF then 2
      else if b.toNat ≤ 0xEF then 3 else if b.toNat ≤ 0xF4 then 4 else 0 := by
  revert b; apply forall_u8; decide +kernel

theorem wf_nil : WellFormed [] := ⟨[], by simp, rfl⟩

theorem wf_seq_append {c r : List UInt8} (hc : Utf8Seq c) (hr : WellFormed r) : WellFormed (c ++ r) := by
  obtain ⟨cs, h, rfl⟩ := hr
  exact ⟨c :: cs, by simpa [hc] using h, by simp⟩

theorem seq_ne_nil {c : List UInt8} (hc : Utf8Seq c) : c ≠ [] := by cases hc <;> simp

theorem wf_cons_inv {a : UInt8} {rest : List UInt8} (h : WellFormed (a :: rest)) :
    ∃ c r, Utf8Seq c ∧ a :: rest = c ++ r ∧ WellFormed r := by
  obtain ⟨cs, hcs, h⟩ := h
  cases cs with
  | nil => simp at h
  | cons c cs =>
    exact ⟨c, cs.flatten, hcs c (by simp), by simpa using h, cs, fun x hx => hcs x (by simp [hx]), rfl⟩

theorem width_cases (a : UInt8) :
    (charWidth a = 1 ∧ a.toNat ≤ 0x7F) ∨ (charWidth a = 2 ∧ 0xC2 ≤ a.toNat ∧ a.toNat ≤ 0xDF) ∨
    (charWidth a = 3 ∧ 0xE0 ≤ a.toNat ∧ a.toNat ≤ 0xEF) ∨ (charWidth a = 4 ∧ 0xF0 ≤ a.toNat ∧ a.toNat ≤ 0xF4) ∨
    (charWidth a = 0 ∧ (0x80 ≤ a.toNat ∧ a.toNat < 0xC2 ∨ 0xF5 ≤ a.toNat)) := by
  rw [charWidth_spec]
  (repeat' split) <;> omega

theorem check3_iff (a b : UInt8) (ha : 0xE0 ≤ a.toNat) (ha' : a.toNat ≤ 0xEF) :
    check3 a b = true ↔ ∀ c, Tail c → Utf8Seq [a, b, c] := by
  constructor
  · intro h c hc
    simp [check3] at h
    rcases h with ((h | h) | h) | h
    · exact .three_e0 (by omega) ⟨by omega, by omega⟩ hc
    · exact .three_e1 ⟨by omega, by omega⟩ ⟨by omega, by omega⟩ hc
    · exact .three_ed (by omega) ⟨by omega, by omega⟩ hc
    · exact .three_ee ⟨by omega, by omega⟩ ⟨by omega, by omega⟩ hc
  · intro h
    have := h 0x80 (by unfold Tail InRange; decide)
    simp [check3]
    cases this <;> simp_all [InRange] <;> omega

theorem check3_of_seq {a b c : UInt8} (h : Utf8Seq [a, b, c]) : check3 a b = true ∧ Tail c := by
  simp [check3]
  cases h <;> simp_all [InRange] <;> omega

theorem check4_of_seq {a b c d : UInt8} (h : Utf8Seq [a, b, c, d]) : check4 a b = true ∧ Tail c ∧ Tail d := by
  simp [check4]
  cases h <;> simp_all [InRange] <;> omega

theorem seq_of_check4 {a b c d : UInt8} (h : check4 a b = true) (hc : Tail c) (hd : Tail d) :
    Utf8Seq [a, b, c, d] := by
  simp [check4] at h
  rcases h with (h | h) | h
  · exact .four_f0 (by omega) ⟨by omega, by omega⟩ hc hd
  · exact .four_f1 ⟨by omega, by omega⟩ ⟨by omega, by omega⟩ hc hd
  · exact .four_f4 (by omega) ⟨by omega, by omega⟩ hc hd

/-- Length of a sequence is determined by its first byte. -/
theorem seq_width {a : UInt8} {t : List UInt8} (h : Utf8Seq (a :: t)) : charWidth a = t.length + 1 := by
  have := charWidth_spec a
  rw [this]
  cases h <;> simp_all [InRange] <;> (repeat' split) <;> omega

theorem wf_cons_iff1 {a : UInt8} {rest} (h : charWidth a = 1) :
    WellFormed (a :: rest) ↔ WellFormed rest := by
  constructor
  · intro hw
    obtain ⟨c, r, hc, he, hr⟩ := wf_cons_inv hw
    cases c with
    | nil => exact absurd rfl (seq_ne_nil hc)
    | cons x t =>
      simp at he; obtain ⟨rfl, rfl⟩ := he
      have := seq_width hc
      have : t = [] := by cases t with | nil => rfl | cons => simp at this; omega
      subst this; simpa using hr
  · intro hw
    have ha : a.toNat ≤ 0x7F := by rcases width_cases a with h | h | h | h | h <;> omega
    exact wf_seq_append (.one ⟨by omega, ha⟩) hw

theorem wf_cons_iff2 {a : UInt8} {rest} (h : charWidth a = 2) :
    WellFormed (a :: rest) ↔ ∃ b r, rest = b :: r ∧ Tail b ∧ WellFormed r := by
  constructor
  · intro hw
    obtain ⟨c, r, hc, he, hr⟩ := wf_cons_inv hw
    cases c with
    | nil => exact absurd rfl (seq_ne_nil hc)
    | cons x t =>
      simp at he; obtain ⟨rfl, rfl⟩ := he
      have hw := seq_width hc
      match t, hw with
      | [b], _ => exact ⟨b, r, rfl, by cases hc; assumption, hr⟩
      | [], hw => simp at hw; omega
      | _ :: _ :: _, hw => simp at hw; omega
  · rintro ⟨b, r, rfl, hb, hr⟩
    have ha : 0xC2 ≤ a.toNat ∧ a.toNat ≤ 0xDF := by rcases width_cases a with h | h | h | h | h <;> omega
    exact wf_seq_append (.two ha hb) hr

theorem wf_cons_iff3 {a : UInt8} {rest} (h : charWidth a = 3) :
    WellFormed (a :: rest) ↔ ∃ b c r, rest = b :: c :: r ∧ check3 a b = true ∧ Tail c ∧ WellFormed r := by
  have ha : 0xE0 ≤ a.toNat ∧ a.toNat ≤ 0xEF := by rcases width_cases a with h | h | h | h | h <;> omega
  constructor
  · intro hw
    obtain ⟨c, r, hc, he, hr⟩ := wf_cons_inv hw
    cases c with
    | nil => exact absurd rfl (seq_ne_nil hc)
    | cons x t =>
      simp at he; obtain ⟨rfl, rfl⟩ := he
      have hw := seq_width hc
      match t, hw with
      | [b, c], _ => exact ⟨b, c, r, rfl, (check3_of_seq hc).1, (check3_of_seq hc).2, hr⟩
      | [], hw => simp at hw; omega
      | [_], hw => simp at hw; omega
      | _ :: _ :: _ :: _, hw => simp at hw; omega
  · rintro ⟨b, c, r, rfl, hb, hc, hr⟩
    exact wf_seq_append ((check3_iff a b ha.1 ha.2).1 hb c hc) hr

theorem wf_cons_iff4 {a : UInt8} {rest} (h : charWidth a = 4) :
    WellFormed (a :: rest) ↔
      ∃ b c d r, rest = b :: c :: d :: r ∧ check4 a b = true ∧ Tail c ∧ Tail d ∧ WellFormed r := by
  constructor
  · intro hw
    obtain ⟨c, r, hc, he, hr⟩ := wf_cons_inv hw
    cases c with
    | nil => exact absurd rfl (seq_ne_nil hc)
    | cons x t =>
      simp at he; obtain ⟨rfl, rfl⟩ := he
      have hw := seq_width hc
      match t, hw with
      | [b, c, d], _ => exact ⟨b, c, d, r, rfl, (check4_of_seq hc).1, (check4_of_seq hc).2.1, (check4_of_seq hc).2.2, hr⟩
      | [], hw => simp at hw; omega
      | [_], hw => simp at hw; omega
      | [_, _], hw => simp at hw; omega
      | _ :: _ :: _ :: _ :: _, hw => simp at hw; omega
  · rintro ⟨b, c, d, r, rfl, hb, hc, hd, hr⟩
    exact wf_seq_append (seq_of_check4 hb hc hd) hr

theorem wf_cons_iff0 {a : UInt8} {rest} (h : charWidth a = 0) : ¬ WellFormed (a :: rest) := by
  intro hw
  obtain ⟨c, r, hc, he, hr⟩ := wf_cons_inv hw
  cases c with
  | nil => exact absurd rfl (seq_ne_nil hc)
  | cons x t =>
    simp at he; obtain ⟨rfl, rfl⟩ := he
    have hw := seq_width hc
    omega

theorem width_five (a : UInt8) :
    charWidth a = 1 ∨ charWidth a = 2 ∨ charWidth a = 3 ∨ charWidth a = 4 ∨ charWidth a = 0 := by
  rcases width_cases a with h | h | h | h | h <;> simp [h.1]

theorem wf_2 {a b : UInt8} {r} (h : charWidth a = 2) : WellFormed (a :: b :: r) ↔ isCont b = true ∧ WellFormed r := by
  rw [wf_cons_iff2 h, isCont_iff]
  exact ⟨fun ⟨_, _, e, h1, h2⟩ => by cases e; exact ⟨h1, h2⟩, fun ⟨h1, h2⟩ => ⟨_, _, rfl, h1, h2⟩⟩

theorem wf_2x {a : UInt8} (h : charWidth a = 2) : ¬ WellFormed [a] := by
  rw [wf_cons_iff2 h]; rintro ⟨_, _, e, _⟩; simp at e

theorem wf_3 {a b c : UInt8} {r} (h : charWidth a = 3) :
    WellFormed (a :: b :: c :: r) ↔ check3 a b = true ∧ isCont c = true ∧ WellFormed r := by
  rw [wf_cons_iff3 h, isCont_iff]
  exact ⟨fun ⟨_, _, _, e, h1, h2, h3⟩ => by cases e; exact ⟨h1, h2, h3⟩,
    fun ⟨h1, h2, h3⟩ => ⟨_, _, _, rfl, h1, h2, h3⟩⟩

theorem wf_3x {a : UInt8} (h : charWidth a = 3) : ¬ WellFormed [a] := by
  rw [wf_cons_iff3 h]; rintro ⟨_, _, _, e, _⟩; simp at e

theorem wf_3y {a b : UInt8} (h : charWidth a = 3) : ¬ WellFormed [a, b] := by
  rw [wf_cons_iff3 h]; rintro ⟨_, _, _, e, _⟩; simp at e

theorem wf_3b {a b : UInt8} {r} (h : charWidth a = 3) (hb : check3 a b = false) : ¬ WellFormed (a :: b :: r) := by
  rw [wf_cons_iff3 h]; rintro ⟨_, _, _, e, h1, _⟩; cases e; simp_all

theorem wf_4 {a b c d : UInt8} {r} (h : charWidth a = 4) :
    WellFormed (a :: b :: c :: d :: r) ↔ check4 a b = true ∧ isCont c = true ∧ isCont d = true ∧ WellFormed r := by
  rw [wf_cons_iff4 h, isCont_iff, isCont_iff]
  exact ⟨fun ⟨_, _, _, _, e, h1, h2, h3, h4⟩ => by cases e; exact ⟨h1, h2, h3, h4⟩,
    fun ⟨h1, h2, h3, h4⟩ => ⟨_, _, _, _, rfl, h1, h2, h3, h4⟩⟩

theorem wf_4x {a : UInt8} (h : charWidth a = 4) : ¬ WellFormed [a] := by
  rw [wf_cons_iff4 h]; rintro ⟨_, _, _, _, e, _⟩; simp at e

theorem wf_4y {a b : UInt8} (h : charWidth a = 4) : ¬ WellFormed [a, b] := by
  rw [wf_cons_iff4 h]; rintro ⟨_, _, _, _, e, _⟩; simp at e

theorem wf_4z {a b c : UInt8} (h : charWidth a = 4) : ¬ WellFormed [a, b, c] := by
  rw [wf_cons_iff4 h]; rintro ⟨_, _, _, _, e, _⟩; simp at e

theorem wf_4b {a b : UInt8} {r} (h : charWidth a = 4) (hb : check4 a b = false) : ¬ WellFormed (a :: b :: r) := by
  rw [wf_cons_iff4 h]; rintro ⟨_, _, _, _, e, h1, _⟩; cases e; simp_all

theorem wf_4c {a b c : UInt8} {r} (h : charWidth a = 4) (hb : isCont c = false) : ¬ WellFormed (a :: b :: c :: r) := by
  rw [wf_cons_iff4 h]; rintro ⟨_, _, _, _, e, _, h1, _⟩; cases e; rw [← isCont_iff] at h1; simp_all

theorem validateFrom_none_iff (off : Nat) (bs : List UInt8) :
    validateFrom off bs = none ↔ WellFormed bs := by
  fun_induction validateFrom off bs with
  | case18 off a rest h1 h2 h3 h4 =>
    rcases width_five a with h | h | h | h | h
    · exact absurd h h1
    · exact absurd h h2
    · exact absurd h h3
    · exact absurd h h4
    · simp [wf_cons_iff0 h]
  | _ => simp_all [wf_nil, wf_cons_iff1, wf_2, wf_2x, wf_3, wf_3x, wf_3y, wf_3b, wf_4, wf_4x, wf_4y, wf_4z,
      wf_4b, wf_4c]

/-! ### Completability -/

theorem completable_of_wf {bs} (h : WellFormed bs) : Completable bs := ⟨[], by simpa using h⟩

theorem completable_cons1 {a : UInt8} {x} (h : charWidth a = 1) : Completable (a :: x) ↔ Completable x := by
  simp [Completable, wf_cons_iff1 h]

theorem completable_2 {a b : UInt8} {x} (h : charWidth a = 2) (hb : isCont b = true) :
    Completable (a :: b :: x) ↔ Completable x := by
  simp [Completable, wf_2 h, hb]

theorem completable_3 {a b c : UInt8} {x} (h : charWidth a = 3) (hb : check3 a b = true) (hc : isCont c = true) :
    Completable (a :: b :: c :: x) ↔ Completable x := by
  simp [Completable, wf_3 h, hb, hc]

theorem completable_4 {a b c d : UInt8} {x} (h : charWidth a = 4) (hb : check4 a b = true)
    (hc : isCont c = true) (hd : isCont d = true) :
    Completable (a :: b :: c :: d :: x) ↔ Completable x := by
  simp [Completable, wf_4 h, hb, hc, hd]

theorem cont80 : isCont 0x80 = true := by decide

theorem completable_3b {a b : UInt8} (h : charWidth a = 3) (hb : check3 a b = true) : Completable [a, b] :=
  ⟨[0x80], by simp [wf_3 h, hb, cont80, wf_nil]⟩

theorem exists_check3 {a : UInt8} (h : charWidth a = 3) : ∃ b, check3 a b = true := by
  have ha : 0xE0 ≤ a.toNat ∧ a.toNat ≤ 0xEF := by rcases width_cases a with h | h | h | h | h <;> omega
  by_cases h0 : a.toNat = 0xE0
  · exact ⟨0xA0, by simp [check3, h0]⟩
  · refine ⟨0x80, ?_⟩
    simp [check3]
    omega

theorem exists_check4 {a : UInt8} (h : charWidth a = 4) : ∃ b, check4 a b = true := by
  have ha : 0xF0 ≤ a.toNat ∧ a.toNat ≤ 0xF4 := by rcases width_cases a with h | h | h | h | h <;> omega
  by_cases h0 : a.toNat = 0xF0
  · exact ⟨0x90, by simp [check4, h0]⟩
  · refine ⟨0x80, ?_⟩
    simp [check4]
    omega

theorem completable_2a {a : UInt8} (h : charWidth a = 2) : Completable [a] :=
  ⟨[0x80], by simp [wf_2 h, cont80, wf_nil]⟩

theorem completable_3a {a : UInt8} (h : charWidth a = 3) : Completable [a] := by
  obtain ⟨b, hb⟩ := exists_check3 h
  exact ⟨[b, 0x80], by simp [wf_3 h, hb, cont80, wf_nil]⟩

theorem completable_4a {a : UInt8} (h : charWidth a = 4) : Completable [a] := by
  obtain ⟨b, hb⟩ := exists_check4 h
  exact ⟨[b, 0x80, 0x80], by simp [wf_4 h, hb, cont80, wf_nil]⟩

theorem completable_4b {a b : UInt8} (h : charWidth a = 4) (hb : check4 a b = true) : Completable [a, b] :=
  ⟨[0x80, 0x80], by simp [wf_4 h, hb, cont80, wf_nil]⟩

theorem completable_4c {a b c : UInt8} (h : charWidth a = 4) (hb : check4 a b = true) (hc : isCont c = true) :
    Completable [a, b, c] :=
  ⟨[0x80], by simp [wf_4 h, hb, cont80, hc, wf_nil]⟩

/-- Relative form of the error-position property. -/
def ErrAt (bs : List UInt8) (i : Nat) : Prop :=
  i < bs.length ∧ Completable (bs.take i) ∧
    (¬ Completable (bs.take (i + 1)) ∨ (i + 1 = bs.length ∧ Completable bs))

theorem completable_nil : Completable [] := completable_of_wf wf_nil

theorem errAt_skip {p r : List UInt8} {i : Nat}
    (hp : ∀ x, Completable (p ++ x) ↔ Completable x) (h : ErrAt r i) : ErrAt (p ++ r) (p.length + i) := by
  obtain ⟨h1, h2, h3⟩ := h
  refine ⟨by simp; omega, ?_, ?_⟩
  · rw [List.take_append]; simp [List.take_of_length_le, hp, h2]
  · rw [List.take_append, List.take_of_length_le (by omega), hp, hp]
    rw [show p.length + i + 1 - p.length = i + 1 by omega]
    rcases h3 with h3 | h3
    · exact .inl h3
    · exact .inr ⟨by simp; omega, h3.2⟩

theorem validateFrom_some (off : Nat) (bs : List UInt8) :
    ∀ e, validateFrom off bs = some e → ∃ i, e = off + i ∧ ErrAt bs i := by
  fun_induction validateFrom off bs with
  | case1 => simp
  | case2 off a rest h ih =>
    intro e he
    obtain ⟨i, rfl, hi⟩ := ih e he
    exact ⟨1 + i, by omega, errAt_skip (p := [a]) (fun x => completable_cons1 h) hi⟩
  | case3 off a h =>
    intro e he
    simp at he; subst he
    exact ⟨0, rfl, by simp [ErrAt, completable_nil, completable_2a h]⟩
  | case4 off a h b rest hb =>
    intro e he
    simp at he hb; subst he
    exact ⟨1, rfl, by simp [ErrAt, completable_2a h]; simp [Completable, wf_2 h, hb] ⟩
  | case5 off a h b rest hb ih =>
    intro e he
    obtain ⟨i, rfl, hi⟩ := ih e he
    simp at hb
    exact ⟨2 + i, by omega, errAt_skip (p := [a, b]) (fun x => completable_2 h hb) hi⟩
  | case6 off a h =>
    intro e he
    simp at he; subst he
    exact ⟨0, rfl, by simp [ErrAt, completable_nil, completable_3a h]⟩
  | case7 off a h b rest hb =>
    intro e he
    simp at he hb; subst he
    exact ⟨1, rfl, by simp [ErrAt, completable_3a h]; simp [Completable, wf_3b h hb] ⟩
  | case8 off a h b hb =>
    intro e he
    simp at he hb; subst he
    exact ⟨1, rfl, by simp [ErrAt, completable_3a h, completable_3b h hb] ⟩
  | case9 off a h b hb c rest hc =>
    intro e he
    simp at he hb hc; subst he
    exact ⟨2, rfl, by simp [ErrAt, completable_3b h hb]; simp [Completable, wf_3 h, hc] ⟩
  | case10 off a h b hb c rest hc ih =>
    intro e he
    simp at hb hc
    obtain ⟨i, rfl, hi⟩ := ih e he
    exact ⟨3 + i, by omega, errAt_skip (p := [a, b, c]) (fun x => completable_3 h hb hc) hi⟩
  | case11 off a h =>
    intro e he
    simp at he; subst he
    exact ⟨0, rfl, by simp [ErrAt, completable_nil, completable_4a h]⟩
  | case12 off a h b rest hb =>
    intro e he
    simp at he hb; subst he
    exact ⟨1, rfl, by simp [ErrAt, completable_4a h]; simp [Completable, wf_4b h hb] ⟩
  | case13 off a h b hb =>
    intro e he
    simp at he hb; subst he
    exact ⟨1, rfl, by simp [ErrAt, completable_4a h, completable_4b h hb] ⟩
  | case14 off a h b hb c rest hc =>
    intro e he
    simp at he hb hc; subst he
    exact ⟨2, rfl, by simp [ErrAt, completable_4b h hb]; simp [Completable, wf_4c h hc] ⟩
  | case15 off a h b hb c hc =>
    intro e he
    simp at he hb hc; subst he
    exact ⟨2, rfl, by simp [ErrAt, completable_4b h hb, completable_4c h hb hc] ⟩
  | case16 off a h b hb c hc d rest hd =>
    intro e he
    simp at he hb hc hd; subst he
    exact ⟨3, rfl, by simp [ErrAt, completable_4c h hb hc]; simp [Completable, wf_4 h, hd] ⟩
  | case17 off a h b hb c hc d rest hd ih =>
    intro e he
    simp at hb hc hd
    obtain ⟨i, rfl, hi⟩ := ih e he
    exact ⟨4 + i, by omega, errAt_skip (p := [a, b, c, d]) (fun x => completable_4 h hb hc hd) hi⟩
  | case18 off a rest h1 h2 h3 h4 =>
    intro e he
    simp at he; subst he
    refine ⟨0, rfl, by simp, by simp [completable_nil], .inl ?_⟩
    rcases width_five a with h | h | h | h | h
    · exact absurd h h1
    · exact absurd h h2
    · exact absurd h h3
    · exact absurd h h4
    · rintro ⟨ext, hx⟩; exact wf_cons_iff0 h hx

end Verif.Proof.Utf8
