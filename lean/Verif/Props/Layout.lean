import Verif.Model.Layout
/-! # Properties C61, C62: layouts and the default allocator -/
namespace Verif.Props
open Verif Verif.Model.Layout

theorem popcount_two_pow (k : Nat) : popcount (2 ^ k) = 1 := by
  induction k with
  | zero => rw [popcount]; simp; rw [popcount]; simp
  | succ k ih =>
    have : 2 ^ k > 0 := Nat.two_pow_pos k
    rw [popcount, Nat.pow_succ, dif_neg (by omega), Nat.mul_mod_left, Nat.mul_div_cancel _ (by omega), ih]

theorem popcount_eq_zero {n : Nat} (h : popcount n = 0) : n = 0 := by
  induction n using Nat.strongRecOn with
  | ind n ih =>
    rw [popcount] at h
    split at h
    · assumption
    · have := ih (n / 2) (by omega) (by omega); omega

theorem two_pow_of_popcount {n : Nat} (h : popcount n = 1) : ∃ k, n = 2 ^ k := by
  induction n using Nat.strongRecOn with
  | ind n ih =>
    rw [popcount] at h
    split at h
    · simp at h
    · by_cases h2 : n % 2 = 1
      · have := popcount_eq_zero (n := n / 2) (by omega)
        exact ⟨0, by omega⟩
      · obtain ⟨k, hk⟩ := ih (n / 2) (by omega) (by omega)
        exact ⟨k + 1, by rw [Nat.pow_succ]; omega⟩

/-- **C61.** `from_size_align(size, align)` is ok exactly when `align` is a power of two, and then it stores
both arguments unchanged.  (Stated for all naturals, in particular for all pairs of 64-bit words.) -/
theorem C61_from_size_align (size align : Nat) :
    (∀ l, fromSizeAlign size align = some l ↔ (∃ k, align = 2 ^ k) ∧ l.size = size ∧ l.align = align) ∧
    (fromSizeAlign size align = none ↔ ¬ ∃ k, align = 2 ^ k) := by
  by_cases h : ∃ k, align = 2 ^ k
  · obtain ⟨k, rfl⟩ := h
    have hp : 2 ^ k > 0 := Nat.two_pow_pos k
    have hs : fromSizeAlign size (2 ^ k) = some { size := size, align := 2 ^ k } := by
      unfold fromSizeAlign
      rw [if_neg]; simp [popcount_two_pow]
    rw [hs]
    refine ⟨fun l => ?_, by simp; exact ⟨k, rfl⟩⟩
    constructor
    · intro h; cases h; exact ⟨⟨k, rfl⟩, rfl, rfl⟩
    · rintro ⟨_, h1, h2⟩; cases l; simp_all
  · have hn : fromSizeAlign size align = none := by
      unfold fromSizeAlign
      by_cases h0 : align = 0
      · simp [h0]
      · have : popcount align ≠ 1 := fun e => h (two_pow_of_popcount e)
        simp [this]
    rw [hn]
    refine ⟨fun l => ?_, by simp [h]⟩
    simp [h]

example : fromSizeAlign 24 8 = some ⟨24, 8⟩ ∧ fromSizeAlign 24 12 = none ∧ fromSizeAlign 24 0 = none := by decide +kernel
example : fromSizeAlign 1 (2 ^ 63) = some ⟨1, 2 ^ 63⟩ :=
  ((C61_from_size_align 1 (2 ^ 63)).1 ⟨1, 2 ^ 63⟩).2 ⟨⟨63, rfl⟩, rfl, rfl⟩

/-- **C62.** For every default new-alignment, layout and count: `deallocate(p, layout, n)` passes to
`operator delete` the same byte count and the same aligned/unaligned form that `allocate(layout, n)` passed to
`operator new`; the aligned form is used exactly for over-aligned layouts and with the layout's alignment. -/
theorem C62_release_matches_request (defaultNew : Nat) (l : Layout) (n : Nat) :
    deallocateCall defaultNew l n = allocateCall defaultNew l n ∧
    ((allocateCall defaultNew l n).alignedForm = if l.align > defaultNew then some l.align else none) := by
  unfold deallocateCall allocateCall
  rw [Nat.mul_comm n l.size]
  constructor
  · rfl
  · split <;> simp_all

/-- **C62 (partial), size part.** The requested block has room for exactly `n` objects when the product is
representable.  Missing: counts whose byte size does not fit in 64 bits (`C62_fails`). -/
theorem C62_enough_room_partial (defaultNew : Nat) (l : Layout) (n : Nat) (h : l.size * n < wordSize) :
    (allocateCall defaultNew l n).bytes = l.size * n := by
  unfold allocateCall; split <;> simp [wrap_of_lt h]

/-- **C62's "large enough for n objects" is false without that bound**: the byte count wraps. -/
theorem C62_fails : ∃ (l : Layout) (n : Nat), n < wordSize ∧ 0 < l.size ∧
    ∀ d, (allocateCall d l n).bytes < l.size * n := by
  refine ⟨⟨16, 8⟩, 2 ^ 60, by decide, by decide, fun d => ?_⟩
  unfold allocateCall wrap; split <;> simp

/-- More precisely: the room is insufficient for every count whose byte size does not fit. -/
theorem C62_room_iff (d : Nat) (l : Layout) (n : Nat) :
    l.size * n ≤ (allocateCall d l n).bytes ↔ l.size * n < wordSize := by
  constructor
  · intro h
    have : (allocateCall d l n).bytes = wrap (l.size * n) := by unfold allocateCall; split <;> rfl
    rw [this] at h
    have h2 : wrap (l.size * n) < wordSize := Nat.mod_lt _ (by decide)
    omega
  · intro h; rw [C62_enough_room_partial d l n h]; exact Nat.le_refl _

example : allocateCall 16 ⟨24, 8⟩ 3 = ⟨72, none⟩ ∧ allocateCall 16 ⟨64, 32⟩ 3 = ⟨192, some 32⟩ := by decide

end Verif.Props
