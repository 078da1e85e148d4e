import Verif.Model.RangeCursor
import Verif.Props.Range
/-! # Property C80 (range cursors are integer positions) -/
namespace Verif.Props
open Verif Verif.Model.Range

/-! ## Specification: a cursor is a whole number -/

/-- By how much a call moves the number. -/
def shift : CMove → Int
  | .inc | .postInc => 1
  | .dec | .postDec => -1
  | .add rhs => rhs.pos
  | .sub rhs => - rhs.pos

/-- Does the call hand out the number from before the move (`c++`, `c--`) rather than the one after it? -/
def handsOutOld : CMove → Bool
  | .postInc | .postDec => true
  | _ => false

/-- The numbers handed out and the number at the end, in unbounded arithmetic. -/
def count (p : Int) : List CMove → List Int × Int
  | [] => ([], p)
  | m :: ms =>
    let q := p + shift m
    let (vs, e) := count q ms
    ((if handsOutOld m then p else q) :: vs, e)

/-- Every number on the way is a value of the index type. -/
def fits (t : IntTy) (p : Int) : List CMove → Prop
  | [] => True
  | m :: ms => t.minVal ≤ p + shift m ∧ p + shift m ≤ t.maxVal ∧ fits t (p + shift m) ms

instance (t : IntTy) : (p : Int) → (ms : List CMove) → Decidable (fits t p ms)
  | _, [] => isTrue trivial
  | p, m :: ms =>
    have := instDecidableFits t (p + shift m) ms
    inferInstanceAs (Decidable (_ ∧ _ ∧ _))

theorem fit_ok {t : IntTy} {x : Int} (h : t.minVal ≤ x ∧ x ≤ t.maxVal) : t.fit x = .ok x := by
  simp [IntTy.fit, h]

theorem run_fits (t : IntTy) (p : Int) (m : CMove) (hp : t.minVal ≤ p ∧ p ≤ t.maxVal)
    (h : t.minVal ≤ p + shift m ∧ p + shift m ≤ t.maxVal) :
    m.run t ⟨p⟩ = .ok (⟨if handsOutOld m then p else p + shift m⟩, ⟨p + shift m⟩) := by
  cases m <;> simp only [shift] at h ⊢
  · simp [CMove.run, Cursor.inc, inc_ok (show p < t.maxVal by omega), handsOutOld]
  · simp [CMove.run, Cursor.postInc, inc_ok (show p < t.maxVal by omega), handsOutOld]
  · simp [CMove.run, Cursor.dec, dec_ok (show t.minVal < p by omega), handsOutOld, Int.sub_eq_add_neg]
  · simp [CMove.run, Cursor.postDec, dec_ok (show t.minVal < p by omega), handsOutOld, Int.sub_eq_add_neg]
  · simp [CMove.run, Cursor.add, fit_ok h, handsOutOld]
  · rw [← Int.sub_eq_add_neg] at h ⊢
    simp [CMove.run, Cursor.sub, fit_ok h, handsOutOld]

/-- **C80, arithmetic.** For every index type, starting number and program of `++`, `--` (prefix and postfix), `+` and
`-` whose numbers all are values of the type, the cursor hands out exactly the numbers of unbounded arithmetic and
ends on the right one. -/
theorem C80_cursor_walk (t : IntTy) (p : Int) (hp : t.minVal ≤ p ∧ p ≤ t.maxVal) (ms : List CMove)
    (h : fits t p ms) :
    CMove.runAll t ⟨p⟩ ms = .ok ((count p ms).1, ⟨(count p ms).2⟩) := by
  induction ms generalizing p with
  | nil => rfl
  | cons m ms ih =>
    obtain ⟨h1, h2, h3⟩ := h
    simp only [CMove.runAll, run_fits t p m hp ⟨h1, h2⟩, Out.bind_ok, ih _ ⟨h1, h2⟩ h3]
    rfl

/-- A signed index type: leaving its values is undefined behaviour, at exactly the first number outside. -/
theorem run_out (t : IntTy) (hw : t.wraps = false) (p : Int) (m : CMove)
    (hp : t.minVal ≤ p ∧ p ≤ t.maxVal)
    (h : ¬ (t.minVal ≤ p + shift m ∧ p + shift m ≤ t.maxVal)) : m.run t ⟨p⟩ = .ub := by
  cases m <;> simp only [shift] at h
  · simp [CMove.run, Cursor.inc, IntTy.inc, show ¬ p < t.maxVal by omega, hw]
  · simp [CMove.run, Cursor.postInc, IntTy.inc, show ¬ p < t.maxVal by omega, hw]
  · simp [CMove.run, Cursor.dec, IntTy.dec, show ¬ t.minVal < p by omega, hw]
  · simp [CMove.run, Cursor.postDec, IntTy.dec, show ¬ t.minVal < p by omega, hw]
  · simp [CMove.run, Cursor.add, IntTy.fit, h, hw]
  · rw [← Int.sub_eq_add_neg] at h
    simp [CMove.run, Cursor.sub, IntTy.fit, h, hw]

/-- **C80, signed types.** For `int` and wider signed types the program is defined exactly when all its numbers are
values of the type. -/
theorem C80_signed_overflow (t : IntTy) (hw : t.wraps = false) (p : Int) (hp : t.minVal ≤ p ∧ p ≤ t.maxVal)
    (ms : List CMove) : CMove.runAll t ⟨p⟩ ms = .ub ↔ ¬ fits t p ms := by
  induction ms generalizing p with
  | nil => simp [CMove.runAll, fits]
  | cons m ms ih =>
    by_cases h : t.minVal ≤ p + shift m ∧ p + shift m ≤ t.maxVal
    · simp only [CMove.runAll, run_fits t p m hp h, Out.bind_ok, fits, h, true_and]
      rw [← ih _ h]
      cases CMove.runAll t ⟨p + shift m⟩ ms <;> simp
    · have hf : ¬ fits t p (m :: ms) := fun hf => h ⟨hf.1, hf.2.1⟩
      simp [CMove.runAll, run_out t hw p m hp h, hf]

/-- **C80, unsigned types.** An unsigned index type never has undefined behaviour: every program gives the number
unbounded arithmetic gives, modulo the number of values of the type, and a value of the type. -/
theorem C80_unsigned_wraps (t : IntTy) (hw : t.wraps = true) (ht : t.minVal ≤ t.maxVal) (p : Int)
    (hp : t.minVal ≤ p ∧ p ≤ t.maxVal) (ms : List CMove) :
    ∃ vs e, CMove.runAll t ⟨p⟩ ms = .ok (vs, ⟨e⟩) ∧ t.minVal ≤ e ∧ e ≤ t.maxVal ∧
      (t.maxVal - t.minVal + 1) ∣ e - (count p ms).2 := by
  have cong : ∀ (ms : List CMove) (p d : Int), (count (p + d) ms).2 = (count p ms).2 + d := by
    intro ms
    induction ms with
    | nil => intro p d; rfl
    | cons m ms ih =>
      intro p d
      show (count (p + d + shift m) ms).2 = (count (p + shift m) ms).2 + d
      rw [← ih, show p + d + shift m = p + shift m + d by omega]
  have step : ∀ m : CMove, ∀ p : Int, (t.minVal ≤ p ∧ p ≤ t.maxVal) → ∃ v e, m.run t ⟨p⟩ = .ok (v, ⟨e⟩) ∧
      (t.minVal ≤ e ∧ e ≤ t.maxVal) ∧ (t.maxVal - t.minVal + 1) ∣ e - (p + shift m) := by
    intro m p hp
    have hfit : ∀ x, ∃ e, t.fit x = .ok e ∧ (t.minVal ≤ e ∧ e ≤ t.maxVal) ∧
        (t.maxVal - t.minVal + 1) ∣ e - x := by
      intro x
      by_cases hx : t.minVal ≤ x ∧ x ≤ t.maxVal
      · exact ⟨x, by simp [IntTy.fit, hx], hx, by simp⟩
      · refine ⟨_, by simp only [IntTy.fit, if_neg hx, hw, if_true]; rfl, ?_, ?_⟩
        · have h1 := Int.emod_nonneg (x - t.minVal) (show t.maxVal - t.minVal + 1 ≠ 0 by omega)
          have h2 := Int.emod_lt_of_pos (x - t.minVal) (show 0 < t.maxVal - t.minVal + 1 by omega)
          omega
        · refine ⟨- ((x - t.minVal) / (t.maxVal - t.minVal + 1)), ?_⟩
          have := Int.emod_add_mul_ediv (x - t.minVal) (t.maxVal - t.minVal + 1)
          rw [Int.mul_neg]
          omega
    have hinc : ∃ e, t.inc p = .ok e ∧ (t.minVal ≤ e ∧ e ≤ t.maxVal) ∧
        (t.maxVal - t.minVal + 1) ∣ e - (p + 1) := by
      by_cases hx : p < t.maxVal
      · exact ⟨p + 1, inc_ok hx, by omega, by simp⟩
      · refine ⟨t.minVal, by simp [IntTy.inc, hx, hw], by omega, ⟨-1, ?_⟩⟩
        omega
    have hdec : ∃ e, t.dec p = .ok e ∧ (t.minVal ≤ e ∧ e ≤ t.maxVal) ∧
        (t.maxVal - t.minVal + 1) ∣ e - (p + -1) := by
      by_cases hx : t.minVal < p
      · exact ⟨p - 1, dec_ok hx, by omega, by simp [Int.sub_eq_add_neg]⟩
      · refine ⟨t.maxVal, by simp [IntTy.dec, hx, hw], by omega, ⟨1, ?_⟩⟩
        omega
    cases m with
    | inc => obtain ⟨e, h, r⟩ := hinc; exact ⟨_, e, by simp [CMove.run, Cursor.inc, h]; rfl, r⟩
    | postInc => obtain ⟨e, h, r⟩ := hinc; exact ⟨_, e, by simp [CMove.run, Cursor.postInc, h]; rfl, r⟩
    | dec => obtain ⟨e, h, r⟩ := hdec; exact ⟨_, e, by simp [CMove.run, Cursor.dec, h]; rfl, r⟩
    | postDec => obtain ⟨e, h, r⟩ := hdec; exact ⟨_, e, by simp [CMove.run, Cursor.postDec, h]; rfl, r⟩
    | add rhs =>
      obtain ⟨e, h, r⟩ := hfit (p + rhs.pos)
      exact ⟨_, e, by simp [CMove.run, Cursor.add, h]; rfl, r⟩
    | sub rhs =>
      obtain ⟨e, h, r⟩ := hfit (p - rhs.pos)
      exact ⟨_, e, by simp [CMove.run, Cursor.sub, h]; rfl, by simpa [shift, Int.sub_eq_add_neg] using r⟩
  induction ms generalizing p with
  | nil => exact ⟨[], p, rfl, hp.1, hp.2, by simp [count]⟩
  | cons m ms ih =>
    obtain ⟨v, e, h, hb, hd⟩ := step m p hp
    obtain ⟨vs, e', h', hb1, hb2, hd'⟩ := ih e hb
    refine ⟨v.pos :: vs, e', by simp [CMove.runAll, h, h'], hb1, hb2, ?_⟩
    have := cong ms (p + shift m) (e - (p + shift m))
    rw [show p + shift m + (e - (p + shift m)) = e by omega] at this
    show _ ∣ e' - (count (p + shift m) ms).2
    have hs := Int.dvd_add hd' hd
    rw [this] at hs
    rwa [show e' - ((count (p + shift m) ms).2 + (e - (p + shift m))) + (e - (p + shift m)) =
      e' - (count (p + shift m) ms).2 by omega] at hs

/-- **C80, comparison.** Cursors compare as their numbers do. -/
theorem C80_compare (a b : Cursor) :
    (a.eq b = true ↔ a.pos = b.pos) ∧ (a.cmp b = .lt ↔ a.pos < b.pos) ∧ (a.cmp b = .gt ↔ b.pos < a.pos) ∧
    (a.cmp b = .eq ↔ a.eq b = true) := by
  simp only [Cursor.eq, Cursor.cmp, decide_eq_true_eq, compare, compareOfLessAndEq]
  refine ⟨trivial, ?_, ?_, ?_⟩ <;> (split <;> first | (simp; omega) | (split <;> simp <;> omega))

/-- **C80, distance.** On a range whose length is a value of the index type, `end() - begin()` is the number of elements
iteration visits and `begin() + (end() - begin())` is `end()`. -/
theorem C80_distance (t : IntTy) (lo hi : Int) (h0 : t.minVal ≤ 0) (hlo : t.minVal ≤ lo) (hle : lo ≤ hi)
    (hhi : hi ≤ t.maxVal) (hlen : hi - lo ≤ t.maxVal) :
    ∃ d, Cursor.sub t (Range.end ⟨lo, hi⟩) (Range.begin ⟨lo, hi⟩) = .ok (d, Range.end ⟨lo, hi⟩) ∧
      d.pos = ((interval lo (hi - lo).toNat).length : Int) ∧
      ∃ e, Cursor.add t (Range.begin ⟨lo, hi⟩) d = .ok (e, Range.begin ⟨lo, hi⟩) ∧
        e.eq (Range.end ⟨lo, hi⟩) = true := by
  have hl : ∀ (n : Nat) (lo : Int), (interval lo n).length = n := by
    intro n; induction n with
    | zero => intro lo; rfl
    | succ n ih => intro lo; simp [interval, ih]
  refine ⟨⟨hi - lo⟩, ?_, ?_, ⟨hi⟩, ?_, ?_⟩
  · simp [Cursor.sub, Range.end, Range.begin, fit_ok (t := t) (x := hi - lo) ⟨by omega, hlen⟩]
  · rw [hl]; show hi - lo = _; omega
  · simp only [Cursor.add, Range.begin, show lo + (hi - lo) = hi by omega,
      fit_ok (t := t) (x := hi) ⟨by omega, hhi⟩, Out.bind_ok]
    rfl
  · simp [Cursor.eq, Range.end]

/-- **C80, equality of ranges.** Two ranges are `==` exactly when both bounds agree; `==` ranges are iterated
identically. -/
theorem C80_range_eq (r s : Range) :
    (r.eq s = true ↔ r.low = s.low ∧ r.high = s.high) ∧
    (r.eq s = true → ∀ t, r.drain t = s.drain t ∧ forLoop t r.low r.high = forLoop t s.low s.high) := by
  constructor
  · simp [Range.eq]
  · intro h t
    obtain ⟨rl, rh⟩ := r
    obtain ⟨sl, sh⟩ := s
    simp only [Range.eq, Bool.and_eq_true, decide_eq_true_eq] at h
    obtain ⟨rfl, rfl⟩ := h
    exact ⟨rfl, rfl⟩

/-- the empty ranges `0..0` and `5..5` hold the same elements and are not `==`. -/
theorem C80_empty_ranges_differ : Range.eq ⟨0, 0⟩ ⟨5, 5⟩ = false ∧
    Range.isEmpty ⟨0, 0⟩ = true ∧ Range.isEmpty ⟨5, 5⟩ = true := by decide

example : CMove.runAll i32Ty ⟨3⟩ [.postInc, .inc, .add ⟨10⟩, .postDec, .sub ⟨20⟩] = .ok ([3, 5, 15, 15, -6], ⟨-6⟩) :=
  C80_cursor_walk i32Ty 3 (by decide) _ (by decide)
example : CMove.runAll i32Ty ⟨2147483646⟩ [.inc, .postInc] = .ub :=
  (C80_signed_overflow i32Ty rfl _ (by decide) _).mpr (by decide)
example : CMove.runAll usizeTy ⟨0⟩ [.postDec, .add ⟨3⟩] = .ok ([0, 2], ⟨2⟩) := by decide
example : ∃ vs e, CMove.runAll usizeTy ⟨0⟩ [.dec, .dec] = .ok (vs, ⟨e⟩) ∧ usizeTy.minVal ≤ e ∧ e ≤ usizeTy.maxVal ∧
    (usizeTy.maxVal - usizeTy.minVal + 1) ∣ e - -2 :=
  C80_unsigned_wraps usizeTy rfl (by decide) 0 (by decide) [.dec, .dec]
example : (Cursor.mk 2).cmp ⟨5⟩ = .lt := (C80_compare ⟨2⟩ ⟨5⟩).2.1.mpr (by decide)
example : i32Ty.minVal ≤ 0 ∧ i32Ty.minVal ≤ 2 ∧ (2 : Int) ≤ 7 ∧ 7 ≤ i32Ty.maxVal ∧ (7 - 2 : Int) ≤ i32Ty.maxVal := by
  decide
example : Range.eq ⟨2, 7⟩ ⟨2, 7⟩ = true := by decide

end Verif.Props
