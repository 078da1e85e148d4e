import Verif.Model.Range
/-! # Properties C56, C57 (ranges) -/
namespace Verif.Props
open Verif Verif.Model.Range

/-- The ideal half-open interval. -/
def interval (lo : Int) : Nat → List Int
  | 0 => []
  | n + 1 => lo :: interval (lo + 1) n

theorem mem_interval (lo : Int) (n : Nat) (x : Int) : x ∈ interval lo n ↔ lo ≤ x ∧ x < lo + n := by
  induction n generalizing lo with
  | zero => simp [interval]
  | succ n ih => simp only [interval, List.mem_cons, ih]; omega

theorem inc_ok {t : IntTy} {x : Int} (h : x < t.maxVal) : t.inc x = .ok (x + 1) := by simp [IntTy.inc, h]
theorem dec_ok {t : IntTy} {x : Int} (h : t.minVal < x) : t.dec x = .ok (x - 1) := by simp [IntTy.dec, h]

/-- **C56, next().** For every integer type and bounds `lo ≤ hi` of it, repeated `next()` hands out exactly
`lo, lo+1, ..., hi-1` and ends. -/
theorem C56_range_next (t : IntTy) (lo hi : Int) (hle : lo ≤ hi) (hhi : hi ≤ t.maxVal) :
    Range.drain t ⟨lo, hi⟩ = .ok (interval lo (hi - lo).toNat) := by
  generalize hn : (hi - lo).toNat = n
  induction n generalizing lo with
  | zero =>
    have : lo = hi := by omega
    subst this; rw [Range.drain]; simp [Range.next, interval]
  | succ n ih =>
    rw [Range.drain]
    simp only [Range.next]
    rw [if_neg (by omega), inc_ok (by omega)]
    simp [ih (lo + 1) (by omega) (by omega), interval]

/-- **C56, for loop.** The range-based `for` visits the same values. -/
theorem C56_range_for (t : IntTy) (lo hi : Int) (hle : lo ≤ hi) (hhi : hi ≤ t.maxVal) :
    forLoop t lo hi = .ok (interval lo (hi - lo).toNat) := by
  generalize hn : (hi - lo).toNat = n
  induction n generalizing lo with
  | zero =>
    have : lo = hi := by omega
    subst this; rw [forLoop]; simp [interval]
  | succ n ih =>
    rw [forLoop]
    rw [if_neg (by omega), inc_ok (by omega)]
    simp [ih (lo + 1) (by omega) (by omega), interval]

/-- **C56, contains.** `contains` holds exactly for the values iteration visits, and `is_empty()` exactly when there
are none. -/
theorem C56_range_contains (lo hi x : Int) :
    (Range.contains ⟨lo, hi⟩ x = true ↔ x ∈ interval lo (hi - lo).toNat) ∧
    (Range.isEmpty ⟨lo, hi⟩ = true ↔ interval lo (hi - lo).toNat = []) := by
  refine ⟨by rw [mem_interval]; simp [Range.contains]; omega, ?_⟩
  simp only [Range.isEmpty]
  cases h : (hi - lo).toNat with
  | zero => simp [interval]; omega
  | succ n => simp [interval]; omega

/-- the whole signed and unsigned extremes are covered: a range ending at `INT_MAX` does not overflow. -/
example : Range.drain i32Ty ⟨2147483645, 2147483647⟩ = .ok [2147483645, 2147483646] :=
  C56_range_next i32Ty _ _ (by decide) (by decide)
example : (3 : Int) ∈ interval 0 5 := by decide

/-- Outside the property's precondition (`lo > hi`) iteration and `is_empty()` disagree. -/
theorem C56_reversed_range : ∃ r : Range, r.isEmpty = true ∧ ∃ r', r.next i32Ty = .ok (some 5, r') :=
  ⟨⟨5, 3⟩, by decide, ⟨6, 3⟩, by decide⟩

/-- **C56, reversed bounds, types that wrap.** With `hi < lo` the loop does not stop at once: it goes up to the greatest value of the type and comes
back from the least one, though `is_empty()` holds and `contains` answers `false` for every value it visits. -/
theorem C56_reversed_wraps_fails (t : IntTy) (lo hi : Int) (hw : t.wraps = true) (hlt : hi < lo) (hhi : t.minVal ≤ hi)
    (hlo : lo ≤ t.maxVal) :
    Range.drain t ⟨lo, hi⟩ = .ok (interval lo (t.maxVal - lo + 1).toNat ++ interval t.minVal (hi - t.minVal).toNat) ∧
    Range.isEmpty ⟨lo, hi⟩ = true ∧ ∀ x, Range.contains ⟨lo, hi⟩ x = false := by
  refine ⟨?_, by simp [Range.isEmpty]; omega, fun x => by simp [Range.contains]; omega⟩
  generalize hn : (t.maxVal - lo + 1).toNat = n
  induction n generalizing lo with
  | zero => omega
  | succ n ih =>
    rw [Range.drain]
    simp only [Range.next]
    rw [if_neg (by omega)]
    by_cases hm : lo < t.maxVal
    · rw [inc_ok hm]
      simp [ih (lo + 1) (by omega) (by omega) (by omega), interval]
    · have h0 : n = 0 := by omega
      subst h0
      have hi' : t.inc lo = .ok t.minVal := by simp [IntTy.inc, hm, hw]
      rw [hi']
      simp [C56_range_next t t.minVal hi hhi (by omega), interval]

/-- **C56, reversed bounds, `int` and wider.** There the same loop runs into the overflow: undefined behaviour. -/
theorem C56_reversed_overflows_fails (t : IntTy) (lo hi : Int) (hw : t.wraps = false) (hlt : hi < lo) (hlo : lo ≤ t.maxVal) :
    Range.drain t ⟨lo, hi⟩ = .ub ∧ forLoop t lo hi = .ub := by
  generalize hn : (t.maxVal - lo).toNat = n
  induction n generalizing lo with
  | zero =>
    have h : t.inc lo = .ub := by
      have : ¬ lo < t.maxVal := by omega
      simp [IntTy.inc, this, hw]
    rw [Range.drain, forLoop]
    simp only [Range.next]
    rw [if_neg (by omega), if_neg (by omega), h]
    exact ⟨rfl, rfl⟩
  | succ n ih =>
    rw [Range.drain, forLoop]
    simp only [Range.next]
    rw [if_neg (by omega), if_neg (by omega), inc_ok (by omega)]
    have := ih (lo + 1) (by omega) (by omega) (by omega)
    exact ⟨by simp [this.1], by simp [this.2]⟩

/-- `Range<signed char>{2, -127}`: 127 values, none of them in the range. -/
example : Range.drain i8Ty ⟨2, -127⟩ = .ok (interval 2 126 ++ [-128]) :=
  (C56_reversed_wraps_fails i8Ty 2 (-127) rfl (by decide) (by decide) (by decide)).1
example : forLoop i32Ty 2 (-127) = .ub :=
  (C56_reversed_overflows_fails i32Ty 2 (-127) rfl (by decide) (by decide)).2

/-- **C57 for ranges (partial).** On a non-empty range `prev()` shrinks the range correctly (what remains is
`[lo, hi-1)`), and on an empty one answers none; but the value handed out is `hi` instead of `hi - 1`.
Missing from the full property: the value (`C57_range_fails`). -/
theorem C57_range_prev_partial (t : IntTy) (lo hi : Int) (hlo : t.minVal ≤ lo) (hle : lo ≤ hi) :
    Range.prev t ⟨lo, hi⟩ = if lo = hi then .ok (none, ⟨lo, hi⟩) else .ok (some hi, ⟨lo, hi - 1⟩) := by
  simp only [Range.prev]
  split
  · rfl
  · rw [dec_ok (by omega)]; rfl

/-- **C57 is false for every non-empty range**: `prev()` never hands out an element of the range. -/
theorem C57_range_fails (t : IntTy) (lo hi : Int) (hlo : t.minVal ≤ lo) (hlt : lo < hi) :
    ∃ v r', Range.prev t ⟨lo, hi⟩ = .ok (some v, r') ∧ v ∉ interval lo (hi - lo).toNat := by
  refine ⟨hi, ⟨lo, hi - 1⟩, ?_, ?_⟩
  · rw [C57_range_prev_partial t lo hi hlo (by omega), if_neg (by omega)]
  · rw [mem_interval]; omega

example : Range.prev i32Ty ⟨2, 5⟩ = .ok (some 5, ⟨2, 4⟩) := by decide

/-- `hi, hi - 1, ...` -/
def descending (hi : Int) : Nat → List Int
  | 0 => []
  | n + 1 => hi :: descending (hi - 1) n

/-- **C57 for ranges, interleaved (partial).** Whatever the order of `next()` and `prev()` calls on one range, as long as there are no more calls than
values, every call answers a value; the `next()` calls answer `lo, lo + 1, ...`, the `prev()` calls answer `hi, hi - 1, ...` (each one too much), and
what remains is the range without as many values at either end.  Missing: the values of `prev()`, as in `C57_range_fails`. -/
theorem C57_range_interleaved_partial (t : IntTy) (lo hi : Int) (hlo : t.minVal ≤ lo) (hhi : hi ≤ t.maxVal) (calls : List Bool)
    (hlen : (calls.length : Int) ≤ hi - lo) :
    ∃ answers : List (Bool × Int),
      Range.interleave t calls ⟨lo, hi⟩ = .ok (answers.map fun a => (a.1, some a.2), ⟨lo + calls.count true, hi - calls.count false⟩) ∧
      answers.map Prod.fst = calls ∧
      (answers.filter (·.1)).map Prod.snd = interval lo (calls.count true) ∧
      (answers.filter (!·.1)).map Prod.snd = descending hi (calls.count false) := by
  induction calls generalizing lo hi with
  | nil => exact ⟨[], by simp [Range.interleave, interval, descending]⟩
  | cons c cs ih =>
    simp only [List.length_cons] at hlen
    cases c with
    | true =>
      obtain ⟨as, h1, h2, h3, h4⟩ := ih (lo + 1) hi (by omega) hhi (by omega)
      refine ⟨(true, lo) :: as, ?_, by simp [h2], by simp [h3, interval], by simp [h4]⟩
      rw [Range.interleave]
      simp only [Range.next, if_true]
      rw [if_neg (by omega), inc_ok (by omega)]
      simp only [Out.bind_ok, Out.pure_eq, h1]
      simp; omega
    | false =>
      obtain ⟨as, h1, h2, h3, h4⟩ := ih lo (hi - 1) hlo (by omega) (by omega)
      refine ⟨(false, hi) :: as, ?_, by simp [h2], by simp [h3], by simp [h4, descending]⟩
      rw [Range.interleave]
      simp only [Range.prev]
      rw [if_neg (by simp), if_neg (by omega), dec_ok (by omega)]
      simp only [Out.bind_ok, Out.pure_eq, h1]
      simp; omega

example : Range.interleave i32Ty [true, false, true] ⟨0, 4⟩ = .ok ([(true, some 0), (false, some 4), (true, some 1)], ⟨2, 3⟩) := by decide

end Verif.Props
