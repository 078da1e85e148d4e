import Verif.Proof.VectorRange
import Verif.Props.Vector
/-!
# Property C121: vectors given ranges of vectors

`Reach ty w`, `view w`, `Safe`: see `Props/Vector.lean`.  `ROp` are the calls of C01 together with the constructor and the `insert` that take
the range between two positions of a vector `j`, possibly the vector inserted into.  `written A o` is the same call given the elements that
lie in the range as values of the client's own; `rspecStep`, `rspecRun` are the ideal lists of C01 for those calls.  `harmless A o`: the
range is empty, or one of another vector, or ends before the insertion point of a vector that has room for it.

For the other calls, an `insert` of an own range that is not empty, the four theorems `_fails` say what happens instead; together with
`harmless` they cover every position and range.
-/
namespace Verif.Props
open Verif Verif.Model.Vector Verif.Model.Mem Verif.Proof.Vector
open Verif.Spec.Vector hiding upd

variable {α : Type} {ty : ElemTy α} {w : World α}

/-- C121.  A harmless call given a range of a vector does exactly what it does when given copies of the elements, whatever it returns and
whatever it does to the memory. -/
theorem C121_same (hr : Reach ty w) {o : ROp α} {o' : Op α} (hw : written (view w) o = some o') (hh : harmless (view w) o = true)
    (hs : (specStep false ty.size ty.dflt o' (view w)).isSome = true) : rstep ty o w = step ty o' w :=
  rstep_same (reach_inv hr) hh hw hs

/-- C121.  Programs of harmless calls, from any reachable state: the results and contents are those of the ideal lists.  Missing: the
calls that are not harmless, see the theorems below, and those left out in C01. -/
theorem C121_history_partial (hr : Reach ty w) (os : List (ROp α)) {rs : List (Res α)} {A : Ideal α}
    (h : rspecRun ty.size ty.dflt os (view w) = some (rs, A)) :
    (rrun ty os w).Safe fun q => q.1 = rs ∧ view q.2 = A ∧ Reach ty q.2 := rrun_ok os hr h

variable {i p lo hi : Nat} {v : Var α}

/-- C121 fails.  An own range and too little room: the elements are read from memory that has been given back. -/
theorem C121_grow_fails (hr : Reach ty w) (hv : view w i = some v) (hlt : lo < hi) (hhi : hi ≤ v.xs.length)
    (hcap : v.cap < v.xs.length + (hi - lo))
    (hs : (specStep false ty.size ty.dflt (.insertRange i p (cut v.xs lo hi)) (view w)).isSome = true) :
    rstep ty (.insertRangeOf i p i lo hi) w = .ub ∨
      (rstep ty (.insertRangeOf i p i lo hi) w = .oom ∧ step ty (.insertRange i p (cut v.xs lo hi)) w = .oom) :=
  rstep_grow (reach_inv hr) hv hlt hhi hcap hs

/-- C121 fails.  Enough room, and an own range that begins at the insertion point or fewer places behind it than the range is long: a place
is read from which the element has been moved away. -/
theorem C121_hole_fails (hr : Reach ty w) (hv : view w i = some v) (hlt : lo < hi) (hhi : hi ≤ v.xs.length)
    (hcap : v.xs.length + (hi - lo) ≤ v.cap) (hpl : p ≤ lo) (hlp : lo < p + (hi - lo))
    (hs : (specStep false ty.size ty.dflt (.insertRange i p (cut v.xs lo hi)) (view w)).isSome = true) :
    rstep ty (.insertRangeOf i p i lo hi) w = .ub :=
  rstep_hole (reach_inv hr) hv hlt hpl hlp hhi hcap hs

/-- C121 fails.  Enough room, and the insertion point inside the range: the part of the range before the insertion point is inserted over
and over instead. -/
theorem C121_overlap_fails (hr : Reach ty w) (hv : view w i = some v) (hlo : lo < p) (hph : p < hi) (hhi : hi ≤ v.xs.length)
    (hcap : v.xs.length + (hi - lo) ≤ v.cap)
    (hs : (specStep false ty.size ty.dflt (.insertRange i p (cut v.xs lo hi)) (view w)).isSome = true) :
    rstep ty (.insertRangeOf i p i lo hi) w = step ty (.insertRange i p (cycle (cut v.xs lo p) (hi - lo))) w :=
  rstep_overlap (reach_inv hr) hv hlo hph hhi hcap hs

/-- C121 fails.  Enough room, and the range at least its own length behind the insertion point: the elements just before the range are
inserted instead. -/
theorem C121_behind_fails (hr : Reach ty w) (hv : view w i = some v) (hlt : lo < hi) (hhi : hi ≤ v.xs.length)
    (hcap : v.xs.length + (hi - lo) ≤ v.cap) (hpl : p + (hi - lo) ≤ lo)
    (hs : (specStep false ty.size ty.dflt (.insertRange i p (cut v.xs lo hi)) (view w)).isSome = true) :
    rstep ty (.insertRangeOf i p i lo hi) w = step ty (.insertRange i p (cut v.xs (lo - (hi - lo)) lo)) w :=
  rstep_behind (reach_inv hr) hv hlt hpl hhi hcap hs

/-- C121.  The four theorems leave nothing out: an `insert` that is not harmless is in one of their cases. -/
theorem C121_cases (hv : view w i = some v) {j : Nat} (hne : harmless (view w) (.insertRangeOf i p j lo hi : ROp α) = false)
    (hle : lo ≤ hi) : j = i ∧ lo < hi ∧
      (v.cap < v.xs.length + (hi - lo) ∨ v.xs.length + (hi - lo) ≤ v.cap ∧
        (p ≤ lo ∧ lo < p + (hi - lo) ∨ lo < p ∧ p < hi ∨ p + (hi - lo) ≤ lo)) := by
  simp only [harmless, roomFor, hv, Option.any_some, Bool.or_eq_false_iff, beq_eq_false_iff_ne, bne_eq_false_iff_eq,
    Bool.and_eq_false_iff, decide_eq_false_iff_not] at hne
  obtain ⟨⟨h1, h2⟩, h3⟩ := hne
  exact ⟨h2.symm, by omega, by omega⟩

/-! ## Examples -/

/-- Calls for the examples: a piece of the vector itself that lies before the insertion point, after room has been made; a piece of another
vector; a vector made of a piece; an empty range. -/
def vecRanges : List (ROp Nat) :=
  [.op (.reserve 0 8), .insertRangeOf 0 3 0 0 3, .newRangeOf 4 0 1 5 7, .insertRangeOf 1 1 0 2 6, .insertRangeOf 2 0 1 3 3,
   .insertRangeOf 4 4 1 0 3, .op (.drop 4)]

def vecRangesEnd (A : Ideal Nat) : Bool :=
  decide (A 0 = some ⟨[1, 2, 3, 1, 2, 3], 8, 0⟩) && decide (A 1 = some ⟨[1, 3, 1, 2, 3, 2, 3], 7, 0⟩)

example : ∃ w, Reach exTy w ∧ ∃ rs A, rspecRun 8 0 vecRanges (view w) = some (rs, A) ∧ vecRangesEnd A = true := by
  obtain ⟨w, hr, h⟩ := reach_of (ty := exTy) exOps (fun A => (rspecRun 8 0 vecRanges A).any fun q => vecRangesEnd q.2)
    (by decide +kernel) (by decide +kernel)
  refine ⟨w, hr, ?_⟩
  cases he : rspecRun 8 0 vecRanges (view w) with
  | none => rw [he] at h; cases h
  | some q => rw [he] at h; exact ⟨q.1, q.2, rfl, h⟩

/-- the hypotheses of `C121_grow_fails` -/
example : ∃ w, Reach exTy w ∧ view w 1 = some ⟨[1, 2, 3], 3, 0⟩ ∧ 3 < 3 + (3 - 0) ∧
    (specStep false 8 0 (.insertRange 1 3 (cut [1, 2, 3] 0 3)) (view w)).isSome = true := by
  obtain ⟨w, hr, h⟩ := reach_of (ty := exTy) exOps (fun A => decide (A 1 = some ⟨[1, 2, 3], 3, 0⟩ ∧
    (specStep false 8 0 (.insertRange 1 3 (cut [1, 2, 3] 0 3)) A).isSome = true)) (by decide +kernel) (by decide +kernel)
  have h := of_decide_eq_true h
  exact ⟨w, hr, h.1, by omega, h.2⟩

/-- A vector of five elements with room for ten. -/
def vecRoom : List (Op Nat) := [.newList 0 [1, 2, 3, 4, 5] 0, .reserve 0 10]

/-- the hypotheses of the other three: insertion at 2 of `[2, 4)`, of `[1, 4)` and of `[4, 5)`; what should be inserted and what is -/
example : ∃ w, Reach exTy w ∧ view w 0 = some ⟨[1, 2, 3, 4, 5], 10, 0⟩ ∧
    (specStep false 8 0 (.insertRange 0 2 (cut [1, 2, 3, 4, 5] 2 4)) (view w)).isSome = true ∧
    (specStep false 8 0 (.insertRange 0 2 (cut [1, 2, 3, 4, 5] 1 4)) (view w)).isSome = true ∧
    (specStep false 8 0 (.insertRange 0 2 (cut [1, 2, 3, 4, 5] 4 5)) (view w)).isSome = true ∧
    cut [1, 2, 3, 4, 5] 1 4 = [2, 3, 4] ∧ cycle (cut [1, 2, 3, 4, 5] 1 2) (4 - 1) = [2, 2, 2] ∧
    cut [1, 2, 3, 4, 5] 4 5 = [5] ∧ cut [1, 2, 3, 4, 5] (4 - (5 - 4)) 4 = [4] := by
  obtain ⟨w, hr, h⟩ := reach_of (ty := exTy) vecRoom (fun A => decide (A 0 = some ⟨[1, 2, 3, 4, 5], 10, 0⟩ ∧
    (specStep false 8 0 (.insertRange 0 2 (cut [1, 2, 3, 4, 5] 2 4)) A).isSome = true ∧
    (specStep false 8 0 (.insertRange 0 2 (cut [1, 2, 3, 4, 5] 1 4)) A).isSome = true ∧
    (specStep false 8 0 (.insertRange 0 2 (cut [1, 2, 3, 4, 5] 4 5)) A).isSome = true)) (by decide +kernel) (by decide +kernel)
  have h := of_decide_eq_true h
  exact ⟨w, hr, h.1, h.2.1, h.2.2.1, h.2.2.2, rfl, rfl, rfl, rfl⟩

end Verif.Props
