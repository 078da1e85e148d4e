import Verif.Proof.LLRange
import Verif.Props.LinkedList
/-!
# Property C120: lists given ranges of lists

`Reach cfg w`, `view w`, `SafeIf (Refuses cfg)`: see `Props/LinkedList.lean`.  A position of a list is the number of steps from its head:
1 is `begin()`, the length plus one is `end()`.  `ROp` are the calls of C16 together with the constructor from a range, `insert_after` and
`insert` of a range, where the range lies between two positions of a list `j`, possibly the list inserted into.  `inline A o` is the same
call given the elements that lie in the range as values of the client's own; `rspecStep`, `rspecRun` are the ideal lists of C16 for the
inlined calls.  `chases o`: the range is one of the list inserted into, and the node behind which the new ones are linked lies strictly
inside it, not being its first node.
-/
namespace Verif.Props
open Verif Verif.Model.LL Verif.Proof.LL
open Verif.Spec.LL hiding sorted

namespace Lists

variable {α : Type} {cfg : Cfg α} {w : World α} {o : ROp α} {op : Op α}

/-- C120.  A call given a range of a list does exactly what it does when given copies of the elements, whatever it returns and whatever it
does to the memory, also when the range is one of the list itself: if the call does not chase its own nodes. -/
theorem C120_same (hr : Reach cfg w) (hin : inline (view w) o = some op) (hc : chases o = false)
    (hs : (specStep false cfg.dbl cfg.dflt op (view w)).isSome = true) : rstep cfg o w = step cfg op w := by
  obtain ⟨q, hs⟩ := Option.isSome_iff_exists.1 hs
  obtain ⟨C, I⟩ := reach_inv hr
  rw [I.view] at hin hs
  exact range_step I hin hc hs

/-- C120.  Programs, from any reachable state, whose calls do not chase their own nodes: the results and contents are those of the ideal
lists.  Missing: the calls that chase (`C120_chase_fails`) and those left out in C16. -/
theorem C120_history_partial (hr : Reach cfg w) (os : List (ROp α)) {rs : List (Res α)} {A : Ideal α}
    (h : rspecRun false cfg.dbl cfg.dflt os (view w) = some (rs, A)) :
    (rrun cfg os w).SafeIf (Refuses cfg) fun q => q.1 = rs ∧ view q.2 = A ∧ Reach cfg q.2 := reach_rrun os hr h

/-- C120.  When the allocator never refuses, a call given a range of a list returns exactly if it does not chase its own nodes. -/
theorem C120_returns (hr : Reach cfg w) (hn : ¬ Refuses cfg) (hs : (rspecStep false cfg.dbl cfg.dflt o (view w)).isSome = true) :
    (∃ q, rstep cfg o w = .ok q) ↔ chases o = false := by
  obtain ⟨q, hs⟩ := Option.isSome_iff_exists.1 hs
  obtain ⟨op, h1, h2⟩ := Option.bind_eq_some_iff.1 hs
  obtain ⟨C, I⟩ := reach_inv hr
  cases hc : chases o with
  | false =>
    simp only [iff_true]
    have e : rstep cfg o w = step cfg op w := C120_same hr h1 hc (by rw [h2]; rfl)
    have hk := reach_step hr h2
    rw [e]
    cases he : step cfg op w with
    | ok q => exact ⟨q, rfl⟩
    | oom => rw [he] at hk; exact (hn hk).elim
    | _ => rw [he] at hk; exact hk.elim
  | true =>
    simp only [Bool.true_eq_false, iff_false]
    rintro ⟨q, e⟩
    rw [I.view] at h1 h2
    rcases range_chase I h1 hc h2 with h | ⟨h, -⟩ <;> rw [e] at h <;> cases h

/-- C120 fails.  A call that chases its own nodes copies for ever: it never returns, it only ends if an allocation is refused. -/
theorem C120_chase_fails (hr : Reach cfg w) (hs : (rspecStep false cfg.dbl cfg.dflt o (view w)).isSome = true) (hc : chases o = true) :
    rstep cfg o w = .div ∨ rstep cfg o w = .oom ∧ Refuses cfg := by
  obtain ⟨q, hs⟩ := Option.isSome_iff_exists.1 hs
  obtain ⟨op, h1, h2⟩ := Option.bind_eq_some_iff.1 hs
  obtain ⟨C, I⟩ := reach_inv hr
  rw [I.view] at h1 h2
  exact range_chase I h1 hc h2

/-! ## Examples -/

/-- Calls for the examples: a list doubled by inserting itself behind its head, and behind its last element; a piece inserted behind its own
first element; a piece of another list. -/
def ownRanges : List (ROp Nat) :=
  [.insertAfterRangeIn 0 0 0 1 5, .insertAfterRangeIn 0 8 0 2 4, .insertAfterRangeIn 0 3 0 3 6, .newRangeIn 6 0 2 5 7, .insertAfterRangeIn 1 1 6 1 4,
   .insertAfterRangeIn 2 0 3 1 1, .op (.traverse 0), .op (.traverse 1), .op (.drop 6)]

/-- what the lists 0 and 1 hold afterwards -/
def ownRangesEnd (A : Ideal Nat) : Bool :=
  decide (A 0 = some ⟨some [3, 1, 2, 2, 1, 3, 1, 3, 1, 2, 1, 1, 2], 0⟩) && decide (A 1 = some ⟨some [5, 1, 2, 2, 7], 0⟩)

example (dbl : Bool) : ∃ w, Reach (exCfg dbl) w ∧ ∃ rs A, rspecRun false dbl 0 ownRanges (view w) = some (rs, A) ∧ ownRangesEnd A = true := by
  obtain ⟨w, hr, h⟩ := reach_of (exCfg_ok dbl) exOps (fun (A : Ideal Nat) => (rspecRun false dbl 0 ownRanges A).any fun q => ownRangesEnd q.2)
    (by cases dbl <;> decide +kernel)
  refine ⟨w, hr, ?_⟩
  cases he : rspecRun false dbl 0 ownRanges (view w) with
  | none => rw [he] at h; cases h
  | some q => rw [he] at h; exact ⟨q.1, q.2, rfl, h⟩

example (dbl : Bool) : ∃ w, Reach (exCfg dbl) w ∧ (rspecStep false dbl 0 (.insertAfterRangeIn 0 2 0 1 4) (view w)).isSome = true ∧
    chases (.insertAfterRangeIn 0 2 0 1 4 : ROp Nat) = true ∧ ¬ Refuses (exCfg dbl) := by
  obtain ⟨w, hr, h⟩ := reach_of (exCfg_ok dbl) exOps (fun (A : Ideal Nat) => (rspecStep false dbl 0 (.insertAfterRangeIn 0 2 0 1 4) A).isSome)
    (by cases dbl <;> decide +kernel)
  exact ⟨w, hr, h, rfl, exCfg_ok dbl⟩

example : ∃ w, Reach (exCfg true) w ∧ (rspecStep false true 0 (.insertRangeIn 0 2 0 1 5) (view w)).isSome = true ∧
    chases (.insertRangeIn 0 2 0 1 5 : ROp Nat) = false ∧ (rspecStep false true 0 (.insertRangeIn 0 3 0 1 5) (view w)).isSome = true ∧
    chases (.insertRangeIn 0 3 0 1 5 : ROp Nat) = true := by
  obtain ⟨w, hr, h⟩ := reach_of (exCfg_ok true) exOps (fun (A : Ideal Nat) => (rspecStep false true 0 (.insertRangeIn 0 2 0 1 5) A).isSome &&
    (rspecStep false true 0 (.insertRangeIn 0 3 0 1 5) A).isSome) (by decide +kernel)
  rw [Bool.and_eq_true] at h
  exact ⟨w, hr, h.1, rfl, h.2, rfl⟩

end Lists
end Verif.Props
