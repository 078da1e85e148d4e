import Verif.Props.LinkedList
import Verif.Proof.LLGive
/-! # Moving elements out of lists (C109) -/
namespace Verif.Props
open Verif Verif.Model.LL Verif.Model.LLGive Verif.Proof.LL Verif.Proof.LLGive Verif.Spec.LLGive
open Verif.Spec.LL hiding sorted

namespace Lists

variable {α : Type} {cfg : Cfg α}

/-- **C109.**  Programs that also move elements out of their lists, into values of their own, over other elements, or into the same or another list at
either end, after or before any position: nothing undefined happens, every call gives what the ideal lists give, the lists are the ideal lists,
where the moved element holds its moved-from value and every other element is as it was, and once the lists are gone every element is destroyed
once and all memory returned.  Moving an own element in is not restricted.  Missing: the calls C16 and C17 exclude. -/
theorem C109_give_partial (ops : List (GOp α)) {rs : List (Res α)} {A : Ideal α}
    (h : giveRun false cfg.dbl cfg.dflt cfg.mv ops (fun _ => none) = some (rs, A)) :
    (grun cfg ops {}).SafeIf (Refuses cfg) fun q => q.1 = rs ∧ view q.2 = A ∧
      ((∀ i, A i = none) → (∀ a, q.2.heap.info a = none) ∧ q.2.heap.ctors = q.2.heap.dtors ∧
        q.2.heap.newBytes = q.2.heap.freeBytes) := by
  refine (run_give (C := fun _ => none) ops inv_init h).imp ?_
  rintro ⟨rs', w⟩ ⟨h1, C, I, rfl⟩
  refine ⟨h1, I.view, fun hall => ?_⟩
  have he : ∀ a, w.heap.info a = none := by
    intro a
    by_contra hn
    obtain ⟨i, hi⟩ := I.cover a hn
    have : C i = none := by simpa [ideal] using hall i
    rw [this] at hi
    cases hi
  exact ⟨he, I.bal.empty he⟩

/-- The part of C109 about single calls, without any restriction: in a state reached by any such program, giving an element of a list to the front
of a list, to its end, or into any place of it. -/
theorem C109_calls (ops : List (GOp α)) {rs rs' : List (Res α)} {A : Ideal α} {w : World α}
    (h : giveRun false cfg.dbl cfg.dflt cfg.mv ops (fun _ => none) = some (rs, A)) (hw : grun cfg ops {} = .ok (rs', w))
    {op : GOp α} (hop : ∀ b, op ≠ .base b) {r : Res α} {A' : Ideal α}
    (hs : giveStep true cfg.dbl cfg.dflt cfg.mv op A = some (r, A')) :
    (gstep cfg op w).SafeIf (Refuses cfg) fun q => q.1 = r ∧ view q.2 = A' := by
  have I := run_give (cfg := cfg) (C := fun _ => none) ops inv_init h
  rw [hw] at I
  obtain ⟨-, C, I, rfl⟩ := I
  have hs' : giveStep false cfg.dbl cfg.dflt cfg.mv op (ideal C) = some (r, A') := by
    cases op with
    | base b => exact absurd rfl (hop b)
    | _ => exact hs
  refine (step_give op I hs').imp ?_
  rintro q ⟨h1, C', I', rfl⟩
  exact ⟨h1, I'.view⟩

/-- A history for the example: elements are moved out, to the front and into the middle of the same and of another list, and over another one. -/
def exGive : List (GOp Nat) :=
  [.base (.newRange 0 [1, 2, 3] 0), .base (.newRange 1 [7, 8] 5), .takeOut 0 1, .pushFront 1 0 0, .base (.get 0 1), .insertAfter 1 1 1 2,
   .setMove 0 2 1 2, .pushFront 0 0 2]

example (dbl : Bool) : (giveRun false dbl 0 (fun _ => 0) exGive (fun _ => none)).any (fun p =>
      decide ((p.2 0).map Var.items = some (some [3, 0, 7, 0]) ∧ (p.2 1).map Var.items = some (some [1, 8, 0, 0]))) = true ∧
    (giveRun false dbl 0 (fun _ => 0) (exGive ++ [.base (.drop 0), .base (.drop 1)]) (fun _ => none)).isSome = true := by
  cases dbl <;> decide +kernel

example : (giveRun false true 0 (fun _ => 0) (exGive ++ [.pushBack 0 0 0, .insert 0 2 0 2]) (fun _ => none)).any (fun p =>
      decide ((p.2 0).map Var.items = some (some [0, 7, 0, 0, 0, 3]))) = true := by decide +kernel

end Lists
end Verif.Props
