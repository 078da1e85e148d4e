import Verif.Proof.IterState
import Verif.Props.Iter
/-!
# Property C88: function objects with a state of their own in pipelines

`t0` are the states of the objects when the pipeline is built, `one` pushes an element through the stages with every
object in the state its previous call left, `all`, `foldOver`, … treat the elements of the source one after the other
(Spec/IterState.lean).
-/
namespace Verif.Props
open Verif Verif.Model.Iter Verif.Spec.IterState Verif.Proof.IterState
open Verif.Spec.Pipe (quiet)

variable {ω σ α τ ρ : Type}

/-- **C88, partial.** Collecting from any pipeline of maps and filters over any source: each object is called once per
element that reaches it, in order, each call in the state the previous call left.  Missing: filters whose object is in
another state than at first after it accepts an element, see `C88_filter_fails`. -/
theorem C88_collect_partial {β T : Type} (pipe : SPipe ω α β T) (t0 : T) (hr : Resets pipe t0)
    {next : σ → Out (Option α × σ)} {s s' : σ} {xs : List α} (h : Spec.Produces next s xs s') :
    collect (pipe.next (quiet next)) [] (s, t0) = all (one pipe) t0 xs := by
  funext w
  rw [collect_all pipe t0 xs.length xs s t0 [] w (Nat.le_refl _) h (keeps_self pipe t0), oneReset_eq pipe t0 hr]
  simp only [Prog.bind_run, List.nil_append, Prog.pure_run]
  cases all (one pipe) t0 xs w <;> rfl

/-- **C88, terminals, partial.** `fold`, `for_each`, `reduce` and `find` with a function object of their own, in state `u`
at the start, behind any pipeline. -/
theorem C88_terminals_partial {β T : Type} (pipe : SPipe ω α β T) (t0 : T) (hr : Resets pipe t0)
    {next : σ → Out (Option α × σ)} {s s' : σ} {xs : List α} (h : Spec.Produces next s xs s') (u : τ) :
    (∀ (f : τ → ρ → β → Prog ω (ρ × τ)) acc, foldS (pipe.next (quiet next)) f u acc (s, t0) = foldOver (one pipe) f t0 u acc xs) ∧
    (∀ f : τ → β → Prog ω (Unit × τ), forEachS (pipe.next (quiet next)) f u (s, t0) =
      foldOver (one pipe) (fun u _ b => f u b) t0 u () xs) ∧
    (∀ f : τ → β → β → Prog ω (β × τ), reduceS (pipe.next (quiet next)) f u (s, t0) = reduceOver (one pipe) f u t0 xs) ∧
    (∀ p : Fn ω τ β (Bool × β), (findS (pipe.next (quiet next)) p u (s, t0) >>= fun r => return r.1) =
      findOver (one pipe) p t0 u xs) := by
  rw [← oneReset_eq pipe t0 hr]
  have hk := keeps_self pipe t0
  exact ⟨fun f acc => funext fun w => fold_all pipe t0 f _ xs s t0 u acc w (Nat.le_refl _) h hk,
    fun f => funext fun w => forEach_all pipe t0 f _ xs s t0 u w (Nat.le_refl _) h hk,
    fun f => funext fun w => reduce_all pipe t0 f xs s t0 u w h hk,
    fun p => funext fun w => find_all pipe t0 p _ xs s t0 u w (Nat.le_refl _) h hk⟩

/-- What the library does for every pipeline: as above, except that a filter's object is back in its first state after
each element it lets through. -/
theorem C88_collect_resets {β T : Type} (pipe : SPipe ω α β T) (t0 : T) {next : σ → Out (Option α × σ)} {s s' : σ} {xs : List α}
    (h : Spec.Produces next s xs s') :
    collect (pipe.next (quiet next)) [] (s, t0) = all (oneReset pipe t0) t0 xs := by
  funext w
  rw [collect_all pipe t0 xs.length xs s t0 [] w (Nat.le_refl _) h (keeps_self pipe t0)]
  simp only [Prog.bind_run, List.nil_append, Prog.pure_run]
  cases all (oneReset pipe t0) t0 xs w <;> rfl

/-- A filter object that counts its calls and accepts the first `k`: `[n = 0](auto&) mutable { return n++ < k; }`. -/
def firstK (k : Nat) : SPipe ω α α (Unit × Nat) := .filter .source fun n a => return ((decide (n < k), a), n + 1)

theorem one_firstK (k n : Nat) (a : α) (w : ω) :
    one (firstK k) ((), n) a w = .ok ((if decide (n < k) then some a else none, ((), n + 1)), w) := rfl

theorem all_firstK (k : Nat) (xs : List α) (n : Nat) (w : ω) :
    all (one (firstK k)) ((), n) xs w = .ok (xs.take (k - n), w) := by
  induction xs generalizing n with
  | nil => simp [all]
  | cons a as ih =>
    rw [all, Prog.bind_run, one_firstK, Out.bind_ok, Prog.bind_run, ih (n + 1), Out.bind_ok]
    by_cases hn : n < k
    · obtain ⟨m, hm⟩ : ∃ m, k - n = m + 1 := ⟨k - n - 1, by omega⟩
      have hm' : k - (n + 1) = m := by omega
      rw [hm, hm']
      simp [hn]
    · have h0 : k - n = 0 := by omega
      have h1 : k - (n + 1) = 0 := by omega
      rw [h0, h1]
      simp [hn]

theorem oneReset_firstK (k : Nat) (a : α) (w : ω) :
    oneReset (firstK (k + 1)) ((), 0) ((), 0) a w = .ok ((some a, ((), 0)), w) := rfl

theorem all_firstK_reset (k : Nat) (xs : List α) (w : ω) :
    all (oneReset (firstK (k + 1)) ((), 0)) ((), 0) xs w = .ok (xs, w) := by
  induction xs with
  | nil => simp [all]
  | cons a as ih =>
    rw [all, Prog.bind_run, oneReset_firstK, Out.bind_ok, Prog.bind_run, ih, Out.bind_ok]
    rfl

/-- The full property is false of the code: the filter that should accept the first `k` elements lets every element of
every source through, for each `k` but 0. -/
theorem C88_filter_fails (k : Nat) (hk : 0 < k) {next : σ → Out (Option α × σ)} {s s' : σ} {xs : List α}
    (h : Spec.Produces next s xs s') (w : ω) :
    all (one (firstK k)) ((), 0) xs w = .ok (xs.take k, w) ∧
    collect ((firstK k).next (quiet next)) [] (s, ((), 0)) w = .ok (xs, w) := by
  obtain ⟨m, rfl⟩ : ∃ m, k = m + 1 := ⟨k - 1, by omega⟩
  refine ⟨by simpa using all_firstK (m + 1) xs 0 w, ?_⟩
  rw [C88_collect_resets _ _ h]
  exact all_firstK_reset m xs w

/-! ## The hypotheses are met -/

/-- A running sum behind a filter without state. -/
def sums : SPipe Unit Int Int ((Unit × Unit) × Int) :=
  .map (.filter .source fun u a => return ((a != 2, a), u)) fun n a => return (n + a, n + a)

example : Resets sums (((), ()), 0) := ⟨trivial, fun _ _ _ _ _ _ _ => rfl⟩

example : all (one sums) (((), ()), 0) [0, 1, 2, 3] () = .ok ([0, 1, 4], ()) := by decide +kernel

open Verif.Model.Range in
example : collect (sums.next (quiet (Range.next i32Ty))) [] (⟨0, 4⟩, (((), ()), 0)) () = .ok ([0, 1, 4], ()) := by
  rw [C88_collect_partial sums _ ⟨trivial, fun _ _ _ _ _ _ _ => rfl⟩ range4]; decide +kernel

/-- All four elements although two were asked for. -/
example : collect ((firstK 2).next (quiet (Verif.Model.Range.Range.next Verif.Model.Range.i32Ty))) [] (⟨0, 4⟩, ((), 0)) () =
    .ok ([0, 1, 2, 3], ()) := (C88_filter_fails 2 (by decide) range4 ()).2

/-- A filter object with state that does reset itself: every element after one that was dropped. -/
example : Resets (.filter .source (fun b a => return ((b, a), !b)) : SPipe Unit Int Int (Unit × Bool)) ((), false) := by
  refine ⟨trivial, fun u b w c u' w' h => ?_⟩
  cases u <;> cases h
  rfl

end Verif.Props
