import Verif.Proof.LLWork
import Verif.Props.LinkedList
/-! # Property C101: the exact work of every list call -/
namespace Verif.Props.Lists
open Verif Verif.Model.LL Verif.Proof.LL
open Verif.Spec.LL hiding sorted

variable {α : Type} {cfg : Cfg α} {w : World α}

/-- C101 (partial).  In every reachable state, a permitted call that returns has constructed, destroyed and allocated exactly as much
as `work` says: a function of the contents and the arguments alone.
Missing: the calls excluded by `full = false` (those the code does wrong, see C16). -/
theorem C101_work_partial (hr : Reach cfg w) {op : Op α} {r : Res α} {A' : Ideal α}
    (hs : specStep false cfg.dbl cfg.dflt op (view w) = some (r, A')) {q : Res α × World α} (he : step cfg op w = .ok q) :
    q.2.heap.ctors = w.heap.ctors + (work (view w) op).made ∧
    q.2.heap.dtors = w.heap.dtors + (work (view w) op).ended ∧
    q.2.heap.next = w.heap.next + (work (view w) op).nodes :=
  reach_work hr hs he

/-- C101 (partial), for histories: the tallies at the end are those at the beginning plus the work of the ideal history. -/
theorem C101_work_run_partial (ops : List (Op α)) (hr : Reach cfg w) {rs : List (Res α)} {A : Ideal α}
    (hs : specRun false cfg.dbl cfg.dflt ops (view w) = some (rs, A)) {q : List (Res α) × World α} (he : run cfg ops w = .ok q) :
    q.2.heap.ctors = w.heap.ctors + (workRun cfg.dbl cfg.dflt ops (view w)).made ∧
    q.2.heap.dtors = w.heap.dtors + (workRun cfg.dbl cfg.dflt ops (view w)).ended ∧
    q.2.heap.next = w.heap.next + (workRun cfg.dbl cfg.dflt ops (view w)).nodes :=
  reach_workRun ops hr hs he

/-- C101 (partial): a call never constructs more elements than it is asked to add, never destroys more than the list had, and
allocates one node per new element and at most two more: no call copies or moves elements that are already there. -/
theorem C101_linear_partial (hr : Reach cfg w) {op : Op α} {r : Res α} {A' : Ideal α}
    (hs : specStep false cfg.dbl cfg.dflt op (view w) = some (r, A')) {q : Res α × World α} (he : step cfg op w = .ok q) :
    q.2.heap.ctors ≤ w.heap.ctors + asked (view w) op ∧
    q.2.heap.dtors ≤ w.heap.dtors + had (view w) op ∧
    q.2.heap.next ≤ w.heap.next + asked (view w) op + 2 := by
  obtain ⟨h1, h2, h3⟩ := reach_work hr hs he
  obtain ⟨b1, b2, b3⟩ := work_linear hs
  omega

/-- C101 (partial): sorting, merging, splicing and reversing neither construct nor destroy an element nor ask for memory. -/
theorem C101_relinking_partial (hr : Reach cfg w) {op : Op α} {r : Res α} {A' : Ideal α}
    (hs : specStep false cfg.dbl cfg.dflt op (view w) = some (r, A')) {q : Res α × World α} (he : step cfg op w = .ok q)
    (ho : (∃ i less, op = .sort i less) ∨ (∃ i j less, op = .merge i j less) ∨ (∃ i, op = .reverse i) ∨ (∃ i p j, op = .spliceAfter i p j) ∨
      (∃ i p j, op = .splice i p j) ∨ (∃ i j, op = .swap i j) ∨ ∃ i j, op = .newMove i j) :
    q.2.heap.ctors = w.heap.ctors ∧ q.2.heap.dtors = w.heap.dtors ∧ q.2.heap.next = w.heap.next := by
  have h := reach_work hr hs he
  rcases ho with ⟨_, _, rfl⟩ | ⟨_, _, _, rfl⟩ | ⟨_, rfl⟩ | ⟨_, _, _, rfl⟩ | ⟨_, _, _, rfl⟩ | ⟨_, _, rfl⟩ | ⟨_, _, rfl⟩ <;> exact h

/-! ## Examples -/

/-- The calls have work to do in a reachable state, and the specification allows them. -/
example : ∃ w, Reach (exCfg true) w ∧ work (view w) (.copyAssign 0 1) = ⟨2, 4, 4⟩ ∧ work (view w) (.remove 0 (· == ·) (.val 1)) = ⟨0, 2, 0⟩ ∧
    work (view w) (.eraseAfterRange 0 1 4) = ⟨0, 2, 0⟩ ∧ work (view w) (.resize 1 5) = ⟨3, 0, 3⟩ ∧
    (∃ r A, specStep false true 0 (.copyAssign 0 1) (view w) = some (r, A)) ∧
    (∃ r A, specStep false true 0 (.sort 0 fun x y => decide (x < y)) (view w) = some (r, A)) := by
  obtain ⟨w, h, hP⟩ := exReach true
  have h0 : view w 0 = some ⟨some [3, 1, 2, 1], 0⟩ := hP 0 (by decide)
  have h1 : view w 1 = some ⟨some [5, 7], 0⟩ := hP 1 (by decide)
  refine ⟨w, h, ?_, ?_, rfl, ?_, ?_, ?_⟩
  · simp [work, lenOf, h0, h1, Var.elems, lose, build, work_add]
  · simp [work, argVal, h0, Var.elems, lose]
  · simp [work, lenOf, h1, Var.elems, lose, add]
  · simp [specStep, h0, h1]
  · simp [specStep, edit, h0, needs, only]; decide

/-- The history that builds the state of the examples. -/
example : workRun true (0 : Nat) exOps (fun _ => none) = ⟨7, 0, 17⟩ := by decide +kernel

end Verif.Props.Lists
