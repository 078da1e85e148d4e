import Verif.Proof.VectorWork
import Verif.Props.VectorNeed
/-! # Property C97: the exact work of every vector call -/
namespace Verif.Props
open Verif Verif.Model.Mem Verif.Model.Vector Verif.Proof.Mem Verif.Proof.Vector
open Verif.Spec.Vector hiding upd

variable {α : Type} {ty : ElemTy α}

/-- C97 (partial).  In every reachable state, a permitted call that returns has constructed, destroyed and allocated exactly as much
as `work` says: a function of the sizes, the capacities and the arguments alone.
Missing: the calls excluded by `full = false` (those the code does wrong, see C91). -/
theorem C97_work_partial {w : World α} (hr : Reach ty w) {op : Op α} {r : Res α} {A' : Ideal α}
    (hs : specStep false ty.size ty.dflt op (view w) = some (r, A')) {q : Res α × World α} (he : step ty op w = .ok q) :
    q.2.heap.ctors = w.heap.ctors + (work (view w) op).made ∧
    q.2.heap.dtors = w.heap.dtors + (work (view w) op).ended ∧
    q.2.heap.next = w.heap.next + (work (view w) op).blocks :=
  step_work hr hs he

/-- `push_back` on a full vector of 3 moves its elements and constructs one; on a vector with room it constructs one. -/
example : ∃ w, Reach exTy w ∧ work (view w) (.push 1 (.val 5)) = ⟨4, 3, 1⟩ ∧ work (view w) (.push 0 (.val 5)) = ⟨1, 0, 0⟩ ∧
    work (view w) (.insert 1 1 (.val 5)) = ⟨6, 5, 1⟩ ∧ work (view w) (.eraseRange 0 0 2) = ⟨0, 2, 0⟩ ∧
    (∃ r A, specStep false 8 0 (.push 1 (.val 5)) (view w) = some (r, A)) ∧
    ∃ q, step exTy (.push 1 (.val 5)) w = .ok q := by
  obtain ⟨w, h, h0, h1, _⟩ := exReach
  have e : specStep false 8 0 (.push 1 (.val 5)) (view w) = some (.unit, put (view w) 1 (some ⟨[1, 2, 3, 5], 6, 0⟩)) := by
    simp [specStep, argVal, Spec.Vector.upd, h1, only, inside, afterPush, doubled]
  have h3 : (step exTy (.push 1 (.val 5)) w).Safe _ := reach_step h e
  refine ⟨w, h, ?_, ?_, ?_, rfl, ⟨_, _, e⟩, ?_⟩
  · simp [work, append, room, lenOf, capOf, h1, Work.add_mk]
  · simp [work, append, room, lenOf, capOf, h0, nothing, Work.add_mk]
  · simp [work, room, lenOf, capOf, h1, shift, Work.add_mk]
  · have h4 := step_need (ty := exTy) (.push 1 (.val 5)) (reach_inv h) e
    cases hq : step exTy (.push 1 (.val 5)) w with
    | ok q => exact ⟨q, rfl⟩
    | oom =>
      obtain ⟨m, hm, k, n, hn, hk⟩ := h4 hq
      simp [need, h1, grows, afterPush, doubled] at hm
      simp [exTy] at hn hk
      omega
    | _ => rw [hq] at h3; exact h3.elim

/-- C97 (partial), for histories: the tallies at the end are those at the beginning plus the work of the ideal history. -/
theorem C97_work_run_partial (ops : List (Op α)) {w : World α} (hr : Reach ty w) {rs : List (Res α)} {A : Ideal α}
    (h : specRun false ty.size ty.dflt ops (view w) = some (rs, A)) {q : List (Res α) × World α} (he : run ty ops w = .ok q) :
    q.2.heap.ctors = w.heap.ctors + (workRun ty.size ty.dflt ops (view w)).made ∧
    q.2.heap.dtors = w.heap.dtors + (workRun ty.size ty.dflt ops (view w)).ended ∧
    q.2.heap.next = w.heap.next + (workRun ty.size ty.dflt ops (view w)).blocks := by
  induction ops generalizing w rs q with
  | nil => cases he; exact ⟨rfl, rfl, rfl⟩
  | cons op ops ih =>
    simp only [specRun] at h
    cases hs : specStep false ty.size ty.dflt op (view w) with
    | none => rw [hs] at h; cases h
    | some p =>
      rw [hs] at h
      simp only at h
      cases hq : specRun false ty.size ty.dflt ops p.2 with
      | none => rw [hq] at h; cases h
      | some q' =>
        rw [hq] at h; cases h
        simp only [run] at he
        obtain ⟨b, w1, e1, e2⟩ := bind_inv he
        obtain ⟨c, w2, e3, e4⟩ := bind_inv e2
        cases e4
        have h1 := reach_step hr hs
        rw [e1] at h1
        obtain ⟨-, h2, h3⟩ := h1
        have t1 := step_work hr hs e1
        have t2 := ih h3 (by simp only at h2; rw [h2]; exact hq) e3
        simp only at h2 t1
        rw [h2] at t2
        have t : Tally w.heap w2.heap _ := Tally.trans t1 t2
        simp only [workRun, hs]
        exact t

/-- The history that builds the state of the examples. -/
example : workRun 8 (0 : Nat) exOps (fun _ => none) = ⟨9, 3, 4⟩ := by decide +kernel

/-- C97 (partial): a call other than `from_iter` (which appends one by one) constructs at most twice the elements the vector had plus those it
is asked to add, destroys at most twice the elements the vector had, and allocates at most once. -/
theorem C97_linear_partial {w : World α} (hr : Reach ty w) {op : Op α} {r : Res α} {A' : Ideal α}
    (hs : specStep false ty.size ty.dflt op (view w) = some (r, A')) {q : Res α × World α} (he : step ty op w = .ok q)
    (hf : ∀ i xs, op ≠ .fromIter i xs) :
    q.2.heap.ctors ≤ w.heap.ctors + 2 * had (view w) op + asked (view w) op ∧
    q.2.heap.dtors ≤ w.heap.dtors + 2 * had (view w) op ∧
    q.2.heap.next ≤ w.heap.next + 1 := by
  obtain ⟨h1, h2, h3⟩ := step_work hr hs he
  rw [h1, h2, h3]
  have hb := work_linear hs hf
  omega

end Verif.Props
