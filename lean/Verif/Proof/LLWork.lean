import Verif.Proof.LLReach
/-! # Linked lists: the work of every call and history -/
namespace Verif.Proof.LL
open Verif Verif.Model.LL
open Verif.Spec.LL hiding sorted

variable {α : Type} {cfg : Cfg α}

theorem Did.trans {h h' h'' : Heap α} {k k' : Spec.LL.Work} (d : Did h h' k) (e : Did h' h'' k') : Did h h'' (k + k') := by
  obtain ⟨a1, a2, a3⟩ := d
  obtain ⟨b1, b2, b3⟩ := e
  exact ⟨by rw [b1, a1, Nat.add_assoc]; rfl, by rw [b2, a2, Nat.add_assoc]; rfl, by rw [b3, a3, Nat.add_assoc]; rfl⟩

section
variable {C : Ghost α} {w : World α} {r : Res α} {A' : Ideal α}

theorem reach_work (hr : Reach cfg w) {op : Op α} (hs : specStep false cfg.dbl cfg.dflt op (Spec.LL.view w) = some (r, A'))
    {q : Res α × World α} (he : step cfg op w = .ok q) : Did w.heap q.2.heap (work (Spec.LL.view w) op) := by
  obtain ⟨C, I⟩ := reach_inv hr
  rw [I.view] at hs ⊢
  have := step_done op I hs
  rw [he] at this
  exact this.2

theorem reach_workRun (ops : List (Op α)) (hr : Reach cfg w) {rs : List (Res α)}
    (hs : specRun false cfg.dbl cfg.dflt ops (Spec.LL.view w) = some (rs, A')) {q : List (Res α) × World α} (he : Model.LL.run cfg ops w = .ok q) :
    Did w.heap q.2.heap (workRun cfg.dbl cfg.dflt ops (Spec.LL.view w)) := by
  induction ops generalizing w rs q with
  | nil => cases he; exact ⟨rfl, rfl, rfl⟩
  | cons op ops ih =>
    simp only [specRun] at hs
    cases h1 : specStep false cfg.dbl cfg.dflt op (Spec.LL.view w) with
    | none => rw [h1] at hs; cases hs
    | some p =>
      obtain ⟨r, A1⟩ := p
      rw [h1] at hs
      simp only at hs
      cases h2 : specRun false cfg.dbl cfg.dflt ops A1 with
      | none => rw [h2] at hs; cases hs
      | some p2 =>
        rw [h2] at hs; cases hs
        simp only [Model.LL.run, Prog.bind_run] at he
        have hst := reach_step hr h1
        cases e1 : step cfg op w with
        | ok p1 =>
          rw [e1] at he hst
          simp only [Out.bind_ok] at he
          obtain ⟨-, hv, hr1, -⟩ := hst
          cases e2 : Model.LL.run cfg ops p1.2 with
          | ok p3 =>
            rw [e2] at he
            cases he
            have d2 := ih hr1 (by rw [hv]; exact h2) e2
            rw [hv] at d2
            simp only [workRun, h1]
            exact (reach_work hr h1 e1).trans d2
          | _ => rw [e2] at he; cases he
        | _ => rw [e1] at he; cases he

end

theorem Work.zero_add' (k : Spec.LL.Work) : nothing + k = k := by
  obtain ⟨a, b, c⟩ := k
  rw [nothing, work_add, Nat.zero_add, Nat.zero_add, Nat.zero_add]

theorem Work.add_assoc' (k l m : Spec.LL.Work) : k + l + m = k + (l + m) := by
  obtain ⟨a, b, c⟩ := k
  obtain ⟨a', b', c'⟩ := l
  obtain ⟨a'', b'', c''⟩ := m
  simp only [work_add, Nat.add_assoc]

theorem workRun_append (dbl : Bool) (dflt : α) (ops ops' : List (Op α)) {A A' : Ideal α} {rs : List (Res α)}
    (hs : specRun false dbl dflt ops A = some (rs, A')) :
    workRun dbl dflt (ops ++ ops') A = workRun dbl dflt ops A + workRun dbl dflt ops' A' := by
  induction ops generalizing A rs with
  | nil => cases hs; rw [workRun, Work.zero_add', List.nil_append]
  | cons op ops ih =>
    simp only [specRun] at hs
    cases h1 : specStep false dbl dflt op A with
    | none => rw [h1] at hs; cases hs
    | some p =>
      rw [h1] at hs
      simp only at hs
      cases h2 : specRun false dbl dflt ops p.2 with
      | none => rw [h2] at hs; cases hs
      | some p2 =>
        rw [h2] at hs; cases hs
        simp only [List.cons_append, workRun, h1]
        rw [ih h2, Work.add_assoc']

theorem edit_inv' {A A' : Ideal α} {i : Nat} {r : Res α} {f : List α → Option (Res α × List α)} (h : edit A i f = some (r, A')) :
    ∃ xs own ys, A i = some ⟨some xs, own⟩ ∧ f xs = some (r, ys) := by
  unfold edit at h
  obtain ⟨⟨b, own⟩, h1, h2⟩ := Option.bind_eq_some_iff.1 h
  cases b with
  | none => cases h2
  | some xs =>
    obtain ⟨⟨r', ys⟩, h3, h4⟩ := Option.map_eq_some_iff.1 h2
    cases h4
    exact ⟨xs, own, ys, h1, h3⟩

theorem lenOf_eq {A : Ideal α} {i own : Nat} {xs : List α} (h : A i = some ⟨some xs, own⟩) : lenOf A i = xs.length := by
  simp [lenOf, h, Var.elems]

theorem elems_len (A : Ideal α) (i : Nat) : ((A i).elim [] Var.elems).length = lenOf A i := by
  unfold lenOf
  cases A i <;> rfl

/-- a call constructs no more than it is asked to add and destroys no more than the list had -/
theorem work_linear {dbl : Bool} {dflt : α} {op : Op α} {A A' : Ideal α} {r : Res α} (hs : specStep false dbl dflt op A = some (r, A')) :
    (work A op).made ≤ asked A op ∧ (work A op).ended ≤ had A op ∧ (work A op).nodes ≤ asked A op + 2 := by
  cases op with
  | copyAssign i j =>
    simp only [work, asked, had]
    split
    · simp [nothing]
    · simp [lose, build, work_add]
  | moveAssign i j =>
    simp only [work, asked, had]
    split
    · simp [nothing]
    · simp [lose]
  | listAssign i xs => simp [work, asked, had, lose, add, work_add]
  | eraseAfter i p => simp only [work, asked, had, lose]; split <;> omega
  | eraseAfterRange i lo hi =>
    obtain ⟨xs, own, ys, h1, h2⟩ := edit_inv' hs
    obtain ⟨⟨h3, h4⟩, -⟩ := needs_inv h2
    simp only [work, asked, had, lose, lenOf_eq h1]; omega
  | erase i p =>
    obtain ⟨-, hs⟩ := needs_inv hs
    obtain ⟨xs, own, ys, h1, h2⟩ := edit_inv' hs
    obtain ⟨h3, -⟩ := needs_inv h2
    simp only [work, asked, had, lose, lenOf_eq h1]; split <;> omega
  | eraseRange i lo hi =>
    obtain ⟨-, hs⟩ := needs_inv hs
    obtain ⟨xs, own, ys, h1, h2⟩ := edit_inv' hs
    obtain ⟨⟨h3, h4, h5⟩, -⟩ := needs_inv h2
    simp only [work, asked, had, lose, lenOf_eq h1]; omega
  | popFront i =>
    obtain ⟨xs, own, ys, h1, h2⟩ := edit_inv' hs
    obtain ⟨h3, -⟩ := needs_inv h2
    have := List.length_pos_iff.2 h3
    simp only [work, asked, had, lose, lenOf_eq h1]; omega
  | popBack i =>
    obtain ⟨-, hs⟩ := needs_inv hs
    obtain ⟨xs, own, ys, h1, h2⟩ := edit_inv' hs
    obtain ⟨h3, -⟩ := needs_inv h2
    have := List.length_pos_iff.2 h3
    simp only [work, asked, had, lose, lenOf_eq h1]; omega
  | resize i n => simp only [work, asked, had]; split <;> simp only [lose, add] <;> omega
  | resizeFill i n r => simp only [work, asked, had]; split <;> simp only [lose, add] <;> omega
  | remove i eq r =>
    simp only [work, asked, had, lose]
    have := List.countP_le_length (p := fun y => (argVal A r).elim false fun x => eq x y) (l := (A i).elim [] Var.elems)
    rw [elems_len] at this
    omega
  | removeIf i p =>
    simp only [work, asked, had, lose]
    have := List.countP_le_length (p := p) (l := (A i).elim [] Var.elems)
    rw [elems_len] at this
    omega
  | unique i p => simp only [work, asked, had, lose]; omega
  | _ => simp [work, asked, had, lose, add, build, nothing]

end Verif.Proof.LL
