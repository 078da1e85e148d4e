import Verif.Proof.LLNeed
import Verif.Props.LinkedList
/-! # Property C76: how much memory list calls ask for -/
namespace Verif.Props.Lists
open Verif Verif.Model.LL Verif.Proof.LL
open Verif.Spec.LL hiding sorted

variable {α : Type} {cfg : Cfg α} {w : World α}

/-- C76 (partial).  Any allowed call in any reachable state makes exactly `nodesFor` requests to the allocator: two and one per
element for a new list, one for each element added, none for anything else.  It has its ideal effect unless one of
these requests is refused.  If it returns, none of them was refused.
Missing: the calls excluded by `full = false`; `C77_…` says what happens after a refusal. -/
theorem C76_nodes_needed_partial (hr : Reach cfg w) {op : Op α} {r : Res α} {A' : Ideal α}
    (hs : specStep false cfg.dbl cfg.dflt op (view w) = some (r, A')) :
    (step cfg op w).SafeIf (Refused cfg w.heap.next (nodesFor (view w) op)) fun q =>
      q.1 = r ∧ view q.2 = A' ∧ Reach cfg q.2 ∧ q.2.heap.next = w.heap.next + nodesFor (view w) op ∧
      ∀ k, w.heap.next ≤ k → k < w.heap.next + nodesFor (view w) op →
        cfg.refuse k cfg.vsize = false ∨ cfg.refuse k cfg.dsize = false := by
  obtain ⟨C, I⟩ := reach_inv hr
  have h1 := reach_step hr hs
  have h2 : Asks cfg op w (nodesFor (view w) op) := by
    rw [I.view] at hs ⊢
    exact asks_ok op I hs
  cases he : step cfg op w with
  | ok b =>
    rw [he] at h1
    exact ⟨h1.1, h1.2.1, h1.2.2.1, h2.1 b he⟩
  | oom => exact h2.2 he
  | _ => rw [he] at h1; exact h1.elim

/-- C76: reading, erasing, popping, clearing, moving, swapping, sorting, merging, splicing, reversing, removing and destroying
never ask for memory, whatever the state and the allocator. -/
theorem C76_no_memory (w : World α) {op : Op α} (h : mayGrow op = false) :
    step cfg op w ≠ .oom ∧ ∀ r w', step cfg op w = .ok (r, w') → w'.heap.next = w.heap.next :=
  step_nomem op h w

/-- C76 (partial), for histories: if the allocator grants every request, an allowed history runs to its end. -/
theorem C76_history_completes_partial (hg : ∀ k, cfg.refuse k cfg.vsize = false ∧ cfg.refuse k cfg.dsize = false) (ops : List (Op α))
    (hr : Reach cfg w) {rs : List (Res α)} {A : Ideal α} (h : specRun false cfg.dbl cfg.dflt ops (view w) = some (rs, A)) :
    ∃ w', run cfg ops w = .ok (rs, w') ∧ view w' = A ∧ Reach cfg w' := by
  induction ops generalizing w rs with
  | nil => cases h; exact ⟨w, rfl, rfl, hr⟩
  | cons op ops ih =>
    simp only [specRun] at h
    cases hs : specStep false cfg.dbl cfg.dflt op (view w) with
    | none => rw [hs] at h; cases h
    | some p =>
      rw [hs] at h
      simp only at h
      cases hq : specRun false cfg.dbl cfg.dflt ops p.2 with
      | none => rw [hq] at h; cases h
      | some q =>
        rw [hq] at h
        cases h
        obtain ⟨b, e, h1, h2, h3, -⟩ := (C76_nodes_needed_partial hr hs).ok_of (by
          rintro ⟨k, -, -, g⟩
          have := hg k
          simp [this.1, this.2] at g)
        obtain ⟨w', e', h4, h5⟩ := ih h3 (by rw [h2]; exact hq)
        refine ⟨w', ?_, h4, h5⟩
        simp only [run, Prog.bind_run, e, Out.bind_ok, e', Prog.pure_run, h1]

/-- What some calls need in the example state: list 0 holds four elements, list 1 two. -/
example (dbl : Bool) : ∃ w, Reach (exCfg dbl) w ∧ nodesFor (view w) (.newCopy 6 0) = 6 ∧ nodesFor (view w) (.copyAssign 1 0) = 6 ∧
    nodesFor (view w) (.resize 1 5) = 3 ∧ nodesFor (view w) (.resize 0 2) = 0 ∧ nodesFor (view w) (.sort 0 fun a b => a < b) = 0 := by
  obtain ⟨w, h, hP⟩ := exReach dbl
  have h0 := hP 0 (by decide)
  have h1 := hP 1 (by decide)
  refine ⟨w, h, ?_, ?_, ?_, ?_, rfl⟩ <;> simp [nodesFor, count, contents, h0, h1, exView]

/-- An allocator that refuses only the sixth request: a list of four elements fails, one of three elements does not, and
sorting it afterwards works. -/
def exTight (dbl : Bool) : Cfg Nat := { exCfg dbl with refuse := fun k _ => k == 5 }

example (dbl : Bool) : ∃ w, Reach (exTight dbl) w ∧ view w 0 = some ⟨some [4, 2, 3], 0⟩ ∧
    (step (exTight dbl) (.pushFront 0 (.val 9)) w = .oom) ∧
    Refused (exTight dbl) w.heap.next (nodesFor (view w) (.pushFront 0 (.val 9))) := by
  have h0 : Reach (exTight dbl) ({} : World Nat) := ⟨[], [], _, [], rfl, rfl⟩
  have hv : view ({} : World Nat) = fun _ => none := rfl
  obtain ⟨q, e, h1, h2, h3, h4, -⟩ := (C76_nodes_needed_partial (op := .newRange 0 [4, 2, 3] 0) h0 (r := .unit)
    (A' := put (fun _ => none) 0 (some ⟨some [4, 2, 3], 0⟩)) (by rw [hv]; rfl)).ok_of (by
      rintro ⟨k, -, h, h'⟩
      have hk : k < 5 := h
      simp [exTight] at h'
      omega)
  have hn : q.2.heap.next = 5 := h4
  have hv' : view q.2 0 = some ⟨some [4, 2, 3], 0⟩ := by rw [h2]; rfl
  have hR : Refused (exTight dbl) q.2.heap.next (nodesFor (view q.2) (.pushFront 0 (.val 9))) :=
    ⟨5, by omega, by rw [hn]; exact Nat.lt_succ_self 5, .inl rfl⟩
  refine ⟨q.2, h3, hv', ?_, hR⟩
  have hs : specStep false (exTight dbl).dbl (exTight dbl).dflt (.pushFront 0 (.val 9)) (view q.2) =
      some (.unit, put (view q.2) 0 (some ⟨some [9, 4, 2, 3], 0⟩)) := by
    simp [specStep, argVal, edit, hv']
  have := C76_nodes_needed_partial h3 hs
  cases he : step (exTight dbl) (.pushFront 0 (.val 9)) q.2 with
  | oom => rfl
  | ok b =>
    rw [he] at this
    have := this.2.2.2.2 5 (by omega) (by rw [hn]; exact Nat.lt_succ_self 5)
    simp [exTight] at this
  | _ => rw [he] at this; exact this.elim

end Verif.Props.Lists
