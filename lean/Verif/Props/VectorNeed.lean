import Verif.Proof.VectorNeed
import Verif.Props.Vector
/-! # Property C73: a vector fails for lack of memory only when storage it needs is refused -/
namespace Verif.Props
open Verif Verif.Model.Mem Verif.Model.Vector Verif.Proof.Mem Verif.Proof.Vector
open Verif.Spec.Vector hiding upd

variable {α : Type} {ty : ElemTy α}

/-- C73 (partial).  Any allowed call in any reachable state has its ideal effect, unless the allocator refuses: then the call is
one that needs storage, and the refused request is for no more bytes than the elements it needs room for.  (`need` is `none` for
most calls: reading, popping, erasing, moving, swapping, clearing, and everything that fits into the capacity.)
Missing: the calls excluded by `full = false`; what happens after a refusal (`C74_…`). -/
theorem C73_memory_needed_partial {w : World α} (hr : Reach ty w) {op : Op α} {r : Res α} {A' : Ideal α}
    (hs : specStep false ty.size ty.dflt op (view w) = some (r, A')) :
    (step ty op w).SafeIf
      (∃ m, need op (view w) = some m ∧ ∃ k n, n ≤ ty.size * m ∧ ty.refuse k n = true)
      fun q => q.1 = r ∧ view q.2 = A' ∧ Reach ty q.2 := by
  have h1 := reach_step hr hs
  have h2 := step_need op (reach_inv hr) hs
  cases he : step ty op w with
  | ok b => rw [he] at h1; exact h1
  | oom => exact h2 he
  | _ => rw [he] at h1; exact h1.elim

/-- C73 (partial), for histories: with an allocator that grants every request of less than 2^63 bytes, a history none of whose
calls needs that much runs to its end with the ideal results. -/
theorem C73_history_completes_partial (hg : ∀ k n, ty.refuse k n = true → 9223372036854775808 ≤ n) (ops : List (Op α))
    {w : World α} (hr : Reach ty w) {rs : List (Res α)} {A : Ideal α}
    (h : specRun false ty.size ty.dflt ops (view w) = some (rs, A))
    (hm : modest ty.size ty.dflt 9223372036854775808 ops (view w)) :
    ∃ w', run ty ops w = .ok (rs, w') ∧ view w' = A ∧ Reach ty w' := by
  induction ops generalizing w rs with
  | nil => cases h; exact ⟨w, rfl, rfl, hr⟩
  | cons op ops ih =>
    simp only [specRun] at h
    cases hs : specStep false ty.size ty.dflt op (view w) with
    | none => rw [hs] at h; cases h
    | some p =>
      rw [hs] at h
      simp only at h
      cases hq : specRun false ty.size ty.dflt ops p.2 with
      | none => rw [hq] at h; cases h
      | some q =>
        rw [hq] at h
        cases h
        obtain ⟨b, e, h1, h2, h3⟩ := (C73_memory_needed_partial hr hs).ok_of (by
          rintro ⟨m, g1, k, n, g2, g3⟩
          have := hm.1 m g1; have := hg k n g3; omega)
        obtain ⟨w', e', h4, h5⟩ := ih h3 (by rw [h2]; exact hq) (by rw [h2]; exact hm.2 _ _ hs)
        refine ⟨w', ?_, h4, h5⟩
        simp only [run, Prog.bind_run, e, Out.bind_ok, e', Prog.pure_run, h1]

/-- `push_back` needs storage exactly when the vector is full; erasing never does. -/
example : ∃ w, Reach exTy w ∧ need (.push 0 (.val 5)) (view w) = none ∧ need (.push 1 (.val 5)) (view w) = some 6 ∧
    need (.erase 1 0) (view w) = none ∧ need (.reserve 0 10) (view w) = some 10 ∧ need (.copyAssign 1 0) (view w) = some 4 := by
  obtain ⟨w, h, h0, h1, _⟩ := exReach
  refine ⟨w, h, ?_, ?_, rfl, ?_, ?_⟩ <;> simp [need, h0, h1, grows, afterPush, doubled]

/-- A history that completes. -/
example : ∃ w, Reach exTy w ∧ ∃ rs A, specRun false 8 0 [.push 1 (.val 5), .reserve 0 10] (view w) = some (rs, A) ∧
    modest 8 0 9223372036854775808 [.push 1 (.val 5), .reserve 0 10] (view w) := by
  obtain ⟨w, h, h0, h1, _⟩ := exReach
  have e1 : specStep false 8 0 (.push 1 (.val 5)) (view w) = some (.unit, put (view w) 1 (some ⟨[1, 2, 3, 5], 6, 0⟩)) := by
    simp [specStep, argVal, Spec.Vector.upd, h1, only, inside, afterPush, doubled]
  have e2 : specStep false 8 0 (.reserve 0 10) (put (view w) 1 (some ⟨[1, 2, 3, 5], 6, 0⟩)) =
      some (.unit, put (put (view w) 1 (some ⟨[1, 2, 3, 5], 6, 0⟩)) 0 (some ⟨[1, 2, 3], 10, 0⟩)) := by
    simp [specStep, Spec.Vector.upd, put, h0, only, wordSize]
  refine ⟨w, h, [.unit, .unit], _, by simp only [specRun, e1, e2]; rfl, ?_⟩
  constructor
  · simp [need, h1, grows, afterPush, doubled]
  · intro r A' he
    rw [e1] at he
    cases he
    refine ⟨?_, fun _ _ _ => trivial⟩
    simp [need, put, h0, grows]

end Verif.Props
