import Verif.Proof.OptThrow
import Verif.Props.Opt
/-!
# Property C86: options whose payload copies throw

`bad v`: copying `v` throws.  `part u v`: what a failed assignment of `v` leaves in a payload `u`.  A call answers `none` when it
threw; the program goes on afterwards.
-/
namespace Verif.Props
open Verif Verif.Model.Opt Verif.Spec.Opt

variable {α : Type}

/-- **C86 (partial).**  For every history of calls over any number of options, of which any number may throw: the calls answer what
the specification says, in particular a call that throws leaves every option as it was (a failed assignment to a held value leaves
a held value), no undefined behaviour is reached, and every payload is destroyed exactly once.
Missing: assigning a value whose copy throws to an option that holds none, see `C86_assign_throw_fails`. -/
theorem C86_throwing_copies_partial (bad : α → Bool) (part : α → α → α) (mv : α → α) (ops : List (OpT α)) :
    (∀ rs A', specRunT false bad part mv ops (fun _ => none) = some (.ok (rs, A')) →
      ∃ w', runT bad part mv ops World.init = .ok (rs, w') ∧ optContent w' = A' ∧
        ∀ i, (w' i).ctor = (w' i).dtor + (match A' i with | some (some _) => 1 | _ => 0)) ∧
    (specRunT false bad part mv ops (fun _ => none) = some .panic → runT bad part mv ops World.init = .panic) := by
  have h := Proof.Opt.runT_ok (bad := bad) (part := part) (mv := mv) ops (fun _ => none) World.init R_init
  constructor
  · intro rs A' hs
    rw [hs] at h
    obtain ⟨w', h1, h2⟩ := h
    refine ⟨w', h1, optContent_eq h2, fun i => ?_⟩
    have hi := h2 i
    cases hA : A' i with
    | none => have := Proof.Opt.objOk_none (hA ▸ hi); simp [this]
    | some o =>
      cases o with
      | none => have := Proof.Opt.objOk_some_none (hA ▸ hi); simp [this]
      | some v => have := Proof.Opt.objOk_some_some (hA ▸ hi); simp [this]
  · intro hs
    rw [hs] at h
    exact h

/-- A history with a throw of every kind. -/
example : ∃ A, specRunT false (fun v => decide (v = 13)) (fun _ _ => 0) (fun _ => 0)
    [OpT.plain (.mkSome 0 13), .someCopy 1 13, .someCopy 1 5, .plain (.copyCtor 2 0), .plain (.copyAssign 1 0), .plain (.read 1),
      .map (fun _ => (none, 7)) 1, .plain (.unwrap 1), .plain (.copyAssign 0 0), .plain (.moveAssign 1 0), .plain (.destroy 0),
      .plain (.destroy 1)] (fun _ => none) =
    some (.ok ([some .unit, none, some .unit, none, none, some (.val 0), none, some (.val 7), some .unit, some .unit, some .unit,
      some .unit], A)) := ⟨_, rfl⟩

/-- What the restriction leaves out is exactly one call: the assignment of a value whose copy throws to an option that holds none. -/
theorem C86_restriction (bad : α → Bool) (part : α → α → α) (mv : α → α) (op : OpT α) (A : Ideal α)
    (h : specStepT false bad part mv op A ≠ specStepT true bad part mv op A) :
    ∃ i j v, op = .plain (.copyAssign i j) ∧ i ≠ j ∧ A i = some none ∧ A j = some (some v) ∧ bad v = true := by
  cases op with
  | plain op =>
    cases op with
    | copyAssign i j =>
      simp only [specStepT] at h
      split at h
      next old o hi hj =>
        by_cases hc : i = j ∨ throws bad o = false
        · simp [hc] at h
        · rw [if_neg hc, if_neg hc] at h
          rw [not_or] at hc
          cases o with
          | none => exact (hc.2 rfl).elim
          | some v =>
            cases old with
            | none => exact ⟨i, j, v, rfl, hc.1, hi, hj, by simpa [throws] using hc.2⟩
            | some u => exact (h rfl).elim
      · exact (h rfl).elim
    | _ => exact (h rfl).elim
  | _ => exact (h rfl).elim

/-- **C86 is false as stated**: after any history, assigning a value whose copy throws to an option that holds none leaves an
option that claims to hold a value; reading, unwrapping, assigning or destroying it is undefined. -/
theorem C86_assign_throw_fails (bad : α → Bool) (part : α → α → α) (mv : α → α) (ops : List (OpT α)) (rs A)
    (hs : specRunT false bad part mv ops (fun _ => none) = some (.ok (rs, A)))
    (i j : Nat) (v : α) (hne : i ≠ j) (hi : A i = some none) (hj : A j = some (some v)) (hb : bad v = true) :
    ∃ w w', runT bad part mv ops World.init = .ok (rs, w) ∧ stepT bad part mv (.plain (.copyAssign i j)) w = .ok (none, w') ∧
      stepT bad part mv (.plain (.isSome i)) w' = .ok (some (.bool true), w') ∧
      stepT bad part mv (.plain (.read i)) w' = .ub ∧ stepT bad part mv (.plain (.unwrap i)) w' = .ub ∧
      (∀ x, stepT bad part mv (.plain (.write i x)) w' = .ub) ∧ stepT bad part mv (.plain (.destroy i)) w' = .ub := by
  have h := Proof.Opt.runT_ok (bad := bad) (part := part) (mv := mv) ops (fun _ => none) World.init R_init
  rw [hs] at h
  obtain ⟨w, h1, hR⟩ := h
  have h2 := Proof.Opt.objOk_some_none (hi ▸ hR i)
  have h3 := Proof.Opt.objOk_some_some (hj ▸ hR j)
  refine ⟨w, upd w i { w i with hold := true }, h1, ?_⟩
  have hji : j ≠ i := fun e => hne e.symm
  simp [stepT, copyAssignT, obj, h2, h3, hne, setHold, modObj, readVal, upd, hji, hb, step, isSome, asRefRead, unwrap,
    unwrapUnchecked, moveVal, asRefWrite, assignVal, destroy, destroyVal]

example : ∃ rs A, specRunT false (fun v : Nat => decide (v = 13)) (fun _ _ => 0) (fun _ => 0) [.plain (.mkNone 0), .plain (.mkSome 1 13)]
    (fun _ => none) = some (.ok (rs, A)) ∧ A 0 = some none ∧ A 1 = some (some 13) := ⟨_, _, rfl, rfl, rfl⟩

end Verif.Props
