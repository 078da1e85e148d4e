import Verif.Proof.ResultThrow
import Verif.Props.Result
/-!
# Property C96: results whose payload copies throw

`bad v`: copying the payload `v` throws.  A call answers `none` when it threw; the program goes on afterwards.
-/
namespace Verif.Props
open Verif Verif.Model.Res Verif.Spec.Res

variable {τ ε : Type}

/-- **C96 (partial).**  For every history of calls over any number of results, of which any number may throw: the calls answer what
the specification says.  In particular an exception thrown by construction from a value or an error, by `ok()` or by `err()` reaches
the caller and leaves every result as it was; no undefined behaviour is reached; every payload is destroyed exactly once.
Missing: copy construction and copy assignment end the program, see `C96_copy_throw_fails`. -/
theorem C96_throwing_copies_partial (bad : τ ⊕ ε → Bool) (C : Cfg τ ε) (ops : List (OpT τ ε)) :
    (∀ rs A', specRunT false bad C.mvT C.mvE ops (fun _ => none) = some (.ok (rs, A')) →
      ∃ w', runT bad C ops World.init = .ok (rs, w') ∧ resContent w' = A' ∧
        ∀ i, (w' i).ctor = (w' i).dtor + (if (A' i).isSome then 1 else 0)) ∧
    (specRunT false bad C.mvT C.mvE ops (fun _ => none) = some .panic → runT bad C ops World.init = .panic) := by
  have h := Proof.Res.runT_ok (bad := bad) C ops (fun _ => none) World.init R_init_res
  constructor
  · intro rs A' hs
    rw [hs] at h
    obtain ⟨w', h1, h2⟩ := h
    refine ⟨w', h1, resContent_eq h2, fun i => ?_⟩
    have hi := h2 i
    cases hA : A' i with
    | none => rw [hA] at hi; simp only [Proof.Res.ObjOk] at hi; simp [hi]
    | some o => rw [hA] at hi; simp only [Proof.Res.ObjOk] at hi; simp [hi]
  · intro hs
    rw [hs] at h
    exact h

/-- A history with a throw of every kind that reaches the caller. -/
example : ∃ A, specRunT false (fun v => v == .inl 13 || v == .inr false) (fun _ : Nat => 0) (fun b : Bool => b)
    [.plain (.mkOk 0 13), .okCopy 1 13, .okCopy 1 5, .plain (.ok 0), .plain (.ok 1), .plain (.err 0), .errCopy 2 false,
      .plain (.mkErr 2 false), .plain (.err 2), .plain (.copyCtor 3 1), .plain (.copyAssign 0 1), .plain (.copyAssign 2 2),
      .plain (.unwrap 0), .plain (.destroy 2)] (fun _ => none) =
    some (.ok ([some .unit, none, some .unit, none, some (.optT (some 5)), some (.optE none), none,
      some .unit, none, some .unit, some .unit, some .unit, some (.valT 5), some .unit], A)) := ⟨_, rfl⟩

/-- What separates this from the property is exactly two calls: copy construction from, and copy assignment of another result with, a
payload whose copy throws. -/
theorem C96_restriction (bad : τ ⊕ ε → Bool) (mvT : τ → τ) (mvE : ε → ε) (op : OpT τ ε) (A : Ideal τ ε)
    (h : specStepT false bad mvT mvE op A ≠ specStepT true bad mvT mvE op A) :
    ∃ i j s, A j = some s ∧ bad s = true ∧ i ≠ j ∧
      ((op = .plain (.copyCtor i j) ∧ A i = none) ∨ (op = .plain (.copyAssign i j) ∧ (A i).isSome = true)) := by
  cases op with
  | plain op =>
    cases op with
    | copyCtor i j =>
      simp only [specStepT] at h
      split at h
      next s hi hj =>
        by_cases hb : bad s = true
        · refine ⟨i, j, s, hj, hb, ?_, .inl ⟨rfl, hi⟩⟩
          rintro rfl; rw [hi] at hj; cases hj
        · simp [hb] at h
      · exact (h rfl).elim
    | copyAssign i j =>
      simp only [specStepT] at h
      split at h
      next old s hi hj =>
        by_cases hij : i = j
        · simp [hij] at h
        · by_cases hb : bad s = true
          · exact ⟨i, j, s, hj, hb, hij, .inr ⟨rfl, by simp [hi]⟩⟩
          · simp [hb, hij] at h
      · exact (h rfl).elim
    | _ => exact (h rfl).elim
  | _ => exact (h rfl).elim

/-- **C96 is false as stated**: after any history, copying a result whose payload's copy throws, by construction or by assignment to
another result of either variant, ends the program instead of handing the exception to the caller. -/
theorem C96_copy_throw_fails (bad : τ ⊕ ε → Bool) (C : Cfg τ ε) (ops : List (OpT τ ε)) (rs A)
    (hs : specRunT false bad C.mvT C.mvE ops (fun _ => none) = some (.ok (rs, A)))
    (i j : Nat) (s : τ ⊕ ε) (hne : i ≠ j) (hj : A j = some s) (hb : bad s = true) :
    ∃ w, runT bad C ops World.init = .ok (rs, w) ∧
      (A i = none → stepT bad C (.plain (.copyCtor i j)) w = .panic ∧
        specStepT true bad C.mvT C.mvE (.plain (.copyCtor i j)) A = some (.ok (none, A))) ∧
      ((A i).isSome = true → stepT bad C (.plain (.copyAssign i j)) w = .panic ∧
        specStepT true bad C.mvT C.mvE (.plain (.copyAssign i j)) A = some (.ok (none, A))) := by
  have h := Proof.Res.runT_ok (bad := bad) C ops (fun _ => none) World.init R_init_res
  rw [hs] at h
  obtain ⟨w, h1, hR⟩ := h
  refine ⟨w, h1, fun hi => ⟨?_, by simp [specStepT, hi, hj, hb]⟩, fun hi => ?_⟩
  · exact Proof.Res.stepT_ok C (.plain (.copyCtor i j)) A w hR .panic (by simp [specStepT, hi, hj, hb])
  · obtain ⟨old, hi⟩ := Option.isSome_iff_exists.1 hi
    exact ⟨Proof.Res.stepT_ok C (.plain (.copyAssign i j)) A w hR .panic (by simp [specStepT, hi, hj, hb, hne]),
      by simp [specStepT, hi, hj, hb, hne]⟩

example : ∃ rs A, specRunT false (fun v => v == .inl 13) (fun _ : Nat => 0) (fun b : Bool => b) [.plain (.mkOk 0 13), .plain (.mkErr 1 true)]
    (fun _ => none) = some (.ok (rs, A)) ∧ A 0 = some (.inl 13) ∧ A 1 = some (.inr true) ∧ A 2 = none := ⟨_, _, rfl, rfl, rfl, rfl⟩

end Verif.Props
