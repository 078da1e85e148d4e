import Verif.Proof.MoveThrow
import Verif.Props.OptThrow
import Verif.Props.ResultThrow
/-!
# Property C112: options and results whose payload moves throw

`badMove v`: moving `v` throws and leaves `half v` in the place it was to be moved from.  `bad v`: copying `v` throws (C86, C96).
A call answers `none` when it threw; the program goes on afterwards.
-/
namespace Verif.Props
open Verif

section
open Verif.Model.Opt Verif.Spec.Opt
variable {α : Type}

/-- **C112, options (partial).**  For every history of calls over any number of options, of which any number may throw because a copy or
a move of a payload throws: the calls answer what the specification says.  In particular an `unwrap()` that throws leaves an option that
still holds what the failed move left; an option is not constructed from a value whose move throws; moving an option with such a value
ends the program; no undefined behaviour is reached; every payload is destroyed exactly once.
Missing: the copy assignment of C86, and `unwrap()` compiled without constructing its result in place (`C112_unelided_fails`). -/
theorem C112_options_partial (bad badMove ret : α → Bool) (part : α → α → α) (half mv : α → α)
    (hret : ∀ v, badMove v = false → ret v = false) (ops : List (OpT α)) :
    (∀ rs A', specRunM bad badMove part half mv ops (fun _ => none) = some (.ok (rs, A')) →
      ∃ w', runM bad badMove ret part half mv ops World.init = .ok (rs, w') ∧ optContent w' = A' ∧
        ∀ i, (w' i).ctor = (w' i).dtor + (match A' i with | some (some _) => 1 | _ => 0)) ∧
    (specRunM bad badMove part half mv ops (fun _ => none) = some .panic →
      runM bad badMove ret part half mv ops World.init = .panic) := by
  have h := Proof.Opt.runM_ok (bad := bad) (badMove := badMove) (ret := ret) (part := part) (half := half) (mv := mv) hret ops
    (fun _ => none) World.init R_init
  constructor
  · intro rs A' hs
    rw [hs] at h
    obtain ⟨w', h1, h2⟩ := h
    refine ⟨w', h1, optContent_eq h2, fun i => ?_⟩
    have hi := h2 i
    cases hA : A' i with
    | none => have := Proof.Opt.objOk_none (hA ▸ hi); simp [this]
    | some o =>
      cases o with
      | none => have := Proof.Opt.objOk_some_none (hA ▸ hi); simp [this]
      | some v => have := Proof.Opt.objOk_some_some (hA ▸ hi); simp [this]
  · intro hs
    rw [hs] at h
    exact h

/-- A history with a throw of every kind: 13 cannot be moved and a failed move leaves 7; 14 cannot be copied. -/
example : ∃ A, specRunM (fun v => decide (v = 14)) (fun v => decide (v = 13)) (fun _ _ => 0) (fun _ => 7) (fun _ => 0)
    [OpT.plain (.mkSome 0 13), .plain (.mkSome 0 5), .plain (.write 0 13), .plain (.unwrap 0), .plain (.unwrap 0), .plain (.isSome 0),
      .plain (.mkSome 1 14), .plain (.copyCtor 2 1), .plain (.moveCtor 2 1), .plain (.moveAssign 0 2), .plain (.unwrap 0),
      .someCopy 3 13, .plain (.moveAssign 3 3), .plain (.destroy 3)] (fun _ => none) =
    some (.ok ([none, some .unit, some .unit, none, some (.val 7), some (.bool false), some .unit, none, some .unit, some .unit,
      some (.val 14), some .unit, some .unit, some .unit], A)) := ⟨_, rfl⟩

/-- And one that ends the program. -/
example : specRunM (fun _ => false) (fun v => decide (v = 13)) (fun _ _ => 0) (fun _ => 7) (fun _ => 0)
    [OpT.someCopy 0 13, .plain (.mkNone 1), .plain (.moveAssign 1 0)] (fun _ => none) = some .panic := rfl

/-- When only moves throw, nothing is left out: every call that is meaningful without exceptions is covered. -/
theorem C112_options_cover (badMove : α → Bool) (part : α → α → α) (half mv : α → α) (op : Op α) (A : Ideal α)
    (h : specStep mv op A = some .panic ∨ ∃ r A', specStep mv op A = some (.ok (r, A'))) :
    specStepM (fun _ => false) badMove part half mv (.plain op) A ≠ none := by
  cases op with
  | mkSome i v =>
    simp only [specStep] at h
    split at h
    · simp [specStepM, *]
    · simp at h
  | unwrap i =>
    simp only [specStep] at h
    simp only [specStepM]
    split at h <;> simp_all
  | moveCtor i j =>
    simp only [specStepM, specStepT]
    simp only [specStep] at h ⊢
    split at h <;> simp_all
    split <;> simp
  | moveAssign i j =>
    have h0 := h
    simp only [specStepM, specStepT]
    simp only [specStep] at h
    split at h
    next hi hj =>
      simp only [hi, hj]
      split
      · simp
      · rcases h0 with h0 | ⟨r, A', h0⟩ <;> simp [h0]
    all_goals simp at h
  | copyCtor i j =>
    simp only [specStep] at h
    simp only [specStepM, specStepT]
    split at h <;> simp_all
  | copyAssign i j =>
    simp only [specStep] at h
    simp only [specStepM, specStepT]
    split at h
    next hi hj =>
      rename_i o
      have : throws (fun _ : α => false) o = false := by cases o <;> rfl
      simp [hi, hj, this]
    all_goals simp at h
  | _ =>
    simp only [specStepM, specStepT]
    rcases h with h | ⟨r, A', h⟩ <;> simp [h]

example : ∃ r A', specStep (fun _ => 0) (.moveAssign 1 0) (fun i => if i = 0 then some (some 13) else some none) = some (.ok (r, A')) :=
  ⟨_, _, rfl⟩

/-- **C112 is false for a compiler that does not construct the result of `unwrap()` in place**: if the second move throws although
the first did not, the exception reaches the caller, the option holds none and the value is gone. -/
theorem C112_unelided_fails (bad badMove ret : α → Bool) (part : α → α → α) (half mv : α → α) (i : Nat) (v : α)
    (hb : badMove v = false) (hr : ret v = true) :
    ∃ w w', runM bad badMove ret part half mv [.plain (.mkSome i v)] World.init = .ok ([some .unit], w) ∧
      optContent w i = some (some v) ∧
      stepM bad badMove ret part half mv (.plain (.unwrap i)) w = .ok (none, w') ∧ optContent w' i = some none := by
  have h := Proof.Opt.stepM_ok (bad := bad) (badMove := badMove) (ret := fun _ => false) (part := part) (half := half) (mv := mv)
    (fun _ _ => rfl) (.plain (.mkSome i v)) (fun _ => none) World.init R_init
    (.ok (some .unit, put (fun _ => none) i (some (some v)))) (by simp [specStepM, hb])
  obtain ⟨w, h1, h2⟩ := h
  have hi := Proof.Opt.objOk_some_some (by have := h2 i; rwa [put, if_pos rfl] at this)
  refine ⟨w, upd w i { w i with cell := none, dtor := (w i).dtor + 1, hold := false }, ?_, ?_, ?_, ?_⟩
  · have h1 : stepM bad badMove ret part half mv (.plain (.mkSome i v)) World.init = .ok (some .unit, w) := h1
    simp [runM, h1]
  · rw [optContent_eq h2]; simp [put]
  · simp [stepM, unwrapM, obj, hi, readVal, hb, moveVal, reset, destroyVal, setHold, modObj, hr]
  · simp [optContent, hi]

end

section
open Verif.Model.Res Verif.Spec.Res
variable {τ ε : Type}

/-- **C112, results (partial).**  For every history of calls over any number of results, of which any number may throw because a copy or
a move of a payload throws: the calls answer what the specification says.  In particular a throwing `unwrap()` or `unwrap_err()` leaves a
result of the same kind that holds what the failed move left; a result is not constructed from a value or an error whose move throws;
moving a result with such a payload ends the program; no undefined behaviour is reached; every payload is destroyed exactly once.
Missing: assignments between different variants, which go wrong without exceptions already (C51). -/
theorem C112_results_partial (bad badMove : τ ⊕ ε → Bool) (halfT : τ → τ) (halfE : ε → ε) (C : Cfg τ ε) (ops : List (OpT τ ε)) :
    (∀ rs A', specRunM bad badMove halfT C.mvT halfE C.mvE ops (fun _ => none) = some (.ok (rs, A')) →
      ∃ w', runM bad badMove halfT halfE C ops World.init = .ok (rs, w') ∧ resContent w' = A' ∧
        ∀ i, (w' i).ctor = (w' i).dtor + (if (A' i).isSome then 1 else 0)) ∧
    (specRunM bad badMove halfT C.mvT halfE C.mvE ops (fun _ => none) = some .panic →
      runM bad badMove halfT halfE C ops World.init = .panic) := by
  have h := Proof.Res.runM_ok (bad := bad) (badMove := badMove) (halfT := halfT) (halfE := halfE) C ops (fun _ => none) World.init R_init_res
  constructor
  · intro rs A' hs
    rw [hs] at h
    obtain ⟨w', h1, h2⟩ := h
    refine ⟨w', h1, resContent_eq h2, fun i => ?_⟩
    have hi := h2 i
    cases hA : A' i with
    | none => rw [hA] at hi; simp only [Proof.Res.ObjOk] at hi; simp [hi]
    | some o => rw [hA] at hi; simp only [Proof.Res.ObjOk] at hi; simp [hi]
  · intro hs
    rw [hs] at h
    exact h

/-- 13 and `false` cannot be moved; a failed move leaves 7 and `true`. -/
example : ∃ A, specRunM (fun v => v == .inl 14) (fun v => v == .inl 13 || v == .inr false) (fun _ : Nat => 7) (fun _ => 0) (fun _ => true)
    (fun b : Bool => b)
    [.plain (.mkOk 0 13), .okCopy 0 13, .plain (.unwrap 0), .plain (.unwrap 0), .plain (.isOk 0), .plain (.mkErr 1 false),
      .errCopy 1 false, .plain (.unwrapErr 1), .plain (.unwrapErr 1), .plain (.mkOk 2 14), .okCopy 3 14, .plain (.moveCtor 3 2),
      .plain (.moveAssign 0 3), .plain (.unwrap 0), .plain (.destroy 1)] (fun _ => none) =
    some (.ok ([none, some .unit, none, some (.valT 7), some (.bool true), none, some .unit, none, some (.valE true), some .unit, none,
      some .unit, some .unit, some (.valT 14), some .unit], A)) := ⟨_, rfl⟩

/-- Moving a result whose payload cannot be moved ends the program, whatever the target holds. -/
example : specRunM (fun _ => false) (fun v => v == .inl 13) (fun _ : Nat => 7) (fun _ => 0) (fun _ => true) (fun b : Bool => b)
    [.okCopy 0 13, .errCopy 1 true, .plain (.moveAssign 1 0)] (fun _ => none) = some .panic := rfl

end

end Verif.Props
