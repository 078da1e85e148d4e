import Verif.Proof.OptRef
/-! # Property C49 over histories: optional references -/
namespace Verif.Props
open Verif Verif.Model.OptRef Verif.Spec.OptRef

variable {α : Type}

/-- The client's objects and what its options designate. -/
def optRefContent (w : World α) : Ideal α :=
  ⟨fun a => if w.objs a then some (w.base.mem a) else none, fun i => if w.opts i then some (w.base.refs i) else none⟩

/-- **C49, histories.**  For every history of a client over any number of objects and `Option<T&>` variables, whatever was in
storage before: the calls answer exactly as ideal variables that designate an object or none do, panic exactly when a reference
is taken from none, and are undefined exactly where the client uses an object or option that does not exist (or constructs one
that does). -/
theorem C49_histories (mem : Nat → α) (refs : Nat → Option Nat) (ops : List (Op α)) :
    match specRun ops ⟨fun _ => none, fun _ => none⟩ with
    | some (.ok (rs, A)) => ∃ w, run ops (World.init mem refs) = .ok (rs, w) ∧ optRefContent w = A
    | some .panic => run ops (World.init mem refs) = .panic
    | none => run ops (World.init mem refs) = .ub
    | _ => False := by
  have h := Proof.OptRef.run_agree ops (World.init mem refs)
  have e : Proof.OptRef.content (World.init mem refs) = (⟨fun _ => none, fun _ => none⟩ : Ideal α) := by
    simp [Proof.OptRef.content, World.init]
  rw [e] at h
  revert h
  rcases specRun ops (⟨fun _ => none, fun _ => none⟩ : Ideal α) with _ | o
  · exact id
  · cases o <;> exact id

/-- Writes through one option are read through its copy and in the object; moving leaves none behind and keeps the target's
object; unwrap leaves none; map passes the object and keeps the option; assigning re-seats without touching objects. -/
example : ∃ A, specRun
    [.newObj 7 1, .newObj 8 2, .some 0 7, .copyCtor 1 0, .write 0 5, .read 1, .none 2, .isNone 2, .moveAssign 2 0, .isSome 0,
      .read 2, .some 3 8, .copyAssign 1 3, .read 1, .read 2, .takeWrite 1 6, .isNone 1, .read 3, .map 3 (fun v => (v + 1, v * 2)),
      .read 3, .map 1 (fun v => (v, v)), .moveAssign 3 3, .take 3, .destroy 3, .endObj 7]
    (⟨fun _ => none, fun _ => none⟩ : Ideal Nat) =
    some (.ok ([.unit, .unit, .unit, .unit, .unit, .val 5, .unit, .bool true, .unit, .bool false,
      .val 5, .unit, .unit, .val 2, .val 5, .unit, .bool true, .val 6, .opt (some 7),
      .val 12, .opt none, .unit, .val 12, .unit, .unit], A)) := ⟨_, rfl⟩

/-- Reading from none panics; reading through an option that outlived its object is undefined. -/
example : specRun [.none 0, .read 0] (⟨fun _ => none, fun _ => none⟩ : Ideal Nat) = some .panic := rfl
example : specRun [.newObj 7 1, .some 0 7, .endObj 7, .read 0] (⟨fun _ => none, fun _ => none⟩ : Ideal Nat) = none := rfl

/-- What a client sees after any history, without reference to the ideal variables: the last answers of `ops ++ …`. -/
def lastOf (x : Out (List (Ret α) × World α)) (r : Ret α) : Prop :=
  match x with
  | .ok (rs, _) => rs.getLast? = some r
  | _ => True

private theorem run_append (ops more : List (Op α)) (w : World α) :
    run (ops ++ more) w = (run ops w >>= fun p => run more p.2 >>= fun q => .ok (p.1 ++ q.1, q.2)) := by
  induction ops generalizing w with
  | nil =>
    simp only [List.nil_append, run, Prog.pure_run, Out.bind_ok]
    cases run more w <;> simp
  | cons op ops ih =>
    simp only [List.cons_append, run, Prog.bind_run]
    cases h : step op w with
    | ok p =>
      simp only [Out.bind_ok, ih]
      cases run ops p.2 with
      | ok q =>
        simp only [Out.bind_ok, Prog.pure_run]
        cases run more q.2 <;> simp
      | _ => simp
    | _ => simp

/-- **C49, after any history.**  Whatever calls came before, provided the following calls return: a value written through an
option is read through a copy of it; an option that was moved from by construction (or by assignment to another option) is none
and one that was unwrapped is none; the moved-to option designates the object the source designated. -/
theorem C49_after_any_history (mem : Nat → α) (refs : Nat → Option Nat) (ops : List (Op α)) (i j : Nat) (v : α) :
    lastOf (run (ops ++ [.copyCtor j i, .write i v, .read j]) (World.init mem refs)) (.val v) ∧
    lastOf (run (ops ++ [.copyAssign j i, .write j v, .read i]) (World.init mem refs)) (.val v) ∧
    lastOf (run (ops ++ [.moveCtor j i, .isNone i]) (World.init mem refs)) (.bool true) ∧
    (j ≠ i → lastOf (run (ops ++ [.moveAssign j i, .isNone i]) (World.init mem refs)) (.bool true)) ∧
    (j ≠ i → lastOf (run (ops ++ [.write i v, .moveAssign j i, .read j]) (World.init mem refs)) (.val v)) ∧
    lastOf (run (ops ++ [.take i, .isNone i]) (World.init mem refs)) (.bool true) ∧
    lastOf (run (ops ++ [.takeWrite i v, .isSome i]) (World.init mem refs)) (.bool false) := by
  have key : ∀ (more : List (Op α)) (r : Ret α), (∀ w, lastOf (run more w) r) →
      lastOf (run (ops ++ more) (World.init mem refs)) r := by
    intro more r h
    rw [run_append]
    cases run ops (World.init mem refs) with
    | ok p =>
      have h := h p.2
      simp only [Out.bind_ok]
      cases hm : run more p.2 with
      | ok q =>
        rw [hm] at h
        simp only [lastOf] at h
        simp only [Out.bind_ok, lastOf]
        rw [List.getLast?_append, h]; rfl
      | _ => simp [lastOf]
    | _ => simp [lastOf]
  have viaSpec : ∀ (more : List (Op α)) (r : Ret α) (w : World α),
      (∀ A : Ideal α, ∀ rs A', specRun more A = some (.ok (rs, A')) → rs.getLast? = some r) → lastOf (run more w) r := by
    intro more r w h
    have ha := Proof.OptRef.run_agree more w
    have h := h (Proof.OptRef.content w)
    revert ha h
    rcases specRun more (Proof.OptRef.content w) with _ | o
    · intro ha _; simp only [Proof.OptRef.Agree] at ha; rw [ha]; trivial
    · cases o with
      | ok p => rintro ⟨w', h1, _⟩ h; rw [h1]; exact h p.1 p.2 rfl
      | panic => intro ha _; simp only [Proof.OptRef.Agree] at ha; rw [ha]; trivial
      | _ => intro ha; exact ha.elim
  refine ⟨key _ _ fun w => viaSpec _ _ _ ?_, key _ _ fun w => viaSpec _ _ _ ?_, key _ _ fun w => viaSpec _ _ _ ?_,
    fun hji => key _ _ fun w => viaSpec _ _ _ ?_, fun hji => key _ _ fun w => viaSpec _ _ _ ?_,
    key _ _ fun w => viaSpec _ _ _ ?_, key _ _ fun w => viaSpec _ _ _ ?_⟩ <;> intro A rs A' h
  · rcases hi : A.var i with _ | _ | a <;> rcases hj : A.var j with _ | o <;>
      simp [specRun, specStep, designated, put, hi, hj] at h
    by_cases e : i = j
    · simp [e, hj] at hi
    · cases ha : A.obj a <;> simp [specRun, specStep, designated, put, hi, hj, e, ha] at h
      simp [← h.1]
  · rcases hi : A.var i with _ | _ | a <;> rcases hj : A.var j with _ | o <;>
      simp [specRun, specStep, designated, put, hi, hj] at h
    cases ha : A.obj a <;> by_cases e : i = j <;> simp [specRun, specStep, designated, put, hi, hj, e, ha] at h
    all_goals simp [← h.1]
  · rcases hi : A.var i with _ | _ | a <;> rcases hj : A.var j with _ | o <;>
      simp [specRun, specStep, designated, put, hi, hj] at h
    all_goals simp [← h.1]
  · rcases hi : A.var i with _ | _ | a <;> rcases hj : A.var j with _ | o <;>
      simp [specRun, specStep, designated, put, hi, hj, hji] at h
    all_goals simp [← h.1]
  · rcases hi : A.var i with _ | _ | a <;> rcases hj : A.var j with _ | o <;>
      simp [specRun, specStep, designated, put, hi, hj, hji] at h
    all_goals (cases ha : A.obj a <;> simp [specRun, specStep, designated, put, hi, hj, hji, ha] at h)
    simp [← h.1]
  · rcases hi : A.var i with _ | _ | a <;> simp [specRun, specStep, designated, put, hi] at h
    cases ha : A.obj a <;> simp [specRun, specStep, designated, put, hi, ha] at h
    simp [← h.1]
  · rcases hi : A.var i with _ | _ | a <;> simp [specRun, specStep, designated, put, hi] at h
    cases ha : A.obj a <;> simp [specRun, specStep, designated, put, hi, ha] at h
    simp [← h.1]

/-- Such calls do return, in states some history reaches. -/
example : ∃ w, run ([.newObj 7 1, .some 0 7] ++ [.copyCtor 1 0, .write 0 9, .read 1] : List (Op Nat))
    (World.init (fun _ => 0) fun _ => none) = .ok ([.unit, .unit, .unit, .unit, .val 9], w) := by
  obtain ⟨w, h, _⟩ := C49_histories (fun _ => 0) (fun _ => none)
    ([.newObj 7 1, .some 0 7] ++ [.copyCtor 1 0, .write 0 9, .read 1] : List (Op Nat))
  exact ⟨w, h⟩
example : ∃ w, run ([.newObj 7 1, .some 0 7, .none 1] ++ [.write 0 9, .moveAssign 1 0, .read 1] : List (Op Nat))
    (World.init (fun _ => 0) fun _ => none) = .ok ([.unit, .unit, .unit, .unit, .unit, .val 9], w) := by
  obtain ⟨w, h, _⟩ := C49_histories (fun _ => 0) (fun _ => none)
    ([.newObj 7 1, .some 0 7, .none 1] ++ [.write 0 9, .moveAssign 1 0, .read 1] : List (Op Nat))
  exact ⟨w, h⟩

end Verif.Props
