import Verif.Spec.OptRef
namespace Verif.Proof.OptRef
open Verif Verif.Model.OptRef Verif.Spec.OptRef
open Verif.Model.Opt (refSome refNone refCopy refMoveCtor refMoveAssign refUnwrap refAsRef load store refMap RefWorld)

variable {α : Type}

/-- What a world amounts to. -/
def content (w : World α) : Ideal α :=
  ⟨fun a => if w.objs a then some (w.base.mem a) else none, fun i => if w.opts i then some (w.base.refs i) else none⟩

def Agree {β : Type} (m : Out (β × World α)) (s : Option (Out (β × Ideal α))) : Prop :=
  match s with
  | some (.ok (r, A)) => ∃ w, m = .ok (r, w) ∧ content w = A
  | some .panic => m = .panic
  | none => m = .ub
  | _ => False

theorem step_agree (op : Op α) (w : World α) : Agree (step op w) (specStep (content w) op) := by
  cases op with
  | newObj a v =>
    cases h : w.objs a <;> simp [Agree, step, specStep, content, newObj, h]
    funext k; simp only [put]; by_cases hk : k = a <;> simp [hk]
  | setObj a v =>
    cases h : w.objs a <;> simp [Agree, step, specStep, content, useObj, on, store, h]
    funext k; simp only [put]; by_cases hk : k = a <;> simp [hk, h]
  | endObj a =>
    cases h : w.objs a <;> simp [Agree, step, specStep, content, endObj, h]
    funext k; simp only [put]; by_cases hk : k = a <;> simp [hk]
  | some i a =>
    cases h : w.objs a <;> cases h' : w.opts i <;> simp [Agree, step, specStep, content, useObj, newOpt, on, refSome, h, h']
    funext k; simp only [put]; by_cases hk : k = i <;> simp [hk]
  | none i =>
    cases h' : w.opts i <;> simp [Agree, step, specStep, content, newOpt, on, refNone, h']
    funext k; simp only [put]; by_cases hk : k = i <;> simp [hk]
  | copyCtor i j =>
    cases h : w.opts j <;> cases h' : w.opts i <;> simp [Agree, step, specStep, content, useOpt, newOpt, on, refCopy, h, h']
    funext k; simp only [put]; by_cases hk : k = i <;> simp [hk]
  | copyAssign i j =>
    cases h : w.opts j <;> cases h' : w.opts i <;> simp [Agree, step, specStep, content, useOpt, on, refCopy, h, h']
    funext k; simp only [put]; by_cases hk : k = i <;> simp [hk, h']
  | moveCtor i j =>
    cases h : w.opts j <;> cases h' : w.opts i <;> simp [Agree, step, specStep, content, useOpt, newOpt, on, refMoveCtor, h, h']
    have hij : j ≠ i := by rintro rfl; simp [h] at h'
    funext k; simp only [put]; by_cases hj : k = j <;> by_cases hk : k = i <;> simp_all
  | moveAssign i j =>
    cases h : w.opts j <;> cases h' : w.opts i <;>
      simp [Agree, step, specStep, content, useOpt, on, refMoveAssign, refMoveCtor, h, h']
    by_cases hij : i = j
    · simp [hij, h]
    · simp [hij]
      funext k; simp only [put]; by_cases hj : k = j <;> by_cases hk : k = i <;> simp_all
  | isSome i =>
    cases h : w.opts i <;> simp [Agree, step, specStep, content, useOpt, on, refIsSome, h]
    cases w.base.refs i <;> simp
  | isNone i =>
    cases h : w.opts i <;> simp [Agree, step, specStep, content, useOpt, on, refIsSome, refIsNone, h]
    cases w.base.refs i <;> simp
  | read i =>
    cases h : w.opts i
    · simp [Agree, step, specStep, designated, content, useOpt, h]
    · cases hr : w.base.refs i with
      | none => simp [Agree, step, specStep, designated, content, useOpt, on, refAsRef, h, hr]
      | some a =>
        cases ha : w.objs a <;> simp [Agree, step, specStep, designated, content, useOpt, useObj, on, refAsRef, load, h, hr, ha]
  | write i v =>
    cases h : w.opts i
    · simp [Agree, step, specStep, designated, content, useOpt, h]
    · cases hr : w.base.refs i with
      | none => simp [Agree, step, specStep, designated, content, useOpt, on, refAsRef, h, hr]
      | some a =>
        cases ha : w.objs a <;> simp [Agree, step, specStep, designated, content, useOpt, useObj, on, refAsRef, store, h, hr, ha]
        funext k; simp only [put]; by_cases hk : k = a <;> simp [hk, ha]
  | take i =>
    cases h : w.opts i
    · simp [Agree, step, specStep, designated, content, useOpt, h]
    · cases hr : w.base.refs i with
      | none => simp [Agree, step, specStep, designated, content, useOpt, on, refUnwrap, h, hr]
      | some a =>
        cases ha : w.objs a <;> simp [Agree, step, specStep, designated, content, useOpt, useObj, on, refUnwrap, load, h, hr, ha]
        funext k; simp only [put]; by_cases hk : k = i <;> simp [hk, h]
  | takeWrite i v =>
    cases h : w.opts i
    · simp [Agree, step, specStep, designated, content, useOpt, h]
    · cases hr : w.base.refs i with
      | none => simp [Agree, step, specStep, designated, content, useOpt, on, refUnwrap, h, hr]
      | some a =>
        cases ha : w.objs a <;> simp [Agree, step, specStep, designated, content, useOpt, useObj, on, refUnwrap, store, h, hr, ha]
        constructor
        · funext k; simp only [put]; by_cases hk : k = a <;> simp [hk, ha]
        · funext k; simp only [put]; by_cases hk : k = i <;> simp [hk, h]
  | map i f =>
    cases h : w.opts i
    · simp [Agree, step, specStep, content, useOpt, h]
    · cases hr : w.base.refs i with
      | none => simp [Agree, step, specStep, content, useOpt, useReferent, on, refMap, h, hr]
      | some a =>
        cases ha : w.objs a <;> simp [Agree, step, specStep, content, useOpt, useReferent, useObj, on, refMap, h, hr, ha]
        funext k; simp only [put]; by_cases hk : k = a <;> simp [hk, ha]
  | destroy i =>
    cases h : w.opts i <;> simp [Agree, step, specStep, content, endOpt, h]
    funext k; simp only [put]; by_cases hk : k = i <;> simp [hk]

theorem run_agree (ops : List (Op α)) (w : World α) : Agree (run ops w) (specRun ops (content w)) := by
  induction ops generalizing w with
  | nil => exact ⟨w, rfl, rfl⟩
  | cons op ops ih =>
    have hs := step_agree op w
    simp only [specRun, run, Prog.bind_run]
    revert hs
    rcases specStep (content w) op with _ | o
    · intro hs; simp only [Agree] at hs ⊢; simp [hs]
    · cases o with
      | ok p =>
        obtain ⟨r, A⟩ := p
        rintro ⟨w1, h1, rfl⟩
        have h2 := ih w1
        rw [h1]; simp only [Out.bind_ok]
        revert h2
        rcases specRun ops (content w1) with _ | o
        · intro h2; simp only [Agree] at h2 ⊢; simp [h2]
        · cases o with
          | ok q =>
            rintro ⟨w2, h3, h4⟩
            exact ⟨w2, by simp [h3], h4⟩
          | panic => intro h2; simp only [Agree] at h2 ⊢; simp [h2]
          | _ => intro h2; exact h2.elim
      | panic => intro hs; simp only [Agree] at hs ⊢; simp [hs]
      | _ => intro hs; exact hs.elim

end Verif.Proof.OptRef
