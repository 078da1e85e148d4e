import Verif.Proof.Result
/-! # Properties C50-C52: Result -/
namespace Verif.Props
open Verif Verif.Model.Res Verif.Spec.Res

variable {τ ε : Type}

/-- What an observer sees of result object `i`: nothing if it does not exist, otherwise the live payload, provided
the reported variant agrees with it. -/
def resContent (w : World τ ε) (i : Nat) : Option (τ ⊕ ε) :=
  if (w i).alive then
    match (w i).cell with
    | some s => if (w i).ok = s.isLeft then some s else none
    | none => none
  else none

theorem resContent_eq {A : Ideal τ ε} {w : World τ ε} (h : Proof.Res.R A w) : resContent w = A := by
  funext i
  have hi := h i
  unfold resContent
  cases hA : A i with
  | none => rw [hA] at hi; simp only [Proof.Res.ObjOk] at hi; simp [hi]
  | some s => rw [hA] at hi; simp only [Proof.Res.ObjOk] at hi; simp [hi]

theorem R_init_res : Proof.Res.R (fun _ => none) (World.init : World τ ε) := fun _ => ⟨rfl, rfl⟩

theorem after_history_res (C : Cfg τ ε) {ops : List (Op τ ε)} {rs A}
    (hs : specRun false C.mvT C.mvE ops (fun _ => none) = some (.ok (rs, A))) :
    ∃ w, run C ops World.init = .ok (rs, w) ∧ Proof.Res.R A w := by
  have h := Proof.Res.run_ok C ops (fun _ => none) World.init R_init_res
  rw [hs] at h
  exact h

/-- **C50 (and the part of C51 that holds).** For every payload types (class or not), every moved-from behaviour and
every history of construction, copy, move, unwrap, unwrap_err, ok, err, destruction — and of assignments *between the
same variant* — over any number of results: the calls return exactly what ideal variables of type `τ ⊕ ε` return, panic
exactly when `unwrap` meets an error or `unwrap_err` a value, never reach undefined behaviour; and every payload is
destroyed exactly once (constructions = destructions, plus one for an object that still exists). -/
theorem C50_result_history (C : Cfg τ ε) (ops : List (Op τ ε)) :
    (∀ rs A', specRun false C.mvT C.mvE ops (fun _ => none) = some (.ok (rs, A')) →
      ∃ w', run C ops World.init = .ok (rs, w') ∧ resContent w' = A' ∧
        ∀ i, (w' i).ctor = (w' i).dtor + (if (A' i).isSome then 1 else 0)) ∧
    (specRun false C.mvT C.mvE ops (fun _ => none) = some .panic → run C ops World.init = .panic) := by
  have h := Proof.Res.run_ok C ops (fun _ => none) World.init R_init_res
  constructor
  · intro rs A' hs
    rw [hs] at h
    obtain ⟨w', h1, h2⟩ := h
    refine ⟨w', h1, resContent_eq h2, fun i => ?_⟩
    have hi := h2 i
    cases hA : A' i with
    | none => rw [hA] at hi; simp only [Proof.Res.ObjOk] at hi; simp [hi]
    | some o => rw [hA] at hi; simp only [Proof.Res.ObjOk] at hi; simp [hi]
  · intro hs
    rw [hs] at h
    exact h

/-- In histories without assignment the switch `mixed` is irrelevant: the theorem above covers all of them. -/
theorem C50_all_without_assign (mvT : τ → τ) (mvE : ε → ε) (ops : List (Op τ ε)) (h : ∀ op ∈ ops, ∀ i j, op ≠ .copyAssign i j ∧ op ≠ .moveAssign i j)
    (A : Ideal τ ε) : specRun false mvT mvE ops A = specRun true mvT mvE ops A := by
  induction ops generalizing A with
  | nil => rfl
  | cons op ops ih =>
    have h1 : specStep false mvT mvE op A = specStep true mvT mvE op A := by
      have := h op (by simp)
      cases op <;> first | rfl | exact absurd rfl (this _ _).1 | exact absurd rfl (this _ _).2
    simp only [specRun, h1]
    cases specStep true mvT mvE op A with
    | none => rfl
    | some s =>
      cases s with
      | ok p => simp only []; rw [ih (fun o ho => h o (by simp [ho]))]
      | _ => rfl

def exCfg : Cfg Nat Bool := ⟨true, true, fun _ => 0, fun _ => false⟩

/-- A history using every kind of call is allowed. -/
example : (specRun false (fun _ : Nat => 0) (fun b : Bool => b) [.mkOk 0 5, .mkErr 1 true, .copyCtor 2 0, .moveCtor 3 1,
    .copyAssign 0 2, .moveAssign 1 3, .isOk 0, .isErr 1, .unwrap 0, .unwrapErr 1, .ok 2, .err 3, .destroy 0,
    .destroy 1, .destroy 2, .destroy 3] (fun _ => none)).isSome = true := by rfl
example : specRun false (fun _ : Nat => 0) (fun b : Bool => b) [.mkErr 0 true, .unwrap 0] (fun _ => none) = some .panic := rfl

/-- **C51 (partial).** After any history (with assignments between equal variants only), assigning `s` to a *different*
object `r` of the same variant, by copy or by move, gives `r` the payload of `s`, leaves `s` unchanged (copy) or
moved-from (move), and runs no constructor or destructor.
Missing from the full property: assignment between different variants, where it is false (`C51_fails`). -/
theorem C51_assign_partial (C : Cfg τ ε) (ops : List (Op τ ε)) (rs A)
    (hs : specRun false C.mvT C.mvE ops (fun _ => none) = some (.ok (rs, A)))
    (r s : Nat) (hne : r ≠ s) (x y : τ ⊕ ε) (hr : A r = some x) (hsy : A s = some y) (hv : x.isLeft = y.isLeft) :
    ∃ w w1 w2, run C ops World.init = .ok (rs, w) ∧
      copyAssign C r s w = .ok ((), w1) ∧ resContent w1 = put A r (some y) ∧
      moveAssign C r s w = .ok ((), w2) ∧
      resContent w2 = put (put A s (some (movedFrom C.mvT C.mvE y))) r (some y) ∧
      (∀ k, (w1 k).ctor = (w k).ctor ∧ (w1 k).dtor = (w k).dtor ∧ (w2 k).ctor = (w k).ctor ∧
        (w2 k).dtor = (w k).dtor) := by
  obtain ⟨w, h1, hR⟩ := after_history_res C hs
  have hsr : s ≠ r := fun e => hne e.symm
  have h : Proof.Res.ObjOk (w r) (some x) := hr ▸ hR r
  have h' : Proof.Res.ObjOk (w s) (some y) := hsy ▸ hR s
  simp only [Proof.Res.ObjOk] at h h'
  have c1 := Proof.Res.step_ok C (.copyAssign r s) A w hR _
    (by simp only [specStep, hr, hsy, hv]; simp; rfl)
  have c2 := Proof.Res.step_ok C (.moveAssign r s) A w hR _
    (by simp only [specStep, hr, hsy, hv, if_neg hne]; simp; rfl)
  obtain ⟨w1, e1, R1⟩ := c1
  obtain ⟨w2, e2, R2⟩ := c2
  have e1' : copyAssign C r s w = .ok ((), w1) := by
    simp only [step, Prog.bind_run] at e1
    cases hm : copyAssign C r s w with
    | ok p => rw [hm] at e1; obtain ⟨u, w''⟩ := p; simp at e1; simp [e1]
    | _ => rw [hm] at e1; simp at e1
  have e2' : moveAssign C r s w = .ok ((), w2) := by
    simp only [step, Prog.bind_run] at e2
    cases hm : moveAssign C r s w with
    | ok p => rw [hm] at e2; obtain ⟨u, w''⟩ := p; simp at e2; simp [e2]
    | _ => rw [hm] at e2; simp at e2
  refine ⟨w, w1, w2, h1, e1', resContent_eq R1, e2', resContent_eq R2, fun k => ?_⟩
  have f1 := e1'; have f2 := e2'
  cases x <;> cases y <;> simp at hv <;>
    simp [copyAssign, obj, h, h', hne, readT, assignT, readE, assignE] at f1 <;>
    simp [moveAssign, unwrap, unwrapErr, moveT, moveE, obj, h, h', hne, Proof.Res.upd_ne, hsr, assignT, assignE] at f2 <;>
    subst f1 <;> subst f2 <;> by_cases hk : k = r <;> by_cases hk' : k = s <;> simp [upd, hk, hk', hsr, h, h'] <;> omega

/-- **C51 is false for every assignment between different variants**: after `r = s` (copy or move) the target still
reports its old variant although the payload of the old variant is gone; hence its next `unwrap`/`unwrap_err` reads a
payload that does not exist, and for class types so does its destructor. -/
theorem C51_fails (C : Cfg τ ε) (ops : List (Op τ ε)) (rs A)
    (hs : specRun false C.mvT C.mvE ops (fun _ => none) = some (.ok (rs, A)))
    (r s : Nat) (x y : τ ⊕ ε) (hr : A r = some x) (hsy : A s = some y) (hv : x.isLeft ≠ y.isLeft) :
    ∃ w w1 w2, run C ops World.init = .ok (rs, w) ∧
      copyAssign C r s w = .ok ((), w1) ∧ moveAssign C r s w = .ok ((), w2) ∧
      ∀ w', w' = w1 ∨ w' = w2 →
        isOk r w' = .ok (x.isLeft, w') ∧
        (x.isLeft = true → unwrap C r w' = .ub ∧ okOpt r w' = .ub) ∧
        (x.isLeft = false → unwrapErr C r w' = .ub ∧ errOpt r w' = .ub) ∧
        ((if x.isLeft then C.classT else C.classE) = true → destroy C r w' = .ub) := by
  obtain ⟨w, h1, hR⟩ := after_history_res C hs
  have hne : r ≠ s := by rintro rfl; rw [hr] at hsy; cases hsy; exact hv rfl
  have hsr : s ≠ r := fun e => hne e.symm
  have h : Proof.Res.ObjOk (w r) (some x) := hr ▸ hR r
  have h' : Proof.Res.ObjOk (w s) (some y) := hsy ▸ hR s
  simp only [Proof.Res.ObjOk] at h h'
  have c : ∃ w1, copyAssign C r s w = .ok ((), w1) ∧ (w1 r).alive = true ∧ (w1 r).ok = x.isLeft ∧ (w1 r).cell = some y := by
    cases x <;> cases y <;> simp at hv <;>
      simp [copyAssign, copyImpl, obj, h, h', hne, destroyT, destroyE, readT, readE, construct, Proof.Res.upd_ne, hsr]
  have m : ∃ w1, moveAssign C r s w = .ok ((), w1) ∧ (w1 r).alive = true ∧ (w1 r).ok = x.isLeft ∧ (w1 r).cell = some y := by
    cases x <;> cases y <;> simp at hv <;>
      simp [moveAssign, moveImpl, obj, h, h', hne, destroyT, destroyE, moveT, moveE, construct, Proof.Res.upd_ne, hsr]
  obtain ⟨w1, c1, c2⟩ := c
  obtain ⟨w2, m1, m2⟩ := m
  refine ⟨w, w1, w2, h1, c1, m1, ?_⟩
  have key : ∀ w' : World τ ε, (w' r).alive = true ∧ (w' r).ok = x.isLeft ∧ (w' r).cell = some y →
        isOk r w' = .ok (x.isLeft, w') ∧
        (x.isLeft = true → unwrap C r w' = .ub ∧ okOpt r w' = .ub) ∧
        (x.isLeft = false → unwrapErr C r w' = .ub ∧ errOpt r w' = .ub) ∧
        ((if x.isLeft then C.classT else C.classE) = true → destroy C r w' = .ub) := by
    intro w' hw
    cases x <;> cases y <;> simp at hv <;>
      simp [isOk, unwrap, unwrapErr, okOpt, errOpt, destroy, obj, destroyT, destroyE, moveT, moveE, readT, readE, hw] <;>
      (intro hc; simp [hc])
  rintro w' (rfl | rfl)
  · exact key _ c2
  · exact key _ m2

example : ∃ rs A, specRun false exCfg.mvT exCfg.mvE [.mkOk 0 5, .mkErr 1 true] (fun _ => none) = some (.ok (rs, A)) ∧
    A 0 = some (.inl 5) ∧ A 1 = some (.inr true) := ⟨_, _, rfl, rfl, rfl⟩
example : ∃ rs A, specRun false exCfg.mvT exCfg.mvE [.mkOk 0 5, .mkOk 1 6] (fun _ => none) = some (.ok (rs, A)) ∧
    A 0 = some (.inl 5) ∧ A 1 = some (.inl 6) := ⟨_, _, rfl, rfl, rfl⟩

/-- **C52.** In every reachable state `a == b` is true exactly when both are the same variant with equal payloads
(and it changes nothing). -/
theorem C52_equality [DecidableEq τ] [DecidableEq ε] (C : Cfg τ ε) (ops : List (Op τ ε)) (rs A)
    (hs : specRun false C.mvT C.mvE ops (fun _ => none) = some (.ok (rs, A)))
    (i j : Nat) (x y : τ ⊕ ε) (hi : A i = some x) (hj : A j = some y) :
    ∃ w b, run C ops World.init = .ok (rs, w) ∧ Model.Res.eq i j w = .ok (b, w) ∧ (b = true ↔ x = y) := by
  obtain ⟨w, h1, hR⟩ := after_history_res C hs
  have h : Proof.Res.ObjOk (w i) (some x) := hi ▸ hR i
  have h' : Proof.Res.ObjOk (w j) (some y) := hj ▸ hR j
  simp only [Proof.Res.ObjOk] at h h'
  refine ⟨w, decide (x = y), h1, ?_, by simp⟩
  cases x <;> cases y <;> simp [Model.Res.eq, obj, h, h', readT, readE] <;> rfl

/-- **C52 for `Result<T&, E>`.** Equal exactly when both are errors with equal payloads or both refer to equal
objects. -/
theorem C52_equality_ref {α : Type} [DecidableEq α] [DecidableEq ε] (C : Cfg Nat ε) (ops : List (Op Nat ε)) (rs A)
    (hs : specRun false C.mvT C.mvE ops (fun _ => none) = some (.ok (rs, A)))
    (mem : Nat → α) (i j : Nat) (x y : Nat ⊕ ε) (hi : A i = some x) (hj : A j = some y) :
    ∃ w b, run C ops World.init = .ok (rs, w) ∧ eqRef mem i j w = .ok (b, w) ∧
      (b = true ↔ x.map mem id = y.map mem id) := by
  obtain ⟨w, h1, hR⟩ := after_history_res C hs
  have h : Proof.Res.ObjOk (w i) (some x) := hi ▸ hR i
  have h' : Proof.Res.ObjOk (w j) (some y) := hj ▸ hR j
  simp only [Proof.Res.ObjOk] at h h'
  refine ⟨w, decide (x.map mem id = y.map mem id), h1, ?_, by simp⟩
  cases x <;> cases y <;> simp [eqRef, obj, h, h', readT, readE] <;> rfl

end Verif.Props
