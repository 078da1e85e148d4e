import Verif.Proof.Opt
/-! # Properties C46-C49: Option -/
namespace Verif.Props
open Verif Verif.Model.Opt Verif.Spec.Opt

variable {α β : Type}

/-- What an observer sees of object `i`: nothing if it does not exist, otherwise the held value if `is_some()`. -/
def optContent (w : World α) (i : Nat) : Option (Option α) :=
  if (w i).alive then some (if (w i).hold then (w i).cell else none) else none

theorem optContent_eq {A : Ideal α} {w : World α} (h : Proof.Opt.R A w) : optContent w = A := by
  funext i
  have hi := h i
  unfold optContent
  cases hA : A i with
  | none => have := Proof.Opt.objOk_none (hA ▸ hi); simp [this]
  | some o =>
    cases o with
    | none => have := Proof.Opt.objOk_some_none (hA ▸ hi); simp [this]
    | some v => have := Proof.Opt.objOk_some_some (hA ▸ hi); simp [this]

theorem R_init : Proof.Opt.R (fun _ => none) (World.init : World α) := fun _ =>
  Proof.Opt.objOk_of_none rfl rfl rfl

/-- **C46.** For every payload type, every moved-from behaviour and every allowed history of construction, copy, move,
assignment, unwrap, access, map and destruction over any number of options: the calls return exactly what the ideal
variables (`Spec.Opt`) return, panic exactly when they do (unwrap/as_ref of none), never reach undefined behaviour, and
in every object the number of payload constructions equals the number of destructions, plus one exactly when the object
currently holds a value (so each payload is destroyed exactly once, and none is left when the objects are gone). -/
theorem C46_option_history (mv : α → α) (ops : List (Op α)) :
    (∀ rs A', specRun mv ops (fun _ => none) = some (.ok (rs, A')) →
      ∃ w', run mv ops World.init = .ok (rs, w') ∧ optContent w' = A' ∧
        ∀ i, (w' i).ctor = (w' i).dtor + (match A' i with | some (some _) => 1 | _ => 0)) ∧
    (specRun mv ops (fun _ => none) = some .panic → run mv ops World.init = .panic) := by
  have h := Proof.Opt.run_ok mv ops (fun _ => none) World.init R_init
  constructor
  · intro rs A' hs
    rw [hs] at h
    obtain ⟨w', h1, h2⟩ := h
    refine ⟨w', h1, optContent_eq h2, fun i => ?_⟩
    have hi := h2 i
    cases hA : A' i with
    | none => have := Proof.Opt.objOk_none (hA ▸ hi); simp [this]
    | some o =>
      cases o with
      | none => have := Proof.Opt.objOk_some_none (hA ▸ hi); simp [this]
      | some v => have := Proof.Opt.objOk_some_some (hA ▸ hi); simp [this]
  · intro hs
    rw [hs] at h
    exact h

/-- A history using every kind of call is allowed by the specification and does not panic. -/
example : (specRun (fun _ => 0) [Op.mkSome 0 5, .mkNone 1, .copyCtor 2 0, .moveCtor 3 2, .moveAssign 1 3,
    .copyAssign 0 1, .mapSelf (fun v => (v + 1, v)) 1, .write 0 9, .read 0, .isSome 2, .isNone 2, .unwrap 0,
    .destroy 0, .destroy 1, .destroy 2, .destroy 3] (fun _ => none)).isSome = true := by rfl
example : specRun (fun _ => 0) [Op.mkSome 0 5, .unwrap 0, .unwrap 0] (fun _ => none) = some .panic := by rfl

/-- One more call after an allowed history. -/
theorem after_history (mv : α → α) {ops : List (Op α)} {rs A} (hs : specRun mv ops (fun _ => none) = some (.ok (rs, A))) :
    ∃ w, run mv ops World.init = .ok (rs, w) ∧ Proof.Opt.R A w := by
  have h := Proof.Opt.run_ok mv ops (fun _ => none) World.init R_init
  rw [hs] at h
  exact h

/-- **C46, unwrap.** In every reachable state: `unwrap` on an engaged option returns its value and leaves none;
on a disengaged one it panics. -/
theorem C46_unwrap (mv : α → α) (ops : List (Op α)) (rs A) (hs : specRun mv ops (fun _ => none) = some (.ok (rs, A)))
    (i : Nat) (o : Option α) (hi : A i = some o) :
    ∃ w, run mv ops World.init = .ok (rs, w) ∧
      match o with
      | none => unwrap mv i w = .panic
      | some v => ∃ w', unwrap mv i w = .ok (v, w') ∧ optContent w' i = some none ∧
          ∀ k, k ≠ i → optContent w' k = optContent w k := by
  obtain ⟨w, h1, hR⟩ := after_history mv hs
  refine ⟨w, h1, ?_⟩
  cases o with
  | none =>
    have := Proof.Opt.objOk_some_none (hi ▸ hR i)
    simp [unwrap, obj, this]
  | some v =>
    have := Proof.Opt.objOk_some_some (hi ▸ hR i)
    refine ⟨_, by simp [unwrap, obj, this, unwrapUnchecked, moveVal, reset, destroyVal, setHold, modObj]; rfl, ?_, ?_⟩
    · simp [optContent, this]
    · intro k hk; simp [optContent, upd, hk]

/-- **C47, construction.** After `Option i(std::move(j))` in any reachable state, `i` holds what `j` held and `j` is none. -/
theorem C47_move_ctor (mv : α → α) (ops : List (Op α)) (rs A) (hs : specRun mv ops (fun _ => none) = some (.ok (rs, A)))
    (i j : Nat) (o : Option α) (hi : A i = none) (hj : A j = some o) :
    ∃ w w', run mv ops World.init = .ok (rs, w) ∧ moveCtor mv i j w = .ok ((), w') ∧
      optContent w' i = some o ∧ optContent w' j = some none := by
  obtain ⟨w, h1, hR⟩ := after_history mv hs
  have := Proof.Opt.step_ok mv (.moveCtor i j) A w hR _ (by simp only [specStep, hi, hj]; rfl)
  obtain ⟨w', h2, h3⟩ := this
  refine ⟨w, w', h1, ?_, ?_, ?_⟩
  · simp only [step, Prog.bind_run] at h2
    cases hm : moveCtor mv i j w with
    | ok p => rw [hm] at h2; obtain ⟨u, w''⟩ := p; simp at h2; simp [h2]
    | _ => rw [hm] at h2; simp at h2
  · rw [optContent_eq h3]; simp [put]
  · rw [optContent_eq h3]
    have : j ≠ i := by rintro rfl; rw [hi] at hj; cases hj
    simp [put, this]

/-- **C47, assignment (partial).** After `i = std::move(j)` (different objects) `i` holds what `j` held; `j` is none
*unless both options were engaged* — in that case it stays engaged with the moved-from value.
Missing from the full property: exactly that case (`C47_fails`). -/
theorem C47_move_assign_partial (mv : α → α) (ops : List (Op α)) (rs A)
    (hs : specRun mv ops (fun _ => none) = some (.ok (rs, A)))
    (i j : Nat) (hne : i ≠ j) (old o : Option α) (hi : A i = some old) (hj : A j = some o) :
    ∃ w w', run mv ops World.init = .ok (rs, w) ∧ moveAssign mv i j w = .ok ((), w') ∧
      optContent w' i = some o ∧
      (optContent w' j = some none ↔ ¬ (old.isSome ∧ o.isSome)) ∧
      (old.isSome → ∀ v, o = some v → optContent w' j = some (some (mv v))) := by
  obtain ⟨w, h1, hR⟩ := after_history mv hs
  have := Proof.Opt.step_ok mv (.moveAssign i j) A w hR _ (by simp only [specStep, hi, hj, if_neg hne]; rfl)
  obtain ⟨w', h2, h3⟩ := this
  refine ⟨w, w', h1, ?_, ?_, ?_, ?_⟩
  · simp only [step, Prog.bind_run] at h2
    cases hm : moveAssign mv i j w with
    | ok p => rw [hm] at h2; obtain ⟨u, w''⟩ := p; simp at h2; simp [h2]
    | _ => rw [hm] at h2; simp at h2
  · rw [optContent_eq h3]; simp [put]
  · rw [optContent_eq h3]
    have : j ≠ i := fun e => hne e.symm
    cases old <;> cases o <;> simp [put, this]
  · intro ho v hv
    subst hv
    rw [optContent_eq h3]
    have : j ≠ i := fun e => hne e.symm
    cases old <;> simp [put, this] at ho ⊢

/-- **C47 is false as stated**: after every history, a move assignment between two different engaged options leaves the source engaged, with the
moved-from value. -/
theorem C47_fails (mv : α → α) (ops : List (Op α)) (rs A) (hs : specRun mv ops (fun _ => none) = some (.ok (rs, A)))
    (i j : Nat) (hne : i ≠ j) (u v : α) (hi : A i = some (some u)) (hj : A j = some (some v)) :
    ∃ w w', run mv ops World.init = .ok (rs, w) ∧ moveAssign mv i j w = .ok ((), w') ∧ optContent w' j = some (some (mv v)) := by
  obtain ⟨w, w', h1, h2, _, _, h3⟩ := C47_move_assign_partial mv ops rs A hs i j hne _ _ hi hj
  exact ⟨w, w', h1, h2, h3 rfl v rfl⟩

example : ∃ rs A, specRun (fun _ : Nat => 0) [.mkSome 0 5, .mkSome 1 7] (fun _ => none) = some (.ok (rs, A)) ∧
    A 0 = some (some 5) ∧ A 1 = some (some 7) := ⟨_, _, rfl, rfl, rfl⟩

example : ∃ rs A, specRun (fun _ : Nat => 0) [.mkNone 0, .mkSome 1 7] (fun _ => none) = some (.ok (rs, A)) ∧
    A 0 = some none ∧ A 1 = some (some 7) := ⟨_, _, rfl, rfl, rfl⟩

/-- **C48, content.** In every reachable state, `map f` on an existing option yields the image of its content under
(the result part of) `f`; laws below. -/
theorem C48_map (mv : α → α) (ops : List (Op α)) (rs A) (hs : specRun mv ops (fun _ => none) = some (.ok (rs, A)))
    (i : Nat) (o : Option α) (hi : A i = some o) :
    ∃ w, run mv ops World.init = .ok (rs, w) ∧
      (∀ (β : Type) (f : α → β × α), ∃ w', map f i w = .ok (o.map (fun v => (f v).1), w')) ∧
      -- identity
      (∃ w', map (fun v => (v, mv v)) i w = .ok (o, w')) ∧
      -- composition: mapping `g` over the result of mapping `f` is mapping their composition
      (∀ (β γ : Type) (f : α → β × α) (g : β → γ) r w', map f i w = .ok (r, w') →
        ∃ w'', map (fun v => (g (f v).1, (f v).2)) i w = .ok (r.map g, w'')) := by
  obtain ⟨w, h1, hR⟩ := after_history mv hs
  have key : ∀ (β : Type) (f : α → β × α), ∃ w', map f i w = .ok (o.map (fun v => (f v).1), w') := by
    intro β f
    cases o with
    | none => have := Proof.Opt.objOk_some_none (hi ▸ hR i); exact ⟨w, by simp [map, this]⟩
    | some v => have := Proof.Opt.objOk_some_some (hi ▸ hR i); exact ⟨_, by simp [map, this]; rfl⟩
  refine ⟨w, h1, key, ?_, ?_⟩
  · obtain ⟨w', h⟩ := key α (fun v => (v, mv v)); exact ⟨w', by simpa using h⟩
  · intro β γ f g r w' hr
    obtain ⟨w2, h2⟩ := key β f
    rw [h2] at hr; cases hr
    obtain ⟨w3, h3⟩ := key γ (fun v => (g (f v).1, (f v).2))
    exact ⟨w3, by rw [h3]; cases o <;> rfl⟩

/-- **C48, exactly one call.** In every reachable state and with any effectful function: on an engaged option `map`
makes exactly one call, with the held value, and returns its result; on none it makes no call. -/
theorem C48_map_once {ω : Type} (mv : α → α) (ops : List (Op α)) (rs A)
    (hs : specRun mv ops (fun _ => none) = some (.ok (rs, A))) (i : Nat) (o : Option α) (hi : A i = some o)
    (f : α → ω → Out ((β × α) × ω)) (s : ω) :
    ∃ w, run mv ops World.init = .ok (rs, w) ∧
    match o with
    | none => mapEff f i w s = .ok (none, w, s)
    | some v => mapEff f i w s = (f v s >>= fun r =>
        .ok (some r.1.1, upd w i { w i with cell := some r.1.2 }, r.2)) := by
  obtain ⟨w, h1, hR⟩ := after_history mv hs
  refine ⟨w, h1, ?_⟩
  cases o with
  | none => have := Proof.Opt.objOk_some_none (hi ▸ hR i); simp [mapEff, this]
  | some v => have := Proof.Opt.objOk_some_some (hi ▸ hR i); simp [mapEff, this]

/-- With a logging function the log shows exactly one call. -/
example : ∃ w, mapEff (fun v (log : List Nat) => .ok ((v + 1, v), log ++ [v])) 0
    (upd World.init 0 ⟨true, true, some 41, 1, 0⟩) [] = .ok (some 42, w, [41]) := ⟨_, rfl⟩

/-! ## C49: Option<T&> -/

/-- **C49, aliasing.** For any world: after making `i` refer to object `a`, writing through `i` changes exactly
object `a`; a copy `j` refers to the same object: what is written through `i` is read through `j`. -/
theorem C49_ref_alias (w : RefWorld α) (i j a : Nat) (v : α) :
    ∃ w', (do
        refSome i a
        refCopy j i
        let p ← refAsRef i
        store p v
        let q ← refAsRef j
        load q : Prog (RefWorld α) α) w = .ok (v, w') ∧
      w'.mem a = v ∧ (∀ k, k ≠ a → w'.mem k = w.mem k) ∧ w'.refs i = some a ∧ w'.refs j = some a := by
  by_cases hij : i = j
  · subst hij
    refine ⟨_, by simp [refSome, refCopy, refAsRef, store, load]; rfl, by simp, ?_, by simp, by simp⟩
    intro k hk; simp [hk]
  · refine ⟨_, by simp [refSome, refCopy, refAsRef, store, load, hij]; rfl, by simp, ?_, by simp [hij], by simp⟩
    intro k hk; simp [hk]

/-- **C49, copying** keeps the source, **moving** empties it (self-move keeps it), and neither touches any object. -/
theorem C49_ref_copy_move (w : RefWorld α) (i j : Nat) :
    (∃ w', refCopy i j w = .ok ((), w') ∧ w'.refs i = w.refs j ∧ w'.refs j = w.refs j ∧ w'.mem = w.mem) ∧
    (i ≠ j → ∃ w', refMoveCtor i j w = .ok ((), w') ∧ w'.refs i = w.refs j ∧ w'.refs j = none ∧ w'.mem = w.mem) ∧
    (i ≠ j → ∃ w', refMoveAssign i j w = .ok ((), w') ∧ w'.refs i = w.refs j ∧ w'.refs j = none ∧ w'.mem = w.mem) ∧
    (refMoveAssign i i w = .ok ((), w)) := by
  refine ⟨⟨_, rfl, ?_, ?_, rfl⟩, fun h => ⟨_, rfl, ?_, ?_, rfl⟩, fun h => ?_, ?_⟩
  · simp
  · by_cases h : j = i <;> simp [h]
  · simp [h]
  · simp
  · rw [refMoveAssign, if_neg h]
    refine ⟨_, rfl, ?_, ?_, rfl⟩
    · simp [h]
    · simp
  · simp [refMoveAssign]

/-- **C49, unwrap** returns the very object and leaves none; on none it panics; `map` calls the function on the very object,
changes no other one and does not consume the option. -/
theorem C49_ref_unwrap (w : RefWorld α) (i : Nat) :
    (∀ a, w.refs i = some a → ∃ w', refUnwrap i w = .ok (a, w') ∧ w'.refs i = none ∧ w'.mem = w.mem ∧
      ∀ k, k ≠ i → w'.refs k = w.refs k) ∧
    (w.refs i = none → refUnwrap i w = .panic ∧ refAsRef i w = .panic) ∧
    (∀ (β : Type) (f : α → β × α), ∃ w', refMap f i w = .ok (⟨(w.refs i).map fun a => (f (w.mem a)).1⟩, w') ∧
      w'.refs = w.refs ∧ (∀ a, w.refs i = some a → w'.mem a = (f (w.mem a)).2) ∧
      (∀ k, w.refs i ≠ some k → w'.mem k = w.mem k)) := by
  refine ⟨?_, ?_, ?_⟩
  · intro a h
    rw [refUnwrap, h]
    exact ⟨_, rfl, by simp, rfl, fun k hk => by simp [hk]⟩
  · intro h; simp [refUnwrap, refAsRef, h]
  · intro β f
    cases h : w.refs i with
    | none => rw [refMap, h]; exact ⟨w, rfl, rfl, by simp, by simp⟩
    | some a =>
      rw [refMap, h]
      refine ⟨_, rfl, rfl, ?_, ?_⟩
      · rintro b ⟨⟩; simp
      · intro k hk; simp only; rw [if_neg]; rintro rfl; exact hk rfl

example : (⟨fun _ => (0 : Nat), fun k => if k = 2 then some 7 else none⟩ : RefWorld Nat).refs 2 = some 7 := rfl

end Verif.Props
