import Verif.Proof.ArrayHist
/-! # Property C72: arrays and their owning iterators over whole histories -/
namespace Verif.Props
open Verif Verif.Model.Array Verif.Spec.Arr

variable {α : Type}

/-- What a client can see of the array variables: their length and cells. -/
def arrContent (w : World α) (i : Nat) : Option (List (Option α)) :=
  match w.arr i with
  | some (N, c) => if c.length = N then some c else none
  | none => none

/-- No variables. -/
def noArrs : Ideal α := ⟨fun _ => none, fun _ => none⟩

theorem R_init_arr : Proof.Arr.R (noArrs : Ideal α) World.init where
  arr _ := rfl
  len i c h := by simp [noArrs] at h
  it _ := rfl

theorem arrContent_eq {A : Ideal α} {w : World α} (h : Proof.Arr.R A w) : arrContent w = A.arr := by
  funext i
  unfold arrContent
  rw [h.arr i]
  cases A.arr i <;> simp

theorem itContent_eq (E : Elem α) {A : Ideal α} {w : World α} (h : Proof.Arr.R A w) (k N : Nat) (vs : List α)
    (hk : A.it k = some (N, vs)) : ∃ t, w.it k = some (N, t) ∧ t.drain E = .ok vs := by
  have := h.it k
  rw [hk] at this
  obtain ⟨ps, h1, h2, h3⟩ := this
  refine ⟨_, h1, ?_⟩
  have := arrayIter_drain E vs [] (ps.map some) N h3 (by simpa using h2)
  subst h2
  simpa [Proof.Arr.mkIt] using this

/-- C72 (partial).  For every element type, every inequality `ne` and every history of array variables (default, zero, list,
raw-array, copy and move construction, copy and move assignment, self-assignment, indexing, writing, `==`, `size`, range-for) and
of owning iterators (`into_iter`, `next`, `is_empty`, copy and move construction): the calls answer as lists of fixed length do,
panic exactly for a bad index or an over-long initialiser list, and never reach undefined behaviour unless an element is read
that was never given a value.  At the end the arrays have the ideal contents and every iterator still hands out exactly the
ideal remainder.
Missing: assigning an owning iterator to another one at a different position, which goes wrong
(`C72_iterator_copy_assign_fails`, `C72_iterator_move_assign_fails`). -/
theorem C72_array_history_partial (E : Elem α) (ne : α → α → Bool) (ops : List (Op α)) :
    (∀ rs A, specRun false E ne ops noArrs = some (.ok (rs, A)) →
      ∃ w, run E ne ops World.init = .ok (rs, w) ∧ arrContent w = A.arr ∧
        (∀ k, A.it k = none → w.it k = none) ∧
        ∀ k N vs, A.it k = some (N, vs) → ∃ t, w.it k = some (N, t) ∧ t.drain E = .ok vs) ∧
    (specRun false E ne ops noArrs = some .panic → run E ne ops World.init = .panic) := by
  have h := Proof.Arr.run_ok E ne ops noArrs World.init R_init_arr
  constructor
  · intro rs A hs
    rw [hs] at h
    obtain ⟨w, h1, h2⟩ := h
    refine ⟨w, h1, arrContent_eq h2, fun k hk => ?_, itContent_eq E h2⟩
    have := h2.it k
    rw [hk] at this
    exact this
  · intro hs
    rw [hs] at h
    exact h

/-- C72 is false for copy assignment of owning iterators: `k = l` copies the elements but not the position.  Afterwards `k`
hands out as many elements as it had left before, not as many as `l` has. -/
theorem C72_iterator_copy_assign_fails (E : Elem α) (ne : α → α → Bool) (ops : List (Op α)) (rs A)
    (hs : specRun false E ne ops noArrs = some (.ok (rs, A))) (k l N : Nat) (ts vs : List α) (hk : A.it k = some (N, ts))
    (hl : A.it l = some (N, vs)) (hne : ts.length ≠ vs.length) :
    ∃ w w' t xs, run E ne ops World.init = .ok (rs, w) ∧ step E ne (.itCopyAssign k l) w = .ok (.unit, w') ∧
      w'.it k = some (N, t) ∧ t.drain E = .ok xs ∧ xs.length = ts.length ∧ xs ≠ vs := by
  have h := Proof.Arr.run_ok E ne ops noArrs World.init R_init_arr
  rw [hs] at h
  obtain ⟨w, h1, hR⟩ := h
  have hkl : k ≠ l := by rintro rfl; rw [hk] at hl; cases hl; exact hne rfl
  obtain ⟨ps, g1, g2, g3⟩ := Proof.Arr.getIt_run hR hl
  obtain ⟨qs, f1, f2, f3⟩ := Proof.Arr.getIt_run hR hk
  have e := Proof.Arr.copyLoop_all (ps ++ vs) ((qs ++ ts).map some) (by simp; omega)
  simp only [List.length_append, g2] at e
  have hd := arrayIter_drain E ((ps ++ vs).drop qs.length) [] (((ps ++ vs).take qs.length).map some) N f3 (by simp; omega)
  have hq : ((ps ++ vs).take qs.length).length = qs.length := by simp; omega
  rw [← List.map_append, List.take_append_drop, List.length_map, hq] at hd
  refine ⟨w, { w with it := fun m => if m = k then some (N, ⟨(ps ++ vs).map some, ⟨qs.length, N⟩⟩) else w.it m },
    ⟨(ps ++ vs).map some, ⟨qs.length, N⟩⟩, _, h1, ?_, ?_, hd, ?_, ?_⟩
  · simp only [step, Prog.bind_run, Out.bind_ok, g1, f1, lift, ArrayIter.copyAssign, Proof.Arr.mkIt, e, setIt, hkl, if_false,
      ne_eq, not_true_eq_false, Out.pure_eq, Prog.pure_run]
    simp [f2]
  · simp
  · simp; omega
  · intro hx
    have := congrArg List.length hx
    simp at this
    omega

/-- C72 is false for move assignment of owning iterators: the function has no return statement, so assigning from another
iterator is undefined. -/
theorem C72_iterator_move_assign_fails (E : Elem α) (ne : α → α → Bool) (ops : List (Op α)) (rs A)
    (hs : specRun false E ne ops noArrs = some (.ok (rs, A))) (k l N : Nat) (ts vs : List α) (hk : A.it k = some (N, ts))
    (hl : A.it l = some (N, vs)) (hkl : k ≠ l) :
    ∃ w, run E ne ops World.init = .ok (rs, w) ∧ step E ne (.itMoveAssign k l) w = .ub := by
  have h := Proof.Arr.run_ok E ne ops noArrs World.init R_init_arr
  rw [hs] at h
  obtain ⟨w, h1, hR⟩ := h
  obtain ⟨ps, g1, g2, g3⟩ := Proof.Arr.getIt_run hR hl
  obtain ⟨qs, f1, f2, f3⟩ := Proof.Arr.getIt_run hR hk
  exact ⟨w, h1, by simp [step, f1, g1, hkl, Prog.ub]⟩

/-- Everything a client can see agrees with the ideal: the contents of the arrays and what the iterators still hand out. -/
def ArrAgree (E : Elem α) (A : Ideal α) (w : World α) : Prop :=
  arrContent w = A.arr ∧ (∀ k, A.it k = none → w.it k = none) ∧
    ∀ k N vs, A.it k = some (N, vs) → ∃ t, w.it k = some (N, t) ∧ t.drain E = .ok vs

/-- C72, the exact extent.  After every history the code handles, a further call that a client may make gives the documented result and
leaves everything as documented if and only if it is not an assignment of an owning iterator to a different one that is at another
position (copy) or at any position (move). -/
theorem C72_exact_iff (E : Elem α) (ne : α → α → Bool) (ops : List (Op α)) (rs A)
    (hs : specRun false E ne ops noArrs = some (.ok (rs, A))) (op : Op α) (r : Ret α) (A' : Ideal α)
    (hf : specStep true E ne op A = some (.ok (r, A'))) :
    (∃ w w', run E ne ops World.init = .ok (rs, w) ∧ step E ne op w = .ok (r, w') ∧ ArrAgree E A' w') ↔
      specStep false E ne op A = some (.ok (r, A')) := by
  have h := Proof.Arr.run_ok E ne ops noArrs World.init R_init_arr
  rw [hs] at h
  obtain ⟨w, h1, hR⟩ := h
  constructor
  · rintro ⟨v, w', e1, e2, -, -, e3⟩
    obtain rfl : w = v := by rw [h1] at e1; cases e1; rfl
    cases op with
    | itCopyAssign k l =>
      simp only [specStep] at hf ⊢
      cases hk : A.it k with
      | none => simp [hk] at hf
      | some x =>
        obtain ⟨N, ts⟩ := x
        cases hl : A.it l with
        | none => simp [hk, hl] at hf
        | some y =>
          obtain ⟨N', vs⟩ := y
          simp only [hk, hl] at hf ⊢
          by_cases hN : N ≠ N'
          · simp [hN] at hf
          · rw [if_neg hN] at hf ⊢
            by_cases hlen : ts.length = vs.length
            · simpa [only, hlen] using hf
            · exfalso
              obtain rfl : N = N' := Classical.not_not.1 hN
              obtain ⟨w1, w2, t, xs, f1, f2, f3, f4, -, f5⟩ := C72_iterator_copy_assign_fails E ne ops rs A hs k l N ts vs hk hl hlen
              rw [h1] at f1; cases f1
              rw [e2] at f2; cases f2
              simp only [only, Bool.true_or, if_true, Option.some.injEq, Out.ok.injEq, Prod.mk.injEq] at hf
              obtain ⟨t', g1, g2⟩ := e3 k N vs (by rw [← hf.2]; simp [Ideal.setIt])
              rw [f3] at g1; cases g1
              rw [f4] at g2; cases g2
              exact f5 rfl
    | itMoveAssign k l =>
      simp only [specStep] at hf ⊢
      cases hk : A.it k with
      | none => simp [hk] at hf
      | some x =>
        obtain ⟨N, ts⟩ := x
        cases hl : A.it l with
        | none => simp [hk, hl] at hf
        | some y =>
          obtain ⟨N', vs⟩ := y
          simp only [hk, hl] at hf ⊢
          by_cases hN : N ≠ N'
          · simp [hN] at hf
          · rw [if_neg hN] at hf ⊢
            by_cases hkl : k = l
            · rw [if_pos hkl] at hf ⊢; exact hf
            · exfalso
              obtain rfl : N = N' := Classical.not_not.1 hN
              obtain ⟨w1, f1, f2⟩ := C72_iterator_move_assign_fails E ne ops rs A hs k l N ts vs hk hl hkl
              rw [h1] at f1; cases f1
              rw [e2] at f2; cases f2
    | _ => exact hf
  · intro hs'
    obtain ⟨w', e1, e2⟩ := Proof.Arr.step_ok E ne op A w hR _ hs'
    refine ⟨w, w', h1, e1, arrContent_eq e2, fun k hk => ?_, itContent_eq E e2⟩
    have := e2.it k
    rw [hk] at this
    exact this

/-- A history with every kind of call; 0 is what a move leaves behind. -/
example : ∃ A, specRun false natElem (fun a b => a != b)
    [.newList 0 3 [7, 8, 9], .newRaw 1 [1, 2, 3], .newZero 2 3, .newDefault 3 3, .newCopy 4 0, .copyAssign 2 1, .eq 2 1, .moveAssign 3 2,
      .set 3 1 5, .get 3 1, .forEach 3, .forEach 2, .newMove 5 4, .size 5, .intoIter 0 5, .next 0, .itCopy 1 0, .next 1, .itMove 2 0,
      .next 2, .next 2, .next 2, .isEmpty 2, .isEmpty 1, .forEach 0, .drop 0, .itDrop 2, .copyAssign 1 1] noArrs =
    some (.ok ([.unit, .unit, .unit, .unit, .unit, .unit, .bool true, .unit, .unit, .val 5, .vals [1, 5, 3], .vals [0, 0, 0], .unit,
      .num 3, .unit, .opt (some 7), .unit, .opt (some 8), .unit, .opt (some 8), .opt (some 9), .opt none, .bool true, .bool false,
      .vals [7, 8, 9], .unit, .unit, .unit], A)) := ⟨_, rfl⟩
example : specRun false natElem (fun a b => a != b) [.newList 0 3 [7, 8, 9], .get 0 3] noArrs = some .panic := rfl
example : ∃ rs A, specRun false natElem (fun a b => a != b) [.newRaw 0 [7, 8], .newRaw 1 [5, 6], .intoIter 0 0, .intoIter 1 1, .next 0]
    noArrs = some (.ok (rs, A)) ∧ A.it 0 = some (2, [8]) ∧ A.it 1 = some (2, [5, 6]) := ⟨_, _, rfl, rfl, rfl⟩
/-- there, copying iterator 1 to iterator 0 is a call a client may make, and the code gets it wrong -/
example : ∃ rs A A', specRun false natElem (fun a b => a != b) [.newRaw 0 [7, 8], .newRaw 1 [5, 6], .intoIter 0 0, .intoIter 1 1, .next 0]
    noArrs = some (.ok (rs, A)) ∧ specStep true natElem (fun a b => a != b) (.itCopyAssign 0 1) A = some (.ok (.unit, A')) ∧
    specStep false natElem (fun a b => a != b) (.itCopyAssign 0 1) A = none := ⟨_, _, _, rfl, rfl, rfl⟩

end Verif.Props
