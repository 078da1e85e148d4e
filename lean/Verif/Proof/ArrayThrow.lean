import Verif.Model.ArrayThrow
import Verif.Spec.ArrayThrow
import Verif.Proof.ArrayHist
/-! # Proofs about arrays whose elements can throw (Model/ArrayThrow, Spec/ArrayThrow) -/
namespace Verif.Proof.ArrT
open Verif Verif.Model.Array Verif.Spec.Arr Verif.Spec.ArrT Verif.Proof.Arr

variable {α : Type}

/-- None of the first `n` copies and moves throws. -/
def Past (x : Option Nat) (n : Nat) : Prop := ∀ m, x = some m → n ≤ m

theorem Past.now {x : Option Nat} {n : Nat} (h : Past x (n + 1)) : throwsNow x = false := by
  cases x with
  | none => rfl
  | some m => have := h m rfl; cases m with
    | zero => omega
    | succ m => rfl

theorem Past.later {x : Option Nat} {n : Nat} (h : Past x (n + 1)) : Past (later x) n := by
  cases x with
  | none => intro m hm; simp [Model.Array.later] at hm
  | some k => intro m hm; simp [Model.Array.later] at hm; have := h k rfl; omega

theorem later_succ (m : Nat) : later (some (m + 1)) = some m := rfl
theorem now_zero : throwsNow (some 0) = true := rfl
theorem now_succ (m : Nat) : throwsNow (some (m + 1)) = false := rfl

theorem copyLoopT_past (src : Cells α) : ∀ (n p : Nat) (x : Option Nat) (dst : Cells α), Past x n →
    copyLoopT src p n x dst = copyLoop src p n dst >>= fun c => .ok (false, c) := by
  intro n
  induction n with
  | zero => intros; rfl
  | succ n ih =>
    intro p x dst h
    simp only [copyLoopT, copyLoop, h.now]
    cases readCell src p with
    | ok v =>
      simp only [Out.bind_ok]
      cases writeCell dst p v with
      | ok d => simpa using ih (p + 1) _ d h.later
      | _ => rfl
    | _ => rfl

theorem copyLoopT_stop (vs : List α) : ∀ (n p m : Nat) (dst : Cells α), p + n = vs.length → dst.length = vs.length → m < n →
    copyLoopT (vs.map some) p n (some m) dst =
      .ok (true, dst.take p ++ (((vs.drop p).take m).map some ++ dst.drop (p + m))) := by
  intro n
  induction n with
  | zero => intros; omega
  | succ n ih =>
    intro p m dst h hd hm
    have hp : p < vs.length := by omega
    simp only [copyLoopT, readCell_map vs p hp, Out.bind_ok]
    cases m with
    | zero => simp [now_zero]
    | succ m =>
      have ih := ih (p + 1) m (dst.set p (some vs[p])) (by omega) (by simpa using hd) (by omega)
      rw [List.drop_eq_getElem_cons hp]
      generalize vs[p] = v at *
      generalize vs.drop (p + 1) = rest at *
      simp only [now_succ, later_succ, writeCell, if_pos (show p < dst.length by omega), Out.bind_ok, Bool.false_eq_true, if_false]
      rw [ih, List.take_succ_eq_append_getElem (by simp; omega), List.drop_set_of_lt (by omega)]
      have e : p + 1 + m = p + (m + 1) := by omega
      simp [List.take_set_of_le, e]

theorem copyLoopT_stop0 (vs : List α) (m : Nat) (dst : Cells α) (h : dst.length = vs.length) (hm : m < vs.length) :
    copyLoopT (vs.map some) 0 vs.length (some m) dst = .ok (true, (vs.take m).map some ++ dst.drop m) := by
  rw [copyLoopT_stop vs _ 0 m dst (by simp) h hm]; simp

theorem moveLoopT_past (E : Elem α) : ∀ (n p : Nat) (x : Option Nat) (src dst : Cells α), Past x n →
    moveLoopT E p n x src dst = moveLoop E p n src dst := by
  intro n
  induction n with
  | zero => intros; rfl
  | succ n ih =>
    intro p x src dst h
    simp only [moveLoopT, moveLoop, h.now, moveCell]
    cases readCell src p with
    | ok v =>
      simp only [Out.bind_ok, Out.pure_eq, Bool.false_eq_true, if_false]
      cases writeCell dst p v with
      | ok d => simpa using ih (p + 1) _ _ d h.later
      | _ => rfl
    | _ => rfl

theorem moveLoopT_stop (E : Elem α) (vs : List α) : ∀ (n p m : Nat) (src dst : Cells α), p + n = vs.length →
    dst.length = vs.length → src.length = vs.length → src.drop p = (vs.drop p).map some → m < n →
    moveLoopT E p n (some m) src dst = .panic := by
  intro n
  induction n with
  | zero => intros; omega
  | succ n ih =>
    intro p m src dst h hd hs hx hm
    have hp : p < vs.length := by omega
    have hps : p < src.length := by omega
    rw [List.drop_eq_getElem_cons hp, List.drop_eq_getElem_cons hps] at hx
    simp only [List.map_cons, List.cons.injEq] at hx
    have hr : readCell src p = .ok vs[p] := by
      simp [readCell, List.getElem?_eq_getElem hps, hx.1]
    simp only [moveLoopT, moveCell, hr, Out.bind_ok, Out.pure_eq]
    cases m with
    | zero => simp [now_zero]
    | succ m =>
      simp only [now_succ, later_succ, writeCell, if_pos (show p < dst.length by omega), Out.bind_ok, Bool.false_eq_true, if_false]
      exact ih (p + 1) m _ _ (by omega) (by simpa using hd) (by simpa using hs)
        (by rw [List.drop_set_of_lt (by omega)]; exact hx.2) (by omega)

theorem moveLoopT_stop0 (E : Elem α) (vs : List α) (m : Nat) (dst : Cells α) (h : dst.length = vs.length) (hm : m < vs.length) :
    moveLoopT E 0 vs.length (some m) (vs.map some) dst = .panic :=
  moveLoopT_stop E vs _ 0 m _ dst (by simp) h (by simp) (by simp) hm

theorem moveAllT_past (E : Elem α) : ∀ (n i : Nat) (x : Option Nat) (c : Cells α), Past x n →
    moveAllT E i n x c = moveAll E i n c >>= fun p => .ok (some p.1, p.2) := by
  intro n
  induction n with
  | zero => intros; rfl
  | succ n ih =>
    intro i x c h
    simp only [moveAllT, moveAll, h.now, moveCell]
    cases readCell c i with
    | ok v =>
      simp only [Out.bind_ok, Out.pure_eq, Bool.false_eq_true, if_false]
      rw [ih (i + 1) _ _ h.later]
      cases moveAll E (i + 1) n (c.set i (some (E.mv v))) <;> rfl
    | _ => rfl

theorem moveAllT_stop (E : Elem α) (vs : List α) : ∀ (pre : List (Option α)) (m : Nat), m < vs.length →
    moveAllT E pre.length vs.length (some m) (pre ++ vs.map some) =
      .ok (none, pre ++ ((vs.take m).map (fun v => some (E.mv v)) ++ (vs.drop m).map some)) := by
  induction vs with
  | nil => intro pre m h; simp at h
  | cons v vs ih =>
    intro pre m h
    have hr : readCell (pre ++ (v :: vs).map some) pre.length = .ok v := by simp [readCell]
    have hs : (pre ++ List.map some (v :: vs)).set pre.length (some (E.mv v)) = (pre ++ [some (E.mv v)]) ++ vs.map some := by
      rw [List.set_append_right _ _ (by simp)]; simp
    simp only [List.length_cons, moveAllT, hr, Out.bind_ok]
    cases m with
    | zero => simp [now_zero]
    | succ m =>
      have := ih (pre ++ [some (E.mv v)]) m (by simpa using h)
      rw [List.length_append, List.length_singleton] at this
      simp only [now_succ, later_succ, moveCell, hr, Out.bind_ok, Out.pure_eq, hs, this, Bool.false_eq_true, if_false]
      simp

theorem initLoopT_past (N : Nat) : ∀ (xs : List α) (c : Cells α) (pos : Nat) (x : Option Nat), Past x (2 * xs.length) →
    initLoopT N c pos x xs = initLoop N c pos xs >>= fun c => .ok (some c) := by
  intro xs
  induction xs with
  | nil => intro c pos x h; rfl
  | cons y xs ih =>
    intro c pos x h
    have h1 : Past x (2 * xs.length + 1 + 1) := h
    simp only [initLoopT, initLoop, h1.now, h1.later.now, Bool.false_eq_true, if_false]
    cases writeCell c pos y with
    | ok d =>
      simp only [Out.bind_ok]
      split
      · rfl
      · exact ih _ _ _ h1.later.later
    | _ => rfl

theorem initLoopT_stop (N : Nat) : ∀ (xs : List α) (c : Cells α) (pos m : Nat), pos + xs.length ≤ N → c.length = N →
    m < 2 * xs.length → initLoopT N c pos (some m) xs = .ok none := by
  intro xs
  induction xs with
  | nil => intro c pos m _ _ h; simp at h
  | cons y xs ih =>
    intro c pos m h hc hm
    simp only [List.length_cons] at h hm
    match m with
    | 0 => simp [initLoopT, now_zero]
    | 1 => simp [initLoopT, now_succ, later_succ, now_zero]
    | m + 2 =>
      simp only [initLoopT, now_succ, later_succ, writeCell, if_pos (show pos < c.length by omega), Out.bind_ok,
        Bool.false_eq_true, if_false]
      rw [if_neg (show ¬ pos + 1 ≥ N by omega)]
      exact ih _ _ m (by omega) (by simpa using hc) (by omega)

theorem nextT_past (E : Elem α) (t : ArrayIter α) (x : Option Nat) (h : Past x 2) :
    t.nextT E x = t.next E >>= fun p => .ok (some p.1, p.2) := by
  simp only [ArrayIter.nextT, ArrayIter.next]
  cases t.range.next Model.Range.usizeTy with
  | ok p =>
    obtain ⟨p, r⟩ := p
    simp only [Out.bind_ok]
    cases p with
    | none => rfl
    | some p =>
      simp only [moveCell, h.now, h.later.now]
      cases readCell t.data p.toNat <;> simp
  | _ => rfl

def Agree (m : Out (Option (Ret α) × World α)) (s : Out (Option (Ret α) × Ideal α)) : Prop :=
  match s with
  | .ok (r, S') => ∃ w', m = .ok (r, w') ∧ R S' w'
  | .panic => m = .panic
  | _ => False

/-- The number of copies and moves of elements a call makes in the world `w`. -/
def count (w : World α) : Op α → Nat
  | .newList _ _ xs => 2 * xs.length
  | .newRaw _ xs => xs.length
  | .newCopy _ j => ((w.arr j).map (·.1)).getD 0
  | .newMove _ j => ((w.arr j).map (·.1)).getD 0
  | .copyAssign i j => if i = j then 0 else ((w.arr j).map (·.1)).getD 0
  | .moveAssign i j => if i = j then 0 else ((w.arr j).map (·.1)).getD 0
  | .set _ _ _ => 1
  | .intoIter _ i => ((w.arr i).map (·.1)).getD 0
  | .next k => match w.it k with
    | some (_, t) => if t.range.low = t.range.high then 0 else 2
    | none => 0
  | .itCopy _ l => ((w.it l).map (·.1)).getD 0
  | .itMove _ l => ((w.it l).map (·.1)).getD 0
  | .itCopyAssign k l => if k = l then 0 else ((w.it l).map (·.1)).getD 0
  | _ => 0

theorem raw_copy (xs : List α) : copyLoop (xs.map some) 0 xs.length (List.replicate xs.length none) = .ok (xs.map some) :=
  copyLoop_all xs _ (by simp)

/-- A call that makes no more copies and moves than succeed is as in `step`. -/
theorem stepT_past (E : Elem α) (ne : α → α → Bool) (x : Option Nat) (op : Op α) (w : World α) (h : Past x (count w op)) :
    stepT E ne x op w = step E ne op w >>= fun p => .ok (some p.1, p.2) := by
  cases op with
  | newList i N xs =>
    simp only [stepT, step, Prog.bind_run, fresh]
    split
    · simp only [Out.bind_ok, lift, ofInitListT, ofInitList]
      split
      · rfl
      · rw [initLoopT_past N xs _ 0 x h]
        cases initLoop N (List.replicate N E.dflt) 0 xs <;> rfl
    · rfl
  | newRaw i xs =>
    simp only [stepT, step, Prog.bind_run, fresh]
    split
    · simp only [Out.bind_ok, lift, ofRawT]
      rw [copyLoopT_past _ xs.length _ _ _ h, raw_copy]
      simp [ofRaw, setArr]
    · rfl
  | newCopy i j =>
    simp only [stepT, step, Prog.bind_run, fresh]
    split
    · simp only [Out.bind_ok, lift, getArr]
      simp only [count] at h
      cases hj : w.arr j with
      | none => rfl
      | some p =>
        obtain ⟨N, c⟩ := p
        simp only [hj, Option.map_some, Option.getD_some] at h
        simp only [Out.bind_ok, copyLoopT_past _ _ _ _ _ h, copyCtor]
        cases copyLoop c 0 N (List.replicate N none) <;> rfl
    · rfl
  | newMove i j =>
    simp only [stepT, step, Prog.bind_run, fresh]
    split
    · simp only [Out.bind_ok, lift, getArr]
      simp only [count] at h
      cases hj : w.arr j with
      | none => rfl
      | some p =>
        obtain ⟨N, c⟩ := p
        simp only [hj, Option.map_some, Option.getD_some] at h
        simp only [Out.bind_ok, moveLoopT_past _ _ _ _ _ _ h, moveCtor]
        cases moveLoop E 0 N c (List.replicate N E.dflt) <;> rfl
    · rfl
  | copyAssign i j =>
    simp only [stepT, step, Prog.bind_run, getArr]
    simp only [count] at h
    cases hi : w.arr i with
    | none => rfl
    | some q =>
      obtain ⟨N', d⟩ := q
      simp only [Out.bind_ok]
      cases hj : w.arr j with
      | none => rfl
      | some p =>
        obtain ⟨N, c⟩ := p
        simp only [Out.bind_ok]
        by_cases hN : N' = N
        · subst hN
          by_cases hij : i = j
          · simp [hij]
          · simp only [hij, hj, Option.map_some, Option.getD_some, if_false] at h
            simp only [hij, ne_eq, not_true_eq_false, if_false, Prog.bind_run, lift, copyLoopT_past _ _ _ _ _ h]
            cases copyLoop c 0 N' d <;> rfl
        · simp [hN, Prog.ub]
  | moveAssign i j =>
    simp only [stepT, step, Prog.bind_run, getArr]
    simp only [count] at h
    cases hi : w.arr i with
    | none => rfl
    | some q =>
      obtain ⟨N', d⟩ := q
      simp only [Out.bind_ok]
      cases hj : w.arr j with
      | none => rfl
      | some p =>
        obtain ⟨N, c⟩ := p
        simp only [Out.bind_ok]
        by_cases hN : N' = N
        · subst hN
          by_cases hij : i = j
          · simp [hij]
          · simp only [hij, hj, Option.map_some, Option.getD_some, if_false] at h
            simp only [hij, ne_eq, not_true_eq_false, if_false, Prog.bind_run, lift, moveLoopT_past _ _ _ _ _ _ h]
            cases moveLoop E 0 N' c d <;> rfl
        · simp [hN, Prog.ub]
  | set i p y =>
    simp only [stepT, step, Prog.bind_run, getArr]
    cases hi : w.arr i with
    | none => rfl
    | some q =>
      obtain ⟨N, c⟩ := q
      simp only [Out.bind_ok, lift]
      cases index N p with
      | ok p =>
        simp only [Out.bind_ok, Past.now (n := 0) h, Bool.false_eq_true, if_false, Prog.bind_run]
        cases writeCell c p y <;> rfl
      | _ => rfl
  | intoIter k i =>
    simp only [stepT, step, Prog.bind_run, freshIt]
    split
    · simp only [Out.bind_ok, lift, getArr]
      simp only [count] at h
      cases hj : w.arr i with
      | none => rfl
      | some p =>
        obtain ⟨N, c⟩ := p
        simp only [hj, Option.map_some, Option.getD_some] at h
        simp only [Out.bind_ok, moveAllT_past _ _ _ _ _ h, Model.Array.intoIter]
        cases moveAll E 0 N c <;> rfl
    · rfl
  | next k =>
    simp only [stepT, step, Prog.bind_run, getIt]
    simp only [count] at h
    cases hk : w.it k with
    | none => rfl
    | some p =>
      obtain ⟨N, t⟩ := p
      simp only [hk] at h
      simp only [Out.bind_ok, lift]
      by_cases he : t.range.low = t.range.high
      · simp [ArrayIter.nextT, ArrayIter.next, Model.Range.Range.next, he, setIt]
      · rw [if_neg he] at h
        rw [nextT_past E t x h]
        cases t.next E <;> rfl
  | itCopy k l =>
    simp only [stepT, step, Prog.bind_run, freshIt]
    split
    · simp only [Out.bind_ok, lift, getIt]
      simp only [count] at h
      cases hj : w.it l with
      | none => rfl
      | some p =>
        obtain ⟨N, t⟩ := p
        simp only [hj, Option.map_some, Option.getD_some] at h
        simp only [Out.bind_ok, copyLoopT_past _ _ _ _ _ h, ArrayIter.copyCtor, copyCtor]
        cases copyLoop t.data 0 N (List.replicate N none) <;> rfl
    · rfl
  | itMove k l =>
    simp only [stepT, step, Prog.bind_run, freshIt]
    split
    · simp only [Out.bind_ok, lift, getIt]
      simp only [count] at h
      cases hj : w.it l with
      | none => rfl
      | some p =>
        obtain ⟨N, t⟩ := p
        simp only [hj, Option.map_some, Option.getD_some] at h
        simp only [Out.bind_ok, moveLoopT_past _ _ _ _ _ _ h, ArrayIter.moveCtor]
        cases moveLoop E 0 N t.data (List.replicate N E.dflt) <;> rfl
    · rfl
  | itCopyAssign i j =>
    simp only [stepT, step, Prog.bind_run, getIt]
    simp only [count] at h
    cases hi : w.it i with
    | none => rfl
    | some q =>
      obtain ⟨N', d⟩ := q
      simp only [Out.bind_ok]
      cases hj : w.it j with
      | none => rfl
      | some p =>
        obtain ⟨N, c⟩ := p
        simp only [Out.bind_ok]
        by_cases hN : N' = N
        · subst hN
          by_cases hij : i = j
          · simp [hij]
          · simp only [hij, hj, Option.map_some, Option.getD_some, if_false] at h
            simp only [hij, ne_eq, not_true_eq_false, if_false, Prog.bind_run, lift, copyLoopT_past _ _ _ _ _ h,
              ArrayIter.copyAssign]
            cases copyLoop c.data 0 N' d.data <;> rfl
        · simp [hN, Prog.ub]
  | _ => rfl

theorem cells_eq {A : Ideal α} {i : Nat} {c : List (Option α)} (h : A.arr i = some c) : cells A i = c := by simp [cells, h]

/-- A call the specification leaves alone makes no more copies and moves than succeed. -/
theorem past_of_fine (E : Elem α) (ne : α → α → Bool) (n : Nat) (op : Op α) (A A' : Ideal α) (r : Ret α) (w : World α) (hR : R A w)
    (hs : specStep false E ne op A = some (.ok (r, A'))) (hf : fate E A n op = .fine) : Past (some n) (count w op) := by
  intro m hm
  cases hm
  cases op with
  | newList i N xs => simp only [fate] at hf; split at hf <;> simp_all [count]
  | newRaw i xs => simp only [fate] at hf; split at hf <;> simp_all [count]
  | newCopy i j =>
    simp only [fate] at hf
    cases hj : A.arr j with
    | none => simp [count, hR.arr j, hj]
    | some c => rw [cells_eq hj] at hf; simp only [count, hR.arr j, hj, Option.map_some, Option.getD_some]; split at hf <;> simp_all
  | newMove i j =>
    simp only [fate] at hf
    cases hj : A.arr j with
    | none => simp [count, hR.arr j, hj]
    | some c => rw [cells_eq hj] at hf; simp only [count, hR.arr j, hj, Option.map_some, Option.getD_some]; split at hf <;> simp_all
  | copyAssign i j =>
    simp only [fate] at hf
    by_cases hij : i = j
    · simp [count, hij]
    · cases hj : A.arr j with
      | none => simp [count, hR.arr j, hj]
      | some c =>
        rw [cells_eq hj] at hf; simp only [count, hij, if_false, hR.arr j, hj, Option.map_some, Option.getD_some]
        split at hf <;> simp_all
  | moveAssign i j =>
    simp only [fate] at hf
    by_cases hij : i = j
    · simp [count, hij]
    · cases hj : A.arr j with
      | none => simp [count, hR.arr j, hj]
      | some c =>
        rw [cells_eq hj] at hf; simp only [count, hij, if_false, hR.arr j, hj, Option.map_some, Option.getD_some]
        split at hf <;> simp_all
  | set i p y => simp only [fate] at hf; simp only [count]; split at hf <;> simp_all; omega
  | intoIter k i =>
    simp only [fate] at hf
    cases hj : A.arr i with
    | none => simp [count, hR.arr i, hj]
    | some c => rw [cells_eq hj] at hf; simp only [count, hR.arr i, hj, Option.map_some, Option.getD_some]; split at hf <;> simp_all
  | next k =>
    have hk := hR.it k
    simp only [fate] at hf
    cases h : A.it k with
    | none => simp [specStep, h] at hs
    | some t =>
      obtain ⟨N, vs⟩ := t
      rw [h] at hk
      obtain ⟨ps, h1, h2, h3⟩ := hk
      cases vs with
      | nil => simp [count, h1, mkIt]
      | cons v vs =>
        simp only [h] at hf
        simp only [count, h1]
        split at hf
        · simp at hf
        · split <;> omega
  | itCopy k l =>
    have hk := hR.it l
    simp only [fate] at hf
    cases h : A.it l with
    | none => rw [h] at hk; simp [count, show w.it l = none from hk]
    | some t =>
      obtain ⟨N, vs⟩ := t
      rw [h] at hk
      obtain ⟨ps, h1, h2, h3⟩ := hk
      simp only [h] at hf
      simp only [count, h1, Option.map_some, Option.getD_some]
      split at hf <;> simp_all
  | itMove k l =>
    have hk := hR.it l
    simp only [fate] at hf
    cases h : A.it l with
    | none => rw [h] at hk; simp [count, show w.it l = none from hk]
    | some t =>
      obtain ⟨N, vs⟩ := t
      rw [h] at hk
      obtain ⟨ps, h1, h2, h3⟩ := hk
      simp only [h] at hf
      simp only [count, h1, Option.map_some, Option.getD_some]
      split at hf <;> simp_all
  | itCopyAssign k l =>
    by_cases hkl : k = l
    · simp [count, hkl]
    · have hl := hR.it l
      simp only [specStep] at hs
      simp only [fate] at hf
      cases h : A.it l with
      | none => rw [h] at hl; simp [count, show w.it l = none from hl]
      | some t =>
        obtain ⟨N, vs⟩ := t
        cases h' : A.it k with
        | none => simp [h'] at hs
        | some s =>
          obtain ⟨N', ts⟩ := s
          rw [h] at hl
          obtain ⟨ps, h1, h2, h3⟩ := hl
          simp only [h, h'] at hf hs
          simp only [count, hkl, if_false, h1, Option.map_some, Option.getD_some]
          split at hs
          · simp at hs
          · split at hf
            · simp at hf
            · simp_all
  | _ => simp [count]

theorem stepT_ok (E : Elem α) (ne : α → α → Bool) (x : Option Nat) (op : Op α) (A : Ideal α) (w : World α) (hR : R A w)
    (s : Out (Option (Ret α) × Ideal α)) (hs : callT E ne x op A = some s) : Agree (stepT E ne x op w) s := by
  simp only [callT] at hs
  cases hsp : specStep false E ne op A with
  | none => simp [hsp] at hs
  | some o =>
    have hok := step_ok E ne op A w hR o hsp
    cases o with
    | ok p =>
      obtain ⟨r, A'⟩ := p
      simp only [hsp] at hs
      have fine : Past x (count w op) → Agree (stepT E ne x op w) (.ok (some r, A')) := by
        intro hp
        obtain ⟨w', h1, h2⟩ := hok
        exact ⟨w', by rw [stepT_past E ne x op w hp, h1]; rfl, h2⟩
      cases x with
      | none =>
        simp only [Option.some.injEq] at hs; subst hs
        exact fine (by intro m hm; simp at hm)
      | some n =>
        simp only [] at hs
        cases hf : fate E A n op with
        | fine =>
          simp only [hf, Option.some.injEq] at hs; subst hs
          exact fine (past_of_fine E ne n op A A' r w hR hsp hf)
        | thrown A'' =>
          simp only [hf, Option.some.injEq] at hs; subst hs
          clear fine hok
          cases op with
          | newList i N xs =>
            simp only [fate] at hf
            split at hf <;> simp at hf
            subst hf; rename_i hn
            simp only [specStep] at hsp
            split at hsp <;> try (simp at hsp)
            rename_i h
            simp only [Option.isNone_iff_eq_none] at h
            split at hsp <;> try (simp at hsp)
            rename_i hle
            have := initLoopT_stop N xs (List.replicate N E.dflt) 0 n (by omega) (by simp) hn
            exact ⟨w, by simp [stepT, fresh_run hR h.2, lift, ofInitListT, hle, this], hR⟩
          | newRaw i xs =>
            simp only [fate] at hf
            split at hf <;> simp at hf
            subst hf; rename_i hn
            simp only [specStep] at hsp
            split at hsp <;> try (simp at hsp)
            rename_i h
            simp only [Option.isNone_iff_eq_none] at h
            refine ⟨w, ?_, hR⟩
            simp only [stepT, Prog.bind_run, fresh_run hR h.2, lift, ofRawT, Out.bind_ok,
              copyLoopT_stop0 xs n _ (List.length_replicate ..) hn]
            rfl
          | newCopy i j =>
            simp only [fate] at hf
            split at hf <;> simp at hf
            subst hf; rename_i hn
            simp only [specStep] at hsp
            split at hsp <;> try (simp at hsp)
            rename_i c hi hj
            split at hsp <;> simp at hsp
            rename_i vs hv
            have hc := values_some hv
            subst hc
            rw [cells_eq hj, List.length_map] at hn
            refine ⟨w, ?_, hR⟩
            simp only [stepT, Prog.bind_run, fresh_run hR hi, getArr_run hR hj, lift, Out.bind_ok, List.length_map,
              copyLoopT_stop0 vs n _ (List.length_replicate ..) hn]
            rfl
          | newMove i j => simp only [fate] at hf; split at hf <;> simp at hf
          | copyAssign i j =>
            simp only [fate] at hf
            split at hf <;> simp at hf
            subst hf; rename_i hn
            obtain ⟨hij, hn⟩ := hn
            simp only [specStep] at hsp
            cases hi : A.arr i with
            | none => simp [hi] at hsp
            | some d =>
              cases hj : A.arr j with
              | none => simp [hi, hj] at hsp
              | some c =>
                simp only [hi, hj, hij, if_false] at hsp
                split at hsp <;> try (simp at hsp)
                rename_i hdc
                split at hsp <;> simp at hsp
                rename_i vs hv
                have hc := values_some hv
                subst hc
                have hl := hR.len j _ hj
                rw [cells_eq hj, List.length_map] at hn
                rw [cells_eq hi, cells_eq hj]
                simp only [List.length_map, ne_eq, Classical.not_not] at hdc
                refine ⟨_, by
                  simp only [stepT, Prog.bind_run, getArr_run hR hi, getArr_run hR hj, lift, Out.bind_ok, List.length_map, hdc, hij,
                    copyLoopT_stop0 vs n d hdc hn, ne_eq, not_true_eq_false, if_false]
                  rfl, ?_⟩
                have hlen : ((vs.take n).map some ++ d.drop n).length = vs.length := by simp; omega
                have := R_setArr hR i ((vs.take n).map some ++ d.drop n) (by rw [hlen]; simpa using hl)
                rw [hlen] at this
                simpa using this
          | moveAssign i j => simp only [fate] at hf; split at hf <;> simp at hf
          | set i p y =>
            simp only [fate] at hf
            split at hf <;> simp at hf
            subst hf; rename_i hn
            obtain rfl : n = 0 := by omega
            simp only [specStep] at hsp
            split at hsp <;> try (simp at hsp)
            rename_i c hi
            split at hsp <;> try (simp at hsp)
            rename_i hp
            exact ⟨w, by simp [stepT, getArr_run hR hi, lift, index, Nat.not_le.2 hp, now_zero], hR⟩
          | intoIter k i =>
            simp only [fate] at hf
            split at hf <;> simp at hf
            subst hf; rename_i hn
            simp only [specStep] at hsp
            split at hsp <;> try (simp at hsp)
            rename_i c hk hi
            split at hsp <;> simp at hsp
            rename_i vs hv
            have hc := values_some hv
            subst hc
            have hl := hR.len i _ hi
            rw [cells_eq hi, List.length_map] at hn
            rw [cells_eq hi]
            have e := moveAllT_stop E vs [] n hn
            simp only [List.length_nil, List.nil_append] at e
            refine ⟨_, by
              simp only [stepT, Prog.bind_run, freshIt_run hR hk, getArr_run hR hi, lift, Out.bind_ok, List.length_map, e, setArr]
              rfl, ?_⟩
            have hlen : ((vs.take n).map (fun v => some (E.mv v)) ++ (vs.drop n).map some).length = vs.length := by simp; omega
            have := R_setArr hR i ((vs.take n).map (fun v => some (E.mv v)) ++ (vs.drop n).map some) (by rw [hlen]; simpa using hl)
            rw [hlen] at this
            simpa [Function.comp_def, ← List.map_take, ← List.map_drop] using this
          | next k =>
            simp only [fate] at hf
            cases hk : A.it k with
            | none => simp [hk] at hf
            | some t =>
              obtain ⟨N, vs⟩ := t
              cases vs with
              | nil => simp [hk] at hf
              | cons v vs =>
                simp only [hk] at hf
                split at hf <;> simp at hf
                subst hf; rename_i hn
                obtain ⟨ps, h1, h2, h3⟩ := getIt_run hR hk
                simp only [List.length_cons] at h2
                have g1 : ¬ ((ps.length : Int) = ((ps ++ v :: vs).length : Nat)) := by simp; omega
                have g2 : (ps.length : Int) < Model.Range.usizeTy.maxVal := by simp [Model.Range.usizeTy]; omega
                have hx : ∃ u, (mkIt ps (v :: vs)).nextT E (some n) = .ok (none, mkIt (ps ++ [u]) vs) := by
                  simp only [ArrayIter.nextT, mkIt, Model.Range.Range.next, g1, if_false, Model.Range.IntTy.inc]
                  match n, hn with
                  | 0, _ => exact ⟨v, by simp [readCell, now_zero, g2]⟩
                  | 1, _ => exact ⟨E.mv v, by simp [moveCell, readCell, now_zero, now_succ, later_succ, g2]⟩
                obtain ⟨u, hx⟩ := hx
                refine ⟨_, by simp [stepT, h1, lift, hx, setIt]; rfl, ?_⟩
                have := R_setIt hR k (ps ++ [u]) vs (by simp; omega)
                have hl : (ps ++ [u] ++ vs).length = N := by simp; omega
                rw [hl] at this
                exact this
          | itCopy k l =>
            simp only [fate] at hf
            cases hl : A.it l with
            | none => simp [hl] at hf
            | some t =>
              obtain ⟨N, vs⟩ := t
              simp only [hl] at hf
              split at hf <;> simp at hf
              subst hf; rename_i hn
              cases hk : A.it k with
              | some t => simp [specStep, hk] at hsp
              | none =>
                obtain ⟨ps, h1, h2, h3⟩ := getIt_run hR hl
                have e := copyLoopT_stop0 (ps ++ vs) n (List.replicate N none) (by simp; omega) (by simp; omega)
                rw [show (ps ++ vs).length = N by simp; omega] at e
                refine ⟨w, ?_, hR⟩
                simp only [stepT, Prog.bind_run, freshIt_run hR hk, h1, lift, Out.bind_ok, mkIt, e]
                rfl
          | itMove k l =>
            simp only [fate] at hf
            split at hf
            · split at hf <;> simp at hf
            · simp at hf
          | itCopyAssign k l =>
            simp only [fate] at hf
            cases hk : A.it k with
            | none => simp [hk] at hf
            | some s =>
              obtain ⟨N, ts⟩ := s
              cases hl : A.it l with
              | none => simp [hk, hl] at hf
              | some t =>
                obtain ⟨N', vs⟩ := t
                simp only [hk, hl] at hf
                split at hf <;> simp at hf
                subst hf; rename_i hn
                obtain ⟨hkl, hn⟩ := hn
                simp only [specStep, hk, hl] at hsp
                split at hsp <;> try (simp at hsp)
                rename_i hNN
                have hNN : N = N' := Classical.not_not.1 hNN
                subst hNN
                have hlen : ts.length = vs.length := by
                  simp only [only] at hsp
                  split at hsp
                  · simp_all
                  · simp at hsp
                obtain ⟨ps, h1, h2, h3⟩ := getIt_run hR hl
                obtain ⟨qs, g1, g2, g3⟩ := getIt_run hR hk
                have e := copyLoopT_stop0 (ps ++ vs) n ((qs ++ ts).map some) (by simp; omega) (by simp; omega)
                rw [show (ps ++ vs).length = N by simp; omega] at e
                refine ⟨_, by
                  simp only [stepT, Prog.bind_run, h1, g1, lift, Out.bind_ok, mkIt, e, ne_eq,
                    not_true_eq_false, if_false, hkl]
                  rfl, ?_⟩
                have hps : ps.length = qs.length := by omega
                have hNt : N - ts.length = qs.length := by omega
                have hq : (ps ++ vs).take n ++ (qs ++ ts).drop n =
                    (ps.take n ++ qs.drop n) ++ (vs.take (n - qs.length) ++ ts.drop (n - qs.length)) := by
                  rw [List.take_append, List.drop_append, hps]
                  by_cases hle : n ≤ qs.length
                  · simp [show n - qs.length = 0 by omega]
                  · simp [List.drop_eq_nil_of_le (show qs.length ≤ n by omega)]
                have hql : (ps.take n ++ qs.drop n).length = qs.length := by simp; omega
                have hqr : (vs.take (n - qs.length) ++ ts.drop (n - qs.length)).length = ts.length := by simp; omega
                have := R_setIt hR k (ps.take n ++ qs.drop n) (vs.take (n - qs.length) ++ ts.drop (n - qs.length))
                  (by rw [List.length_append, hql, hqr]; omega)
                rw [← List.map_drop, ← List.map_append, hq, hNt]
                simp only [mkIt, List.length_append (as := ps.take n ++ qs.drop n), hql, hqr, g2] at this
                simp only [List.length_append (as := qs), g2]
                exact this
          | _ => simp [fate] at hf
        | ends =>
          simp only [hf, Option.some.injEq] at hs; subst hs
          clear fine hok
          cases op with
          | newMove i j =>
            simp only [fate] at hf
            split at hf <;> simp at hf
            rename_i hn
            simp only [specStep] at hsp
            split at hsp <;> try (simp at hsp)
            rename_i c hi hj
            split at hsp <;> simp at hsp
            rename_i vs hv
            have hc := values_some hv
            subst hc
            rw [cells_eq hj, List.length_map] at hn
            have e := moveLoopT_stop0 E vs n (List.replicate vs.length E.dflt) (by simp) hn
            simp [Agree, stepT, fresh_run hR hi, getArr_run hR hj, lift, e]
          | moveAssign i j =>
            simp only [fate] at hf
            split at hf <;> simp at hf
            rename_i hn
            obtain ⟨hij, hn⟩ := hn
            simp only [specStep] at hsp
            cases hi : A.arr i with
            | none => simp [hi] at hsp
            | some d =>
              cases hj : A.arr j with
              | none => simp [hi, hj] at hsp
              | some c =>
                simp only [hi, hj, hij, if_false] at hsp
                split at hsp <;> try (simp at hsp)
                rename_i hdc
                split at hsp <;> simp at hsp
                rename_i vs hv
                have hc := values_some hv
                subst hc
                rw [cells_eq hj, List.length_map] at hn
                simp only [List.length_map, ne_eq, Classical.not_not] at hdc
                have e := moveLoopT_stop0 E vs n d hdc hn
                simp [Agree, stepT, getArr_run hR hi, getArr_run hR hj, lift, e, hdc, hij]
          | itMove k l =>
            simp only [fate] at hf
            cases hl : A.it l with
            | none => simp [hl] at hf
            | some t =>
              obtain ⟨N, vs⟩ := t
              simp only [hl] at hf
              split at hf <;> simp at hf
              rename_i hn
              cases hk : A.it k with
              | some t => simp [specStep, hk] at hsp
              | none =>
                obtain ⟨ps, h1, h2, h3⟩ := getIt_run hR hl
                have e := moveLoopT_stop0 E (ps ++ vs) n (List.replicate N E.dflt) (by simp; omega) (by simp; omega)
                rw [show (ps ++ vs).length = N by simp; omega] at e
                simp only [Agree, stepT, Prog.bind_run, freshIt_run hR hk, h1, lift, Out.bind_ok, mkIt, e]
                rfl
          | _ =>
            simp only [fate] at hf
            first
              | (simp at hf; done)
              | (split at hf <;> simp at hf; done)
              | (split at hf <;> (try split at hf) <;> simp at hf)
    | panic =>
      simp only [hsp, Option.some.injEq] at hs; subst hs
      simp only [Arr.Agree] at hok
      cases op with
      | newList i N xs =>
        simp only [specStep] at hsp
        split at hsp <;> try (simp at hsp)
        rename_i h
        simp only [Option.isNone_iff_eq_none] at h
        simp [Agree, stepT, fresh_run hR h.2, lift, ofInitListT, hsp]
      | set i p y =>
        simp only [specStep] at hsp
        split at hsp <;> try (simp at hsp)
        rename_i c hi
        simp [Agree, stepT, getArr_run hR hi, lift, index, hsp]
      | get i p => simp [Agree, stepT, Prog.bind_run, hok]
      | _ =>
        simp only [specStep] at hsp
        first
          | (simp at hsp; done)
          | (split at hsp <;> simp at hsp; done)
          | (split at hsp <;> (try split at hsp) <;> simp at hsp; done)
          | (split at hsp <;> (try split at hsp) <;> (try split at hsp) <;> simp at hsp; done)
          | (split at hsp <;> (try split at hsp) <;> (try split at hsp) <;> (try simp only [only] at hsp) <;> (try split at hsp) <;> simp at hsp)
    | _ => simp [hsp] at hs

theorem runT_ok (E : Elem α) (ne : α → α → Bool) (ops : List (Op α × Option Nat)) (A : Ideal α) (w : World α) (hR : R A w) :
    match Spec.ArrT.runT E ne ops A with
    | some (.ok (rs, A')) => ∃ w', Model.Array.runT E ne ops w = .ok (rs, w') ∧ R A' w'
    | some .panic => Model.Array.runT E ne ops w = .panic
    | _ => True := by
  induction ops generalizing A w with
  | nil => exact ⟨w, rfl, hR⟩
  | cons o ops ih =>
    obtain ⟨op, x⟩ := o
    simp only [Spec.ArrT.runT]
    cases hs : callT E ne x op A with
    | none => trivial
    | some s =>
      have h := stepT_ok E ne x op A w hR s hs
      cases s with
      | ok p =>
        obtain ⟨r, A'⟩ := p
        obtain ⟨w', h1, h2⟩ := h
        have := ih A' w' h2
        simp only []
        cases hr : Spec.ArrT.runT E ne ops A' with
        | none => trivial
        | some q =>
          rw [hr] at this
          cases q with
          | ok q =>
            obtain ⟨w'', h3, h4⟩ := this
            exact ⟨w'', by simp [Model.Array.runT, h1, h3], h4⟩
          | panic => simp only [] at this ⊢; simp [Model.Array.runT, h1, this]
          | _ => trivial
      | panic => simp only [Agree] at h; simp [Model.Array.runT, h]
      | _ => trivial

end Verif.Proof.ArrT
