import Verif.Proof.VectorIter
import Verif.Props.Vector
/-!
# Properties C69, C70: iterators of a Vector as random access positions

`walkIn i fromEnd ms`: the client takes `begin()` (`end()` if `fromEnd`) of vector variable `i` and applies the moves `ms`
(`++`, `--`, prefix and postfix, `+ n`, `- n`).  `walk cap ms p` is where these moves lead from position `p`, `none` if one of
them leaves the storage (Spec/VectorIter.lean).
-/
namespace Verif.Props
open Verif Verif.Model.Mem Verif.Model.Vector Verif.Proof.Mem Verif.Proof.Vector
open Verif.Spec.Vector hiding upd

variable {α : Type} {ty : ElemTy α}

/-- Position of `begin()` or `end()`. -/
def startOf (xs : List α) (fromEnd : Bool) : Nat := if fromEnd then xs.length else 0

/-- C69.  Moving an iterator is moving a position: it is undefined exactly when the position leaves the storage; otherwise
reading gives the element at the position (undefined if there is none), and `pos()` is the position. -/
theorem C69_walk {w : World α} (hr : Reach ty w) {i : Nat} {xs : List α} {cap a : Nat} (hi : view w i = some ⟨xs, cap, a⟩)
    (fromEnd : Bool) (ms : List Move) :
    match walk cap ms (startOf xs fromEnd) with
    | none => walkIn i fromEnd ms w = .ub
    | some p => ∃ it, walkIn i fromEnd ms w = .ok (it, w) ∧ it.pos w.heap = .ok (p, w.heap) ∧
        it.deref w.heap = (match xs[p]? with | some x => .ok (x, w.heap) | none => .ub) := by
  obtain ⟨v, hv, r, hc, -⟩ := reach_get hr hi
  simp only at r hc
  have hle := r.le
  have hs : startOf xs fromEnd = if fromEnd then v.len else 0 := by rw [startOf, r.len]
  have e := walkIn_run hv r fromEnd ms
  rw [hs, ← hc, e]
  cases hw : walk v.cap ms (if fromEnd then v.len else 0) with
  | none => rfl
  | some p =>
    have hp : p ≤ v.cap := walk_le ms (by have := r.len; cases fromEnd <;> simp <;> omega) hw
    have := r.own.cap_lt
    exact ⟨_, rfl, pos_at (by have : wordSize = 18446744073709551616 := rfl; omega), deref_at r rfl hp⟩

/-- C69.  Two iterators of the same vector: their distance is the difference of the positions (modulo 2^64, being a `usize`), they
are equal iff the positions are, and ordered as the positions are. -/
theorem C69_two {w : World α} (hr : Reach ty w) {i : Nat} {xs : List α} {cap a : Nat} (hi : view w i = some ⟨xs, cap, a⟩)
    {e1 e2 : Bool} {ms ns : List Move} {p q : Nat} (hp : walk cap ms (startOf xs e1) = some p)
    (hq : walk cap ns (startOf xs e2) = some q) :
    ∃ it jt, walkIn i e1 ms w = .ok (it, w) ∧ walkIn i e2 ns w = .ok (jt, w) ∧
      it.dist jt w.heap = .ok (if q ≤ p then p - q else wordSize - (q - p), w.heap) ∧
      (it.eq jt = true ↔ p = q) ∧ it.cmp jt w.heap = .ok (compare p q, w.heap) := by
  obtain ⟨v, hv, r, hc, -⟩ := reach_get hr hi
  simp only at r hc
  have hle := r.le
  have hlt := r.own.cap_lt
  have hl := r.len
  have hw : wordSize = 18446744073709551616 := rfl
  have hs : ∀ b, startOf xs b = if b then v.len else 0 := fun b => by rw [startOf, r.len]
  rw [hs, ← hc] at hp hq
  have hp' : p ≤ v.cap := walk_le ms (by cases e1 <;> simp <;> omega) hp
  have hq' : q ≤ v.cap := walk_le ns (by cases e2 <;> simp <;> omega) hq
  refine ⟨itAt v p, itAt v q, ?_, ?_, ?_, ?_, cmp_at rfl p q⟩
  · rw [walkIn_run hv r, hp]
  · rw [walkIn_run hv r, hq]
  · rw [dist_at rfl]
    split
    · rw [toUsize_le (by omega) (by omega)]
    · rw [toUsize_gt (by omega) (by omega)]
  · rw [eq_at rfl]; simp

/-- C69.  `for (x : v)`, and any standard algorithm going from `begin()` to `end()`, sees every element once, in order. -/
theorem C69_for {w : World α} (hr : Reach ty w) {i : Nat} {xs : List α} {cap a : Nat} (hi : view w i = some ⟨xs, cap, a⟩) :
    stlFor i w = .ok (xs, w) := by
  obtain ⟨v, hv, r, hc, -⟩ := reach_get hr hi
  simp only at r
  simp only [stlFor, Prog.bind_run, run_var hv, Out.bind_ok, inHeap_run, begin_ok r, end_ok r,
    stlLoop_run r xs.length (Nat.zero_add _) []]
  simp

example : ∃ w, Reach exTy w ∧ view w 0 = some ⟨[1, 2, 3], 4, 0⟩ ∧
    walk 4 [.minus 2, .postInc true, .plus 1] (startOf [1, 2, 3] true) = some 2 ∧ walk 4 [.dec] (startOf [1, 2, 3] false) = none ∧
    walk 4 [.plus 4, .inc] 0 = none := by
  obtain ⟨w, h, h0, _⟩ := exReach; exact ⟨w, h, h0, by decide, by decide, by decide⟩

/-! ## C70 -/

/-- C70.  An iterator obtained before a `push_back` that finds room still designates its element afterwards: it reads the same
element, its distance to a fresh iterator to that element is 0 and it is ordered as equal to it.  Missing: it is not `==` to
the fresh iterator, see `C70_append_fails`. -/
theorem C70_append_partial {w : World α} (hr : Reach ty w) {i : Nat} {xs : List α} {cap a : Nat}
    (hi : view w i = some ⟨xs, cap, a⟩) (hroom : xs.length < cap) {r : Arg α} {x : α} (hx : argVal (view w) r = some x)
    {p : Nat} {y : α} (hy : xs[p]? = some y) :
    ∃ it, walkIn i false [.plus p] w = .ok (it, w) ∧ it.deref w.heap = .ok (y, w.heap) ∧
      (step ty (.push i r) w).Safe fun q => it.deref q.2.heap = .ok (y, q.2.heap) ∧
        ∃ jt, walkIn i false [.plus p] q.2 = .ok (jt, q.2) ∧ it.dist jt q.2.heap = .ok (0, q.2.heap) ∧
          it.cmp jt q.2.heap = .ok (.eq, q.2.heap) ∧ it.eq jt = false := by
  obtain ⟨v, hv, r', hc, -⟩ := reach_get hr hi
  simp only at r' hc
  have hp : p < xs.length := (List.getElem?_eq_some_iff.1 hy).1
  have hle := r'.le
  refine ⟨itAt v p, ?_, ?_, ?_⟩
  · rw [walkIn_run hv r']; simp [walk, Spec.Vector.move, up, if_pos (show p ≤ v.cap by omega)]
  · rw [deref_at r' rfl (by omega), hy]
  have h1 := reach_step hr (op := .push i r) (r := .unit) (A' := put (view w) i (some ⟨xs ++ [x], cap, a⟩))
    (by simp [specStep, Spec.Vector.upd, hi, only, hx, hroom, afterPush])
  refine (Safe.and h1 (C03_push_keeps_block hr hv hi hx hroom)).mono ?_
  rintro q ⟨⟨-, hview, hr'⟩, -, -, v', hv', hptr⟩
  obtain ⟨v'', hw, r2, hc2, -⟩ := reach_get hr' (show view q.2 i = some ⟨xs ++ [x], cap, a⟩ by rw [hview]; simp [put])
  rw [hv'] at hw; cases hw
  simp only at r2 hc2
  have hl2 := r2.len
  have hl := r'.len
  refine ⟨?_, itAt v' p, ?_, ?_, ?_, ?_⟩
  · rw [deref_at r2 hptr.symm (by omega), List.getElem?_append_left hp, hy]
  · rw [walkIn_run hv' r2]; simp [walk, Spec.Vector.move, up, if_pos (show p ≤ v'.cap by omega)]
  · rw [dist_at hptr.symm]; simp [toUsize]
  · rw [cmp_at hptr.symm]; simp
  · rw [eq_at hptr.symm]
    simp at hl2
    simp; omega

/-- C70 is false of the code: after a `push_back` that finds room, an old iterator equals no iterator of the vector whatsoever,
not even `end()` - so a loop `for (it = v.begin(); it != v.end(); ++it)` that appends runs past the end. -/
theorem C70_append_fails {w : World α} (hr : Reach ty w) {i : Nat} {xs : List α} {cap a : Nat}
    (hi : view w i = some ⟨xs, cap, a⟩) (hroom : xs.length < cap) {r : Arg α} {x : α} (hx : argVal (view w) r = some x)
    {e1 : Bool} {ms : List Move} {it : RIter} (hit : walkIn i e1 ms w = .ok (it, w)) :
    (step ty (.push i r) w).Safe fun q => ∀ e2 ns jt w2, walkIn i e2 ns q.2 = .ok (jt, w2) → it.eq jt = false := by
  obtain ⟨v, hv, r', hc, -⟩ := reach_get hr hi
  simp only at r' hc
  have h1 := reach_step hr (op := .push i r) (r := .unit) (A' := put (view w) i (some ⟨xs ++ [x], cap, a⟩))
    (by simp [specStep, Spec.Vector.upd, hi, only, hx, hroom, afterPush])
  refine (Safe.and h1 (C03_push_keeps_block hr hv hi hx hroom)).mono ?_
  rintro q ⟨⟨-, hview, hr'⟩, -, -, v', hv', hptr⟩ e2 ns jt w2 hjt
  obtain ⟨v'', hw, r2, hc2, -⟩ := reach_get hr' (show view q.2 i = some ⟨xs ++ [x], cap, a⟩ by rw [hview]; simp [put])
  rw [hv'] at hw; cases hw
  simp only at r2 hc2
  have hl2 := r2.len
  have hl := r'.len
  rw [walkIn_run hv r'] at hit
  rw [walkIn_run hv' r2] at hjt
  cases h3 : walk v.cap ms (if e1 then v.len else 0) with
  | none => rw [h3] at hit; cases hit
  | some p =>
    rw [h3] at hit; cases hit
    cases h4 : walk v'.cap ns (if e2 then v'.len else 0) with
    | none => rw [h4] at hjt; cases hjt
    | some p' =>
      rw [h4] at hjt; cases hjt
      rw [eq_at hptr.symm]
      simp at hl2
      simp; omega

example : ∃ w it, Reach exTy w ∧ view w 0 = some ⟨[1, 2, 3], 4, 0⟩ ∧ argVal (view w) (.val 7) = some 7 ∧
    walkIn 0 false [.plus 1] w = .ok (it, w) := by
  obtain ⟨w, h, h0, _⟩ := exReach
  have := C69_walk h h0 false [.plus 1]
  obtain ⟨it, h1, -⟩ := this
  exact ⟨w, it, h, h0, rfl, h1⟩

end Verif.Props
