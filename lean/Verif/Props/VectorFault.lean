import Verif.Proof.VectorFault
import Verif.Props.Vector
/-!
# Properties C74, C75: vectors when memory is refused or a copy throws

C74 (full statement, refuted): a call that is refused memory reports it or leaves the vector usable.
C75 (full statement, refuted): after a call during which copying an element throws, the vector can be used and destroyed, and no
element and no memory is lost.
-/
namespace Verif.Props
open Verif Verif.Model.Mem Verif.Model.Vector Verif.Proof.Mem Verif.Proof.Vector
open Verif.Spec.Vector hiding upd

variable {α : Type} {ty : ElemTy α}

/-! ## C74 -/

/-- C74 (partial).  As long as memory is granted, following the null pointer through the code changes nothing: each call does
what the model of the other properties does.  Missing: the calls that are refused (`C74_…_fails`). -/
theorem C74_granted_partial (v : Vec) (n : Nat) (r : Ref α) (h : Heap α) :
    (reserve ty v n h = .oom ∨ reserveN ty v n h = reserve ty v n h) ∧
    (pushBack ty v r h = .oom ∨ pushBackN ty v r h = pushBack ty v r h) ∧
    (newDefault ty h = .oom ∨ newDefaultN ty h = newDefault ty h) ∧
    (newCopy ty v h = .oom ∨ newCopyN ty v h = newCopy ty v h) :=
  ⟨reserveN_agree v n h, pushBackN_agree v r h, newDefaultN_agree h, newCopyN_agree v h⟩

/-- C74 fails: `reserve` on a vector with elements, refused: undefined behaviour (elements are moved to the null pointer). -/
theorem C74_reserve_refused_fails {w : World α} (hr : Reach ty w) {i : Nat} {v : Vec} (hv : w.vars i = some v) {x : α} {xs : List α}
    {cap a : Nat} (hi : view w i = some ⟨x :: xs, cap, a⟩) {n : Nat} (hn : cap < n)
    (hf : ty.refuse w.heap.next (wrap (ty.size * n)) = true) : reserveN ty v n w.heap = .ub := by
  obtain ⟨v', hv', rep, hc, _⟩ := reach_get hr hi
  rw [hv] at hv'; cases hv'
  simp only at hc
  rw [reserveN, if_pos (by omega)]
  exact allocateReserveN_refused rep hf

/-- C74 fails: `reserve` on an empty vector, refused: the call returns, `capacity()` claims the requested capacity, and the next
`push_back`, which need not ask for memory, is undefined. -/
theorem C74_reserve_empty_refused_fails {w : World α} (hr : Reach ty w) {i : Nat} {v : Vec} (hv : w.vars i = some v)
    {cap a : Nat} (hi : view w i = some ⟨[], cap, a⟩) {n : Nat} (hn : cap < n)
    (hf : ty.refuse w.heap.next (wrap (ty.size * n)) = true) :
    ∃ v' h', reserveN ty v n w.heap = .ok (v', h') ∧ v'.len = 0 ∧ v'.cap = n ∧ ∀ x, pushBackN ty v' (.tmp x) h' = .ub := by
  obtain ⟨v', hv', rep, hc, _⟩ := reach_get hr hi
  rw [hv] at hv'; cases hv'
  simp only at hc
  rw [reserveN, if_pos (by omega)]
  obtain ⟨h', e⟩ := allocateReserveN_refused_empty rep hf
  exact ⟨_, h', e, rfl, rfl, fun x => pushBackN_null (by omega) x⟩

/-- C74 fails: `push_back` on a full vector with elements, the doubled capacity refused: undefined behaviour. -/
theorem C74_push_refused_fails {w : World α} (hr : Reach ty w) {i : Nat} {v : Vec} (hv : w.vars i = some v) {x : α} {xs : List α}
    {a : Nat} (hi : view w i = some ⟨x :: xs, (x :: xs).length, a⟩)
    (hf : ty.refuse w.heap.next (wrap (ty.size * (2 * (x :: xs).length))) = true) (r : Ref α) : pushBackN ty v r w.heap = .ub := by
  obtain ⟨v', hv', rep, hc, _⟩ := reach_get hr hi
  rw [hv] at hv'; cases hv'
  simp only at hc rep
  have hl := rep.len
  have hlt : 2 * (x :: xs).length < wordSize := by
    have h1 := rep.own.small; have h2 : v.cap * 1 ≤ v.cap * ty.size := Nat.mul_le_mul_left _ ty.size_pos
    have : wordSize = 18446744073709551616 := rfl
    omega
  have e : extendSpaceN ty v w.heap = .ub := by
    simp only [extendSpaceN, hc, List.length_cons, Nat.add_one_ne_zero, if_false]
    simp only [List.length_cons] at hlt
    rw [wrap_of_lt hlt, reserveN, if_pos (by rw [hc]; simp)]
    exact allocateReserveN_refused rep hf
  simp only [pushBackN, Prog.bind_run]
  rw [if_pos (by omega), e]
  rfl

/-- C74 fails: `Vector()`, refused: the constructor returns an object that claims a capacity of 2 and has no storage, and the first
`push_back` is undefined. -/
theorem C74_new_refused_fails (h : Heap α) (hf : ty.refuse h.next (wrap (ty.size * 2)) = true) :
    ∃ v h', newDefaultN ty h = .ok (v, h') ∧ v.len = 0 ∧ v.cap = 2 ∧ ∀ x, pushBackN ty v (.tmp x) h' = .ub := by
  refine ⟨⟨0, 2, none, dfltAlloc⟩, { h with next := h.next + 1 }, ?_, rfl, rfl, fun x => pushBackN_null (by omega) x⟩
  simp only [newDefaultN, allocateN, Prog.bind_run, Vec.blank, allocN_refused hf, Out.bind_ok, Prog.pure_run]

/-- An allocator that refuses everything from 32 bytes on: the vectors below are reachable with it, and the requests that the
theorems speak about are refused. -/
def exTight : ElemTy Nat := { exTy with refuse := fun _ n => decide (32 ≤ n), refuse_big := fun _ n h => by simp; omega }

theorem exTightReach : ∃ w, Reach exTight w ∧ view w 0 = some ⟨[1, 2], 2, 0⟩ ∧ view w 1 = some ⟨[], 2, 0⟩ := by
  obtain ⟨w, h, hP⟩ := reach_of (ty := exTight) [.newDefault 0, .push 0 (.val 1), .push 0 (.val 2), .newDefault 1]
    (fun A => decide (A 0 = some ⟨[1, 2], 2, 0⟩ ∧ A 1 = some ⟨[], 2, 0⟩)) (by decide +kernel) (by decide +kernel)
  exact ⟨w, h, by simpa using hP⟩

example : ∃ w v u, Reach exTight w ∧ w.vars 0 = some v ∧ w.vars 1 = some u ∧ view w 0 = some ⟨[1, 2], 2, 0⟩ ∧
    view w 1 = some ⟨[], 2, 0⟩ ∧ exTight.refuse w.heap.next (wrap (exTight.size * 100)) = true ∧
    exTight.refuse w.heap.next (wrap (exTight.size * (2 * [1, 2].length))) = true := by
  obtain ⟨w, h, h0, h1⟩ := exTightReach
  obtain ⟨v, hv, _⟩ := reach_get h h0
  obtain ⟨u, hu, _⟩ := reach_get h h1
  exact ⟨w, v, u, h, hv, hu, h0, h1, by simp [exTight, exTy, wrap, wordSize], by simp [exTight, exTy, wrap, wordSize]⟩

/-! ## C75 -/

variable {bad : α → Bool}

/-- C75 (partial).  If no copy throws, each call does what the model of the other properties does. -/
theorem C75_no_throw_partial (hno : ∀ x, bad x = false) (v u : Vec) (pos a : Nat) (r : Ref α) (xs : List α) (h : Heap α) :
    pushBackT ty bad v r h = (pushBack ty v r h >>= fun q => .ok ((false, q.1), q.2)) ∧
    assignListT ty bad v xs h = (assignList ty v xs h >>= fun q => .ok ((false, q.1), q.2)) ∧
    newListT ty bad xs a h = (newList ty xs a h >>= fun q => .ok (some q.1, q.2)) ∧
    insertT ty bad v pos r h = (Model.Vector.insert ty v pos r h >>= fun q => .ok ((false, q.1.1), q.2)) ∧
    insertRangeT ty bad v pos xs h = (insertRange ty v pos xs h >>= fun q => .ok ((false, q.1.1), q.2)) ∧
    copyAssignT ty bad v u h = (copyAssign ty v u h >>= fun q => .ok ((false, q.1), q.2)) :=
  ⟨pushBackT_quiet hno v r h, assignListT_quiet hno v xs h, newListT_quiet hno xs a h, insertT_quiet hno v pos r h,
    insertRangeT_quiet hno v pos xs h, copyAssignT_quiet hno v u h⟩

/-- C75 (partial): `insert(pos, value)` whose copy throws changes nothing.  Missing: every other call that copies. -/
theorem C75_insert_partial {w : World α} (hr : Reach ty w) {i : Nat} {v : Vec} (_hv : w.vars i = some v) (pos : Nat) {arg : Arg α} {x : α}
    (hx : argVal (view w) arg = some x) (hb : bad x = true) :
    ∃ r, argRef arg w = .ok (r, w) ∧ insertT ty bad v pos r w.heap = .ok ((true, v), w.heap) := by
  obtain ⟨ref, e1, hst, hin⟩ := arg_ok (reach_inv hr) hx
  have hd : deref ref w.heap = .ok (x, w.heap) := (hst none (fun b h => by cases h)).now
  exact ⟨ref, e1, by simp only [insertT, Prog.bind_run, hd, Out.bind_ok, hb, if_true, Prog.pure_run]⟩

/-- C75 fails for `push_back(value)` whose copy throws: the vector counts an element that was never made, and destroying the vector
(or `clear`, `pop_back`, …) is undefined. -/
theorem C75_push_throw_fails {w : World α} (hr : Reach ty w) {i : Nat} {v : Vec} (hv : w.vars i = some v) {xs : List α} {cap a : Nat}
    (hi : view w i = some ⟨xs, cap, a⟩) {x : α} (hx : bad x = true) :
    (pushBackT ty bad v (.tmp x) w.heap).Safe fun q => q.1.1 = true ∧ q.1.2.len = xs.length + 1 ∧ clear ty q.1.2 q.2 = .ub := by
  obtain ⟨v', hv', rep, _, _⟩ := reach_get hr hi
  rw [hv] at hv'; cases hv'
  refine (pushBackT_bad rep (reach_bal hr) hx (.inl (stable_tmp _ _ x))).mono ?_
  rintro ⟨⟨t, v1⟩, h1⟩ ⟨h2, h3, h4⟩
  exact ⟨h2, h3, clear_past h4 (by rw [h3]; exact Nat.lt_succ_self _) (raws_head _)⟩

/-- C75 fails for `assign(list)` when the copy of some element of the list throws. -/
theorem C75_assign_throw_fails {w : World α} (hr : Reach ty w) {i : Nat} {v : Vec} (hv : w.vars i = some v) {xs : List α} {cap a : Nat}
    (hi : view w i = some ⟨xs, cap, a⟩) {ys zs : List α} {x : α} (hw : (ys ++ x :: zs).length * ty.size < wordSize)
    (hg : ∀ y ∈ ys, bad y = false) (hx : bad x = true) :
    (assignListT ty bad v (ys ++ x :: zs) w.heap).Safe fun q =>
      q.1.1 = true ∧ q.1.2.len = ys.length + 1 ∧ clear ty q.1.2 q.2 = .ub := by
  obtain ⟨v', hv', rep, _, _⟩ := reach_get hr hi
  rw [hv] at hv'; cases hv'
  refine (assignListT_bad rep (reach_bal hr) hw hg hx).mono ?_
  rintro ⟨⟨t, v1⟩, h1⟩ ⟨h2, h3, h4⟩
  exact ⟨h2, h3, clear_past h4 (by rw [h3]; exact Nat.lt_succ_self _) (raws_head _)⟩

/-- C75 fails for `insert(pos, first, last)` past the first element, when the copy of some element of the range throws. -/
theorem C75_insert_range_throw_fails {w : World α} (hr : Reach ty w) {i : Nat} {v : Vec} (hv : w.vars i = some v) {zs ts : List α}
    {cap a : Nat} (hi : view w i = some ⟨zs ++ ts, cap, a⟩) (hz : zs ≠ []) {ys us : List α} {x : α}
    (hw : (zs.length + ts.length + (ys ++ x :: us).length) * ty.size < wordSize) (hg : ∀ y ∈ ys, bad y = false) (hx : bad x = true) :
    (insertRangeT ty bad v zs.length (ys ++ x :: us) w.heap).Safe fun q =>
      q.1.1 = true ∧ q.1.2.len = zs.length + ts.length + (ys ++ x :: us).length ∧ clear ty q.1.2 q.2 = .ub := by
  obtain ⟨v', hv', rep, _, _⟩ := reach_get hr hi
  rw [hv] at hv'; cases hv'
  refine (insertRangeT_bad rep (reach_bal hr) hz hw hg hx).mono ?_
  rintro ⟨⟨t, v1⟩, h1⟩ ⟨h2, h3, post, h4, h5⟩
  exact ⟨h2, h3, clear_past h5 (by rw [h3]; simp; omega) h4⟩

/-- C75 fails for constructing a vector from a list when the copy of some element throws: there is no object, so nothing will be
destroyed, but the storage is still allocated and holds the copies made so far. -/
theorem C75_construct_leak_fails {w : World α} (hr : Reach ty w) {ys zs : List α} {x : α} {a : Nat}
    (hw : (ys ++ x :: zs).length * ty.size < wordSize) (hg : ∀ y ∈ ys, bad y = false) (hx : bad x = true) :
    (newListT ty bad (ys ++ x :: zs) a w.heap).Safe fun q => q.1 = none ∧ ∃ b, w.heap.blocks b = none ∧
      q.2.blocks b = some ⟨a, (ys ++ x :: zs).length * ty.size, ys.map some ++ List.replicate (zs.length + 1) none⟩ ∧
      q.2.ctors = w.heap.ctors + ys.length ∧ q.2.dtors = w.heap.dtors :=
  (newListT_bad (reach_bal hr) hw hg hx).mono fun _ ⟨h1, b, h2, h3, h4, h5, _⟩ => ⟨h1, b, h2, h3, h4, h5⟩

/-- C75 fails for copy assignment from a vector with an equal allocator: if the copy of a surplus element throws, the surplus
elements already made are not counted, and destroying the vector does not destroy them.  (`ctors - dtors` is the number of
elements alive: destroying the vector should take all it held off that number.) -/
theorem C75_copy_assign_leak_fails {w : World α} (hr : Reach ty w) {i j : Nat} (hij : i ≠ j) {v u : Vec} (hv : w.vars i = some v)
    (hu : w.vars j = some u) {xs ys us : List α} {x : α} {cap cap' a : Nat} (hi : view w i = some ⟨xs, cap, a⟩)
    (hj : view w j = some ⟨ys ++ x :: us, cap', a⟩) (hlt : xs.length < ys.length) (hg : ∀ y ∈ ys, bad y = false) (hx : bad x = true) :
    (copyAssignT ty bad v u w.heap).Safe fun q => q.1.1 = true ∧ q.1.2.len = xs.length ∧
      ∃ v' h', clear ty q.1.2 q.2 = .ok (v', h') ∧
        (h'.ctors - h'.dtors : Int) = (w.heap.ctors - w.heap.dtors : Int) - xs.length + (ys.length - xs.length : Nat) := by
  obtain ⟨v', hv', rep, _, ha⟩ := reach_get hr hi
  rw [hv] at hv'; cases hv'
  obtain ⟨u', hu', repu, _, hau⟩ := reach_get hr hj
  rw [hu] at hu'; cases hu'
  refine (copyAssignT_bad rep repu (reach_bal hr) (fun b h1 h2 => (reach_inv hr).sep i j v u b hij hv hu h1 h2) ?_ (Nat.le_of_lt hlt) hg hx).mono ?_
  · rw [ha, hau]
  · rintro q ⟨h1, h2, h', h3, h4⟩
    exact ⟨h1, h2, _, h', h3, by simp only at h4; omega⟩

/-- C75 fails for copy assignment from a vector with another allocator, when some copy throws. -/
theorem C75_copy_assign_other_fails {w : World α} (hr : Reach ty w) {i j : Nat} (hij : i ≠ j) {v u : Vec} (hv : w.vars i = some v)
    (hu : w.vars j = some u) {xs ys us : List α} {x : α} {cap cap' a a' : Nat} (hi : view w i = some ⟨xs, cap, a⟩)
    (hj : view w j = some ⟨ys ++ x :: us, cap', a'⟩) (haa : a ≠ a') (hg : ∀ y ∈ ys, bad y = false) (hx : bad x = true) :
    (copyAssignT ty bad v u w.heap).Safe fun q => q.1.1 = true ∧ clear ty q.1.2 q.2 = .ub := by
  obtain ⟨v', hv', rep, _, ha⟩ := reach_get hr hi
  rw [hv] at hv'; cases hv'
  obtain ⟨u', hu', repu, _, hau⟩ := reach_get hr hj
  rw [hu] at hu'; cases hu'
  simp only at ha hau
  rw [copyAssignT, if_neg (by rw [ha, hau]; exact haa)]
  obtain ⟨h1, e1, t1⟩ := clear_ok rep (reach_bal hr)
  simp only [Prog.bind_run, e1, Out.bind_ok]
  refine (copyImplT_bad _ (repu.keep t1.step ?_) t1.bal hg hx).mono ?_
  · intro b hb hm
    simp at hm
    exact (reach_inv hr).sep i j v u b hij hv hu hm hb
  · rintro q ⟨h1, h2, h3, _⟩
    exact ⟨h1, clear_past h3 (by rw [h2]; simp) (raws_head _)⟩

/-- Copying 3 throws: the states the theorems speak about are reachable. -/
example : ∃ w v u, Reach exTy w ∧ w.vars 0 = some v ∧ w.vars 1 = some u ∧ view w 0 = some ⟨[1] ++ [2, 3], 4, 0⟩ ∧
    view w 1 = some ⟨[1, 2] ++ 3 :: [], 3, 0⟩ ∧ (∀ y ∈ [1, 2], (y == 3) = false) ∧ (3 == 3) = true := by
  obtain ⟨w, h, h0, h1, _⟩ := exReach
  obtain ⟨v, hv, _⟩ := reach_get h h0
  obtain ⟨u, hu, _⟩ := reach_get h h1
  exact ⟨w, v, u, h, hv, hu, h0, h1, by decide, rfl⟩

/-- …and for the copy assignments: a shorter vector with the same allocator, and one with another. -/
example : ∃ w v u t, Reach exTy w ∧ w.vars 0 = some v ∧ w.vars 1 = some u ∧ w.vars 2 = some t ∧ view w 0 = some ⟨[7], 2, 0⟩ ∧
    view w 1 = some ⟨[1, 2] ++ 3 :: [], 3, 0⟩ ∧ view w 2 = some ⟨[], 0, 7⟩ := by
  obtain ⟨w, h, hP⟩ := reach_of (ty := exTy) [.newDefault 0, .push 0 (.val 7), .newList 1 [1, 2, 3] 0, .newAlloc 2 7]
    (fun A => decide (A 0 = some ⟨[7], 2, 0⟩ ∧ A 1 = some ⟨[1, 2, 3], 3, 0⟩ ∧ A 2 = some ⟨[], 0, 7⟩)) (by decide +kernel)
    (by decide +kernel)
  simp only [decide_eq_true_eq] at hP
  obtain ⟨v, hv, _⟩ := reach_get h hP.1
  obtain ⟨u, hu, _⟩ := reach_get h hP.2.1
  obtain ⟨t, ht, _⟩ := reach_get h hP.2.2
  exact ⟨w, v, u, t, h, hv, hu, ht, hP.1, hP.2.1, hP.2.2⟩

end Verif.Props
