import Verif.Model.Array
import Verif.Spec.Deque
import Verif.Spec.Iter
/-! # Properties C57 (owning array iterator), C58, C59, C60 -/
namespace Verif.Props
open Verif Verif.Spec Verif.Model.Range Verif.Model.Slice Verif.Model.Array

/-! ## C60: borrowing iterators -/

/-- One request. -/
def sliceStep (cells : Nat) (it : RefIter) : End → Out (Option Nat × RefIter)
  | .front => it.next cells
  | .back => it.prev cells

/-- One request to an array's borrowing iterator. -/
def arrayStep (cells : Nat) (it : RefIter) : End → Out (Option Nat × RefIter)
  | .front => it.arrNext cells
  | .back => it.arrPrev cells

/-- A series of `next()`/`prev()` requests on a borrowing slice iterator. -/
def sliceRun (cells : Nat) : List End → RefIter → Out (List (Option Nat) × RefIter)
  | [], it => .ok ([], it)
  | e :: es, it => do
    let (r, it) ← sliceStep cells it e
    let (rs, it) ← sliceRun cells es it
    return (r :: rs, it)

/-- The same for the array's borrowing iterator. -/
def arrayRefRun (cells : Nat) : List End → RefIter → Out (List (Option Nat) × RefIter)
  | [], it => .ok ([], it)
  | e :: es, it => do
    let (r, it) ← arrayStep cells it e
    let (rs, it) ← arrayRefRun cells es it
    return (r :: rs, it)

/-- The addresses an iterator has left. -/
def left (it : RefIter) : List Nat := List.range' it.start it.len

theorem left_nil {it : RefIter} (h : it.start ≤ it.stop) : left it = [] ↔ it.start = it.stop := by
  simp [left, RefIter.len]; omega

theorem range'_dropLast (s n : Nat) : (List.range' s (n + 1)).dropLast = List.range' s n := by
  rw [List.range'_concat]; simp

theorem range'_getLast? (s n : Nat) : (List.range' s (n + 1)).getLast? = some (s + n) := by
  rw [List.range'_concat]; simp

theorem slice_step (cells : Nat) (e : End) (it : RefIter) (h1 : it.start ≤ it.stop) (h2 : it.stop ≤ cells) :
    ∃ it', sliceStep cells it e = .ok ((take1 e (left it)).1, it') ∧
      left it' = (take1 e (left it)).2 ∧ it'.start ≤ it'.stop ∧ it'.stop ≤ cells := by
  by_cases h : it.start ≥ it.stop
  · have hl : left it = [] := (left_nil h1).2 (by omega)
    refine ⟨it, ?_, ?_, h1, h2⟩
    · cases e <;> simp [sliceStep, RefIter.next, RefIter.prev, h, hl, take1]
    · cases e <;> simp [hl, take1]
  · obtain ⟨n, hn⟩ : ∃ n, it.stop - it.start = n + 1 := ⟨it.stop - it.start - 1, by omega⟩
    have hl : left it = List.range' it.start (n + 1) := by simp [left, RefIter.len, hn]
    cases e
    · refine ⟨⟨it.start + 1, it.stop⟩, ?_, ?_, by simp; omega, h2⟩
      · simp [sliceStep, RefIter.next, h, deref, hl, take1, List.range'_succ, show it.start < cells by omega]
      · rw [hl]; simp [left, RefIter.len, take1, List.range'_succ]; omega
    · refine ⟨⟨it.start, it.stop - 1⟩, ?_, ?_, by simp; omega, by simp; omega⟩
      · simp [sliceStep, RefIter.prev, h, deref, hl, take1, range'_getLast?, show it.stop - 1 < cells by omega]; omega
      · rw [hl]; simp only [take1, range'_dropLast, left, RefIter.len]; congr 1; omega

/-- **C60 for slices.** Over any region, any slice inside it and any interleaving of `next()` and `prev()`:
nothing undefined happens, the answers are exactly those of the ideal double-ended sequence over the slice's
element addresses (each handed out once, see `takes_partition`), `len()` is the number left and
`is_empty()` holds exactly when none is left. -/
theorem C60_slice_iter (cells ptr size : Nat) (h : ptr + size ≤ cells) (es : List End) :
    ∃ it', sliceRun cells es (Slice.fromRaw ptr size).iter = .ok ((takes es (List.range' ptr size)).1, it') ∧
      it'.len = (takes es (List.range' ptr size)).2.length ∧
      (it'.isEmpty = true ↔ (takes es (List.range' ptr size)).2 = []) := by
  suffices H : ∀ (es : List End) (it : RefIter), it.start ≤ it.stop → it.stop ≤ cells →
      ∃ it', sliceRun cells es it = .ok ((takes es (left it)).1, it') ∧ left it' = (takes es (left it)).2 ∧
        it'.start ≤ it'.stop by
    obtain ⟨it', h1, h2, h3⟩ := H es (Slice.fromRaw ptr size).iter
      (by simp [Slice.iter, Slice.fromRaw, RefIter.mk']) (by simp [Slice.iter, Slice.fromRaw, RefIter.mk']; omega)
    have hl : left (Slice.fromRaw ptr size).iter = List.range' ptr size := by
      simp [left, Slice.iter, Slice.fromRaw, RefIter.mk', RefIter.len]
    rw [hl] at h1 h2
    refine ⟨it', h1, by rw [← h2]; simp [left], ?_⟩
    rw [← h2, left_nil h3]; simp [RefIter.isEmpty]
  intro es
  induction es with
  | nil => intro it h1 _; exact ⟨it, rfl, rfl, h1⟩
  | cons e es ih =>
    intro it h1 h2
    obtain ⟨it1, he, hl, h3, h4⟩ := slice_step cells e it h1 h2
    obtain ⟨it2, h5, h6, h7⟩ := ih it1 h3 h4
    refine ⟨it2, ?_, ?_, h7⟩
    · rw [sliceRun, he]; simp [h5, takes, hl]
    · simp [h6, hl, takes]

theorem array_step (cells : Nat) (e : End) (it : RefIter) (h1 : it.start ≤ it.stop) :
    arrayStep cells it e =
    sliceStep cells it e := by
  by_cases h : it.start = it.stop
  · have h' : it.start ≥ it.stop := by omega
    cases e <;> simp [arrayStep, sliceStep, RefIter.arrNext, RefIter.arrPrev, RefIter.next, RefIter.prev,
      RefIter.isEmpty, h]
  · have h' : ¬ it.start ≥ it.stop := by omega
    cases e <;> simp [arrayStep, sliceStep, RefIter.arrNext, RefIter.arrPrev, RefIter.next, RefIter.prev,
      RefIter.isEmpty, h, h']

/-- **C60 for arrays.** The same for the borrowing iterator of an `Array<T, N>`. -/
theorem C60_array_iter (cells ptr N : Nat) (h : ptr + N ≤ cells) (es : List End) :
    ∃ it', arrayRefRun cells es (arrayIterRef ptr N) = .ok ((takes es (List.range' ptr N)).1, it') ∧
      it'.len = (takes es (List.range' ptr N)).2.length ∧
      (it'.isEmpty = true ↔ (takes es (List.range' ptr N)).2 = []) := by
  have : ∀ (es : List End) (it : RefIter), it.start ≤ it.stop → it.stop ≤ cells →
      arrayRefRun cells es it = sliceRun cells es it := by
    intro es
    induction es with
    | nil => intros; rfl
    | cons e es ih =>
      intro it h1 h2
      rw [arrayRefRun, sliceRun, array_step cells e it h1]
      obtain ⟨it1, he, _, h3, h4⟩ := slice_step cells e it h1 h2
      rw [he]; simp [ih it1 h3 h4]
  rw [this es _ (by simp [arrayIterRef]) (by simpa [arrayIterRef] using h)]
  exact C60_slice_iter cells ptr N h es

/-- `into_iter()` of a slice hands out the same and leaves the slice empty. -/
theorem C60_slice_into_iter (s : Slice) :
    (s.intoIter).1 = s.iter ∧ (s.intoIter).2.iter.isEmpty = true ∧ (s.intoIter).2.size = 0 := by
  simp [Slice.intoIter, Slice.iter, RefIter.isEmpty, RefIter.mk']

/-- `last()` designates the last remaining element without consuming it. -/
theorem C60_slice_last (cells : Nat) (it : RefIter) (h1 : it.start ≤ it.stop) (h2 : it.stop ≤ cells) :
    it.last cells = .ok (left it).getLast? := by
  unfold RefIter.last
  by_cases h : it.start = it.stop
  · simp [RefIter.isEmpty, h, left, RefIter.len]
  · obtain ⟨n, hn⟩ : ∃ n, it.stop - it.start = n + 1 := ⟨it.stop - it.start - 1, by omega⟩
    simp only [RefIter.isEmpty, h, left, RefIter.len, hn, range'_getLast?, deref, show it.stop - 1 < cells by omega]
    simp; omega

example : sliceRun 9 [.front, .back, .front, .back, .front] ((Slice.fromRaw 4 4).iter) =
    .ok ([some 4, some 7, some 5, some 6, none], ⟨6, 6⟩) := by decide

/-! ## C58: indexing, construction, iteration -/

/-- **C58, indexing.** `operator[]` designates element `pos` and panics exactly when `pos ≥ N`. -/
theorem C58_index (N pos : Nat) :
    (index N pos = .ok pos ↔ pos < N) ∧ (index N pos = .panic ↔ N ≤ pos) := by
  unfold index; split <;> simp <;> omega

/-- Cells all holding values. -/
theorem initLoop_ok {α : Type} (pre suf xs : List α) (rest : List (Option α)) (N : Nat) (hN : 0 < N)
    (hl : pre.length + rest.length = N) (hx : xs.length ≤ rest.length) :
    initLoop N (pre.map some ++ rest) pre.length xs = .ok ((pre ++ xs).map some ++ rest.drop xs.length) := by
  induction xs generalizing pre rest with
  | nil => simp [initLoop]
  | cons x xs ih =>
    cases rest with
    | nil => simp at hx
    | cons r rest =>
      simp only [initLoop, writeCell]
      rw [if_pos (by simp)]
      simp only [Out.bind_ok]
      have hset : (pre.map some ++ r :: rest).set pre.length (some x) = (pre ++ [x]).map some ++ rest := by
        rw [List.set_append_right _ _ (by simp)]; simp
      rw [hset]
      simp at hl hx
      split
      · have : rest = [] := by cases rest with | nil => rfl | cons => simp at hl; omega
        subst this
        have : xs = [] := by cases xs with | nil => rfl | cons => simp at hx
        subst this
        simp
      · have := ih (pre ++ [x]) rest (by simp; omega) (by omega)
        simp at this
        simp [this]

/-- **C58, construction.** Constructing from a list longer than `N` panics; otherwise the array holds the list
followed by default-initialised cells. -/
theorem C58_init_list {α : Type} (E : Elem α) (N : Nat) (hN : 0 < N) (list : List α) :
    ofInitList E N list = if N < list.length then .panic
      else .ok (list.map some ++ List.replicate (N - list.length) E.dflt) := by
  unfold ofInitList
  split
  · rfl
  · have := initLoop_ok (α := α) [] [] list (List.replicate N E.dflt) N hN (by simp) (by simp; omega)
    simpa using this

theorem moveAll_ok {α : Type} (E : Elem α) (pre post xs : List (Option α)) (vs : List α) (hx : xs = vs.map some) :
    moveAll E pre.length vs.length (pre ++ xs ++ post) =
      .ok (vs.map some, pre ++ vs.map (fun v => some (E.mv v)) ++ post) := by
  induction vs generalizing pre xs with
  | nil => subst hx; simp [moveAll]
  | cons v vs ih =>
    subst hx
    simp only [List.length_cons, moveAll, moveCell, readCell]
    have hg : (pre ++ List.map some (v :: vs) ++ post)[pre.length]? = some (some v) := by simp
    have hs : (pre ++ List.map some (v :: vs) ++ post).set pre.length (some (E.mv v)) =
        (pre ++ [some (E.mv v)]) ++ vs.map some ++ post := by
      rw [List.append_assoc, List.set_append_right _ _ (by simp)]; simp
    rw [hg]
    simp only [Out.bind_ok, Out.pure_eq, hs]
    have := ih (pre ++ [some (E.mv v)]) _ rfl
    simp only [List.length_append, List.length_cons, List.length_nil] at this
    rw [this]; simp

theorem arrayIter_drain {α : Type} (E : Elem α) (vs rest : List α) (pre : List (Option α)) (N : Nat)
    (hN : N < 18446744073709551616) (hl : pre.length + vs.length = N) :
    ArrayIter.drain E ⟨pre ++ vs.map some, ⟨pre.length, N⟩⟩ = .ok vs := by
  induction vs generalizing pre with
  | nil =>
    rw [ArrayIter.drain]
    simp at hl
    simp [ArrayIter.next, Range.next, hl]
  | cons v vs ih =>
    rw [ArrayIter.drain]
    simp at hl
    simp only [ArrayIter.next, Range.next]
    rw [if_neg (by omega), IntTy.inc, if_pos (by simp [usizeTy]; omega)]
    simp only [Out.bind_ok, Out.pure_eq, moveCell, readCell]
    have hg : (pre ++ List.map some (v :: vs))[(pre.length : Int).toNat]? = some (some v) := by simp
    rw [hg]
    simp only [Out.bind_ok]
    have hs : (pre ++ List.map some (v :: vs)).set (pre.length : Int).toNat (some (E.mv v)) =
        (pre ++ [some (E.mv v)]) ++ vs.map some := by
      simp only [Int.toNat_natCast]
      rw [List.set_append_right _ _ (by simp)]; simp
    rw [hs]
    have := ih (pre ++ [some (E.mv v)]) (by simp; omega)
    simp only [List.length_append, List.length_cons, List.length_nil] at this
    push_cast at this
    simp at this ⊢
    rw [this]; rfl

/-- **C58, iteration.** For a fully initialised array, `into_iter()` leaves moved-from values in the array and its
`next()` hands out exactly the `N` elements in order; (`iter()` is C60 with `ptr = 0`). -/
theorem C58_into_iter {α : Type} (E : Elem α) (vs : List α) (hN : vs.length < 18446744073709551616) :
    ∃ it, intoIter E vs.length (vs.map some) = .ok (it, vs.map (fun v => some (E.mv v))) ∧ it.drain E = .ok vs := by
  have := moveAll_ok E [] [] _ vs rfl
  simp at this
  refine ⟨⟨vs.map some, ⟨0, vs.length⟩⟩, by simp [intoIter, this], ?_⟩
  have := arrayIter_drain E vs [] [] vs.length hN (by simp)
  simpa using this

/-- `operator==` is element-wise equality of the contents. -/
theorem C58_equality {α : Type} [DecidableEq α] (as bs : List α) (h : as.length = bs.length) :
    eqLoop (fun a b => !decide (a = b)) (as.map some) (bs.map some) = .ok (decide (as = bs)) := by
  induction as generalizing bs with
  | nil => cases bs with | nil => rfl | cons => simp at h
  | cons a as ih =>
    cases bs with
    | nil => simp at h
    | cons b bs =>
      simp at h
      by_cases hab : a = b
      · simp [eqLoop, hab, ih bs h]
      · simp [eqLoop, hab]

/-- An element type with visible moved-from state, for the examples. -/
def natElem : Elem Nat := ⟨fun _ => 0, none, 0⟩

example : ofInitList natElem 3 [7, 8, 9] = .ok [some 7, some 8, some 9] := by decide
example : ofInitList natElem 3 [7, 8, 9, 10] = .panic := by decide
/-- a list shorter than `N` leaves trivially typed cells indeterminate: reading them is undefined. -/
example : (ofInitList natElem 3 [7] >>= fun c => readCell c 2) = .ub := by decide

/-! ## C57: the owning array iterator from the back -/

/-- **C57 is false for every array**: the first `prev()` of a fresh `into_iter()` reads `data[N]`, outside the array. -/
theorem C57_array_into_iter_fails {α : Type} (E : Elem α) (vs : List α) (hne : vs ≠ [])
    (hN : vs.length < 18446744073709551616) :
    ∃ it c, intoIter E vs.length (vs.map some) = .ok (it, c) ∧ it.prev E = .ub := by
  have := moveAll_ok E [] [] _ vs rfl
  simp at this
  refine ⟨⟨vs.map some, ⟨0, vs.length⟩⟩, _, by simp [intoIter, this]; rfl, ?_⟩
  have hpos : 0 < vs.length := List.length_pos_iff.2 hne
  simp only [ArrayIter.prev, Range.prev]
  rw [if_neg (by omega), IntTy.dec, if_pos (by simp [usizeTy]; omega)]
  simp [moveCell, readCell]

theorem arrayIter_steps {α : Type} (E : Elem α) (vs : List α) (pre : List (Option α)) (N : Nat) (hN : N < 18446744073709551616)
    (hl : pre.length + vs.length = N) :
    Steps (ArrayIter.next E) ⟨pre ++ vs.map some, ⟨pre.length, N⟩⟩ vs ⟨pre ++ vs.map (fun v => some (E.mv v)), ⟨N, N⟩⟩ := by
  induction vs generalizing pre with
  | nil =>
    simp at hl
    subst hl
    exact .nil _
  | cons v vs ih =>
    simp at hl
    have hg : (pre ++ List.map some (v :: vs))[(pre.length : Int).toNat]? = some (some v) := by simp
    have hs : (pre ++ List.map some (v :: vs)).set (pre.length : Int).toNat (some (E.mv v)) =
        (pre ++ [some (E.mv v)]) ++ vs.map some := by
      simp only [Int.toNat_natCast]
      rw [List.set_append_right _ _ (by simp)]; simp
    have := ih (pre ++ [some (E.mv v)]) (by simp; omega)
    simp only [List.length_append, List.length_cons, List.length_nil, List.append_assoc, List.cons_append, List.nil_append] at this
    push_cast at this
    simp only [List.map_cons] at hg hs ⊢
    refine .cons (s1 := ⟨pre ++ some (E.mv v) :: vs.map some, ⟨(pre.length : Int) + 1, N⟩⟩) ?_ (by simpa using this)
    simp only [ArrayIter.next, Range.next]
    rw [if_neg (by omega), IntTy.inc, if_pos (by simp [usizeTy]; omega)]
    simp only [Out.bind_ok, Out.pure_eq, moveCell, readCell]
    rw [hg]
    simp only [Out.bind_ok, hs, List.append_assoc, List.cons_append, List.nil_append]

/-- **C57, `len()` is false for every array**: it does not count down.  After `into_iter()` and a `next()` for each of the `N > 0` elements, the
next `next()` answers none, and `len()` is still `N`. -/
theorem C57_array_len_fails {α : Type} (E : Elem α) (vs : List α) (hne : vs ≠ []) (hN : vs.length < 18446744073709551616) :
    ∃ it c it', intoIter E vs.length (vs.map some) = .ok (it, c) ∧ Steps (ArrayIter.next E) it vs it' ∧ it'.next E = .ok (none, it') ∧
      it'.len vs.length = vs.length ∧ 0 < vs.length := by
  have := moveAll_ok E [] [] _ vs rfl
  simp at this
  refine ⟨⟨vs.map some, ⟨0, vs.length⟩⟩, _, ⟨vs.map (fun v => some (E.mv v)), ⟨vs.length, vs.length⟩⟩, by simp [intoIter, this]; rfl, ?_, ?_, rfl,
    List.length_pos_iff.2 hne⟩
  · simpa using arrayIter_steps E vs [] vs.length hN (by simp)
  · simp [ArrayIter.next, Range.next]

/-- Three numbers: all three have been handed out and `len()` is 3. -/
example : ∃ it c it', intoIter natElem 3 [some 4, some 5, some 6] = .ok (it, c) ∧ Steps (ArrayIter.next natElem) it [4, 5, 6] it' ∧
    it'.next natElem = .ok (none, it') ∧ it'.len 3 = 3 ∧ 0 < 3 :=
  C57_array_len_fails natElem [4, 5, 6] (by simp) (by decide)

/-! ## C59: collecting into an array -/

theorem fromIterLoop_ok {α σ : Type} {srcNext : σ → Out (Option α × σ)} {N : Nat} (pre : List α) (xs : List α)
    (rest : List (Option α)) (s s1 s2 s3 : σ) (r : Option α)
    (hl : pre.length + rest.length = N) (hx : xs.length ≤ rest.length)
    (hs : Steps srcNext s xs s1) (hlast : srcNext s1 = .ok (r, s2))
    (hr : r = none ∨ xs.length = rest.length) (n0 : Option α)
    (h0 : srcNext s = .ok (n0, s3)) :
    fromIterLoop srcNext N (pre.map some ++ rest) pre.length n0 s3 =
      .ok ((pre ++ xs).map some ++ rest.drop xs.length, s2) := by
  induction xs generalizing pre rest s n0 s3 with
  | nil =>
    cases hs
    rw [hlast] at h0
    cases h0
    rcases hr with rfl | hr
    · rw [fromIterLoop]; simp
    · simp at hr
      have : rest = [] := List.length_eq_zero_iff.1 hr.symm
      subst this
      cases r with
      | none => rw [fromIterLoop]; simp
      | some v => rw [fromIterLoop]; simp at hl; simp [hl]
  | cons x xs ih =>
    cases hs with
    | cons h1 h2 =>
      rename_i sm
      rw [h1] at h0; cases h0
      cases rest with
      | nil => simp at hx
      | cons c rest =>
        simp at hl hx hr
        rw [fromIterLoop]
        have hlt : pre.length < N := by omega
        have hset : (pre.map some ++ c :: rest).set pre.length (some x) = (pre ++ [x]).map some ++ rest := by
          rw [List.set_append_right _ _ (by simp)]; simp
        simp only [hlt, if_true, index, ge_iff_le, Nat.not_le.2 hlt, if_false, Out.bind_ok, writeCell]
        rw [if_pos (by simp)]
        simp only [Out.bind_ok, hset]
        have hnext : ∃ n1 s4, srcNext s3 = .ok (n1, s4) := by
          cases h2 with
          | nil => exact ⟨r, s2, hlast⟩
          | cons h _ => exact ⟨_, _, h⟩
        obtain ⟨n1, s4, hn⟩ := hnext
        rw [hn]
        simp only [Out.bind_ok]
        have := ih (pre ++ [x]) rest s3 s4 (by simp; omega) hx h2 (by simpa using hr) n1 hn
        simp only [List.length_append, List.length_cons, List.length_nil] at this
        rw [this]; simp

/-- **C59, source at least as long as the array.** Collecting from any iterator that hands out at least `N`
elements stores exactly its first `N` elements; the source has then been asked once more (state `s2`). -/
theorem C59_from_iter_long {α σ : Type} (E : Elem α) (srcNext : σ → Out (Option α × σ)) (s s1 s2 : σ)
    (xs : List α) (r : Option α) (h : Steps srcNext s xs s1) (hnext : srcNext s1 = .ok (r, s2)) :
    fromIter E srcNext xs.length s = .ok (xs.map some, s2) := by
  unfold fromIter
  have hfst : ∃ n1 s4, srcNext s = .ok (n1, s4) := by
    cases h with
    | nil => exact ⟨r, s2, hnext⟩
    | cons h _ => exact ⟨_, _, h⟩
  obtain ⟨n1, s4, hn⟩ := hfst
  rw [hn]
  have := fromIterLoop_ok (N := xs.length) [] xs (List.replicate xs.length (some E.zero)) s s1 s2 s4 r
    (by simp) (by simp) h hnext (Or.inr (by simp)) n1 hn
  simpa using this

/-- **C59, source shorter than the array.** The elements are followed by value-initialised ones. -/
theorem C59_from_iter_short {α σ : Type} (E : Elem α) (srcNext : σ → Out (Option α × σ)) (s s1 s2 : σ)
    (xs : List α) (N : Nat) (hN : xs.length ≤ N) (h : Steps srcNext s xs s1) (hnext : srcNext s1 = .ok (none, s2)) :
    fromIter E srcNext N s = .ok (xs.map some ++ List.replicate (N - xs.length) (some E.zero), s2) := by
  unfold fromIter
  have hfst : ∃ n1 s4, srcNext s = .ok (n1, s4) := by
    cases h with
    | nil => exact ⟨none, s2, hnext⟩
    | cons h _ => exact ⟨_, _, h⟩
  obtain ⟨n1, s4, hn⟩ := hfst
  rw [hn]
  have := fromIterLoop_ok (N := N) [] xs (List.replicate N (some E.zero)) s s1 s2 s4 none
    (by simp) (by simp; omega) h hnext (Or.inl rfl) n1 hn
  simpa using this

/-- A list as a source iterator, for the examples. -/
def listNext : List Nat → Out (Option Nat × List Nat)
  | [] => .ok (none, [])
  | x :: xs => .ok (some x, xs)

example : fromIter natElem listNext 3 [1, 2, 3, 4, 5] = .ok ([some 1, some 2, some 3], [5]) :=
  C59_from_iter_long natElem listNext [1, 2, 3, 4, 5] [4, 5] [5] [1, 2, 3] (some 4)
    (.cons rfl (.cons rfl (.cons rfl (.nil _)))) rfl
example : fromIter natElem listNext 4 [1, 2] = .ok ([some 1, some 2, some 0, some 0], []) :=
  C59_from_iter_short natElem listNext [1, 2] [] [] [1, 2] 4 (by decide) (.cons rfl (.cons rfl (.nil _))) rfl

end Verif.Props
