import Verif.Proof.VectorReach
/-!
# Properties C01-C05, C11, C12, C15 and the Vector part of C68

`Reach ty w`: the program state `w` is reached by some allowed history (Spec/VectorView.lean).  `view w i` is what the
client sees of vector variable `i`: contents, capacity, allocator.  `put A i x` changes entry `i` of `A` only, so an
equation `view w' = put (view w) i …` also says that no other vector changed.  `Safe`: the call does not reach undefined
behaviour, does not panic, terminates, and if it returns (the only alternative being that the allocator is out of
memory) the result is as stated.
-/
namespace Verif.Props
open Verif Verif.Model.Mem Verif.Model.Vector Verif.Proof.Mem Verif.Proof.Vector
open Verif.Spec.Vector hiding upd

variable {α : Type} {ty : ElemTy α}

/-- An element type for the examples: 8 bytes, moved-from elements become 0, only requests of 2^63 bytes are refused. -/
def exTy : ElemTy Nat where
  size := 8
  size_pos := by decide
  size_lt := by decide
  mv := fun _ => 0
  dflt := 0
  refuse := fun _ n => decide (9223372036854775808 ≤ n)
  refuse_big := fun _ _ h => by simpa using h

/-- A history for the examples: variable 0 has spare room, 1 is full, 2 is empty. -/
def exOps : List (Op Nat) :=
  [.newList 0 [1, 2] 0, .push 0 (.val 3), .newCopy 1 0, .newAlloc 2 7, .push 2 (.val 9), .pop 2]

theorem exReach : ∃ w, Reach exTy w ∧ view w 0 = some ⟨[1, 2, 3], 4, 0⟩ ∧ view w 1 = some ⟨[1, 2, 3], 3, 0⟩ ∧
    view w 2 = some ⟨[], 2, 7⟩ ∧ view w 3 = none := by
  obtain ⟨w, h, hP⟩ := reach_of (ty := exTy) exOps (fun A => decide (A 0 = some ⟨[1, 2, 3], 4, 0⟩ ∧
    A 1 = some ⟨[1, 2, 3], 3, 0⟩ ∧ A 2 = some ⟨[], 2, 7⟩ ∧ A 3 = none)) (by decide +kernel) (by decide +kernel)
  exact ⟨w, h, by simpa using hP⟩

/-! ## C01 -/

/-- C01.  Any history allowed by the restricted specification, over any number of vectors, runs without undefined
behaviour, returns exactly the results of the ideal lists, and leaves every vector with the contents of its ideal list.
Missing: the calls excluded by `full = false`, see `C01_vector_history_fails` and the `_fails` theorems of C06, C07,
C10, C14 and C15. -/
theorem C01_vector_history_partial (ops : List (Op α)) {rs : List (Res α)} {A : Ideal α}
    (h : specRun false ty.size ty.dflt ops (fun _ => none) = some (rs, A)) :
    (run ty ops {}).Safe fun q => q.1 = rs ∧ view q.2 = A ∧ ∀ i, (q.2.vars i).isSome = (A i).isSome := by
  refine (run_ok ops inv_init h).mono ?_
  rintro ⟨rs', w⟩ ⟨h1, I⟩
  refine ⟨h1, Inv.view I, fun i => ?_⟩
  simp only at I ⊢
  cases ha : A i with
  | none => rw [I.get_none ha]; rfl
  | some a => obtain ⟨v, hv, _⟩ := I.get ha; rw [hv]; rfl

/-- the same, continued from any reachable state -/
theorem C01_vector_history_continued_partial {w : World α} (hr : Reach ty w) (ops : List (Op α)) {rs : List (Res α)} {A : Ideal α}
    (h : specRun false ty.size ty.dflt ops (view w) = some (rs, A)) :
    (run ty ops w).Safe fun q => q.1 = rs ∧ view q.2 = A ∧ Reach ty q.2 := reach_run hr ops h

/-- A history with many of the calls, the results it must give, and that it does not run out of memory. -/
def exLong : List (Op Nat) :=
  [.newDefault 0, .push 0 (.val 5), .push 0 (.elem 0 0), .push 0 (.val 6), .newMove 1 0 3, .size 0, .size 1, .erase 1 0,
   .resize 1 4, .set 1 3 8, .newCopyAlloc 2 1 9, .copyAssign 0 2, .assignFill 1 2 (.elem 2 3), .swap 0 1, .drain 2 3,
   .equal 0 1 (· == ·), .back 1, .drop 0, .drop 1, .drop 2]

example : (specRun false exTy.size exTy.dflt exLong (fun _ => none)).isSome = true ∧
    isOk (fun q => decide (q.2.heap.ctors = q.2.heap.dtors ∧ q.2.heap.ctors = 17)) (run exTy exLong {}) = true := by
  decide +kernel

/-- The unrestricted property is false of the code: a documented history that runs into undefined behaviour. -/
theorem C01_vector_history_fails : ∃ ops : List (Op Nat),
    (specRun true exTy.size exTy.dflt ops (fun _ => none)).isSome = true ∧ run exTy ops {} = .ub :=
  ⟨[.newList 0 [1] 0, .push 0 (.elem 0 0)], by decide +kernel, of_isUb (by decide +kernel)⟩

/-! ## C02 -/

/-- C02.  In every state reached by a restricted history:
* a vector without block has capacity 0; a vector with a block owns an existing block, obtained from its own allocator
  with exactly `capacity() * sizeof(T)` bytes, whose first `size()` slots are its elements and whose other slots are raw;
* every block is owned by exactly one vector;
* elements constructed = elements destroyed + elements alive in the blocks, and the same for bytes.
Missing: the calls excluded from restricted histories, see `C02_vector_memory_fails`. -/
theorem C02_vector_memory_partial {w : World α} (hr : Reach ty w) :
    (∀ i v, w.vars i = some v →
      match v.ptr with
      | none => v.cap = 0
      | some b => ∃ xs : List α, w.heap.blocks b = some
          ⟨v.alloc, v.cap * ty.size, xs.map some ++ List.replicate (v.cap - v.len) none⟩ ∧ xs.length = v.len ∧ v.len ≤ v.cap) ∧
    (∀ b blk, w.heap.blocks b = some blk → ∃ i, (∃ v, w.vars i = some v ∧ v.ptr = some b) ∧
      ∀ j v, w.vars j = some v → v.ptr = some b → j = i) ∧
    w.heap.ctors = w.heap.dtors + ((List.range w.heap.next).map fun b => liveIn (w.heap.blocks b)).sum ∧
    w.heap.newBytes = w.heap.freeBytes + ((List.range w.heap.next).map fun b => bytesIn (w.heap.blocks b)).sum ∧
    (∀ b, w.heap.next ≤ b → w.heap.blocks b = none) := by
  have I := reach_inv hr
  refine ⟨?_, ?_, ?_, ?_, I.bal.fresh⟩
  · intro i v hv
    obtain ⟨a, ha, r, hc, hl⟩ := I.rep_of hv
    have ho := r.own
    cases hp : v.ptr with
    | none => rw [hp] at ho; simp only [Own] at ho; exact ho.2
    | some b =>
      rw [hp] at ho; simp only [Own] at ho
      refine ⟨a.xs, ?_, r.len.symm, by rw [r.len]; exact r.le⟩
      rw [r.len]
      exact ho.1
  · intro b blk hb
    obtain ⟨i, v, hv, hp⟩ := I.cover b blk hb
    refine ⟨i, ⟨v, hv, hp⟩, fun j v' hv' hp' => ?_⟩
    by_cases hj : j = i
    · exact hj
    · exact absurd hp (I.sep j i v' v b hj hv' hv hp')
  · rw [sum_range]; simp only [liveIn_eq]; exact I.bal.elems
  · rw [sum_range]; simp only [bytesIn_eq]; exact I.bal.bytes

/-- When all vectors are gone nothing is outstanding. -/
theorem C02_nothing_outstanding_partial {w : World α} (hr : Reach ty w) (hall : ∀ i, w.vars i = none) :
    (∀ b, w.heap.blocks b = none) ∧ w.heap.ctors = w.heap.dtors ∧ w.heap.newBytes = w.heap.freeBytes := by
  have I := reach_inv hr
  have he : ∀ b, w.heap.blocks b = none := by
    intro b
    cases hb : w.heap.blocks b with
    | none => rfl
    | some blk =>
      obtain ⟨i, v, hv, _⟩ := I.cover b blk hb
      rw [hall] at hv; cases hv
  exact ⟨he, I.bal.empty he⟩

example : ∃ w, Reach exTy w ∧ w.vars 0 = none ∧ w.vars 1 = none ∧ w.vars 2 = none := by
  obtain ⟨w, h, hP⟩ := reach_of (ty := exTy) exLong (fun A => decide (A 0 = none ∧ A 1 = none ∧ A 2 = none)) (by decide +kernel)
    (by decide +kernel)
  have hP := of_decide_eq_true hP
  have I := reach_inv h
  exact ⟨w, h, I.get_none hP.1, I.get_none hP.2.1, I.get_none hP.2.2⟩

/-- What `Safe` excludes: destroying an element twice, releasing a block twice or with another size or through another
allocator, and touching a released block or a dead element are undefined in the model. -/
theorem C02_misuse_detected (h : Heap α) (b i : Nat) (x : α) (blk : Block α) :
    (h.blocks b = none → free ty 0 (some b) i h = .ub ∧ destroy (some b) i h = .ub ∧ load (some b) i h = .ub ∧
      construct (some b) i x h = .ub ∧ store (some b) i x h = .ub) ∧
    (h.blocks b = some blk → blk.slots[i]? = some none →
      destroy (some b) i h = .ub ∧ load (some b) i h = .ub ∧ store (some b) i x h = .ub) ∧
    (h.blocks b = some blk → blk.slots[i]? = none →
      destroy (some b) i h = .ub ∧ load (some b) i h = .ub ∧ construct (some b) i x h = .ub) ∧
    (h.blocks b = some blk → ∀ owner n, blk.owner ≠ owner ∨ blk.bytes ≠ wrap (n * ty.size) →
      free ty owner (some b) n h = .ub) := by
  refine ⟨fun hb => ?_, fun hb hi => ?_, fun hb hi => ?_, fun hb owner n hne => ?_⟩
  · simp [free, destroy, load, construct, store, access, hb]
  · simp [destroy, load, store, access, hb, hi]
  · simp [destroy, load, construct, access, hb, hi]
  · simp only [free, hb]
    rw [if_neg]
    rintro ⟨h1, h2⟩
    rcases hne with h | h
    · exact h h1
    · exact h h2

/-- The unrestricted property is false of the code: inserting into an empty vector constructs an element that is never
destroyed. -/
theorem C02_vector_memory_fails : ∃ ops : List (Op Nat),
    (specRun true exTy.size exTy.dflt ops (fun _ => none)).isSome = true ∧
    ∃ rs w, run exTy ops {} = .ok (rs, w) ∧ w.vars 0 = none ∧ w.heap.ctors = 1 ∧ w.heap.dtors = 0 :=
  by
  refine ⟨[.newDefault 0, .emplace 0 0 5, .drop 0], by decide +kernel, ?_⟩
  obtain ⟨⟨rs, w⟩, he, hP⟩ := of_isOk (x := run exTy [.newDefault 0, .emplace 0 0 5, .drop 0] {})
    (P := fun q : List (Res Nat) × World Nat => decide (q.2.vars 0 = none ∧ q.2.heap.ctors = 1 ∧ q.2.heap.dtors = 0)) (by decide +kernel)
  exact ⟨rs, w, he, of_decide_eq_true hP⟩

/-! ## C03 -/

/-- C03: never more elements than capacity. -/
theorem C03_size_le_capacity_partial {w : World α} (hr : Reach ty w) {i : Nat} {xs : List α} {cap a : Nat}
    (hv : view w i = some ⟨xs, cap, a⟩) : xs.length ≤ cap := by
  obtain ⟨v, _, r, hc, _⟩ := reach_get hr hv
  have := r.le
  simp only at this hc
  omega

example : ∃ w, Reach exTy w ∧ view w 0 = some ⟨[1, 2, 3], 4, 0⟩ := by
  obtain ⟨w, h, h0, _⟩ := exReach; exact ⟨w, h, h0⟩

/-- C03: `reserve(n)` makes the capacity at least `n` (exactly the larger of the two), keeps the contents, does nothing
if `n` is not larger.  Missing: `n * sizeof(T) ≥ 2^64`, see `C15_explicit_request_fails`. -/
theorem C03_reserve_partial {w : World α} (hr : Reach ty w) {i n : Nat} {xs : List α} {cap a : Nat}
    (hv : view w i = some ⟨xs, cap, a⟩) (hn : n * ty.size < wordSize) :
    (step ty (.reserve i n) w).Safe fun q => view q.2 = put (view w) i (some ⟨xs, max cap n, a⟩) ∧
      (n ≤ cap → q.2.heap = w.heap) := by
  obtain ⟨v, hw, r, hc, hl⟩ := reach_get hr hv
  have h1 := reach_step hr (op := .reserve i n) (r := .unit) (A' := put (view w) i (some ⟨xs, max cap n, a⟩))
    (by simp [specStep, Spec.Vector.upd, hv, only, hn])
  have h2 := change_safe hw (f := fun v => reserve ty v n) (P := fun _ h' => n ≤ cap → h' = w.heap)
    ((reserve_ok r (reach_bal hr) hn).mono fun q hq hle => (hq.2.1 (by simp only at hc; omega)).2)
  exact (Safe.and h1 h2).mono fun q ⟨h1, ⟨_, _, h2⟩⟩ => ⟨h1.2.1, h2⟩

example : ∃ w, Reach exTy w ∧ view w 0 = some ⟨[1, 2, 3], 4, 0⟩ ∧ 100 * exTy.size < wordSize := by
  obtain ⟨w, h, h0, _⟩ := exReach; exact ⟨w, h, h0, by decide⟩

/-- C03: `push_back` does not reallocate (same block, same capacity, no allocation) while there is room. -/
theorem C03_push_keeps_block {w : World α} (hr : Reach ty w) {i : Nat} {r : Arg α} {x : α} {xs : List α} {cap a : Nat} {v : Vec}
    (hw : w.vars i = some v) (hv : view w i = some ⟨xs, cap, a⟩) (hx : argVal (view w) r = some x) (hroom : xs.length < cap) :
    (step ty (.push i r) w).Safe fun q => view q.2 = put (view w) i (some ⟨xs ++ [x], cap, a⟩) ∧
      q.2.heap.next = w.heap.next ∧ ∃ v', q.2.vars i = some v' ∧ v'.ptr = v.ptr := by
  obtain ⟨v', hw', rep, hc, hl⟩ := reach_get hr hv
  rw [hw] at hw'; cases hw'
  simp only at hc hl rep
  have h1 := reach_step hr (op := .push i r) (r := .unit) (A' := put (view w) i (some ⟨xs ++ [x], cap, a⟩))
    (by simp [specStep, Spec.Vector.upd, hv, only, hx, hroom, afterPush])
  obtain ⟨ref, e1, hst, hin⟩ := arg_ok (reach_inv hr) hx
  have hd : deref ref w.heap = .ok (x, w.heap) := by
    cases hi : inside i r with
    | false => exact (arg_outside (reach_inv hr) hw hst hi).now
    | true =>
      obtain ⟨k, _, hk, hkx⟩ := arg_inside hw hv hin hi
      rw [hk]; exact rep.slot hkx
  obtain ⟨h', e2, t⟩ := append_one rep (reach_bal hr) x (by omega)
  have h2 : (pushBack ty v ref w.heap).Safe fun q => q.2.next = w.heap.next ∧ q.1.ptr = v.ptr := by
    simp only [pushBack, Prog.bind_run]
    rw [if_neg (by rw [rep.len]; omega)]
    simp only [Prog.pure_run, Out.bind_ok, hd, e2, Out.safe_ok, and_true]
    simpa using t.step.allocs
  have h3 := change_safe hw (f := fun v => pushBack ty v ref) (P := fun v' h' => h'.next = w.heap.next ∧ v'.ptr = v.ptr) h2
  have h4 : step ty (.push i r) w = change i (fun v => pushBack ty v ref) w := by
    simp only [step, Prog.bind_run, e1, Out.bind_ok]
  rw [h4] at h1 ⊢
  refine (Safe.and h1 h3).mono fun q ⟨h1, ⟨v', hv', h2⟩⟩ => ⟨h1.2.1, h2.1, v', ?_, h2.2⟩
  rw [hv', bindVar_same]

example : ∃ w v, Reach exTy w ∧ w.vars 0 = some v ∧ view w 0 = some ⟨[1, 2, 3], 4, 0⟩ ∧ argVal (view w) (.elem 0 1) = some 2 := by
  obtain ⟨w, h, h0, _⟩ := exReach
  obtain ⟨v, hv, _⟩ := reach_get h h0
  exact ⟨w, v, h, hv, h0, by simp [argVal, h0]⟩

/-- C03: `push_back` in general; a full vector doubles its capacity (from 0 to 2). -/
theorem C03_push {w : World α} (hr : Reach ty w) {i : Nat} {x : α} {xs : List α} {cap a : Nat}
    (hv : view w i = some ⟨xs, cap, a⟩) :
    (step ty (.push i (.val x)) w).Safe fun q =>
      view q.2 = put (view w) i (some ⟨xs ++ [x], if xs.length < cap then cap else if cap = 0 then 2 else 2 * cap, a⟩) :=
  (reach_step hr (op := .push i (.val x)) (by simp [specStep, Spec.Vector.upd, hv, only, inside, argVal]; exact ⟨rfl, rfl⟩)).mono
    fun _ h => h.2.1

/-- C03: `pop_back`, `erase` and element writes keep the capacity, `clear` makes it 0 and releases the block. -/
theorem C03_capacity_kept {w : World α} (hr : Reach ty w) {i : Nat} {xs : List α} {cap a : Nat}
    (hv : view w i = some ⟨xs, cap, a⟩) :
    (xs ≠ [] → (step ty (.pop i) w).Safe fun q => view q.2 = put (view w) i (some ⟨xs.dropLast, cap, a⟩)) ∧
    (∀ p, p < xs.length → (step ty (.erase i p) w).Safe fun q =>
      view q.2 = put (view w) i (some ⟨xs.take p ++ xs.drop (p + 1), cap, a⟩)) ∧
    (∀ k x, k < xs.length → (step ty (.set i k x) w).Safe fun q => view q.2 = put (view w) i (some ⟨xs.set k x, cap, a⟩)) ∧
    ((step ty (.clear i) w).Safe fun q => view q.2 = put (view w) i (some ⟨[], 0, a⟩) ∧
      ∀ v b, w.vars i = some v → v.ptr = some b → q.2.heap.blocks b = none) := by
  refine ⟨fun hne => ?_, fun p hp => ?_, fun k x hk => ?_, ?_⟩
  · exact (reach_step hr (op := .pop i) (by simp [specStep, Spec.Vector.upd, hv, hne]; rfl)).mono fun _ h => h.2.1
  · exact (reach_step hr (op := .erase i p) (by simp [specStep, Spec.Vector.upd, hv, hp]; rfl)).mono fun _ h => h.2.1
  · exact (reach_step hr (op := .set i k x) (by simp [specStep, Spec.Vector.upd, hv, hk]; rfl)).mono fun _ h => h.2.1
  · obtain ⟨v, hw, rep, _, _⟩ := reach_get hr hv
    obtain ⟨h', e, t⟩ := clear_ok rep (reach_bal hr)
    have h1 := reach_step hr (op := .clear i) (r := .unit) (A' := put (view w) i (some ⟨[], 0, a⟩))
      (by simp [specStep, Spec.Vector.upd, hv])
    have h2 := change_safe hw (f := clear ty) (P := fun _ h' => ∀ b, v.ptr = some b → h'.blocks b = none)
      (by rw [e]; exact fun b hb => t.step.gone b (by simp [hb]) (by simp [Vec.blank]))
    refine (Safe.and h1 h2).mono fun q ⟨h1, ⟨_, _, h2⟩⟩ => ⟨h1.2.1, fun v' b hv' hb => ?_⟩
    rw [hw] at hv'; cases hv'
    exact h2 b hb

/-! ## C04 -/

/-- C04.  `n` appends to a vector without elements (whatever its capacity) construct at most `3 n` elements in total,
including those moved by reallocations, and allocate at most `log2 (2 n)` times. -/
theorem C04_append_amortised {w : World α} (hr : Reach ty w) {i : Nat} {cap a : Nat} (hv : view w i = some ⟨[], cap, a⟩)
    (ys : List α) :
    (run ty (ys.map fun y => .push i (.val y)) w).Safe fun q =>
      (∃ cap', view q.2 i = some ⟨ys, cap', a⟩) ∧
      q.2.heap.ctors ≤ w.heap.ctors + 3 * ys.length ∧
      (q.2.heap.next = w.heap.next ∨ 2 ^ (q.2.heap.next - w.heap.next) ≤ 2 * ys.length) := by
  obtain ⟨v, hw, rep, hc, hl⟩ := reach_get hr hv
  simp only at rep hc hl
  rw [run_pushes ys w v hw]
  refine (pushList_ok ys rep (reach_bal hr)).bind ?_
  rintro ⟨v', h'⟩ t
  simp only at t
  simp only [List.nil_append, List.length_nil] at t
  have hg := grow_total ys.length v.cap
  refine ⟨⟨v'.cap, ?_⟩, ?_, ?_⟩
  · simp only [view, bindVar_same, Option.bind_some, t.rep.elems, Option.map_some, t.alloc, hl]
  · simp only [t.step.ctors]; omega
  · simp only [t.step.allocs]
    by_cases h0 : (growCost ys.length 0 v.cap).a = 0
    · left; omega
    · right
      rw [show w.heap.next + (growCost ys.length 0 v.cap).a - w.heap.next = (growCost ys.length 0 v.cap).a by omega]
      exact hg.2 h0

example : ∃ w, Reach exTy w ∧ view w 2 = some ⟨[], 2, 7⟩ := by
  obtain ⟨w, h, _, _, h2, _⟩ := exReach; exact ⟨w, h, h2⟩

/-! ## C05 -/

/-- C05.  For every index, `at`, `front` and `back` answer with exactly the element of that index, or none if there is
no such index, and change nothing (in particular they touch nothing outside: that would be undefined). -/
theorem C05_checked_access {w : World α} (hr : Reach ty w) {i : Nat} {xs : List α} {cap a : Nat}
    (hv : view w i = some ⟨xs, cap, a⟩) (k : Nat) :
    step ty (.at i k) w = .ok (.opt xs[k]?, w) ∧ step ty (.front i) w = .ok (.opt xs[0]?, w) ∧
    step ty (.back i) w = .ok (.opt (if xs = [] then none else xs[xs.length - 1]?), w) ∧
    (∀ x, xs[k]? = some x → step ty (.get i k) w = .ok (.val x, w)) := by
  obtain ⟨v, hw, rep, _, _⟩ := reach_get hr hv
  simp only at rep
  refine ⟨?_, ?_, ?_, fun x hx => ?_⟩
  · exact look_ok hw (by simp only [Prog.bind_run, getAt_ok rep, Out.bind_ok, Prog.pure_run])
  · refine look_ok hw ?_
    simp only [Prog.bind_run, front_ok rep, Out.bind_ok, Prog.pure_run, List.head?_eq_getElem?]
  · refine look_ok hw ?_
    simp only [Prog.bind_run, back_ok rep, Out.bind_ok, Prog.pure_run]
    rcases xs with _ | ⟨x, xs⟩
    · rfl
    · rw [if_neg (by simp), List.getLast?_eq_getElem?]
  · exact look_ok hw (by simp only [Prog.bind_run, index_ok rep hx, Out.bind_ok, Prog.pure_run])

/-- C05: `size()`, `capacity()` and `empty()`. -/
theorem C05_size {w : World α} (hr : Reach ty w) {i : Nat} {xs : List α} {cap a : Nat}
    (hv : view w i = some ⟨xs, cap, a⟩) :
    step ty (.size i) w = .ok (.num xs.length, w) ∧ step ty (.capacity i) w = .ok (.num cap, w) ∧
    step ty (.empty i) w = .ok (.bool (decide (xs = [])), w) := by
  obtain ⟨v, hw, rep, hc, _⟩ := reach_get hr hv
  simp only at rep hc
  refine ⟨look_ok hw (by rw [rep.len]; rfl), look_ok hw (by rw [hc]; rfl), look_ok hw ?_⟩
  rw [rep.len]
  cases xs <;> rfl

example : ∃ w, Reach exTy w ∧ view w 0 = some ⟨[1, 2, 3], 4, 0⟩ ∧ [1, 2, 3][2]? = some 3 ∧ [1, 2, 3][3]? = none := by
  obtain ⟨w, h, h0, _⟩ := exReach; exact ⟨w, h, h0, rfl, rfl⟩

/-! ## C11 -/

/-- C11: `==` of vectors is equality of the sequences (if `==` of elements is equality). -/
theorem C11_equal {w : World α} (hr : Reach ty w) {i j : Nat} {a b : Var α} (ha : view w i = some a) (hb : view w j = some b)
    (eq : α → α → Bool) (heq : ∀ x y, eq x y = true ↔ x = y) :
    ∃ r, step ty (.equal i j eq) w = .ok (.bool r, w) ∧ (r = true ↔ a.xs = b.xs) := by
  obtain ⟨v, hv, rv, _⟩ := reach_get hr ha
  obtain ⟨u, hu, ru, _⟩ := reach_get hr hb
  refine ⟨eqSeq eq a.xs b.xs, ?_, ?_⟩
  · simp only [step, Prog.bind_run, run_var hu, Out.bind_ok]
    exact look_ok hv (by simp only [Prog.bind_run, equal_ok eq rv ru, Out.bind_ok, Prog.pure_run])
  · generalize a.xs = xs, b.xs = ys
    induction xs generalizing ys with
    | nil => cases ys <;> simp [eqSeq]
    | cons x xs ih => cases ys <;> simp [eqSeq, heq, ih]

/-- For an arbitrary `==` of elements: same length and equal at every index. -/
theorem C11_equal_pointwise {w : World α} (hr : Reach ty w) {i j : Nat} {a b : Var α} (ha : view w i = some a)
    (hb : view w j = some b) (eq : α → α → Bool) :
    ∃ r, step ty (.equal i j eq) w = .ok (.bool r, w) ∧ (r = true ↔ a.xs.length = b.xs.length ∧
      ∀ (k : Nat) x y, a.xs[k]? = some x → b.xs[k]? = some y → eq x y = true) := by
  obtain ⟨v, hv, rv, _⟩ := reach_get hr ha
  obtain ⟨u, hu, ru, _⟩ := reach_get hr hb
  refine ⟨eqSeq eq a.xs b.xs, ?_, ?_⟩
  · simp only [step, Prog.bind_run, run_var hu, Out.bind_ok]
    exact look_ok hv (by simp only [Prog.bind_run, equal_ok eq rv ru, Out.bind_ok, Prog.pure_run])
  · generalize a.xs = xs, b.xs = ys
    induction xs generalizing ys with
    | nil => cases ys <;> simp [eqSeq]
    | cons x xs ih =>
      cases ys with
      | nil => simp [eqSeq]
      | cons y ys =>
        simp only [eqSeq, Bool.and_eq_true, ih, List.length_cons, Nat.add_right_cancel_iff]
        constructor
        · rintro ⟨h1, h2, h3⟩
          refine ⟨h2, fun k a b hka hkb => ?_⟩
          cases k with
          | zero => simp at hka hkb; subst hka hkb; exact h1
          | succ k => simp at hka hkb; exact h3 k a b hka hkb
        · rintro ⟨h1, h2⟩
          exact ⟨h2 0 x y rfl rfl, h1, fun k a b hka hkb => h2 (k + 1) a b (by simpa using hka) (by simpa using hkb)⟩

/-- Lexicographic "before": a proper prefix, or smaller at the first difference. -/
def LexLt (cmp : α → α → Option Ordering) (xs ys : List α) : Prop :=
  (∃ y t, ys = xs ++ y :: t) ∨ ∃ p x y s t, xs = p ++ x :: s ∧ ys = p ++ y :: t ∧ cmp x y = some .lt

theorem lex_lt (cmp : α → α → Option Ordering) (heq : ∀ x y, cmp x y = some .eq ↔ x = y) (xs ys : List α) :
    lexSeq cmp xs ys = some .lt ↔ LexLt cmp xs ys := by
  induction xs generalizing ys with
  | nil =>
    cases ys with
    | nil => simp [lexSeq, LexLt]
    | cons y ys => simp [lexSeq, LexLt]
  | cons x xs ih =>
    cases ys with
    | nil => simp [lexSeq, LexLt]
    | cons y ys =>
      simp only [lexSeq]
      split
      · rename_i h
        obtain rfl := (heq x y).1 h
        rw [ih]
        constructor
        · rintro (⟨z, t, rfl⟩ | ⟨p, a, b, s, t, rfl, rfl, hc⟩)
          · exact .inl ⟨z, t, rfl⟩
          · exact .inr ⟨x :: p, a, b, s, t, rfl, rfl, hc⟩
        · rintro (⟨z, t, he⟩ | ⟨p, a, b, s, t, h1, h2, hc⟩)
          · exact .inl ⟨z, t, by simpa using he⟩
          · cases p with
            | nil =>
              simp only [List.nil_append, List.cons.injEq] at h1 h2
              obtain ⟨rfl, rfl⟩ := h1; obtain ⟨rfl, rfl⟩ := h2
              rw [h] at hc; cases hc
            | cons q p =>
              simp only [List.cons_append, List.cons.injEq] at h1 h2
              exact .inr ⟨p, a, b, s, t, h1.2, h2.2, hc⟩
      · rename_i h
        have hne : x ≠ y := fun e => h ((heq x y).2 e)
        constructor
        · intro hc; exact .inr ⟨[], x, y, xs, ys, rfl, rfl, hc⟩
        · rintro (⟨z, t, he⟩ | ⟨p, a, b, s, t, h1, h2, hc⟩)
          · simp only [List.cons_append, List.cons.injEq] at he; exact absurd he.1.symm hne
          · cases p with
            | nil =>
              simp only [List.nil_append, List.cons.injEq] at h1 h2
              obtain ⟨rfl, rfl⟩ := h1; obtain ⟨rfl, rfl⟩ := h2
              exact hc
            | cons q p =>
              simp only [List.cons_append, List.cons.injEq] at h1 h2
              exact absurd (h1.1.trans h2.1.symm) hne

theorem lex_eq (cmp : α → α → Option Ordering) (heq : ∀ x y, cmp x y = some .eq ↔ x = y) (xs ys : List α) :
    lexSeq cmp xs ys = some .eq ↔ xs = ys := by
  induction xs generalizing ys with
  | nil => cases ys <;> simp [lexSeq]
  | cons x xs ih =>
    cases ys with
    | nil => simp [lexSeq]
    | cons y ys =>
      simp only [lexSeq]
      split
      · rename_i h
        rw [ih]; simp [(heq x y).1 h]
      · rename_i h
        have hne : x ≠ y := fun e => h ((heq x y).2 e)
        simp [h, hne]

/-- swapping the sides -/
def flip' : Option Ordering → Option Ordering
  | some .lt => some .gt
  | some .gt => some .lt
  | o => o

theorem lex_flip (cmp : α → α → Option Ordering) (hsym : ∀ x y, cmp y x = flip' (cmp x y)) (xs ys : List α) :
    lexSeq cmp ys xs = flip' (lexSeq cmp xs ys) := by
  induction xs generalizing ys with
  | nil => cases ys <;> rfl
  | cons x xs ih =>
    cases ys with
    | nil => rfl
    | cons y ys =>
      simp only [lexSeq, hsym x y]
      cases h : cmp x y with
      | none => rfl
      | some o => cases o <;> simp [flip', ih]

theorem lex_trans (cmp : α → α → Option Ordering) (heq : ∀ x y, cmp x y = some .eq ↔ x = y)
    (htr : ∀ x y z, cmp x y = some .lt → cmp y z = some .lt → cmp x z = some .lt) (xs ys zs : List α)
    (h1 : lexSeq cmp xs ys = some .lt) (h2 : lexSeq cmp ys zs = some .lt) : lexSeq cmp xs zs = some .lt := by
  induction xs generalizing ys zs with
  | nil =>
    cases ys with
    | nil => simp [lexSeq] at h1
    | cons y ys => cases zs with
      | nil => simp [lexSeq] at h2
      | cons z zs => rfl
  | cons x xs ih =>
    cases ys with
    | nil => simp [lexSeq] at h1
    | cons y ys =>
      cases zs with
      | nil => simp [lexSeq] at h2
      | cons z zs =>
        simp only [lexSeq] at h1 h2 ⊢
        by_cases hxy : x = y
        · subst hxy
          rw [if_pos ((heq x x).2 rfl)] at h1
          by_cases hxz : x = z
          · subst hxz
            rw [if_pos ((heq x x).2 rfl)] at h2 ⊢
            exact ih _ _ h1 h2
          · rw [if_neg (fun e => hxz ((heq _ _).1 e))] at h2 ⊢
            exact h2
        · rw [if_neg (fun e => hxy ((heq _ _).1 e))] at h1
          by_cases hyz : y = z
          · subst hyz
            rw [if_neg (fun e => hxy ((heq _ _).1 e))]
            exact h1
          · rw [if_neg (fun e => hyz ((heq _ _).1 e))] at h2
            have h3 := htr _ _ _ h1 h2
            rw [if_neg (by rw [h3]; simp)]
            exact h3

theorem compare_run {w : World α} (hr : Reach ty w) {i j : Nat} {a b : Var α} (ha : view w i = some a) (hb : view w j = some b)
    (cmp : α → α → Option Ordering) : step ty (.compare i j cmp) w = .ok (.ord (lexSeq cmp a.xs b.xs), w) := by
  obtain ⟨v, hv, rv, _⟩ := reach_get hr ha
  obtain ⟨u, hu, ru, _⟩ := reach_get hr hb
  simp only [step, Prog.bind_run, run_var hu, Out.bind_ok]
  exact look_ok hv (by simp only [Prog.bind_run, threeWay_ok cmp rv ru, Out.bind_ok, Prog.pure_run])

/-- C11: `<=>` of vectors.  "less" is exactly the lexicographic order with a shorter prefix first, "equal" is equality of
the sequences, "greater" is "less" with the sides exchanged. -/
theorem C11_compare {w : World α} (hr : Reach ty w) {i j : Nat} {a b : Var α} (ha : view w i = some a) (hb : view w j = some b)
    (cmp : α → α → Option Ordering) (heq : ∀ x y, cmp x y = some .eq ↔ x = y) (hsym : ∀ x y, cmp y x = flip' (cmp x y)) :
    ∃ o, step ty (.compare i j cmp) w = .ok (.ord o, w) ∧ (o = some .lt ↔ LexLt cmp a.xs b.xs) ∧
      (o = some .eq ↔ a.xs = b.xs) ∧ (o = some .gt ↔ LexLt cmp b.xs a.xs) := by
  refine ⟨_, compare_run hr ha hb cmp, lex_lt cmp heq _ _, lex_eq cmp heq _ _, ?_⟩
  rw [← lex_lt cmp heq, lex_flip cmp hsym a.xs b.xs]
  generalize lexSeq cmp a.xs b.xs = o
  cases o with
  | none => simp [flip']
  | some o => cases o <;> simp [flip']

/-- C11: if the elements are totally ordered, so are the vectors: any two are comparable, the order is transitive and
irreflexive. -/
theorem C11_total_order (cmp : α → α → Option Ordering) (heq : ∀ x y, cmp x y = some .eq ↔ x = y)
    (hsym : ∀ x y, cmp y x = flip' (cmp x y)) (htot : ∀ x y, cmp x y ≠ none)
    (htr : ∀ x y z, cmp x y = some .lt → cmp y z = some .lt → cmp x z = some .lt) :
    (∀ xs ys : List α, LexLt cmp xs ys ∨ xs = ys ∨ LexLt cmp ys xs) ∧
    (∀ xs ys zs : List α, LexLt cmp xs ys → LexLt cmp ys zs → LexLt cmp xs zs) ∧ (∀ xs : List α, ¬ LexLt cmp xs xs) := by
  refine ⟨fun xs ys => ?_, fun xs ys zs h1 h2 => ?_, fun xs h => ?_⟩
  · have hn : lexSeq cmp xs ys ≠ none := by
      induction xs generalizing ys with
      | nil => cases ys <;> simp [lexSeq]
      | cons x xs ih => cases ys with
        | nil => simp [lexSeq]
        | cons y ys => simp only [lexSeq]; split
                       · exact ih ys
                       · exact htot x y
    rw [← lex_lt cmp heq, ← lex_lt cmp heq, ← lex_eq cmp heq, lex_flip cmp hsym xs ys]
    revert hn
    generalize lexSeq cmp xs ys = o
    cases o with
    | none => simp
    | some o => cases o <;> simp [flip']
  · rw [← lex_lt cmp heq] at *
    exact lex_trans cmp heq htr _ _ _ h1 h2
  · rw [← lex_lt cmp heq, (lex_eq cmp heq xs xs).2 rfl] at h
    cases h

/-- The order of the numbers meets the hypotheses. -/
example : (∀ x y : Nat, some (compare x y) = some Ordering.eq ↔ x = y) ∧
    (∀ x y : Nat, some (compare y x) = flip' (some (compare x y))) ∧
    (∀ x y z : Nat, some (compare x y) = some .lt → some (compare y z) = some .lt → some (compare x z) = some .lt) := by
  refine ⟨?_, ?_, ?_⟩
  · simp
  · intro x y
    rcases Nat.lt_trichotomy x y with h | h | h
    · rw [Nat.compare_eq_lt.2 h, Nat.compare_eq_gt.2 h]; rfl
    · subst h; simp [flip']
    · rw [Nat.compare_eq_lt.2 h, Nat.compare_eq_gt.2 h]; rfl
  · intro x y z
    simp only [Option.some.injEq, Nat.compare_eq_lt]
    omega

/-- An order that is not total also meets those of `C11_compare`. -/
example : (∀ x y : Nat, (if x = y then some Ordering.eq else none) = some .eq ↔ x = y) ∧
    (∀ x y : Nat, (if y = x then some Ordering.eq else none) = flip' (if x = y then some Ordering.eq else none)) := by
  refine ⟨fun x y => by split <;> simp_all, fun x y => ?_⟩
  by_cases h : x = y
  · simp [h, flip']
  · simp [h, Ne.symm h, flip']

/-! ## C12 -/

/-- `n` calls of `next()` on a borrowing iterator. -/
def nexts (it : Iter) : Nat → M α (List (Option α))
  | 0 => return []
  | n + 1 => do
    let r ← it.next
    let rs ← nexts r.2 n
    return r.1 :: rs

theorem nexts_ok {h : Heap α} {v : Vec} {xs : List α} (rp : Rep ty h v xs) (n k : Nat) (hk : k ≤ xs.length) :
    nexts ⟨v.ptr, k, v.len⟩ n h = .ok ((List.range n).map (fun j => (xs.drop k)[j]?), h) := by
  induction n generalizing k with
  | zero => rfl
  | succ n ih =>
    by_cases he : k = xs.length
    · have hd : xs.drop k = [] := List.drop_of_length_le (by omega)
      have := ih k hk
      simp only [nexts, Prog.bind_run, Iter.next, rp.len, he, ne_eq, not_true_eq_false, if_false, Prog.pure_run, Out.bind_ok]
      rw [he, rp.len] at this
      rw [this]
      simp [List.range_succ_eq_map]
    · have e1 : load v.ptr k h = .ok (xs[k]'(by omega), h) := rp.slot (List.getElem?_eq_getElem (by omega))
      have := ih (k + 1) (by omega)
      rw [rp.len] at this
      simp only [nexts, Prog.bind_run, Iter.next, rp.len, he, ne_eq, not_false_eq_true, if_true, e1, Prog.pure_run, Out.bind_ok, this]
      rw [List.drop_eq_getElem_cons (show k < xs.length by omega)]
      simp [List.range_succ_eq_map, Function.comp_def]
      intro a _; congr 1; omega

/-- C12: a borrowing iterator, asked any number of times, hands out element 0, element 1, ..., then none for ever, and
changes nothing; the loop over `begin()..end()` collects exactly the contents. -/
theorem C12_iter {w : World α} (hr : Reach ty w) {i : Nat} {xs : List α} {cap a : Nat} {v : Vec} (hw : w.vars i = some v)
    (hv : view w i = some ⟨xs, cap, a⟩) (n : Nat) :
    nexts (iter v) n w.heap = .ok ((List.range n).map (fun k => xs[k]?), w.heap) ∧
    step ty (.collect i) w = .ok (.seq xs, w) := by
  obtain ⟨v', hw', rep, hc, hl⟩ := reach_get hr hv
  rw [hw] at hw'; cases hw'
  simp only at rep
  refine ⟨by have := nexts_ok rep n 0 (Nat.zero_le _); rw [List.drop_zero] at this; exact this, look_ok hw ?_⟩
  have := drain_ok rep [] xs [] rfl
  simp only [List.length_nil, List.nil_append] at this
  simp only [Prog.bind_run, iter, this, Out.bind_ok, Prog.pure_run]

/-- C12: `into_iter()` asked `n` times (any `n`, fewer or more than there are elements) and then destroyed hands out
element 0, element 1, ..., then none; the vector is left empty without storage, its old block is released and every
element constructed has been destroyed except those of other vectors. -/
theorem C12_into_iter {w : World α} (hr : Reach ty w) {i : Nat} {xs : List α} {cap a : Nat} (hv : view w i = some ⟨xs, cap, a⟩)
    (n : Nat) :
    (step ty (.drain i n) w).Safe fun q => q.1 = .opts ((List.range n).map fun k => xs[k]?) ∧
      view q.2 = put (view w) i (some ⟨[], 0, a⟩) ∧
      (∀ v b, w.vars i = some v → v.ptr = some b → q.2.heap.blocks b = none) := by
  obtain ⟨v, hw, rep, hc, hl⟩ := reach_get hr hv
  have h1 := reach_step hr (op := .drain i n) (r := .opts ((List.range n).map fun k => xs[k]?))
    (A' := put (view w) i (some ⟨[], 0, a⟩)) (by simp [specStep, Spec.Vector.upd, hv])
  obtain ⟨r, he, hp⟩ := intoIter_rep rep
  obtain ⟨h', k, e, s⟩ := drainN_ok n r (reach_bal hr)
  have h2 : ∃ q, step ty (.drain i n) w = .ok q ∧ q.2.heap = h' := by
    simp only [step, Prog.bind_run, run_var hw, Out.bind_ok, setVar, inHeap_run, e, Prog.pure_run]
    exact ⟨_, rfl, rfl⟩
  obtain ⟨q, hq, hq'⟩ := h2
  rw [hq] at h1 ⊢
  refine ⟨h1.1, h1.2.1, fun v' b hv' hb => ?_⟩
  rw [hw] at hv'; cases hv'
  rw [hq']
  exact s.gone b (by rw [hp, hb]; simp) (by simp)

/-- C12: the same for `into_iter_reversed()`. -/
theorem C12_into_iter_reversed {w : World α} (hr : Reach ty w) {i : Nat} {xs : List α} {cap a : Nat}
    (hv : view w i = some ⟨xs, cap, a⟩) (n : Nat) :
    (step ty (.drainRev i n) w).Safe fun q => q.1 = .opts ((List.range n).map fun k => xs.reverse[k]?) ∧
      view q.2 = put (view w) i (some ⟨[], 0, a⟩) ∧
      (∀ v b, w.vars i = some v → v.ptr = some b → q.2.heap.blocks b = none) := by
  obtain ⟨v, hw, rep, hc, hl⟩ := reach_get hr hv
  have h1 := reach_step hr (op := .drainRev i n) (r := .opts ((List.range n).map fun k => xs.reverse[k]?))
    (A' := put (view w) i (some ⟨[], 0, a⟩)) (by simp [specStep, Spec.Vector.upd, hv])
  obtain ⟨h', k, e, s⟩ := drainRevN_ok n rep (reach_bal hr)
  have h2 : ∃ q, step ty (.drainRev i n) w = .ok q ∧ q.2.heap = h' := by
    have e' : drainRevN ty (newMove v dfltAlloc).1 n w.heap = .ok (_, h') := e
    simp only [step, Prog.bind_run, run_var hw, Out.bind_ok, setVar, inHeap_run, e', Prog.pure_run]
    exact ⟨_, rfl, rfl⟩
  obtain ⟨q, hq, hq'⟩ := h2
  rw [hq] at h1 ⊢
  refine ⟨h1.1, h1.2.1, fun v' b hv' hb => ?_⟩
  rw [hw] at hv'; cases hv'
  rw [hq']
  exact s.gone b (by rw [hb]; simp) (by simp)

example : ∃ w v, Reach exTy w ∧ w.vars 1 = some v ∧ view w 1 = some ⟨[1, 2, 3], 3, 0⟩ := by
  obtain ⟨w, h, _, h1, _⟩ := exReach
  obtain ⟨v, hv, _⟩ := reach_get h h1
  exact ⟨w, v, h, hv, h1⟩

/-! ## C15 -/

/-- C15, automatic growth: appending or inserting one element to any reachable vector never asks for a wrapped number of
bytes; the block has room for the announced capacity. -/
theorem C15_automatic_growth_partial {w : World α} (hr : Reach ty w) {i p : Nat} {x : α} {xs : List α} {cap a : Nat}
    (hv : view w i = some ⟨xs, cap, a⟩) (op : Op α)
    (hop : op = .push i (.val x) ∨ (op = .emplace i p x ∧ 1 ≤ p ∧ p ≤ xs.length)) :
    (step ty op w).Safe fun q => ∀ v', q.2.vars i = some v' → v'.cap * ty.size < wordSize ∧
      ∃ b blk, v'.ptr = some b ∧ q.2.heap.blocks b = some blk ∧ blk.bytes = v'.cap * ty.size ∧ blk.slots.length = v'.cap := by
  have h1 : ∃ r A', specStep false ty.size ty.dflt op (view w) = some (r, A') ∧ ∃ ys c, A' i = some ⟨ys, c, a⟩ ∧ ys ≠ [] := by
    rcases hop with rfl | ⟨rfl, h1, h2⟩
    · refine ⟨_, _, by simp [specStep, Spec.Vector.upd, hv, only, inside, argVal]; exact ⟨rfl, rfl⟩, _, _, by simp [put]; exact ⟨rfl, rfl⟩, by simp⟩
    · refine ⟨_, _, by simp [specStep, Spec.Vector.upd, hv, only, h1, h2]; exact ⟨rfl, rfl⟩, _, _, by simp [put]; exact ⟨rfl, rfl⟩, by simp⟩
  obtain ⟨r, A', hs, ys, c, hA, hne⟩ := h1
  refine (reach_step hr hs).mono ?_
  rintro ⟨r', w'⟩ ⟨_, hvw, hr'⟩ v' hv'
  simp only at hvw hr' hv' ⊢
  rw [← hvw] at hA
  obtain ⟨v'', hw'', rep, _, _⟩ := reach_get hr' hA
  rw [hv'] at hw''; cases hw''
  simp only at rep
  have hpos := List.length_pos_iff.2 hne
  have hle := rep.le
  have ho := rep.own
  have hsm := ho.small
  have hW : wordSize = 18446744073709551616 := rfl
  refine ⟨by omega, ?_⟩
  cases hp : v'.ptr with
  | none => rw [hp] at ho; simp only [Own] at ho; omega
  | some b =>
    rw [hp] at ho
    have hlen := ho.length
    simp only [Own] at ho
    exact ⟨b, _, rfl, ho.1, rfl, hlen⟩

example : ∃ w, Reach exTy w ∧ view w 1 = some ⟨[1, 2, 3], 3, 0⟩ := by
  obtain ⟨w, h, _, h1, _⟩ := exReach; exact ⟨w, h, h1⟩

/-- C15, explicit requests: the unrestricted property is false of the code.  For every element size above 1 there is a
count for which `reserve` on an empty vector returns a vector announcing that capacity while its block has no room at
all; with 8-byte elements the first append after it already writes outside the block. -/
theorem C15_explicit_request_fails :
    (∀ {α : Type} {ty : ElemTy α} (h : Heap α) (a n : Nat), n * ty.size = wordSize → ty.refuse h.next 0 = false →
      ∃ v h', reserve ty (Vec.blank a) n h = .ok (v, h') ∧ v.cap = n ∧
        ∃ b blk, v.ptr = some b ∧ h'.blocks b = some blk ∧ blk.slots.length = 0) ∧
    run exTy [.newAlloc 0 0, .reserve 0 2305843009213693952, .push 0 (.val 1)] {} = .ub := by
  refine ⟨?_, of_isUb (by decide +kernel)⟩
  intro α ty h a n hn hrf
  have hpos : 0 < n := by
    rcases Nat.eq_zero_or_pos n with h | h
    · subst h; simp [wordSize] at hn
    · exact h
  have hw : wrap (ty.size * n) = 0 := by rw [Nat.mul_comm, hn]; rfl
  refine ⟨⟨0, n, some h.next, a⟩, { h with blocks := Model.Mem.upd h.blocks h.next (some ⟨a, 0, []⟩), next := h.next + 1 }, ?_, rfl,
    h.next, ⟨a, 0, []⟩, rfl, ?_, rfl⟩
  · rw [reserve, if_pos (by exact hpos)]
    simp only [Vec.blank, allocateReserve, Prog.bind_run, alloc, hw, hrf, forUp,
      Prog.pure_run, Out.bind_ok, clear, destroyAll, deallocate, free, Bool.false_eq_true, if_false, Nat.zero_div,
      List.replicate_zero, Nat.add_zero]
  · simp [Model.Mem.upd]

/-! ## C68, Vector -/

/-- C68: streaming a vector prints `Vec [`, the elements separated by comma and blank, and `]`. -/
theorem C68_vector_printed {w : World α} (hr : Reach ty w) {i : Nat} {xs : List α} {cap a : Nat}
    (hv : view w i = some ⟨xs, cap, a⟩) (shw : α → String) :
    step ty (.print i shw) w = .ok (.text ("Vec [" ++ joinSeq (xs.map shw) ++ "]"), w) := by
  obtain ⟨v, hw, rep, _, _⟩ := reach_get hr hv
  exact look_ok hw (by simp only [Prog.bind_run, print_ok shw rep, Out.bind_ok, Prog.pure_run])

/-- `joinSeq` is the usual joining. -/
theorem C68_join (ss : List String) : joinSeq ss = String.intercalate ", " ss := by
  induction ss with
  | nil => rfl
  | cons s ss ih =>
    cases ss with
    | nil => simp [joinSeq]
    | cons t ss => rw [joinSeq, ih, String.intercalate_cons_cons]; simp

example : ∃ w, Reach exTy w ∧ view w 0 = some ⟨[1, 2, 3], 4, 0⟩ ∧ joinSeq (([1, 2, 3] : List Nat).map toString) = "1, 2, 3" := by
  obtain ⟨w, h, h0, _⟩ := exReach; exact ⟨w, h, h0, by decide⟩

end Verif.Props
