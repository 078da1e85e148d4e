import Verif.Props.Vector
/-! # Properties C06-C10, C13, C14 (see Props/Vector.lean for the vocabulary) -/
namespace Verif.Props
open Verif Verif.Model.Mem Verif.Model.Vector Verif.Proof.Mem Verif.Proof.Vector
open Verif.Spec.Vector hiding upd

variable {α : Type} {ty : ElemTy α}

/-! ## C06 -/

/-- C06, `insert(pos, x)` (any argument, also one inside the vector) and `emplace(pos, x)` after at least one element:
contents become prefix, new element, suffix; the result designates the new element.
Missing: `begin()`, see `C06_insert_begin_fails`. -/
theorem C06_insert_partial {w : World α} (hr : Reach ty w) {i p : Nat} {r : Arg α} {x : α} {xs : List α} {cap a : Nat}
    (hv : view w i = some ⟨xs, cap, a⟩) (hx : argVal (view w) r = some x) (hp : p ≤ xs.length) (h1 : 1 ≤ p) :
    ((step ty (.insert i p r) w).Safe fun q => q.1 = .pos (some p) ∧
      ∃ cap', view q.2 = put (view w) i (some ⟨xs.take p ++ x :: xs.drop p, cap', a⟩)) ∧
    ((step ty (.emplace i p x) w).Safe fun q =>
      ∃ cap', view q.2 = put (view w) i (some ⟨xs.take p ++ x :: xs.drop p, cap', a⟩)) := by
  constructor
  · exact (reach_step hr (op := .insert i p r)
      (by simp [specStep, Spec.Vector.upd, hv, only, hx, hp, h1]; first | rfl | exact ⟨rfl, rfl⟩)).mono fun _ h => ⟨h.1, _, h.2.1⟩
  · exact (reach_step hr (op := .emplace i p x)
      (by simp [specStep, Spec.Vector.upd, hv, only, hp, h1]; first | rfl | exact ⟨rfl, rfl⟩)).mono fun _ h => ⟨_, h.2.1⟩

/-- C06, `insert(pos, n, x)`.  Missing: `begin()`, no elements (`n = 0`) before the end, a wrapped byte count, and
arguments inside the vector (C14). -/
theorem C06_insert_count_partial {w : World α} (hr : Reach ty w) {i p n : Nat} {r : Arg α} {x : α} {xs : List α} {cap a : Nat}
    (hv : view w i = some ⟨xs, cap, a⟩) (hx : argVal (view w) r = some x) (hp : p ≤ xs.length) (h1 : 1 ≤ p)
    (h0 : 0 < n ∨ p = xs.length) (hw : (xs.length + n) * ty.size < wordSize) (hr' : inside i r = false) :
    (step ty (.insertFill i p n r) w).Safe fun q => q.1 = .pos (some p) ∧
      ∃ cap', view q.2 = put (view w) i (some ⟨xs.take p ++ (List.replicate n x ++ xs.drop p), cap', a⟩) :=
  (reach_step hr (op := .insertFill i p n r)
    (by simp [specStep, Spec.Vector.upd, hv, only, hx, hp, h1, h0, hw, hr']; first | rfl | exact ⟨rfl, rfl⟩)).mono fun _ h => ⟨h.1, _, h.2.1⟩

/-- C06, `insert(pos, first, last)` and `insert(pos, list)`.  Missing as before. -/
theorem C06_insert_range_partial {w : World α} (hr : Reach ty w) {i p : Nat} {xs ys : List α} {cap a : Nat}
    (hv : view w i = some ⟨xs, cap, a⟩) (hp : p ≤ xs.length) (h1 : 1 ≤ p)
    (h0 : ys ≠ [] ∨ p = xs.length) (hw : (xs.length + ys.length) * ty.size < wordSize) :
    (step ty (.insertRange i p ys) w).Safe fun q => q.1 = .pos (some p) ∧
      ∃ cap', view q.2 = put (view w) i (some ⟨xs.take p ++ (ys ++ xs.drop p), cap', a⟩) := by
  exact (reach_step hr (op := .insertRange i p ys)
    (by simp [specStep, Spec.Vector.upd, hv, only, hp, h1, h0, List.length_pos_iff, ← ne_eq, hw]; first | rfl | exact ⟨rfl, rfl⟩)).mono fun _ h => ⟨h.1, _, h.2.1⟩

example : ∃ w, Reach exTy w ∧ view w 1 = some ⟨[1, 2, 3], 3, 0⟩ ∧ argVal (view w) (.elem 1 2) = some 3 ∧ 2 ≤ [1, 2, 3].length ∧
    inside (α := Nat) 1 (.elem 0 2) = false ∧ ([1, 2, 3].length + 4) * exTy.size < wordSize := by
  obtain ⟨w, h, _, h1, _⟩ := exReach
  exact ⟨w, h, h1, by simp [argVal, h1], by decide, rfl, by decide⟩

/-- C06 is false of the code at `begin()`: in every non-empty reachable vector, inserting or emplacing there is undefined
(unless memory runs out first). -/
theorem C06_insert_begin_fails {w : World α} (hr : Reach ty w) {i : Nat} {xs : List α} {cap a : Nat}
    (hv : view w i = some ⟨xs, cap, a⟩) (hne : xs ≠ []) (x : α) :
    (step ty (.emplace i 0 x) w = .ub ∨ step ty (.emplace i 0 x) w = .oom) ∧
    (step ty (.insert i 0 (.val x)) w = .ub ∨ step ty (.insert i 0 (.val x)) w = .oom) := by
  obtain ⟨v, hw, rep, _, _⟩ := reach_get hr hv
  have he := emplace_begin (x := x) rep (reach_bal hr) hne
  refine ⟨change_out hw he, ?_⟩
  have : step ty (.insert i 0 (.val x)) w = change' i (fun v => do
      let q ← Model.Vector.insert ty v 0 (.tmp x)
      return (q.1, some q.2)) w := rfl
  rw [this]
  refine change'_out hw ?_
  simp only [Model.Vector.insert, Prog.bind_run, deref, Prog.pure_run, Out.bind_ok]
  rcases he with h | h <;> rw [h] <;> simp

/-- C06 is false of the code for empty vectors: the new element is constructed but the vector stays empty. -/
theorem C06_insert_empty_fails {w : World α} (hr : Reach ty w) {i : Nat} {cap a : Nat} (hv : view w i = some ⟨[], cap, a⟩) (x : α) :
    (step ty (.emplace i 0 x) w).Safe fun q => q.2.heap.ctors = w.heap.ctors + 1 ∧ q.2.heap.dtors = w.heap.dtors ∧
      ∃ v, q.2.vars i = some v ∧ v.len = 0 := by
  obtain ⟨v, hw, rep, _, _⟩ := reach_get hr hv
  have he := emplace_empty (x := x) rep (reach_bal hr)
  refine (change_safe hw (f := fun v => emplace ty v 0 x)
    (P := fun v' h' => v'.len = 0 ∧ h'.ctors = w.heap.ctors + 1 ∧ h'.dtors = w.heap.dtors) he).mono ?_
  rintro q ⟨v', hv', h1, h2, h3⟩
  exact ⟨h2, h3, v', by rw [hv', bindVar_same], h1⟩

/-- C06 is false of the code for a count of 0: the elements from the position on are destroyed, yet still counted. -/
theorem C06_insert_none_fails :
    ∃ w, Reach exTy w ∧ view w 0 = some ⟨[1, 2], 2, 0⟩ ∧
      ∃ w', step exTy (.insertFill 0 1 0 (.val 5)) w = .ok (.pos (some 1), w') ∧ view w' 0 = none ∧
        w'.heap.ctors = 3 ∧ w'.heap.dtors = 1 ∧ ∃ v, w'.vars 0 = some v ∧ v.len = 2 := by
  obtain ⟨⟨rs, w⟩, he, _⟩ := of_isOk (x := run exTy [.newList 0 [1, 2] 0] {}) (P := fun _ => true) (by decide +kernel)
  have hw : w = ⟨⟨Model.Mem.upd (fun _ => none) 0 (some ⟨0, 16, [some 1, some 2]⟩), 1, 2, 0, 16, 0⟩,
      bindVar (fun _ => none) 0 (some ⟨2, 2, some 0, 0⟩)⟩ := by
    have e : run exTy [.newList 0 [1, 2] 0] {} = .ok ([.unit], ⟨⟨Model.Mem.upd (Model.Mem.upd (Model.Mem.upd (fun _ => none) 0
        (some ⟨0, 16, [none, none]⟩)) 0 (some ⟨0, 16, [some 1, none]⟩)) 0 (some ⟨0, 16, [some 1, some 2]⟩), 1, 2, 0, 16, 0⟩,
      bindVar (fun _ => none) 0 (some ⟨2, 2, some 0, 0⟩)⟩) := by rfl
    rw [e] at he
    cases he
    congr 2
    funext b
    simp only [Model.Mem.upd]
    split <;> simp_all
  have hs : specRun false exTy.size exTy.dflt [.newList 0 [1, 2] 0] (fun _ => none) = some _ := rfl
  refine ⟨w, ⟨_, _, _, rs, hs, he⟩, by rw [hw]; rfl, ?_⟩
  rw [hw]
  refine ⟨⟨⟨Model.Mem.upd (Model.Mem.upd (Model.Mem.upd (Model.Mem.upd (fun _ => none) 0 (some ⟨0, 16, [some 1, some 2]⟩)) 0
    (some ⟨0, 16, [some 1, some 0]⟩)) 0 (some ⟨0, 16, [some 1, some 2]⟩)) 0 (some ⟨0, 16, [some 1, none]⟩), 1, 3, 1, 16, 0⟩,
    bindVar (bindVar (fun _ => none) 0 (some ⟨2, 2, some 0, 0⟩)) 0 (some ⟨2, 2, some 0, 0⟩)⟩, ?_, rfl, rfl, rfl, _, rfl, rfl⟩
  simp only [step, argRef, change', insertFill, moveElementsBack, Prog.bind_run, Prog.pure_run, Out.bind_ok, var, inHeap]
  have e1 : bindVar (fun _ => none) 0 (some (⟨2, 2, some 0, 0⟩ : Vec)) 0 = some ⟨2, 2, some 0, 0⟩ := rfl
  rw [e1]
  simp only [Out.bind_ok]
  rw [if_neg (by decide), Prog.bind_run, if_neg (by decide)]
  simp only [Prog.pure_run, Out.bind_ok, Prog.bind_run]
  rw [moveBackLoop, if_pos (by decide)]
  simp only [Prog.bind_run]
  have e2 : take exTy (some 0) (2 - 1) ⟨Model.Mem.upd (fun _ => none) 0 (some ⟨0, 16, [some 1, some 2]⟩), 1, 2, 0, 16, 0⟩ =
    .ok (2, ⟨Model.Mem.upd (Model.Mem.upd (fun _ => none) 0 (some ⟨0, 16, [some 1, some 2]⟩)) 0
      (some ⟨0, 16, [some 1, some 0]⟩), 1, 2, 0, 16, 0⟩) := rfl
  rw [e2]
  simp only [Out.bind_ok]
  have e3 : construct (some 0) (wrap (2 - 1 + 0)) 2 ⟨Model.Mem.upd (Model.Mem.upd (fun _ => none) 0 (some ⟨0, 16, [some 1, some 2]⟩)) 0
      (some ⟨0, 16, [some 1, some 0]⟩), 1, 2, 0, 16, 0⟩ =
    .ok ((), ⟨Model.Mem.upd (Model.Mem.upd (Model.Mem.upd (fun _ => none) 0 (some ⟨0, 16, [some 1, some 2]⟩)) 0
      (some ⟨0, 16, [some 1, some 0]⟩)) 0 (some ⟨0, 16, [some 1, some 2]⟩), 1, 3, 0, 16, 0⟩) := rfl
  rw [e3]
  simp only [Out.bind_ok]
  have e4 : destroy (some 0) (2 - 1) ⟨Model.Mem.upd (Model.Mem.upd (Model.Mem.upd (fun _ => none) 0 (some ⟨0, 16, [some 1, some 2]⟩)) 0
      (some ⟨0, 16, [some 1, some 0]⟩)) 0 (some ⟨0, 16, [some 1, some 2]⟩), 1, 3, 0, 16, 0⟩ =
    .ok ((), ⟨Model.Mem.upd (Model.Mem.upd (Model.Mem.upd (Model.Mem.upd (fun _ => none) 0 (some ⟨0, 16, [some 1, some 2]⟩)) 0
      (some ⟨0, 16, [some 1, some 0]⟩)) 0 (some ⟨0, 16, [some 1, some 2]⟩)) 0 (some ⟨0, 16, [some 1, none]⟩), 1, 3, 1, 16, 0⟩) := rfl
  rw [e4]
  simp only [Out.bind_ok]
  rw [moveBackLoop, if_neg (by decide)]
  rfl

/-! ## C07 -/

/-- C07, `erase(pos)`: exactly that element goes, the result is its position (where the next element now is), exactly
one element is destroyed, none constructed, nothing allocated, capacity kept. -/
theorem C07_erase {w : World α} (hr : Reach ty w) {i p : Nat} {xs : List α} {cap a : Nat}
    (hv : view w i = some ⟨xs, cap, a⟩) (hp : p < xs.length) :
    (step ty (.erase i p) w).Safe fun q => q.1 = .pos (some p) ∧
      view q.2 = put (view w) i (some ⟨xs.take p ++ xs.drop (p + 1), cap, a⟩) ∧
      q.2.heap.dtors = w.heap.dtors + 1 ∧ q.2.heap.ctors = w.heap.ctors ∧ q.2.heap.next = w.heap.next := by
  obtain ⟨v, hw, rep, _, _⟩ := reach_get hr hv
  simp only at rep
  have hsplit : xs = xs.take p ++ xs[p] :: xs.drop (p + 1) := by
    rw [← List.drop_eq_getElem_cons hp, List.take_append_drop]
  rw [hsplit] at rep
  obtain ⟨h', e, t⟩ := erase_ok (p := p) rep (reach_bal hr) (by simp; omega)
  have h1 := reach_step hr (op := .erase i p) (r := .pos (some p))
    (A' := put (view w) i (some ⟨xs.take p ++ xs.drop (p + 1), cap, a⟩))
    (by simp [specStep, Spec.Vector.upd, hv, hp])
  have h2 := change'_safe hw (f := fun v => erase ty v p)
    (P := fun _ h' => h'.dtors = w.heap.dtors + 1 ∧ h'.ctors = w.heap.ctors ∧ h'.next = w.heap.next)
    (by rw [e]; exact ⟨t.step.dtors, by simpa using t.step.ctors, by simpa using t.step.allocs⟩)
  exact (Safe.and h1 h2).mono fun q ⟨h1, ⟨_, _, h2⟩⟩ => ⟨h1.1, h1.2.1, h2⟩

/-- C07, `erase(first, last)`: exactly the elements of the range go and as many are destroyed.
Missing: an empty range that is not at the end, see `C07_erase_empty_range_fails`. -/
theorem C07_erase_range_partial {w : World α} (hr : Reach ty w) {i lo hi : Nat} {xs : List α} {cap a : Nat}
    (hv : view w i = some ⟨xs, cap, a⟩) (h1 : lo ≤ hi) (h2 : hi ≤ xs.length) (h3 : lo < hi ∨ hi = xs.length) :
    (step ty (.eraseRange i lo hi) w).Safe fun q => q.1 = .pos (some lo) ∧
      view q.2 = put (view w) i (some ⟨xs.take lo ++ xs.drop hi, cap, a⟩) ∧
      q.2.heap.dtors = w.heap.dtors + (hi - lo) ∧ q.2.heap.ctors = w.heap.ctors ∧ q.2.heap.next = w.heap.next := by
  obtain ⟨v, hw, rep, _, _⟩ := reach_get hr hv
  simp only at rep
  have hsplit : xs = xs.take lo ++ ((xs.drop lo).take (hi - lo) ++ xs.drop hi) := by
    have : xs.drop hi = (xs.drop lo).drop (hi - lo) := by rw [List.drop_drop]; congr 1; omega
    rw [this, List.take_append_drop, List.take_append_drop]
  have hlen : ((xs.drop lo).take (hi - lo)).length = hi - lo := by rw [List.length_take, List.length_drop]; omega
  have hlen1 : (xs.take lo).length = lo := by rw [List.length_take]; omega
  have hne : (xs.drop lo).take (hi - lo) ≠ [] ∨ xs.drop hi = [] := by
    rcases h3 with h | h
    · left; intro he; rw [he] at hlen; simp at hlen; omega
    · right; rw [h]; simp
  rw [hsplit] at rep
  obtain ⟨h', e, t⟩ := eraseRange_ok (lo := lo) (hi := hi) rep (reach_bal hr) (by omega) (by omega) hne
  have h1 := reach_step hr (op := .eraseRange i lo hi) (r := .pos (some lo))
    (A' := put (view w) i (some ⟨xs.take lo ++ xs.drop hi, cap, a⟩))
    (by simp [specStep, Spec.Vector.upd, hv, h1, h2, h3, only])
  have h2 := change'_safe hw (f := fun v => eraseRange ty v lo hi)
    (P := fun _ h' => h'.dtors = w.heap.dtors + (hi - lo) ∧ h'.ctors = w.heap.ctors ∧ h'.next = w.heap.next)
    (by rw [e]; exact ⟨by rw [t.step.dtors, hlen], by simpa using t.step.ctors, by simpa using t.step.allocs⟩)
  exact (Safe.and h1 h2).mono fun q ⟨h1, ⟨_, _, h2⟩⟩ => ⟨h1.1, h1.2.1, h2⟩

example : ∃ w, Reach exTy w ∧ view w 0 = some ⟨[1, 2, 3], 4, 0⟩ ∧ 0 < [1, 2, 3].length ∧ (0 ≤ 2 ∧ 2 ≤ [1, 2, 3].length ∧ 0 < 2) := by
  obtain ⟨w, h, h0, _⟩ := exReach; exact ⟨w, h, h0, by decide, by decide⟩

/-- C07 is false of the code for an empty range before the end: `std::move` is called with a destination that is the
beginning of the source range, which the standard leaves undefined. -/
theorem C07_erase_empty_range_fails {w : World α} (hr : Reach ty w) {i p : Nat} {xs : List α} {cap a : Nat}
    (hv : view w i = some ⟨xs, cap, a⟩) (hp : p < xs.length) : step ty (.eraseRange i p p) w = .ub := by
  obtain ⟨v, hw, rep, _, _⟩ := reach_get hr hv
  have hl : v.len = xs.length := rep.len
  simp only [step, change', Prog.bind_run, run_var hw, Out.bind_ok, inHeap_run, eraseRange]
  rw [if_neg (by omega)]
  simp only [Prog.bind_run, stdMove]
  rw [if_pos (by omega)]
  rfl

/-! ## C08 -/

/-- C08, copy construction (with the default or a given allocator): the new vector has the contents of the source; the
source and all others are unchanged. -/
theorem C08_copy_construct {w : World α} (hr : Reach ty w) {i j : Nat} {xs : List α} {cap a : Nat}
    (hi : view w i = none) (hj : view w j = some ⟨xs, cap, a⟩) (a' : Nat) :
    ((step ty (.newCopy i j) w).Safe fun q => view q.2 = put (view w) i (some ⟨xs, xs.length, 0⟩)) ∧
    ((step ty (.newCopyAlloc i j a') w).Safe fun q => view q.2 = put (view w) i (some ⟨xs, xs.length, a'⟩)) := by
  constructor
  · exact (reach_step hr (op := .newCopy i j) (by simp [specStep, born, hi, hj]; first | rfl | exact ⟨rfl, rfl⟩)).mono fun _ h => h.2.1
  · exact (reach_step hr (op := .newCopyAlloc i j a') (by simp [specStep, born, hi, hj]; first | rfl | exact ⟨rfl, rfl⟩)).mono fun _ h => h.2.1

/-- C08, copy assignment between different vectors, on both allocator paths: the target has the contents of the source
and keeps its allocator; the source and all others are unchanged. -/
theorem C08_copy_assign {w : World α} (hr : Reach ty w) {i j : Nat} (hij : i ≠ j) {xs ys : List α} {cap a cap' a' : Nat}
    (hi : view w i = some ⟨xs, cap, a⟩) (hj : view w j = some ⟨ys, cap', a'⟩) :
    (step ty (.copyAssign i j) w).Safe fun q =>
      view q.2 = put (view w) i (some ⟨ys, if a = a' then max cap cap' else ys.length, a⟩) :=
  (reach_step hr (op := .copyAssign i j) (by simp [specStep, Spec.Vector.upd, hi, hj, hij]; first | rfl | exact ⟨rfl, rfl⟩)).mono
    fun _ h => h.2.1

/-- C08: self assignment changes nothing at all. -/
theorem C08_self_assign {w : World α} (hr : Reach ty w) {i : Nat} {x : Var α} (hi : view w i = some x) :
    step ty (.copyAssign i i) w = .ok (.unit, w) ∧ step ty (.moveAssign i i) w = .ok (.unit, w) := by
  obtain ⟨v, hw, _⟩ := reach_get hr hi
  constructor
  · simp only [step, if_true]; exact look_ok hw rfl
  · simp only [step, if_true]; exact look_ok hw rfl

example : ∃ w, Reach exTy w ∧ view w 3 = none ∧ view w 0 = some ⟨[1, 2, 3], 4, 0⟩ ∧ view w 2 = some ⟨[], 2, 7⟩ := by
  obtain ⟨w, h, h0, _, h2, h3⟩ := exReach; exact ⟨w, h, h3, h0, h2⟩

theorem spec_writes (full : Bool) (size : Nat) (dflt : α) (op : Op α) {A A' : Ideal α} {r : Res α}
    (h : specStep full size dflt op A = some (r, A')) (j : Nat) (hj : j ∉ writes op) : A' j = A j := by
  have hput : ∀ {i : Nat} {x : Option (Var α)}, j ≠ i → put A i x j = A j := fun hne => by simp [put, hne]
  have hborn : ∀ {i : Nat} {v : Var α}, j ≠ i → born A i v = some (r, A') → A' j = A j := by
    intro i v hne hb
    unfold born at hb
    split at hb
    · cases hb; exact hput hne
    · cases hb
  have hupd : ∀ {i : Nat} {f : Var α → Option (Res α × Var α)}, j ≠ i → Spec.Vector.upd A i f = some (r, A') → A' j = A j := by
    intro i f hne hb
    obtain ⟨a, q, q', ha, hf, hp⟩ := of_upd hb
    cases hp; exact hput hne
  have hask : ∀ {i : Nat} {f : Var α → Option (Res α)}, ask A i f = some (r, A') → A' j = A j := by
    intro i f hb
    obtain ⟨a, q, ha, hf, hp⟩ := of_ask hb
    cases hp; rfl
  have honly : ∀ {g : Prop} [Decidable g] {x : Option (Res α × Ideal α)}, only full g x = some (r, A') → x = some (r, A') := by
    intro g _ x hb
    unfold only at hb
    split at hb
    · exact hb
    · cases hb
  have hbind : ∀ {β : Type} {o : Option β} {f : β → Option (Res α × Ideal α)}, o.bind f = some (r, A') → ∃ b, f b = some (r, A') := by
    intro β o f hb
    cases o with
    | none => cases hb
    | some b => exact ⟨b, hb⟩
  cases op <;> simp only [writes, List.mem_cons, List.not_mem_nil, or_false, not_or, not_false_eq_true] at hj <;>
    simp only [specStep] at h
  case newMove i k a =>
    obtain ⟨b, hb⟩ := hbind h
    split at hb
    · cases hb; simp [put, hj.1, hj.2]
    · cases hb
  case moveAssign i k =>
    obtain ⟨b, hb⟩ := hbind h
    obtain ⟨c, hc⟩ := hbind hb
    split at hc
    · cases hc; rfl
    · cases hc; simp [put, hj.1, hj.2]
  case swap i k =>
    obtain ⟨b, hb⟩ := hbind h
    obtain ⟨c, hc⟩ := hbind hb
    cases hc; simp [put, hj.1, hj.2]
  case drop i =>
    obtain ⟨b, hb⟩ := hbind h
    cases hb; exact hput hj
  all_goals first
    | exact hborn hj h
    | exact hupd hj h
    | exact hask h
    | exact hborn hj (honly h)
    | exact hupd hj (honly h)
    | (obtain ⟨b, hb⟩ := hbind h; exact hborn hj hb)
    | (obtain ⟨b, hb⟩ := hbind h; exact hborn hj (honly hb))
    | (obtain ⟨b, hb⟩ := hbind h; exact hupd hj hb)
    | (obtain ⟨b, hb⟩ := hbind h; exact hask hb)

/-- C08, independence: whatever (restricted) history follows, a vector that no call of it names as changed shows the
same contents and capacity as before.  In particular changes to a copy never show in the original or conversely. -/
theorem C08_independent {w : World α} (hr : Reach ty w) (ops : List (Op α)) {rs : List (Res α)} {A : Ideal α}
    (h : specRun false ty.size ty.dflt ops (view w) = some (rs, A)) (j : Nat) (hj : ∀ op ∈ ops, j ∉ writes op) :
    (run ty ops w).Safe fun q => view q.2 j = view w j := by
  refine (reach_run hr ops h).mono ?_
  rintro q ⟨h1, hq, h2⟩
  rw [hq]
  clear hq hr h1 h2 q
  generalize view w = A0 at h
  induction ops generalizing A0 rs with
  | nil => cases h; rfl
  | cons op ops ih =>
    simp only [specRun] at h
    cases h1 : specStep false ty.size ty.dflt op A0 with
    | none => rw [h1] at h; cases h
    | some p =>
      obtain ⟨r, A1⟩ := p
      rw [h1] at h
      simp only at h
      cases h2 : specRun false ty.size ty.dflt ops A1 with
      | none => rw [h2] at h; cases h
      | some q' =>
        obtain ⟨rs', A2⟩ := q'
        rw [h2] at h
        cases h
        rw [ih (fun o ho => hj o (by simp [ho])) A1 h2]
        exact spec_writes false _ _ op h1 j (hj op (by simp))

example : ∃ w, Reach exTy w ∧ view w 1 = some ⟨[1, 2, 3], 3, 0⟩ ∧
    (∀ op ∈ [Op.push 0 (.elem 1 0), .erase 0 0, .drop 0], 1 ∉ writes (α := Nat) op) := by
  obtain ⟨w, h, _, h1, _⟩ := exReach
  exact ⟨w, h, h1, by simp [writes]⟩

/-! ## C09 -/

/-- C09, move construction: the new vector has everything of the source (contents, capacity, allocator), the source is
empty without storage, and the heap is not touched at all: no element is constructed, moved or destroyed. -/
theorem C09_move_construct {w : World α} (hr : Reach ty w) {i j : Nat} {x : Var α} (hi : view w i = none)
    (hj : view w j = some x) (a' : Nat) :
    (step ty (.newMove i j a') w).Safe fun q =>
      view q.2 = put (put (view w) i (some x)) j (some ⟨[], 0, x.alloc⟩) ∧ q.2.heap = w.heap ∧ Reach ty q.2 := by
  have h1 := reach_step hr (op := .newMove i j a') (r := .unit) (A' := put (put (view w) i (some x)) j (some ⟨[], 0, x.alloc⟩))
    (by simp [specStep, hi, hj])
  obtain ⟨v, hw, _⟩ := reach_get hr hj
  have h2 : (step ty (.newMove i j a') w).Safe fun q => q.2.heap = w.heap := by
    simp only [step, Prog.bind_run, run_var hw, Out.bind_ok, setVar, Prog.pure_run, Out.safe_ok]
  exact (Safe.and h1 h2).mono fun q h => ⟨h.1.2.1, h.2, h.1.2.2⟩

/-- C09, move assignment between different vectors: as above; the previous elements of the target are destroyed and its
block released; nothing is constructed or allocated. -/
theorem C09_move_assign {w : World α} (hr : Reach ty w) {i j : Nat} (hij : i ≠ j) {x y : Var α} (hi : view w i = some x)
    (hj : view w j = some y) :
    (step ty (.moveAssign i j) w).Safe fun q =>
      view q.2 = put (put (view w) i (some y)) j (some ⟨[], 0, y.alloc⟩) ∧
      q.2.heap.ctors = w.heap.ctors ∧ q.2.heap.next = w.heap.next ∧ q.2.heap.dtors = w.heap.dtors + x.xs.length ∧
      (∀ v b, w.vars i = some v → v.ptr = some b → q.2.heap.blocks b = none) ∧ Reach ty q.2 := by
  have h1 := reach_step hr (op := .moveAssign i j) (r := .unit) (A' := put (put (view w) i (some y)) j (some ⟨[], 0, y.alloc⟩))
    (by simp [specStep, hi, hj, hij])
  obtain ⟨v, hv, rv, _⟩ := reach_get hr hi
  obtain ⟨u, hu, ru, _⟩ := reach_get hr hj
  obtain ⟨h', e, t⟩ := clear_ok rv (reach_bal hr)
  have h2 : (step ty (.moveAssign i j) w).Safe fun q => q.2.heap = h' := by
    simp only [step, hij, if_false, Prog.bind_run, run_var hv, run_var hu, Out.bind_ok, inHeap_run, moveAssign, e, setVar,
      Prog.pure_run, Out.safe_ok]
  refine (Safe.and h1 h2).mono fun q h => ?_
  rw [h.2]
  refine ⟨h.1.2.1, by simpa using t.step.ctors, by simpa using t.step.allocs, by simpa using t.step.dtors, ?_, h.1.2.2⟩
  intro v' b hv' hb
  rw [hv] at hv'; cases hv'
  exact t.step.gone b (by simp [hb]) (by simp [Vec.blank])

/-- C09, `swap`: contents, capacity and allocators change places, the heap is not touched. -/
theorem C09_swap {w : World α} (hr : Reach ty w) {i j : Nat} {x y : Var α} (hi : view w i = some x) (hj : view w j = some y) :
    (step ty (.swap i j) w).Safe fun q => view q.2 = put (put (view w) i (some y)) j (some x) ∧ q.2.heap = w.heap := by
  have h1 := reach_step hr (op := .swap i j) (r := .unit) (A' := put (put (view w) i (some y)) j (some x))
    (by simp [specStep, hi, hj])
  obtain ⟨v, hv, _⟩ := reach_get hr hi
  obtain ⟨u, hu, _⟩ := reach_get hr hj
  have h2 : (step ty (.swap i j) w).Safe fun q => q.2.heap = w.heap := by
    simp only [step, Prog.bind_run, run_var hv, run_var hu, Out.bind_ok, setVar, Prog.pure_run, Out.safe_ok]
  exact (Safe.and h1 h2).mono fun q h => ⟨h.1.2.1, h.2⟩

example : ∃ w, Reach exTy w ∧ view w 3 = none ∧ view w 0 = some ⟨[1, 2, 3], 4, 0⟩ ∧ view w 2 = some ⟨[], 2, 7⟩ := by
  obtain ⟨w, h, h0, _, h2, h3⟩ := exReach; exact ⟨w, h, h3, h0, h2⟩

/-! ## C10 -/

/-- C10, `assign(list)`: the contents are exactly the list, whatever they were.  Missing: `operator=(initializer_list)`,
see `C10_list_assign_fails`, and lists of 2^64 bytes and more. -/
theorem C10_assign_list_partial {w : World α} (hr : Reach ty w) {i : Nat} {xs : List α} {cap a : Nat}
    (hi : view w i = some ⟨xs, cap, a⟩) (ys : List α) (hw : ys.length * ty.size < wordSize) :
    (step ty (.assignList i ys) w).Safe fun q => view q.2 = put (view w) i (some ⟨ys, max cap ys.length, a⟩) :=
  (reach_step hr (op := .assignList i ys) (by simp [specStep, Spec.Vector.upd, hi, only, hw]; first | rfl | exact ⟨rfl, rfl⟩)).mono
    fun _ h => h.2.1

/-- C10, `assign(n, x)` with `x` outside the vector. -/
theorem C10_assign_count_partial {w : World α} (hr : Reach ty w) {i n : Nat} {xs : List α} {cap a : Nat} {r : Arg α} {x : α}
    (hi : view w i = some ⟨xs, cap, a⟩) (hx : argVal (view w) r = some x) (hr' : inside i r = false)
    (hw : n * ty.size < wordSize) :
    (step ty (.assignFill i n r) w).Safe fun q => view q.2 = put (view w) i (some ⟨List.replicate n x, max cap n, a⟩) :=
  (reach_step hr (op := .assignFill i n r)
    (by simp [specStep, Spec.Vector.upd, hi, only, hx, hr', hw]; first | rfl | exact ⟨rfl, rfl⟩)).mono fun _ h => h.2.1

/-- C10: the constructors from lists, ranges, counts and iterators. -/
theorem C10_construct_partial {w : World α} (hr : Reach ty w) {i : Nat} (hi : view w i = none) (ys : List α) (a n : Nat)
    {r : Arg α} {x : α} (hx : argVal (view w) r = some x) (hw : ys.length * ty.size < wordSize) (hn : n * ty.size < wordSize) :
    ((step ty (.newList i ys a) w).Safe fun q => view q.2 = put (view w) i (some ⟨ys, ys.length, a⟩)) ∧
    ((step ty (.newRange i ys a) w).Safe fun q => view q.2 = put (view w) i (some ⟨ys, ys.length, a⟩)) ∧
    ((step ty (.newFill i n r a) w).Safe fun q => view q.2 = put (view w) i (some ⟨List.replicate n x, n, a⟩)) ∧
    ((step ty (.newCount i n a) w).Safe fun q => view q.2 = put (view w) i (some ⟨List.replicate n ty.dflt, n, a⟩)) ∧
    ((step ty (.fromIter i ys) w).Safe fun q => ∃ cap, view q.2 = put (view w) i (some ⟨ys, cap, 0⟩)) ∧
    ((step ty (.newDefault i) w).Safe fun q => view q.2 = put (view w) i (some ⟨[], 2, 0⟩)) ∧
    ((step ty (.newAlloc i a) w).Safe fun q => view q.2 = put (view w) i (some ⟨[], 0, a⟩)) := by
  refine ⟨?_, ?_, ?_, ?_, ?_, ?_, ?_⟩
  · exact (reach_step hr (op := .newList i ys a) (by simp [specStep, born, hi, only, hw]; first | rfl | exact ⟨rfl, rfl⟩)).mono fun _ h => h.2.1
  · exact (reach_step hr (op := .newRange i ys a) (by simp [specStep, born, hi, only, hw]; first | rfl | exact ⟨rfl, rfl⟩)).mono fun _ h => h.2.1
  · exact (reach_step hr (op := .newFill i n r a) (by simp [specStep, born, hi, only, hn, hx]; first | rfl | exact ⟨rfl, rfl⟩)).mono
      fun _ h => h.2.1
  · exact (reach_step hr (op := .newCount i n a) (by simp [specStep, born, hi, only, hn]; first | rfl | exact ⟨rfl, rfl⟩)).mono fun _ h => h.2.1
  · exact (reach_step hr (op := .fromIter i ys) (by simp [specStep, born, hi]; first | rfl | exact ⟨rfl, rfl⟩)).mono fun _ h => ⟨_, h.2.1⟩
  · exact (reach_step hr (op := .newDefault i) (by simp [specStep, born, hi]; first | rfl | exact ⟨rfl, rfl⟩)).mono fun _ h => h.2.1
  · exact (reach_step hr (op := .newAlloc i a) (by simp [specStep, born, hi]; first | rfl | exact ⟨rfl, rfl⟩)).mono fun _ h => h.2.1

example : ∃ w, Reach exTy w ∧ view w 3 = none ∧ view w 1 = some ⟨[1, 2, 3], 3, 0⟩ ∧ argVal (view w) (.elem 0 2) = some 3 ∧
    inside (α := Nat) 1 (.elem 0 2) = false ∧ [7, 8, 9, 10].length * exTy.size < wordSize := by
  obtain ⟨w, h, h0, h1, _, h3⟩ := exReach
  exact ⟨w, h, h3, h1, by simp [argVal, h0], rfl, by decide⟩

/-- C10 is false of the code for `operator=(initializer_list)`: from no state at all does the call return (it flows off
the end of a function that must return a value); and even ignoring that, what it has written by then is wrong when the
vector was shorter than the list: `[1] = {5, 6, 7}` leaves `[5, 5, 6]`. -/
theorem C10_list_assign_fails :
    (∀ {α : Type} {ty : ElemTy α} (w : World α) (i : Nat) (ys : List α) (q : Res α × World α),
      step ty (.listAssign i ys) w ≠ .ok q) ∧
    (∃ v h v' h', newList exTy [1] 0 {} = .ok (v, h) ∧ listAssignBody exTy v [5, 6, 7] h = .ok (v', h') ∧
      elems h' v' = some [5, 5, 6]) := by
  constructor
  · intro α ty w i ys q
    simp only [step, change, Prog.bind_run, inHeap_run, listAssign]
    cases var i w with
    | ok p =>
      simp only [Out.bind_ok]
      cases listAssignBody ty p.1 ys p.2.heap with
      | ok r => simp [Prog.ub]
      | _ => simp
    | _ => simp
  · obtain ⟨⟨v, h⟩, e1, h1⟩ := of_isOk (x := newList exTy [1] 0 {})
      (P := fun q : Vec × Heap Nat => isOk (fun r : Vec × Heap Nat => decide (elems r.2 r.1 = some [5, 5, 6]))
        (listAssignBody exTy q.1 [5, 6, 7] q.2)) (by decide +kernel)
    obtain ⟨⟨v', h'⟩, e2, h2⟩ := of_isOk h1
    exact ⟨v, h, v', h', e1, e2, of_decide_eq_true h2⟩

/-- C10 is false of the code for `operator=(initializer_list)`, for every vector and every list: the call ends in undefined behaviour
(unless the allocator refuses), and what it has written by then is the beginning of the list twice over: the first `size()` elements,
then again from the first element on.  That is the list only if the vector was not shorter, or by coincidence. -/
theorem C10_list_assign_general_fails {w : World α} (hr : Reach ty w) {i : Nat} {xs : List α} {cap a : Nat} (ys : List α)
    (hi : view w i = some ⟨xs, cap, a⟩) (hw : ys.length * ty.size < wordSize) :
    (step ty (.listAssign i ys) w = .ub ∨ step ty (.listAssign i ys) w = .oom) ∧
    ∃ v, w.vars i = some v ∧
      ((listAssignBody ty v ys w.heap).Safe fun q => elems q.2 q.1 = some (ys.take xs.length ++ ys.take (ys.length - xs.length))) ∧
      (ys.take xs.length ++ ys.take (ys.length - xs.length) = ys ↔
        ys.length ≤ xs.length ∨ ys.take (ys.length - xs.length) = ys.drop xs.length) := by
  obtain ⟨v, hv, rv, _⟩ := reach_get hr hi
  have hbody := listAssignBody_ok ys rv (reach_bal hr) hw
  refine ⟨?_, v, hv, hbody.mono fun q ⟨k, t⟩ => t.rep.elems, ?_⟩
  · simp only [step, change, Prog.bind_run, run_var hv, Out.bind_ok, inHeap_run, listAssign]
    cases hb : listAssignBody ty v ys w.heap with
    | ok r => exact .inl rfl
    | oom => exact .inr rfl
    | _ => rw [hb] at hbody; exact hbody.elim
  · have h1 : ys = ys.take xs.length ++ ys.drop xs.length := (List.take_append_drop _ _).symm
    constructor
    · intro h
      rw [h1] at h
      exact .inr (List.append_cancel_left (by rw [← h1] at h; rw [h, ← h1]))
    · rintro (h | h)
      · rw [List.take_of_length_le h, show ys.length - xs.length = 0 by omega]; simp
      · rw [h]; exact List.take_append_drop _ _

example : ∃ w, Reach exTy w ∧ view w 0 = some ⟨[1, 2, 3], 4, 0⟩ ∧ ([5, 6, 7, 8] : List Nat).length * exTy.size < wordSize := by
  obtain ⟨w, h, h0, _⟩ := exReach; exact ⟨w, h, h0, by decide⟩

/-! ## C13 -/

/-- C13: `resize(n)` and `resize(n, x)` keep the first `min(n, size())` elements and fill up with default elements or
`x`.  Missing: byte counts of 2^64 and more (C15) and an `x` inside the vector when it has to grow (C14). -/
theorem C13_resize_partial {w : World α} (hr : Reach ty w) {i n : Nat} {xs : List α} {cap a : Nat} {r : Arg α} {x : α}
    (hi : view w i = some ⟨xs, cap, a⟩) (hx : argVal (view w) r = some x) (hr' : inside i r = false ∨ n ≤ cap)
    (hw : n * ty.size < wordSize) :
    ((step ty (.resize i n) w).Safe fun q =>
      view q.2 = put (view w) i (some ⟨xs.take n ++ List.replicate (n - xs.length) ty.dflt, max cap n, a⟩)) ∧
    ((step ty (.resizeFill i n r) w).Safe fun q =>
      view q.2 = put (view w) i (some ⟨xs.take n ++ List.replicate (n - xs.length) x, max cap n, a⟩)) := by
  constructor
  · exact (reach_step hr (op := .resize i n) (by simp [specStep, Spec.Vector.upd, hi, only, hw]; first | rfl | exact ⟨rfl, rfl⟩)).mono
      fun _ h => h.2.1
  · exact (reach_step hr (op := .resizeFill i n r)
      (by simp [specStep, Spec.Vector.upd, hi, only, hx, hr', hw]; first | rfl | exact ⟨rfl, rfl⟩)).mono fun _ h => h.2.1

example : ∃ w, Reach exTy w ∧ view w 0 = some ⟨[1, 2, 3], 4, 0⟩ ∧ argVal (view w) (.elem 0 2) = some 3 ∧ 4 ≤ 4 ∧
    4 * exTy.size < wordSize := by
  obtain ⟨w, h, h0, _⟩ := exReach
  exact ⟨w, h, h0, by simp [argVal, h0], by decide, by decide⟩

/-! ## C14 -/

/-- C14: where arguments inside the vector are handled as if copied first: `insert(pos, v[k])` always (after the first
position), `push_back(v[k])` while there is room, `resize(n, v[k])` up to the capacity, `assign(0, v[k])`.
Missing: all other cases, which the following theorems refute. -/
theorem C14_alias_partial {w : World α} (hr : Reach ty w) {i k : Nat} {xs : List α} {cap a : Nat} {x : α}
    (hi : view w i = some ⟨xs, cap, a⟩) (hx : xs[k]? = some x) :
    (∀ p, 1 ≤ p → p ≤ xs.length → (step ty (.insert i p (.elem i k)) w).Safe fun q => q.1 = .pos (some p) ∧
      ∃ cap', view q.2 = put (view w) i (some ⟨xs.take p ++ x :: xs.drop p, cap', a⟩)) ∧
    (xs.length < cap → (step ty (.push i (.elem i k)) w).Safe fun q =>
      view q.2 = put (view w) i (some ⟨xs ++ [x], cap, a⟩)) ∧
    (∀ n, n ≤ cap → (step ty (.resizeFill i n (.elem i k)) w).Safe fun q =>
      view q.2 = put (view w) i (some ⟨xs.take n ++ List.replicate (n - xs.length) x, cap, a⟩)) ∧
    ((step ty (.assignFill i 0 (.elem i k)) w).Safe fun q => view q.2 = put (view w) i (some ⟨[], cap, a⟩)) := by
  have hx' : argVal (view w) (.elem i k) = some x := by simp [argVal, hi, hx]
  have hsz : ∀ n, n ≤ cap → n * ty.size < wordSize := by
    intro n hn
    obtain ⟨v, _, rep, hc, _⟩ := reach_get hr hi
    simp only at rep hc
    have := rep.own.small
    rw [hc] at this
    have h2 : n * ty.size ≤ cap * ty.size := Nat.mul_le_mul_right _ hn
    have hW : wordSize = 18446744073709551616 := rfl
    omega
  refine ⟨fun p h1 h2 => (C06_insert_partial hr hi hx' h2 h1).1, fun hroom => ?_, fun n hn => ?_, ?_⟩
  · exact (reach_step hr (op := .push i (.elem i k))
      (by simp [specStep, Spec.Vector.upd, hi, only, hx', hroom, afterPush]; first | rfl | exact ⟨rfl, rfl⟩)).mono fun _ h => h.2.1
  · have := (C13_resize_partial hr hi hx' (.inr hn) (hsz n hn)).2
    rwa [Nat.max_eq_left hn] at this
  · exact (reach_step hr (op := .assignFill i 0 (.elem i k))
      (by simp [specStep, Spec.Vector.upd, hi, only, hx', wordSize]; first | rfl | exact ⟨rfl, rfl⟩)).mono fun _ h => h.2.1

example : ∃ w, Reach exTy w ∧ view w 0 = some ⟨[1, 2, 3], 4, 0⟩ ∧ [1, 2, 3][2]? = some 3 := by
  obtain ⟨w, h, h0, _⟩ := exReach; exact ⟨w, h, h0, rfl⟩

/-- C14 is false of the code: in every reachable vector, `push_back(v[k])` when the vector is full, `assign(n, v[k])`
for `n > 0`, and `resize(n, v[k])` beyond the capacity read an element that has already been destroyed or whose block
has been released (unless memory runs out first). -/
theorem C14_alias_fails {w : World α} (hr : Reach ty w) {i k : Nat} {xs : List α} {cap a : Nat}
    (hi : view w i = some ⟨xs, cap, a⟩) (hk : k < xs.length) :
    (xs.length = cap → step ty (.push i (.elem i k)) w = .ub ∨ step ty (.push i (.elem i k)) w = .oom) ∧
    (∀ n, 0 < n → n * ty.size < wordSize →
      step ty (.assignFill i n (.elem i k)) w = .ub ∨ step ty (.assignFill i n (.elem i k)) w = .oom) ∧
    (∀ n, cap < n → n * ty.size < wordSize →
      step ty (.resizeFill i n (.elem i k)) w = .ub ∨ step ty (.resizeFill i n (.elem i k)) w = .oom) := by
  obtain ⟨v, hv, rep, hc, _⟩ := reach_get hr hi
  simp only at rep hc
  refine ⟨fun hf => ?_, fun n hn hw => ?_, fun n hn hw => ?_⟩
  · simp only [step, argRef, Prog.bind_run, run_var hv, Out.bind_ok, Prog.pure_run]
    exact change_out hv (pushBack_alias rep (reach_bal hr) hk (by rw [rep.len]; omega))
  · simp only [step, argRef, Prog.bind_run, run_var hv, Out.bind_ok, Prog.pure_run]
    exact change_out hv (assignFill_alias rep (reach_bal hr) hk hn hw)
  · simp only [step, argRef, Prog.bind_run, run_var hv, Out.bind_ok, Prog.pure_run]
    exact change_out hv (resizeFill_alias rep (reach_bal hr) hk (by omega) hw)

example : ∃ w, Reach exTy w ∧ view w 1 = some ⟨[1, 2, 3], 3, 0⟩ ∧ 1 < [1, 2, 3].length := by
  obtain ⟨w, h, _, h1, _⟩ := exReach; exact ⟨w, h, h1, by decide⟩

end Verif.Props
