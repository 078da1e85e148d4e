import Verif.Proof.LLKeep
/-!
# Properties C16-C20, C28, C29, C33, C34 and the list part of C68

`cfg.dbl = true`: all lists are `List`s (doubly linked); `cfg.dbl = false`: `ForwardList`s.  `Reach cfg w`: the program
state `w` is reached by some history allowed by the restricted specification (`Spec/LinkedListView.lean`).  `view w i` is
what the client sees of list variable `i`: contents (`none` if moved from) and allocator.  `cells w i` are the nodes of list
`i` in order, each with its element; an iterator is a pointer to a node.  `SafeIf (Refuses cfg)`: the call does not reach
undefined behaviour, does not panic, terminates, and if it returns the result is as stated; it can only fail to return
because an allocation was refused, so if the allocator never refuses it returns.
-/
namespace Verif.Props
open Verif Verif.Model.LL Verif.Proof.LL
open Verif.Spec.LL hiding sorted
open Verif.Spec (End takes)

namespace Lists

variable {α : Type} {cfg : Cfg α} {w : World α} {i j : Nat}

/-- A configuration for the examples; the allocator never refuses. -/
def exCfg (dbl : Bool) : Cfg Nat where
  dbl := dbl
  debug := true
  vsize := 16
  dsize := 24
  mv := fun _ => 0
  dflt := 0
  refuse := fun _ _ => false

theorem exCfg_ok (dbl : Bool) : ¬ Refuses (exCfg dbl) := by rintro ⟨k, n, h⟩; cases h

/-- A history for the examples, usable with both kinds of list. -/
def exOps : List (Op Nat) :=
  [.newRange 0 [3, 1, 2, 1] 0, .newRange 1 [5, 7] 0, .newAlloc 2 0, .newRange 3 [4] 9, .newAlloc 4 0, .newMove 5 4]

/-- The state reached: list 0 holds `3, 1, 2, 1`, list 1 `5, 7`, list 2 nothing, list 3 `4` with another allocator, list 4
has been moved from. -/
def exView : Ideal Nat
  | 0 => some ⟨some [3, 1, 2, 1], 0⟩
  | 1 => some ⟨some [5, 7], 0⟩
  | 2 => some ⟨some [], 0⟩
  | 3 => some ⟨some [4], 9⟩
  | 4 => some ⟨none, 0⟩
  | 5 => some ⟨some [], 0⟩
  | _ => none

theorem exReach (dbl : Bool) : ∃ w, Reach (exCfg dbl) w ∧ ∀ i < 7, view w i = exView i := by
  obtain ⟨w, h, hP⟩ := reach_of (exCfg_ok dbl) exOps (fun (A : Ideal Nat) => (List.range 7).all fun i => decide (A i = exView i)) (by cases dbl <;> decide +kernel)
  exact ⟨w, h, fun i hi => of_decide_eq_true (List.all_eq_true.1 hP i (List.mem_range.2 hi))⟩

/-! ## C16 and C17 -/

/-- C16.  Any history allowed by the restricted specification, over any number of Lists, runs without undefined behaviour,
returns exactly the results of the ideal lists, and leaves every List with the contents of its ideal list.
Missing: the calls excluded by `full = false`, see `C16_list_history_fails` and the `_fails` theorems of C21-C24, C27, C29,
C30 and C33. -/
theorem C16_list_history_partial (_hd : cfg.dbl = true) (ops : List (Op α)) {rs : List (Res α)} {A : Ideal α}
    (h : specRun false true cfg.dflt ops (fun _ => none) = some (rs, A)) :
    (run cfg ops {}).SafeIf (Refuses cfg) fun q => q.1 = rs ∧ view q.2 = A ∧ ∀ i, (q.2.vars i).isSome = (A i).isSome := by
  refine (run_ok (C := fun _ => none) ops inv_init (by rw [_hd]; exact h)).imp ?_
  rintro ⟨rs', w⟩ ⟨h1, C, I, rfl⟩
  exact ⟨h1, I.view, fun i => by rw [show w.vars i = _ from I.vars i]; simp [ideal]⟩

/-- C17.  The same for ForwardLists. -/
theorem C17_forward_list_history_partial (_hd : cfg.dbl = false) (ops : List (Op α)) {rs : List (Res α)} {A : Ideal α}
    (h : specRun false false cfg.dflt ops (fun _ => none) = some (rs, A)) :
    (run cfg ops {}).SafeIf (Refuses cfg) fun q => q.1 = rs ∧ view q.2 = A ∧ ∀ i, (q.2.vars i).isSome = (A i).isSome := by
  refine (run_ok (C := fun _ => none) ops inv_init (by rw [_hd]; exact h)).imp ?_
  rintro ⟨rs', w⟩ ⟨h1, C, I, rfl⟩
  exact ⟨h1, I.view, fun i => by rw [show w.vars i = _ from I.vars i]; simp [ideal]⟩

/-- The same, continued from any reachable state; lists the history does not mention keep their very nodes. -/
theorem C16_history_continued_partial (hr : Reach cfg w) (ops : List (Op α)) {rs : List (Res α)} {A : Ideal α}
    (h : specRun false cfg.dbl cfg.dflt ops (view w) = some (rs, A)) :
    (run cfg ops w).SafeIf (Refuses cfg) fun q => q.1 = rs ∧ view q.2 = A ∧ Reach cfg q.2 := reach_run hr ops h

theorem C16_call_partial (hr : Reach cfg w) {op : Op α} {r : Res α} {A : Ideal α}
    (h : specStep false cfg.dbl cfg.dflt op (view w) = some (r, A)) :
    (step cfg op w).SafeIf (Refuses cfg) fun q => q.1 = r ∧ view q.2 = A ∧ Reach cfg q.2 ∧
      ∀ l, l ∉ writes op → cells q.2 l = cells w l := reach_step hr h

/-- On histories whose `sort` and `merge` predicates distinguish all different elements the restricted specification only
restricts: where it has an answer it is the answer of the documented specification. -/
theorem C16_documented {dbl : Bool} {dflt : α} {ops : List (Op α)} (hs : ∀ op ∈ ops, Strict op) {A : Ideal α}
    {p : List (Res α) × Ideal α} (h : specRun false dbl dflt ops A = some p) : specRun true dbl dflt ops A = some p :=
  specRun_documented hs h

/-- A history with many of the calls, for both kinds. -/
def exLong : List (Op Nat) :=
  [.newAlloc 0 0, .pushFront 0 (.val 5), .pushFront 0 (.elem 0 0), .insertAfter 0 1 (.val 7), .newCopy 1 0, .newMove 2 0,
   .moved 0, .sort 1 (· < ·), .sort 2 (· < ·), .merge 1 2 (· < ·), .size 1, .unique 1 (· == ·), .traverse 1, .reverse 1,
   .resize 1 4, .removeIf 1 (· == 0), .newFill 3 2 (.elem 1 0) 0, .spliceAfter 1 1 3, .traverse 1, .eraseAfter 1 1,
   .front 1, .swap 1 2, .listAssign 1 [6], .drain 2 [.front, .front], .drop 0, .drop 1, .drop 2, .drop 3]

example (dbl : Bool) : (specRun false dbl 0 exLong (fun _ => none)).isSome = true ∧ ∀ op ∈ exLong, Strict op := by
  refine ⟨by cases dbl <;> decide +kernel, ?_⟩
  simp only [exLong, List.forall_mem_cons, Strict, decide_eq_false_iff_not, List.not_mem_nil, false_imp_iff, implies_true, and_true, true_and]
  refine ⟨?_, ?_, ?_⟩ <;> (intro x y; omega)

/-- more calls that only Lists have -/
example : (specRun false true 0 [.newAlloc 0 0, .pushBack 0 (.val 5), .pushBack 0 (.val 6), .insert 0 2 (.elem 0 1), .erase 0 1,
    .back 0, .traverseBack 0, .newRange 1 [1, 2] 0, .splice 0 3 1, .popBack 0, .iter 0 [.front, .back, .back, .back],
    .drop 0, .drop 1] (fun _ => none)).isSome = true := by decide +kernel

/-- Observing a list: on every reachable state size(), empty(), traversal, front() and back() answer what the contents say
and change nothing. -/
theorem C16_observers (hr : Reach cfg w) {xs : List α} {a : Nat} (hi : view w i = some ⟨some xs, a⟩) :
    step cfg (.size i) w = .ok (.num xs.length, w) ∧ step cfg (.empty i) w = .ok (.bool xs.isEmpty, w) ∧
    step cfg (.traverse i) w = .ok (.seq xs, w) ∧ step cfg (.front i) w = .ok (.opt xs.head?, w) ∧
    (cfg.dbl = true → step cfg (.back i) w = .ok (.opt xs.getLast?, w)) ∧ step cfg (.moved i) w = .ok (.bool false, w) := by
  obtain ⟨C, hd, tl, cs, I, hC, rfl, hc⟩ := reach_get hr hi
  have v := I.var hC
  have r := I.rep hC
  refine ⟨look_ok v ?_, look_ok v ?_, look_ok v ?_, look_ok v ?_, fun hd' => look_ok v ?_, look_ok v rfl⟩
  · simp [lst]
  · cases cs <;> simp [lst]
  · simp only [Prog.bind_run, traverse_ok r, Out.bind_ok]; rfl
  · simp only [Prog.bind_run, front_ok r, Out.bind_ok]; rfl
  · simp only [Prog.bind_run, back_ok r hd', Out.bind_ok]; rfl

example (dbl : Bool) : ∃ w a, Reach (exCfg dbl) w ∧ view w 0 = some ⟨some [3, 1, 2, 1], a⟩ := by
  obtain ⟨w, h, hP⟩ := exReach dbl
  exact ⟨w, 0, h, hP 0 (by decide)⟩

/-- The unrestricted property is false of the code: a documented history that runs into undefined behaviour (the result of
sorting a list with one element is not a list). -/
theorem C16_list_history_fails (dbl : Bool) : ∃ ops : List (Op Nat),
    (specRun true dbl 0 ops (fun _ => none)).isSome = true ∧ run (exCfg dbl) ops {} = .ub := by
  refine ⟨[.newRange 0 [1] 0, .sort 0 (· < ·), .traverse 0], by cases dbl <;> decide +kernel, ?_⟩
  refine fails_of (exCfg_ok dbl) [.newRange 0 [1] 0] [.sort 0 (· < ·), .traverse 0] rfl fun w hr hv => ?_
  obtain ⟨C, hd, tl, cs, I, hC, hx, hc⟩ := reach_get (i := 0) (xs := [1]) (a := 0) hr (by rw [hv]; rfl)
  obtain ⟨c, rfl, -⟩ := List.map_eq_singleton_iff.1 hx
  exact (sort_one_ub I hC).1

/-! ## C18 -/

/-- Node `a` belongs to list `i`: one of its elements' nodes or one of its two end nodes. -/
def Owns (w : World α) (i a : Nat) : Prop :=
  ∃ v, w.vars i = some v ∧ (v.head = some a ∨ v.tail = some a ∨ ∃ cs x, cells w i = some cs ∧ (a, x) ∈ cs)

/-- C18.  In every state reached by a restricted history:
* every node in memory belongs to exactly one list, and was obtained from the allocator of that list;
* the nodes of a list are all different, exist, and hold live elements;
* elements constructed = elements destroyed + elements alive, and the same for bytes.
`SafeIf` in `C16_history_continued_partial` excludes reading, releasing or destroying anything dead.
Missing: the calls excluded from restricted histories, see `C18_lists_memory_fails`. -/
theorem C18_lists_memory_partial (hr : Reach cfg w) :
    (∀ a n, w.heap.info a = some n → ∃ i v, w.vars i = some v ∧ v.alloc = n.owner ∧ Owns w i a ∧ ∀ j, Owns w j a → j = i) ∧
    (∀ i cs, cells w i = some cs → ∃ v p q, w.vars i = some v ∧ v.head = some p ∧ v.tail = some q ∧
      (p :: (cs.map Prod.fst ++ [q])).Nodup ∧ w.heap.info p ≠ none ∧ w.heap.info q ≠ none ∧
      ∀ c ∈ cs, elemAt w.heap c.1 = some c.2) ∧
    w.heap.ctors = w.heap.dtors + ((List.range w.heap.next).map fun a => liveIn (w.heap.info a)).sum ∧
    w.heap.newBytes = w.heap.freeBytes + ((List.range w.heap.next).map fun a => bytesIn (w.heap.info a)).sum ∧
    (∀ a, w.heap.next ≤ a → w.heap.info a = none) := by
  obtain ⟨C, I⟩ := reach_inv hr
  have owns : ∀ i a, Owns w i a ↔ a ∈ onodes (C i) := by
    intro i a
    cases hC : C i with
    | none => simp [Owns, I.vars, hC]
    | some o =>
      obtain ⟨b, own⟩ := o
      cases b with
      | none => simp [Owns, I.vars, hC, Obj.fields, I.cells_husk hC, onodes, Obj.nodes]
      | some b =>
        obtain ⟨hd, tl, cs⟩ := b
        simp only [Owns, I.var hC, I.cells hC, Option.some.injEq, exists_eq_left', lst, onodes, Obj.nodes, nodes, addrs, List.mem_cons,
          List.mem_append, List.mem_map, Prod.exists, exists_and_right, exists_eq_right, List.not_mem_nil, or_false]
        constructor
        · rintro (rfl | rfl | h)
          · exact .inl rfl
          · exact .inr (.inr rfl)
          · obtain ⟨_, x, rfl, h⟩ := h; exact .inr (.inl ⟨x, h⟩)
        · rintro (rfl | h | rfl)
          · exact .inl rfl
          · obtain ⟨x, h⟩ := h; exact .inr (.inr ⟨cs, x, rfl, h⟩)
          · exact .inr (.inl rfl)
  refine ⟨?_, ?_, ?_, ?_, fun a ha => I.bal.fresh a ha⟩
  · intro a n hn
    obtain ⟨i, hi⟩ := I.cover a (by rw [Live, hn]; simp)
    have huniq : ∀ j, Owns w j a → j = i := by
      intro j hj
      by_contra hne
      exact I.sep j i hne a ((owns j a).1 hj) hi
    have ho := (owns i a).2 hi
    refine ⟨i, ?_⟩
    cases hC : C i with
    | none => rw [hC] at hi; cases hi
    | some o =>
      obtain ⟨b, own⟩ := o
      cases b with
      | none => rw [hC] at hi; cases hi
      | some b =>
        obtain ⟨hd, tl, cs⟩ := b
        refine ⟨_, I.var hC, ?_, ho, huniq⟩
        have r := I.rep hC
        rw [hC] at hi
        simp only [onodes, Obj.nodes, nodes, addrs, List.mem_cons, List.mem_append, List.mem_map, List.not_mem_nil, or_false] at hi
        rcases hi with rfl | ⟨c, hc, rfl⟩ | rfl
        · rw [show w.heap.info a = _ from r.vhd] at hn; cases hn; rfl
        · rw [show w.heap.info c.1 = _ from r.cells c hc] at hn; cases hn; rfl
        · rw [show w.heap.info a = _ from r.vtl] at hn; cases hn; rfl
  · intro i cs hc
    obtain ⟨hd, tl, a, hC⟩ := cells_inv I hc
    have r := I.rep hC
    exact ⟨_, hd, tl, I.var hC, rfl, rfl, r.nodup, r.vhd.live, r.vtl.live, fun c hc => (r.cells c hc).elemAt⟩
  · rw [sum_range]; simp only [liveIn_eq]; exact I.bal.elems
  · rw [sum_range]; simp only [bytesIn_eq]; exact I.bal.bytes

/-- When all lists are gone nothing is outstanding. -/
theorem C18_nothing_outstanding_partial (hr : Reach cfg w) (hall : ∀ i, w.vars i = none) :
    (∀ a, w.heap.info a = none) ∧ w.heap.ctors = w.heap.dtors ∧ w.heap.newBytes = w.heap.freeBytes := by
  have h := C18_lists_memory_partial hr
  have he : ∀ a, w.heap.info a = none := by
    intro a
    cases hn : w.heap.info a with
    | none => rfl
    | some n =>
      obtain ⟨i, v, hv, -⟩ := h.1 a n hn
      rw [hall] at hv; cases hv
  refine ⟨he, ?_, ?_⟩
  · have := h.2.2.1; simpa [he, liveIn] using this
  · have := h.2.2.2.1; simpa [he, bytesIn] using this

example (dbl : Bool) : ∃ w, Reach (exCfg dbl) w ∧ ∀ i < 4, w.vars i = none := by
  obtain ⟨w, h, hP⟩ := reach_of (exCfg_ok dbl) exLong (fun (A : Ideal Nat) => (List.range 4).all fun i => decide (A i = none)) (by cases dbl <;> decide +kernel)
  refine ⟨w, h, fun i hi => ?_⟩
  have := of_decide_eq_true (List.all_eq_true.1 hP i (List.mem_range.2 hi))
  obtain ⟨C, I⟩ := reach_inv h
  rw [I.view] at this
  rw [I.vars i]
  cases hC : C i with
  | none => rfl
  | some o => rw [ideal, hC] at this; cases this

/-- What `SafeIf` excludes: in the model using or releasing a node that does not exist, reading, writing or destroying an
element that is not alive, and releasing a node through another allocator or with another size are undefined. -/
theorem C18_misuse_detected (h : Heap α) (a : Nat) (x : α) (owner bytes : Nat) :
    (h.info a = none → getNext (some a) h = .ub ∧ getPrev (some a) h = .ub ∧ setNext cfg (some a) none h = .ub ∧
      destroyNode cfg owner (some a) h = .ub ∧ freeNode owner bytes (some a) h = .ub) ∧
    (elemAt h a = none → load (some a) h = .ub ∧ store (some a) x h = .ub ∧ destroyData (some a) h = .ub) ∧
    (∀ n, h.info a = some n → n.owner ≠ owner ∨ n.bytes ≠ bytes → freeNode owner bytes (some a) h = .ub) := by
  refine ⟨fun hn => ?_, fun hn => ?_, fun n hn hne => ?_⟩
  · simp [getNext, getPrev, setNext, putNext, destroyNode, dataNull, freeNode, withNode, hn, Prog.bind_run]
  · unfold elemAt at hn
    cases hi : h.info a with
    | none => simp [load, store, destroyData, withNode, hi]
    | some n =>
      obtain ⟨o, b, d⟩ := n
      cases d with
      | live y => rw [hi] at hn; cases hn
      | _ => simp [load, store, destroyData, withNode, hi]
  · simp only [freeNode, withNode, hn]
    rw [if_neg]
    rintro ⟨h1, h2⟩
    rcases hne with h | h
    · exact h h1
    · exact h h2

/-- The unrestricted property is false of the code: move construction of an empty list with another allocator leaves a node
that belongs to no list any more, so it is never released. -/
theorem C18_lists_memory_fails (hr : Reach cfg w) {own a : Nat} (hj : view w j = some ⟨some [], own⟩) (hi : view w i = none)
    (ha : a ≠ own) :
    (run cfg [.newMoveAlloc i j a, .drop i, .drop j] w).SafeIf (Refuses cfg) fun q =>
      q.2.vars i = none ∧ q.2.vars j = none ∧ ∃ t, q.2.heap.info t ≠ none ∧ ∀ l, ¬ Owns q.2 l t := by
  obtain ⟨C, hd, tl, cs, I, hC, hx, hc⟩ := reach_get hr hj
  cases List.map_eq_nil_iff.1 hx
  have hij : i ≠ j := by rintro rfl; rw [hi] at hj; cases hj
  have hCi : C i = none := by
    rw [I.view] at hi
    cases hC : C i with
    | none => rfl
    | some o => rw [ideal, hC] at hi; cases hi
  refine (newMoveAlloc_leak I hij hCi hC ha).imp ?_
  rintro ⟨rs, w'⟩ ⟨h1, h2, -, t, h3, h4⟩
  refine ⟨h1, h2, t, h3, ?_⟩
  rintro l ⟨v, hv, h⟩
  obtain ⟨g1, g2, g3⟩ := h4 l v hv
  rcases h with h | h | ⟨ds, x, h, hm⟩
  · exact g1 h
  · exact g2 h
  · exact g3 ds h (List.mem_map.2 ⟨_, hm, rfl⟩)

example (dbl : Bool) : ∃ w, Reach (exCfg dbl) w ∧ view w 2 = some ⟨some [], 0⟩ ∧ view w 6 = none := by
  obtain ⟨w, h, hP⟩ := exReach dbl
  exact ⟨w, h, hP 2 (by decide), hP 6 (by decide)⟩

/-! ## C19 -/

/-- C19.  In every reachable state walking from `end()` to `begin()` with `--` yields the reverse of walking from `begin()`
to `end()` with `++`.  (`Reach` leaves out the calls that break the list, see C21, C23, C24.) -/
theorem C19_backward_is_reverse_partial (hr : Reach cfg w) (hd : cfg.dbl = true) {xs : List α} {a : Nat}
    (hi : view w i = some ⟨some xs, a⟩) :
    step cfg (.traverse i) w = .ok (.seq xs, w) ∧ step cfg (.traverseBack i) w = .ok (.seq xs.reverse, w) := by
  refine ⟨(C16_observers hr hi).2.2.1, ?_⟩
  obtain ⟨C, hd', tl, cs, I, hC, rfl, hc⟩ := reach_get hr hi
  refine look_ok (I.var hC) ?_
  simp only [Prog.bind_run, traverseBack_ok (I.rep hC) hd, Out.bind_ok]; rfl

/-! ## C28 -/

/-- C28.  Insertion after a position (from `before_begin()` = 0) of a list with nodes `cs`: one element, `n` equal elements,
a range.  Exactly that place changes, the old nodes stay, the stated iterator is returned, every new element is constructed
once, in one new node.  The argument `r` may be an element of any list. -/
theorem C28_insert_after (hr : Reach cfg w) {cs : List (Nat × α)} (hc : cells w i = some cs) {p : Nat} (hp : p ≤ cs.length)
    {r : Arg α} {x : α} (hx : argVal (view w) r = some x) (n : Nat) (xs : List α) :
    Changes cfg (.insertAfter i p r) w i (.pos (p + 1)) (fun cs' => ∃ a, cs' = cs.take p ++ (a, x) :: cs.drop p) 1 0 1 ∧
    Changes cfg (.insertAfterFill i p n r) w i (.pos (if n = 0 then p else p + 1))
      (fun cs' => ∃ ns, ns.map Prod.snd = List.replicate n x ∧ cs' = cs.take p ++ (ns ++ cs.drop p)) n 0 n ∧
    Changes cfg (.insertAfterRange i p xs) w i (.pos (if xs.length = 0 then p else p + 1))
      (fun cs' => ∃ ns, ns.map Prod.snd = xs ∧ cs' = cs.take p ++ (ns ++ cs.drop p)) xs.length 0 xs.length := by
  obtain ⟨C, hd, tl, a, I, hC, hv⟩ := reach_cells hr hc
  rw [I.view] at hx
  exact ⟨changes_of I hC (s_insertAfter I hC hx hp), changes_of I hC (s_insertAfterFill I hC hx hp n),
    changes_of I hC (s_insertAfterRange I hC hp xs)⟩

/-- C28.  Insertion before a position: 1 is `begin()`, `size() + 1` is `end()`. -/
theorem C28_insert (hr : Reach cfg w) (hd' : cfg.dbl = true) {cs : List (Nat × α)} (hc : cells w i = some cs) {p : Nat}
    (hp : 1 ≤ p ∧ p ≤ cs.length + 1) {r : Arg α} {x : α} (hx : argVal (view w) r = some x) (n : Nat) (xs : List α) :
    Changes cfg (.insert i p r) w i (.pos p) (fun cs' => ∃ a, cs' = cs.take (p - 1) ++ (a, x) :: cs.drop (p - 1)) 1 0 1 ∧
    Changes cfg (.insertFill i p n r) w i (.pos p)
      (fun cs' => ∃ ns, ns.map Prod.snd = List.replicate n x ∧ cs' = cs.take (p - 1) ++ (ns ++ cs.drop (p - 1))) n 0 n ∧
    Changes cfg (.insertRange i p xs) w i (.pos p)
      (fun cs' => ∃ ns, ns.map Prod.snd = xs ∧ cs' = cs.take (p - 1) ++ (ns ++ cs.drop (p - 1))) xs.length 0 xs.length := by
  obtain ⟨C, hd, tl, a, I, hC, hv⟩ := reach_cells hr hc
  rw [I.view] at hx
  exact ⟨changes_of I hC (s_insert hd' I hC hx hp), changes_of I hC (s_insertFill hd' I hC hx hp n),
    changes_of I hC (s_insertRange hd' I hC hp xs)⟩

/-- C28.  Insertion at the ends. -/
theorem C28_push (hr : Reach cfg w) {cs : List (Nat × α)} (hc : cells w i = some cs) {r : Arg α} {x : α}
    (hx : argVal (view w) r = some x) :
    Changes cfg (.pushFront i r) w i .unit (fun cs' => ∃ a, cs' = (a, x) :: cs) 1 0 1 ∧
    (cfg.dbl = true → Changes cfg (.pushBack i r) w i .unit (fun cs' => ∃ a, cs' = cs ++ [(a, x)]) 1 0 1) := by
  obtain ⟨C, hd, tl, a, I, hC, hv⟩ := reach_cells hr hc
  rw [I.view] at hx
  exact ⟨changes_of I hC (s_pushFront I hC hx), fun hd' => changes_of I hC (s_pushBack hd' I hC hx)⟩

/-- C28.  Erasing after a position: the next element (nothing after the last one), or the elements strictly between two
positions.  The iterator returned is the one after what was erased. -/
theorem C28_erase_after (hr : Reach cfg w) {cs : List (Nat × α)} (hc : cells w i = some cs) {p lo hi : Nat} (hp : p ≤ cs.length)
    (h1 : lo ≤ hi) (h2 : hi ≤ cs.length + 1) :
    Changes cfg (.eraseAfter i p) w i (.pos (p + 1)) (fun cs' => cs' = cs.take p ++ cs.drop (p + 1)) 0
      (if p < cs.length then 1 else 0) 0 ∧
    Changes cfg (.eraseAfterRange i lo hi) w i (.pos (if lo = hi then lo else lo + 1))
      (fun cs' => cs' = if lo = hi then cs else cs.take lo ++ cs.drop (hi - 1)) 0 (hi - 1 - lo) 0 := by
  obtain ⟨C, hd, tl, a, I, hC, hv⟩ := reach_cells hr hc
  refine ⟨changes_of I hC ?_, changes_of I hC ?_⟩
  · refine (s_eraseAfter I hC hp).imp ?_
    rintro ⟨r, w'⟩ ⟨g1, cs', g2, rfl, g4⟩
    refine ⟨g1, _, g2, rfl, ?_⟩
    have : cs.length - (cs.take p ++ cs.drop (p + 1)).length = if p < cs.length then 1 else 0 := by
      simp only [List.length_append, List.length_take, List.length_drop]; split <;> omega
    rw [this] at g4; exact g4
  · refine (s_eraseAfterRange I hC h1 h2).imp ?_
    rintro ⟨r, w'⟩ ⟨g1, cs', g2, rfl, g4⟩
    refine ⟨g1, _, g2, rfl, ?_⟩
    have : cs.length - (if lo = hi then cs else cs.take lo ++ cs.drop (hi - 1)).length = hi - 1 - lo := by
      split
      · omega
      · simp only [List.length_append, List.length_take, List.length_drop]; omega
    rw [this] at g4; exact g4

/-- C28.  Erasing an element or a half-open range; `erase(end())` and `erase(before_begin())` do nothing. -/
theorem C28_erase (hr : Reach cfg w) (hd' : cfg.dbl = true) {cs : List (Nat × α)} (hc : cells w i = some cs) {p lo hi : Nat}
    (hp : 1 ≤ p ∧ p ≤ cs.length) (h0 : 1 ≤ lo) (h1 : lo ≤ hi) (h2 : hi ≤ cs.length + 1) :
    Changes cfg (.erase i p) w i (.pos p) (fun cs' => cs' = cs.take (p - 1) ++ cs.drop p) 0 1 0 ∧
    Changes cfg (.erase i 0) w i (.pos 0) (fun cs' => cs' = cs) 0 0 0 ∧
    Changes cfg (.erase i (cs.length + 1)) w i (.pos (cs.length + 1)) (fun cs' => cs' = cs) 0 0 0 ∧
    Changes cfg (.eraseRange i lo hi) w i (.pos lo) (fun cs' => cs' = cs.take (lo - 1) ++ cs.drop (hi - 1)) 0 (hi - lo) 0 := by
  obtain ⟨C, hd, tl, a, I, hC, hv⟩ := reach_cells hr hc
  refine ⟨changes_of I hC ?_, changes_of I hC ?_, changes_of I hC ?_, changes_of I hC ?_⟩
  · refine (s_erase hd' I hC (p := p) (by omega)).imp ?_
    rintro ⟨r, w'⟩ ⟨g1, cs', g2, g3, g4⟩
    rw [if_neg (by omega)] at g3
    refine ⟨g1, _, g2, g3, ?_⟩
    subst g3
    have : cs.length - (cs.take (p - 1) ++ cs.drop p).length = 1 := by
      simp only [List.length_append, List.length_take, List.length_drop]; omega
    rw [this] at g4; exact g4
  · refine (s_erase hd' I hC (p := 0) (by omega)).imp ?_
    rintro ⟨r, w'⟩ ⟨g1, cs', g2, g3, g4⟩
    rw [if_pos (.inl rfl)] at g3
    refine ⟨g1, _, g2, g3, ?_⟩
    subst g3
    simpa using g4
  · refine (s_erase hd' I hC (p := cs.length + 1) (by omega)).imp ?_
    rintro ⟨r, w'⟩ ⟨g1, cs', g2, g3, g4⟩
    rw [if_pos (.inr rfl)] at g3
    refine ⟨g1, _, g2, g3, ?_⟩
    subst g3
    simpa using g4
  · refine (s_eraseRange hd' I hC h0 h1 h2).imp ?_
    rintro ⟨r, w'⟩ ⟨g1, cs', g2, rfl, g4⟩
    refine ⟨g1, _, g2, rfl, ?_⟩
    have : cs.length - (cs.take (lo - 1) ++ cs.drop (hi - 1)).length = hi - lo := by
      simp only [List.length_append, List.length_take, List.length_drop]; omega
    rw [this] at g4; exact g4

/-- C28.  Popping from a non-empty list. -/
theorem C28_pop (hr : Reach cfg w) {cs : List (Nat × α)} (hc : cells w i = some cs) (hne : cs ≠ []) :
    Changes cfg (.popFront i) w i .unit (fun cs' => cs' = cs.tail) 0 1 0 ∧
    (cfg.dbl = true → Changes cfg (.popBack i) w i .unit (fun cs' => cs' = cs.dropLast) 0 1 0) := by
  obtain ⟨C, hd, tl, a, I, hC, hv⟩ := reach_cells hr hc
  refine ⟨?_, fun hd' => ?_⟩
  · cases cs with
    | nil => exact absurd rfl hne
    | cons c cs => exact changes_of I hC (s_popFront I hC)
  · rcases List.eq_nil_or_concat cs with rfl | ⟨cs, c, rfl⟩
    · exact absurd rfl hne
    · rw [List.concat_eq_append] at hC ⊢
      simpa using changes_of I hC (s_popBack hd' I hC)

theorem exCells (dbl : Bool) : ∃ w cs ds, Reach (exCfg dbl) w ∧ cells w 0 = some cs ∧ cs.map Prod.snd = [3, 1, 2, 1] ∧
    cells w 1 = some ds ∧ ds.map Prod.snd = [5, 7] ∧ argVal (view w) (.elem 0 2) = some 2 ∧ ∀ i < 7, view w i = exView i := by
  obtain ⟨w, h, hP⟩ := exReach dbl
  obtain ⟨-, -, -, cs, -, -, h1, h2⟩ := reach_get h (hP 0 (by decide))
  obtain ⟨-, -, -, ds, -, -, h3, h4⟩ := reach_get h (hP 1 (by decide))
  refine ⟨w, cs, ds, h, h2, h1, h4, h3, ?_, hP⟩
  simp [argVal, contents, hP, exView]

/-! ## C20 -/

/-- C20.  Dereferencing a pointer to a node gives a value exactly if the node is one of the nodes of some list, and then it
gives the element recorded there.  So `cells` says what every iterator designates. -/
theorem C20_designates (hr : Reach cfg w) (a : Nat) (x : α) :
    load (some a) w.heap = .ok (x, w.heap) ↔ ∃ i cs, cells w i = some cs ∧ (a, x) ∈ cs := by
  obtain ⟨C, I⟩ := reach_inv hr
  rw [← I.elemAt_iff]
  unfold load withNode elemAt
  cases hi : w.heap.info a with
  | none => simp [hi]
  | some n =>
    obtain ⟨o, b, d⟩ := n
    cases d <;> simp [hi]

/-- C20.  Every call leaves the nodes of all lists it is not called upon, so iterators into them designate the same elements
afterwards. -/
theorem C20_other_lists (hr : Reach cfg w) {op : Op α} {r : Res α} {A : Ideal α}
    (h : specStep false cfg.dbl cfg.dflt op (view w) = some (r, A)) :
    (step cfg op w).SafeIf (Refuses cfg) fun q => ∀ l, l ∉ writes op → cells q.2 l = cells w l :=
  (reach_step hr h).imp fun _ h => h.2.2.2

/-- C20.  Insertion, splice, merge, sort, reverse, swap, move and copy construction and all observers keep every element in
memory where it is: an iterator that designates an element before the call designates the same element after it. -/
theorem C20_iterators_kept (hr : Reach cfg w) {op : Op α} (hop : destructive op = false) {r : Res α} {A : Ideal α}
    (h : specStep false cfg.dbl cfg.dflt op (view w) = some (r, A)) :
    (step cfg op w).SafeIf (Refuses cfg) fun q => ∀ a x, load (some a) w.heap = .ok (x, w.heap) →
      load (some a) q.2.heap = .ok (x, q.2.heap) := by
  refine ((reach_step hr h).and (reach_keeps hr hop h)).imp ?_
  rintro q ⟨⟨-, -, hr', -⟩, hk⟩ a x ha
  obtain ⟨C, I⟩ := reach_inv hr
  obtain ⟨C', I'⟩ := reach_inv hr'
  rw [C20_designates hr, ← I.elemAt_iff] at ha
  rw [C20_designates hr', ← I'.elemAt_iff]
  exact hk a x ha

/-- C20.  Calls that erase elements of list `i`: the nodes left are nodes the list had, with the same elements, in the same
order.  (Which ones are left is said by C26, C27, C28.) -/
theorem C20_erase_keeps_rest (hr : Reach cfg w) {cs : List (Nat × α)} (hc : cells w i = some cs) :
    ∀ op : Op α, op ∈ [.clear i, .popFront i, .popBack i] ∨ (∃ p, op = .eraseAfter i p ∨ op = .erase i p) ∨
        (∃ lo hi, op = .eraseAfterRange i lo hi ∨ op = .eraseRange i lo hi) ∨ (∃ p, op = .removeIf i p) ∨
        (∃ eq x, op = .remove i eq x) ∨ (∃ p, op = .unique i p) →
      ∀ r A, specStep false cfg.dbl cfg.dflt op (view w) = some (r, A) →
      (step cfg op w).SafeIf (Refuses cfg) fun q => ∃ cs', cells q.2 i = some cs' ∧ cs'.Sublist cs := by
  obtain ⟨C, hd, tl, a, I, hC, hv⟩ := reach_cells hr hc
  have of : ∀ {op : Op α} {r : Res α} {P : List (Nat × α) → Res α × World α → Prop},
      ((step cfg op w).SafeIf (Refuses cfg) fun q => q.1 = r ∧ ∃ cs', Inv cfg (cput C i (some (full hd tl cs' a))) q.2 ∧ P cs' q) →
      (∀ cs' q, P cs' q → cs'.Sublist cs) →
      (step cfg op w).SafeIf (Refuses cfg) fun q => ∃ cs', cells q.2 i = some cs' ∧ cs'.Sublist cs := by
    intro op r P h hP
    refine h.imp ?_
    rintro q ⟨-, cs', h1, h2⟩
    exact ⟨cs', h1.cells (cput_same ..), hP _ _ h2⟩
  have subs : ∀ p q, p ≤ q → (cs.take p ++ cs.drop q).Sublist cs := by
    intro p q hpq
    conv => rhs; rw [← List.take_append_drop p cs]
    exact (List.Sublist.refl _).append (List.drop_sublist_drop_left _ hpq)
  intro op hop r A hs
  rw [I.view] at hs
  rcases hop with hop | ⟨p, rfl | rfl⟩ | ⟨lo, hi, rfl | rfl⟩ | ⟨p, rfl⟩ | ⟨eq, x, rfl⟩ | ⟨p, rfl⟩
  · simp only [List.mem_cons, List.not_mem_nil, or_false] at hop
    rcases hop with rfl | rfl | rfl
    · exact of (s_clear I hC) (by rintro _ _ ⟨rfl, -⟩; simp)
    · obtain ⟨_, _, ds, _, xs', h1, h2, -⟩ := edit_inv hs
      rw [hC] at h1; cases h1
      have := (needs_inv h2).1
      cases cs with
      | nil => exact absurd rfl this
      | cons c cs => exact of (s_popFront I hC) (by rintro _ _ ⟨rfl, -⟩; simp)
    · obtain ⟨hd', hs⟩ := needs_inv hs
      obtain ⟨_, _, ds, _, xs', h1, h2, -⟩ := edit_inv hs
      rw [hC] at h1; cases h1
      have := (needs_inv h2).1
      rcases List.eq_nil_or_concat cs with rfl | ⟨cs, c, rfl⟩
      · exact absurd rfl this
      · rw [List.concat_eq_append] at *
        exact of (s_popBack hd' I hC) (by rintro _ _ ⟨rfl, -⟩; simp)
  · obtain ⟨_, _, ds, _, xs', h1, h2, -⟩ := edit_inv hs
    rw [hC] at h1; cases h1
    have := (needs_inv h2).1
    rw [vals_len] at this
    exact of (s_eraseAfter I hC this) (by rintro _ _ ⟨rfl, -⟩; exact subs _ _ (by omega))
  · obtain ⟨hd', hs⟩ := needs_inv hs
    obtain ⟨_, _, ds, _, xs', h1, h2, -⟩ := edit_inv hs
    rw [hC] at h1; cases h1
    have := (needs_inv h2).1
    rw [vals_len] at this
    exact of (s_erase hd' I hC this) (by rintro _ _ ⟨rfl, -⟩; split <;> [exact .refl _; exact subs _ _ (by omega)])
  · obtain ⟨_, _, ds, _, xs', h1, h2, -⟩ := edit_inv hs
    rw [hC] at h1; cases h1
    have := (needs_inv h2).1
    rw [vals_len] at this
    exact of (s_eraseAfterRange I hC this.1 this.2) (by rintro _ _ ⟨rfl, -⟩; split <;> [exact .refl _; exact subs _ _ (by omega)])
  · obtain ⟨hd', hs⟩ := needs_inv hs
    obtain ⟨_, _, ds, _, xs', h1, h2, -⟩ := edit_inv hs
    rw [hC] at h1; cases h1
    have := (needs_inv h2).1
    rw [vals_len] at this
    exact of (s_eraseRange hd' I hC this.1 this.2.1 this.2.2) (by rintro _ _ ⟨rfl, -⟩; exact subs _ _ (by omega))
  · exact of (s_removeIf I hC p) (by rintro _ _ ⟨rfl, -⟩; exact List.filter_sublist)
  · obtain ⟨y, h0, hs⟩ := Option.bind_eq_some_iff.1 hs
    obtain ⟨_, _, ds, _, xs', h1, h2, -⟩ := edit_inv hs
    rw [hC] at h1; cases h1
    exact of (s_remove I hC h0 eq (only_inv h2).1) (by rintro _ _ ⟨rfl, -⟩; exact List.filter_sublist)
  · exact of (s_unique I hC p) (by rintro _ _ ⟨rfl, -⟩; exact uniqAll_sub p cs)

/-- such calls: 2 is erased from list 0, list 1 is spliced in, the result is reversed -/
example (dbl : Bool) : ∃ w, Reach (exCfg dbl) w ∧
    (specRun false dbl 0 [.eraseAfter 0 2, .spliceAfter 0 1 1, .reverse 0, .pushFront 0 (.elem 0 1)] (view w)).isSome = true := by
  obtain ⟨w, h, hP⟩ := exReach dbl
  refine ⟨w, h, ?_⟩
  have h0 := hP 0 (by decide); have h1 := hP 1 (by decide)
  simp [specRun, specStep, edit, edit2, needs, only, put, argVal, contents, h0, h1, exView]

/-! ## C29 -/

/-- C29.  front()/back() are none exactly for the empty list and otherwise the first/last element; the unchecked versions
agree with them on non-empty lists. -/
theorem C29_front_back (hr : Reach cfg w) {xs : List α} {a : Nat} (hi : view w i = some ⟨some xs, a⟩) :
    step cfg (.front i) w = .ok (.opt xs.head?, w) ∧
    (cfg.dbl = true → step cfg (.back i) w = .ok (.opt xs.getLast?, w)) ∧
    (∀ x, xs.head? = some x → step cfg (.frontUnchecked i) w = .ok (.val x, w)) ∧
    (∀ x, xs.getLast? = some x → cfg.dbl = true → step cfg (.backUnchecked i) w = .ok (.val x, w)) := by
  have ho := C16_observers hr hi
  refine ⟨ho.2.2.2.1, ho.2.2.2.2.1, ?_, ?_⟩
  · intro x hx
    obtain ⟨C, hd, tl, cs, I, hC, rfl, hc⟩ := reach_get hr hi
    cases cs with
    | nil => cases hx
    | cons c cs =>
      cases hx
      refine look_ok (I.var hC) ?_
      simp only [Prog.bind_run, frontUnchecked_ok (I.rep hC), Out.bind_ok]; rfl
  · intro x hx hd'
    obtain ⟨C, hd, tl, cs, I, hC, rfl, hc⟩ := reach_get hr hi
    rcases List.eq_nil_or_concat cs with rfl | ⟨cs, c, rfl⟩
    · cases hx
    · rw [List.concat_eq_append] at *
      have : c.2 = x := by simpa [vals] using hx
      subst this
      refine look_ok (I.var hC) ?_
      simp only [Prog.bind_run, backUnchecked_ok (I.rep hC) hd', Out.bind_ok]; rfl

/-- C29.  The const version of front_unchecked() is right for ForwardLists, and for Lists with one element.
Missing: Lists with more elements, see `C29_const_front_fails`. -/
theorem C29_const_front_partial (hr : Reach cfg w) {xs : List α} {x : α} {a : Nat} (hi : view w i = some ⟨some (x :: xs), a⟩)
    (h : cfg.dbl = false ∨ xs = []) : step cfg (.frontUncheckedConst i) w = .ok (.val x, w) := by
  obtain ⟨C, hd, tl, cs, I, hC, hx, hc⟩ := reach_get hr hi
  cases cs with
  | nil => cases hx
  | cons c cs =>
    cases hx
    rcases h with h | h
    · refine look_ok (I.var hC) ?_
      simp only [Prog.bind_run, frontUncheckedConst_fwd (I.rep hC) h, Out.bind_ok]; rfl
    · cases List.map_eq_nil_iff.1 h
      cases hd' : cfg.dbl
      · refine look_ok (I.var hC) ?_
        simp only [Prog.bind_run, frontUncheckedConst_fwd (I.rep hC) hd', Out.bind_ok]; rfl
      · exact frontUncheckedConst_last (cs := []) I hC hd'

/-- The full property is false of the code: on a List the const version of front_unchecked() answers the last element,
whatever the list. -/
theorem C29_const_front_fails (hr : Reach cfg w) (hd' : cfg.dbl = true) {xs : List α} {x : α} {a : Nat}
    (hi : view w i = some ⟨some (xs ++ [x]), a⟩) : step cfg (.frontUncheckedConst i) w = .ok (.val x, w) := by
  obtain ⟨C, hd, tl, cs, I, hC, hx, hc⟩ := reach_get hr hi
  obtain ⟨cs, ds, rfl, h1, h2⟩ := List.map_eq_append_iff.1 hx
  obtain ⟨c, rfl, rfl⟩ := List.map_eq_singleton_iff.1 h2
  exact frontUncheckedConst_last I hC hd'

example : ∃ w a, Reach (exCfg true) w ∧ view w 1 = some ⟨some ([5] ++ [7]), a⟩ := by
  obtain ⟨w, h, hP⟩ := exReach true
  exact ⟨w, 0, h, hP 1 (by decide)⟩

/-! ## C33 -/

/-- C33 holds for the empty list.  Missing: all other lists, see `C33_reverse_iterators_fails`. -/
theorem C33_reverse_iterators_partial (hr : Reach cfg w) (hd' : cfg.dbl = true) {a : Nat} (hi : view w i = some ⟨some [], a⟩) :
    step cfg (.traverseRev i) w = .ok (.seq [], w) := by
  obtain ⟨C, hd, tl, cs, I, hC, hx, hc⟩ := reach_get hr hi
  cases List.map_eq_nil_iff.1 hx
  refine look_ok (I.var hC) ?_
  simp only [Prog.bind_run, traverseRev_nil (I.rep hC) hd', Out.bind_ok]; rfl

/-- C33 is false of the code: the increment of the reverse iterators calls itself, so traversing any non-empty List from
rbegin() to rend() does not terminate. -/
theorem C33_reverse_iterators_fails (hr : Reach cfg w) (hd' : cfg.dbl = true) {xs : List α} {a : Nat}
    (hi : view w i = some ⟨some xs, a⟩) (hne : xs ≠ []) : step cfg (.traverseRev i) w = .div := by
  obtain ⟨C, hd, tl, cs, I, hC, rfl, hc⟩ := reach_get hr hi
  exact traverseRev_div I hC hd' ((vals_ne _).1 hne)

/-! ## C34 -/

/-- C34 is false of the code.  `pop_front` on an empty list returns without a panic, in debug builds too, having destroyed the
end node: size() is then 2^64 - 1, empty() is false, and front(), traversal and destruction are undefined. -/
theorem C34_pop_front_fails (hr : Reach cfg w) {a : Nat} (hi : view w i = some ⟨some [], a⟩) :
    (∃ w', run cfg [.popFront i, .size i, .empty i] w = .ok ([.unit, .num (wordSize - 1), .bool false], w')) ∧
    run cfg [.popFront i, .front i] w = .ub ∧ run cfg [.popFront i, .traverse i] w = .ub ∧ run cfg [.popFront i, .drop i] w = .ub := by
  obtain ⟨C, hd, tl, cs, I, hC, hx, hc⟩ := reach_get hr hi
  cases List.map_eq_nil_iff.1 hx
  exact popFront_empty_then I hC

/-- C34.  `pop_back` on an empty List panics in debug builds.  Missing: release builds, see `C34_pop_back_fails`, and
`pop_front`, see `C34_pop_front_fails`. -/
theorem C34_pop_back_partial (hr : Reach cfg w) (hd' : cfg.dbl = true) (hb : cfg.debug = true) {a : Nat}
    (hi : view w i = some ⟨some [], a⟩) : step cfg (.popBack i) w = .panic := by
  obtain ⟨C, hd, tl, cs, I, hC, hx, hc⟩ := reach_get hr hi
  cases List.map_eq_nil_iff.1 hx
  rw [popBack_empty I hC hd', if_pos hb]

theorem C34_pop_back_fails (hr : Reach cfg w) (hd' : cfg.dbl = true) (hb : cfg.debug = false) {a : Nat}
    (hi : view w i = some ⟨some [], a⟩) : step cfg (.popBack i) w = .ub := by
  obtain ⟨C, hd, tl, cs, I, hC, hx, hc⟩ := reach_get hr hi
  cases List.map_eq_nil_iff.1 hx
  rw [popBack_empty I hC hd', if_neg (by rw [hb]; simp)]

example : ∃ w, Reach (exCfg true) w ∧ view w 2 = some ⟨some [], 0⟩ := by
  obtain ⟨w, h, hP⟩ := exReach true
  exact ⟨w, h, hP 2 (by decide)⟩

/-! ## C68 -/

/-- C68 for lists.  Printing gives the name, the elements separated by comma and blank, and a closing bracket; the list does
not change. -/
theorem C68_list_print (hr : Reach cfg w) {xs : List α} {a : Nat} (hi : view w i = some ⟨some xs, a⟩) (shw : α → String) :
    step cfg (.print i shw) w =
      .ok (.text ((if cfg.dbl then "List [" else "ForwardList [") ++ ", ".intercalate (xs.map shw) ++ "]"), w) := by
  obtain ⟨C, hd, tl, cs, I, hC, rfl, hc⟩ := reach_get hr hi
  have : ∀ ss : List String, joinSeq ss = ", ".intercalate ss := by
    intro ss
    induction ss with
    | nil => rfl
    | cons s ss ih =>
      cases ss with
      | nil => simp [joinSeq]
      | cons t ss => rw [joinSeq, ih, String.intercalate_cons_cons]; simp
  refine look_ok (I.var hC) ?_
  simp only [Prog.bind_run, print_ok shw (I.rep hC), Out.bind_ok, this]; rfl

example (dbl : Bool) : ∃ w a, Reach (exCfg dbl) w ∧ view w 1 = some ⟨some [5, 7], a⟩ := by
  obtain ⟨w, h, hP⟩ := exReach dbl
  exact ⟨w, 0, h, hP 1 (by decide)⟩

end Lists
end Verif.Props
