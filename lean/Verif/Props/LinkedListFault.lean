import Verif.Proof.LLFault3
import Verif.Props.LinkedList
/-!
# Properties C77, C78: lists when memory is refused or an element's constructor throws

C77 (full statement, refuted): a call that is refused memory reports it or leaves the list usable.
C78 (full statement, refuted): after a call during which constructing an element throws, the list can be used and destroyed, and no
element and no memory is lost.
-/
namespace Verif.Props.Lists
open Verif Verif.Model.LL Verif.Proof.LL
open Verif.Spec.LL hiding sorted

variable {α β : Type} {cfg : Cfg α} {w : World α}

theorem split_get (hr : Reach cfg w) {i : Nat} {l : Lst} (hv : w.vars i = some l) {ys zs : List α} {a : Nat}
    (hi : view w i = some ⟨some (ys ++ zs), a⟩) : ∃ C hd tl c1 c2, Inv cfg C w ∧ C i = some (full hd tl (c1 ++ c2) a) ∧
      c1.map Prod.snd = ys ∧ c2.map Prod.snd = zs ∧ l = lst hd tl (c1 ++ c2) a := by
  obtain ⟨C, hd, tl, cs, I, hC, e, -⟩ := reach_get hr hi
  obtain ⟨c1, c2, rfl, e1, e2⟩ := List.map_eq_append_iff.1 e
  rw [I.var hC] at hv; cases hv
  exact ⟨C, hd, tl, c1, c2, I, hC, e1, e2, rfl⟩

/-! ## C77 -/

/-- `y` is the outcome `x` as long as memory is granted, and undefined behaviour when memory was refused. -/
def UbIfRefused (x y : Out β) : Prop := (x = .oom → y = .ub) ∧ (x ≠ .oom → y = x)

/-- C77 fails, and how: following the null pointer through the code, every call that obtains nodes is undefined exactly when one of its
requests is refused; otherwise it does what the model of the other properties does. -/
theorem C77_refused_fails (l o : Lst) (p : Ptr) (n a : Nat) (r : Ref α) (xs : List α) (h : Heap α) :
    UbIfRefused (newAlloc cfg a h) (newAllocN cfg a h) ∧
    UbIfRefused (newRange cfg xs a h) (newRangeN cfg xs a h) ∧
    UbIfRefused (newCopyAlloc cfg o a h) (copyImplN cfg o a h) ∧
    UbIfRefused (copyAssign cfg l o h) (copyAssignN cfg l o h) ∧
    UbIfRefused (listAssign cfg l xs h) (listAssignN cfg l xs h) ∧
    UbIfRefused (emplaceAfter cfg l p r h) (emplaceAfterN cfg l p r h) ∧
    UbIfRefused (insertAfterFill cfg l p n r h) (insertAfterFillN cfg l p n r h) ∧
    UbIfRefused (insertAfterRange cfg l p xs h) (insertAfterRangeN cfg l p xs h) ∧
    UbIfRefused (emplace cfg l p r h) (emplaceN cfg l p r h) ∧
    UbIfRefused (pushFront cfg l r h) (pushFrontN cfg l r h) ∧
    UbIfRefused (pushBack cfg l r h) (pushBackN cfg l r h) ∧
    UbIfRefused (resizeFill cfg l n r h) (resizeFillN cfg l n r h) :=
  ⟨fol_newAlloc h, fol_newRange h, fol_copyImpl h, fol_copyAssign h, fol_listAssign h, fol_emplaceAfter h, fol_insertAfterFill h,
    fol_insertAfterRange h, fol_emplace h, fol_pushFront h, fol_pushBack h, fol_resizeFill h⟩

/-- C77 fails: `push_front` on any list, refused: undefined behaviour. -/
theorem C77_push_refused_fails (l : Lst) (x : α) (h : Heap α) (hf : cfg.refuse h.next cfg.dsize = true) :
    pushFrontN cfg l (.tmp x) h = .ub ∧ pushBackN cfg l (.tmp x) h = .ub := by
  constructor
  · refine (fol_pushFront h).1 ?_
    simp only [pushFront, Prog.bind_run, deref, Prog.pure_run, Out.bind_ok, constructNode_eq, hf, if_true]; rfl
  · refine (fol_pushBack h).1 ?_
    simp only [pushBack, Prog.bind_run, deref, Prog.pure_run, Out.bind_ok, constructNode_eq, hf, if_true]; rfl

/-- C77 fails: the default constructor, refused its first node: undefined behaviour. -/
theorem C77_new_refused_fails (a : Nat) (h : Heap α) (hf : cfg.refuse h.next cfg.vsize = true) : newAllocN cfg a h = .ub := by
  simp [newAllocN, buildVirtualN, allocNodeN, Prog.bind_run, hf, putNext, withNode]

/-- Both outcomes occur: an allocator that refuses only the third request. -/
example (dbl : Bool) : ∃ l h, newAllocN { exCfg dbl with refuse := fun k _ => k == 2 } 0 {} = .ok (l, h) ∧
    pushFrontN { exCfg dbl with refuse := fun k _ => k == 2 } l (.tmp 7) h = .ub := by
  cases dbl <;> exact ⟨_, _, rfl, rfl⟩

/-! ## C78 -/

variable {thr : Nat → Bool}

/-- The same outcome, its result passed through `f`. -/
def via {β γ σ : Type} (f : β → γ) (x : Out (β × σ)) : Out (γ × σ) :=
  match x with
  | .ok q => .ok (f q.1, q.2)
  | .panic => .panic
  | .oom => .oom
  | .ub => .ub
  | .div => .div

theorem via_eq {β γ σ : Type} (f : β → γ) (x : Out (β × σ)) : mapO f x = via f x := by cases x <;> rfl

/-- C78 (partial).  If no constructor throws, each call does what the model of the other properties does. -/
theorem C78_no_throw_partial (hno : ∀ k, thr k = false) (l o : Lst) (p : Ptr) (n a : Nat) (r : Ref α) (xs : List α) (h : Heap α) :
    newRangeT cfg thr xs a h = via some (newRange cfg xs a h) ∧
    copyAssignT cfg thr l o h = via (fun q => (false, q)) (copyAssign cfg l o h) ∧
    listAssignT cfg thr l xs h = via (fun q => (false, q)) (listAssign cfg l xs h) ∧
    emplaceAfterT cfg thr l p r h = via (fun q => (false, q.1)) (emplaceAfter cfg l p r h) ∧
    insertAfterFillT cfg thr l p n r h = via (fun q => (false, q.1)) (insertAfterFill cfg l p n r h) ∧
    insertAfterRangeT cfg thr l p xs h = via (fun q => (false, q.1)) (insertAfterRange cfg l p xs h) ∧
    emplaceT cfg thr l p r h = via (fun q => (false, q.1)) (emplace cfg l p r h) ∧
    insertFillT cfg thr l p n r h = via (fun q => (false, q.1)) (insertFill cfg l p n r h) ∧
    insertRangeT cfg thr l p xs h = via (fun q => (false, q.1)) (insertRange cfg l p xs h) ∧
    pushFrontT cfg thr l r h = pushFront cfg l r h ∧
    pushBackT cfg thr l r h = pushBack cfg l r h ∧
    resizeFillT cfg thr l n r h = resizeFill cfg l n r h ∧
    newFillT cfg thr n r a h = via some (newFill cfg n r a h) ∧
    newCopyT cfg thr o a h = via some (newCopyAlloc cfg o a h) ∧
    fromIterT cfg thr xs h = via some (fromIter cfg xs h) := by
  simp only [← via_eq]
  exact ⟨newRangeT_quiet hno xs a h, copyAssignT_quiet hno l o h, listAssignT_quiet hno l xs h, emplaceAfterT_quiet hno l p r h,
    insertAfterFillT_quiet hno l p n r h, insertAfterRangeT_quiet hno l p xs h, emplaceT_quiet hno l p r h, insertFillT_quiet hno l p n r h,
    insertRangeT_quiet hno l p xs h, pushFrontT_quiet hno l r h, pushBackT_quiet hno l r h, resizeFillT_quiet hno l n r h, newFillT_quiet hno n r a h,
    newCopyT_quiet hno o a h, fromIterT_quiet hno xs h⟩

/-- C78 (partial): `emplace_after` and `insert_after(pos, value)` (and on a doubly linked list `emplace` and `insert(pos, value)`) whose
constructor throws leave every list of the program as it was: same fields, same contents, same nodes.
Missing: the node obtained for the element is lost (`C78_leak_fails`); the other calls, see the `_fails` theorems. -/
theorem C78_insert_partial (hr : Reach cfg w) {i : Nat} {l : Lst} (hv : w.vars i = some l) {ys zs : List α} {a : Nat}
    (hi : view w i = some ⟨some (ys ++ zs), a⟩) (x : α) (ht : thr w.heap.ctors = true) :
    ((do let p ← iterAt l ys.length; emplaceAfterT cfg thr l p (.tmp x)) w.heap).SafeIf (Refuses cfg) (fun q =>
      q.1 = (true, l) ∧ view { w with heap := q.2 } = view w ∧ cells { w with heap := q.2 } = cells w) ∧
    ((do let p ← iterAt l (ys.length + 1); emplaceT cfg thr l p (.tmp x)) w.heap).SafeIf (Refuses cfg) (fun q =>
      q.1 = (true, l) ∧ view { w with heap := q.2 } = view w ∧ cells { w with heap := q.2 } = cells w) := by
  obtain ⟨C, hd, tl, c1, c2, I, hC, e1, e2, rfl⟩ := split_get hr hv hi
  have r := I.rep hC
  simp only [Prog.bind_run, ← e1, List.length_map, iterAt_ok r, iterAt_next r, Out.bind_ok]
  constructor
  · refine (emplaceAfterT_bad r (refIs_tmp (x := x)) ht).imp ?_
    rintro _ rfl
    exact ⟨rfl, I.unseen (step_rawNode I.bal)⟩
  · refine (emplaceT_bad r (refIs_tmp (x := x)) ht).imp ?_
    rintro _ rfl
    exact ⟨rfl, I.unseen (step_rawNode I.bal)⟩

/-- C78 (partial): the same for the insertion of a range or of copies if already the first element's constructor throws. -/
theorem C78_first_throw_partial (hr : Reach cfg w) {i : Nat} {l : Lst} (hv : w.vars i = some l) {ys zs : List α} {a : Nat}
    (hi : view w i = some ⟨some (ys ++ zs), a⟩) (x : α) {xs : List α} (hx : xs ≠ []) {n : Nat} (hn : n ≠ 0)
    (ht : thr w.heap.ctors = true) :
    ((do let p ← iterAt l ys.length; insertAfterRangeT cfg thr l p xs) w.heap).SafeIf (Refuses cfg) (fun q =>
      q.1 = (true, l) ∧ view { w with heap := q.2 } = view w ∧ cells { w with heap := q.2 } = cells w) ∧
    ((do let p ← iterAt l ys.length; insertAfterFillT cfg thr l p n (.tmp x)) w.heap).SafeIf (Refuses cfg) (fun q =>
      q.1 = (true, l) ∧ view { w with heap := q.2 } = view w ∧ cells { w with heap := q.2 } = cells w) ∧
    (cfg.dbl = true →
      ((do let p ← iterAt l (ys.length + 1); insertRangeT cfg thr l p xs) w.heap).SafeIf (Refuses cfg) (fun q =>
        q.1 = (true, l) ∧ view { w with heap := q.2 } = view w ∧ cells { w with heap := q.2 } = cells w) ∧
      ((do let p ← iterAt l (ys.length + 1); insertFillT cfg thr l p n (.tmp x)) w.heap).SafeIf (Refuses cfg) (fun q =>
        q.1 = (true, l) ∧ view { w with heap := q.2 } = view w ∧ cells { w with heap := q.2 } = cells w)) := by
  obtain ⟨C, hd, tl, c1, c2, I, hC, e1, e2, rfl⟩ := split_get hr hv hi
  have r := I.rep hC
  simp only [Prog.bind_run, ← e1, List.length_map, iterAt_ok r, iterAt_next r, Out.bind_ok]
  obtain ⟨h1, h2, h3⟩ := first_throw r hx (refIs_tmp (x := x)) hn ht
  have key : ∀ q : (Bool × Lst) × Heap α, q = ((true, lst hd tl (c1 ++ c2) a), rawNode cfg a w.heap) →
      q.1 = (true, lst hd tl (c1 ++ c2) a) ∧ view { w with heap := q.2 } = view w ∧ cells { w with heap := q.2 } = cells w := by
    rintro _ rfl
    exact ⟨rfl, I.unseen (step_rawNode I.bal)⟩
  exact ⟨h1.imp key, h2.imp key, fun hd => ⟨(h3 hd).1.imp key, (h3 hd).2.imp key⟩⟩

/-- The node at `a` is reached from some variable of the program: it is an element's node or a virtual node of a list. -/
def InSomeList (w : World α) (a : Nat) : Prop :=
  ∃ i, (∃ cs, cells w i = some cs ∧ a ∈ cs.map Prod.fst) ∨ ∃ l, w.vars i = some l ∧ (l.head = some a ∨ l.tail = some a)

/-- In every reachable state each node in memory belongs to some list. -/
theorem C78_no_lost_node (hr : Reach cfg w) {a : Nat} (ha : w.heap.info a ≠ none) : InSomeList w a := by
  obtain ⟨C, I⟩ := reach_inv hr
  obtain ⟨i, hi⟩ := I.cover a ha
  refine ⟨i, ?_⟩
  cases hC : C i with
  | none => rw [hC] at hi; simp at hi
  | some o =>
    obtain ⟨b, al⟩ := o
    cases b with
    | none => rw [hC] at hi; simp at hi
    | some b =>
      obtain ⟨hd, tl, cs⟩ := b
      rw [hC, onodes_full] at hi
      simp only [nodes, List.mem_cons, List.mem_append] at hi
      rcases hi with rfl | hi
      · exact .inr ⟨_, I.var hC, .inl rfl⟩
      · rcases hi with hi | hi
        · exact .inl ⟨cs, I.cells hC, hi⟩
        · simp at hi; subst hi
          exact .inr ⟨_, I.var hC, .inr rfl⟩

/-- C78 fails: in these calls the node obtained for the element is lost: it stays in memory and belongs to no list. -/
theorem C78_leak_fails (hr : Reach cfg w) {i : Nat} {l : Lst} (hv : w.vars i = some l) {ys zs : List α} {a : Nat}
    (hi : view w i = some ⟨some (ys ++ zs), a⟩) (x : α) (ht : thr w.heap.ctors = true) :
    ((do let p ← iterAt l ys.length; emplaceAfterT cfg thr l p (.tmp x)) w.heap).SafeIf (Refuses cfg) (fun q =>
      q.2.newBytes = w.heap.newBytes + cfg.dsize ∧ q.2.freeBytes = w.heap.freeBytes ∧
      ∃ n, q.2.info n ≠ none ∧ ¬ InSomeList { w with heap := q.2 } n) := by
  obtain ⟨C, hd, tl, c1, c2, I, hC, e1, e2, rfl⟩ := split_get hr hv hi
  have r := I.rep hC
  simp only [Prog.bind_run, ← e1, List.length_map, iterAt_ok r, Out.bind_ok]
  refine (emplaceAfterT_bad r (refIs_tmp (x := x)) ht).imp ?_
  rintro _ rfl
  refine ⟨rfl, rfl, w.heap.next, by simp [rawNode], ?_⟩
  have dead : ∀ j hd tl cs a, C j = some (full hd tl cs a) → w.heap.next ∉ nodes hd tl cs := fun j hd tl cs a hj hm =>
    (I.rep hj).live hm (I.bal.fresh _ (Nat.le_refl _))
  rintro ⟨j, ⟨cs, hcs, hm⟩ | ⟨l, hl, hm⟩⟩
  · rw [(I.unseen (step_rawNode I.bal)).2] at hcs
    cases hj : C j with
    | none => rw [I.cells_none hj] at hcs; cases hcs
    | some o =>
      obtain ⟨b, al⟩ := o
      cases b with
      | none => rw [I.cells_husk hj] at hcs; cases hcs
      | some b =>
        obtain ⟨hd', tl', cs'⟩ := b
        rw [I.cells hj] at hcs; cases hcs
        exact dead _ _ _ _ _ hj (by simp only [nodes, List.mem_cons, List.mem_append]; exact .inr (.inl hm))
  · rw [show w.vars j = _ from I.vars j] at hl
    cases hj : C j with
    | none => rw [hj] at hl; cases hl
    | some o =>
      obtain ⟨b, al⟩ := o
      rw [hj] at hl; cases hl
      cases b with
      | none => rcases hm with hm | hm <;> cases hm
      | some b =>
        obtain ⟨hd', tl', cs'⟩ := b
        rcases hm with hm | hm <;> cases hm <;> exact dead _ _ _ _ _ hj (by simp [nodes])

/-- C78 fails: `insert_after(pos, first, last)` when the second or a later element throws: the list can neither be traversed nor
destroyed any more (the chain ends in a node whose `next` was never set). -/
theorem C78_range_throw_fails (hr : Reach cfg w) {i : Nat} {l : Lst} (hv : w.vars i = some l) {ys zs : List α} {a : Nat}
    (hi : view w i = some ⟨some (ys ++ zs), a⟩) {xs : List α} {m : Nat} (h0 : 0 < m) (hm : m < xs.length)
    (hg : ∀ j < m, thr (w.heap.ctors + j) = false) (ht : thr (w.heap.ctors + m) = true) :
    ((do let p ← iterAt l ys.length; insertAfterRangeT cfg thr l p xs) w.heap).SafeIf (Refuses cfg) (fun q =>
      q.1.1 = true ∧ traverse q.1.2 q.2 = Out.ub ∧ destruct cfg q.1.2 q.2 = Out.ub) := by
  obtain ⟨C, hd, tl, c1, c2, I, hC, e1, e2, rfl⟩ := split_get hr hv hi
  have r := I.rep hC
  simp only [Prog.bind_run, ← e1, List.length_map, iterAt_ok r, Out.bind_ok]
  exact (insertAfterRangeT_bad I.bal r h0 hm hg ht).imp fun _ h => ⟨h.1, h.2.1, h.2.2.1⟩

/-- C78 fails: the same for `insert_after(pos, count, value)`. -/
theorem C78_fill_throw_fails (hr : Reach cfg w) {i : Nat} {l : Lst} (hv : w.vars i = some l) {ys zs : List α} {a : Nat}
    (hi : view w i = some ⟨some (ys ++ zs), a⟩) (x : α) {n m : Nat} (h0 : 0 < m) (hm : m < n)
    (hg : ∀ j < m, thr (w.heap.ctors + j) = false) (ht : thr (w.heap.ctors + m) = true) :
    ((do let p ← iterAt l ys.length; insertAfterFillT cfg thr l p n (.tmp x)) w.heap).SafeIf (Refuses cfg) (fun q =>
      q.1.1 = true ∧ traverse q.1.2 q.2 = Out.ub ∧ destruct cfg q.1.2 q.2 = Out.ub) := by
  obtain ⟨C, hd, tl, c1, c2, I, hC, e1, e2, rfl⟩ := split_get hr hv hi
  have r := I.rep hC
  simp only [Prog.bind_run, ← e1, List.length_map, iterAt_ok r, Out.bind_ok]
  exact (insertAfterFillT_bad I.bal r (refIs_tmp (x := x)) h0 hm hg ht).imp fun _ h => ⟨h.1, h.2.1, h.2.2.1⟩

/-- C78 fails: the same for `insert(pos, first, last)` of a doubly linked list. -/
theorem C78_insert_range_throw_fails (hr : Reach cfg w) (hd' : cfg.dbl = true) {i : Nat} {l : Lst} (hv : w.vars i = some l)
    {ys zs : List α} {a : Nat} (hi : view w i = some ⟨some (ys ++ zs), a⟩) {xs : List α} {m : Nat} (h0 : 0 < m) (hm : m < xs.length)
    (hg : ∀ j < m, thr (w.heap.ctors + j) = false) (ht : thr (w.heap.ctors + m) = true) :
    ((do let p ← iterAt l (ys.length + 1); insertRangeT cfg thr l p xs) w.heap).SafeIf (Refuses cfg) (fun q =>
      q.1.1 = true ∧ traverse q.1.2 q.2 = Out.ub ∧ destruct cfg q.1.2 q.2 = Out.ub) := by
  obtain ⟨C, hd, tl, c1, c2, I, hC, e1, e2, rfl⟩ := split_get hr hv hi
  have r := I.rep hC
  simp only [Prog.bind_run, ← e1, List.length_map, iterAt_next r, Out.bind_ok]
  exact (insertRangeT_bad I.bal r hd' h0 hm hg ht).imp fun _ h => ⟨h.1, h.2.1, h.2.2.1⟩

/-- C78 fails: the same for `insert(pos, count, value)` of a doubly linked list. -/
theorem C78_insert_fill_throw_fails (hr : Reach cfg w) (hd' : cfg.dbl = true) {i : Nat} {l : Lst} (hv : w.vars i = some l)
    {ys zs : List α} {a : Nat} (hi : view w i = some ⟨some (ys ++ zs), a⟩) (x : α) {n m : Nat} (h0 : 0 < m) (hm : m < n)
    (hg : ∀ j < m, thr (w.heap.ctors + j) = false) (ht : thr (w.heap.ctors + m) = true) :
    ((do let p ← iterAt l (ys.length + 1); insertFillT cfg thr l p n (.tmp x)) w.heap).SafeIf (Refuses cfg) (fun q =>
      q.1.1 = true ∧ traverse q.1.2 q.2 = Out.ub ∧ destruct cfg q.1.2 q.2 = Out.ub) := by
  obtain ⟨C, hd, tl, c1, c2, I, hC, e1, e2, rfl⟩ := split_get hr hv hi
  have r := I.rep hC
  simp only [Prog.bind_run, ← e1, List.length_map, iterAt_next r, Out.bind_ok]
  exact (insertFillT_bad I.bal r hd' (refIs_tmp (x := x)) h0 hm hg ht).imp fun _ h => ⟨h.1, h.2.1, h.2.2.1⟩

/-- C78 fails: the same for assignment of an initializer list. -/
theorem C78_list_assign_throw_fails (hr : Reach cfg w) {i : Nat} {l : Lst} (hv : w.vars i = some l) {ys : List α} {a : Nat}
    (hi : view w i = some ⟨some ys, a⟩) {xs : List α} {m : Nat} (h0 : 0 < m) (hm : m < xs.length)
    (hg : ∀ j < m, thr (w.heap.ctors + j) = false) (ht : thr (w.heap.ctors + m) = true) :
    (listAssignT cfg thr l xs w.heap).SafeIf (Refuses cfg) (fun q =>
      q.1.1 = true ∧ traverse q.1.2 q.2 = Out.ub ∧ destruct cfg q.1.2 q.2 = Out.ub) := by
  obtain ⟨C, hd, tl, c1, c2, I, hC, e1, e2, rfl⟩ := split_get (ys := []) (zs := ys) hr hv hi
  exact (listAssignT_bad I.bal (I.rep hC) h0 hm hg ht).imp fun _ h => ⟨h.1, h.2.1, h.2.2.1⟩

/-- C78 fails: copy assignment from another list, when the copy of any element throws: the assigned list refers to nodes that are gone;
using or destroying it is undefined. -/
theorem C78_copy_assign_throw_fails (hr : Reach cfg w) {i j : Nat} (hij : i ≠ j) {l o : Lst} (hv : w.vars i = some l) (hw : w.vars j = some o)
    {xs ys : List α} {a b : Nat} (hi : view w i = some ⟨some xs, a⟩) (hj : view w j = some ⟨some ys, b⟩) {m : Nat} (hm : m < ys.length)
    (hg : ∀ k < m, thr (w.heap.ctors + k) = false) (ht : thr (w.heap.ctors + m) = true) :
    (copyAssignT cfg thr l o w.heap).SafeIf (Refuses cfg) (fun q =>
      q.1.1 = true ∧ traverse q.1.2 q.2 = Out.ub ∧ destruct cfg q.1.2 q.2 = Out.ub) := by
  obtain ⟨C, hd, tl, cs, I, hC, e1, -⟩ := reach_get hr hi
  rw [I.view] at hj
  obtain ⟨hd2, tl2, ds, hD, e2⟩ := ideal_full hj rfl
  rw [I.var hC] at hv; cases hv
  rw [I.var hD] at hw; cases hw
  have hl : ds.length = ys.length := by rw [← e2]; simp
  refine (copyAssignT_bad I.bal (I.rep hC) (I.rep hD) ?_ (m := m) (by omega) hg ht).imp ?_
  · intro a ha
    have := I.sep i j hij a (by rw [hC]; exact ha)
    rw [hD] at this; exact this
  · rintro q ⟨h1, h2, h3, -⟩
    exact ⟨by rw [h1], h2, h3⟩

/-- C78 fails: a constructor from a range whose `m`-th copy throws gives no object, but keeps two virtual nodes, `m + 1` element nodes and
`m` elements that nobody will ever destroy. -/
theorem C78_construct_leak_fails (hr : Reach cfg w) (a : Nat) {xs : List α} {m : Nat} (hm : m < xs.length)
    (hg : ∀ j < m, thr (w.heap.ctors + j) = false) (ht : thr (w.heap.ctors + m) = true) :
    (newRangeT cfg thr xs a w.heap).SafeIf (Refuses cfg) (fun q =>
      q.1 = none ∧ q.2.ctors = w.heap.ctors + m ∧ q.2.dtors = w.heap.dtors ∧
      q.2.newBytes = w.heap.newBytes + 2 * cfg.vsize + (m + 1) * cfg.dsize ∧ q.2.freeBytes = w.heap.freeBytes) := by
  obtain ⟨C, I⟩ := reach_inv hr
  refine (newRangeT_bad I.bal hm hg ht a).imp ?_
  rintro q ⟨h1, h2, h3, h4, h5, -⟩
  exact ⟨h1, h2, h3, h4, h5⟩

/-- C78 fails: the same for the constructors of `n` copies of a value or of `n` value-initialised elements, and for both copy
constructors. -/
theorem C78_construct_fill_copy_leak_fails (hr : Reach cfg w) (a : Nat) (x : α) {i : Nat} {l : Lst} (hv : w.vars i = some l) {xs : List α} {b : Nat}
    (hi : view w i = some ⟨some xs, b⟩) {m : Nat} (hg : ∀ j < m, thr (w.heap.ctors + j) = false) (ht : thr (w.heap.ctors + m) = true) :
    (∀ n, m < n → (newFillT cfg thr n (.tmp x) a w.heap).SafeIf (Refuses cfg) (fun q =>
      q.1 = none ∧ q.2.ctors = w.heap.ctors + m ∧ q.2.dtors = w.heap.dtors ∧
      q.2.newBytes = w.heap.newBytes + 2 * cfg.vsize + (m + 1) * cfg.dsize ∧ q.2.freeBytes = w.heap.freeBytes)) ∧
    (m < xs.length → (newCopyT cfg thr l a w.heap).SafeIf (Refuses cfg) (fun q =>
      q.1 = none ∧ q.2.ctors = w.heap.ctors + m ∧ q.2.dtors = w.heap.dtors ∧
      q.2.newBytes = w.heap.newBytes + 2 * cfg.vsize + (m + 1) * cfg.dsize ∧ q.2.freeBytes = w.heap.freeBytes)) := by
  obtain ⟨C, hd, tl, cs, I, hC, e, -⟩ := reach_get hr hi
  rw [I.var hC] at hv; cases hv
  refine ⟨fun n hm => (newFillT_bad I.bal (refIs_tmp (x := x)) hm hg ht a).imp fun _ h => ⟨h.1, h.2.1⟩, fun hm => ?_⟩
  have hl : cs.length = xs.length := by rw [← e]; simp
  exact (newCopyT_bad I.bal (I.rep hC) (by omega) hg ht a).imp fun _ h => ⟨h.1, h.2.1⟩

/-- C78 fails: `resize` is `noexcept`: growing a list past the size at which an element's constructor throws ends the program. -/
theorem C78_resize_throw_fails (hr : Reach cfg w) {i : Nat} {l : Lst} (hv : w.vars i = some l) {xs : List α} {b : Nat}
    (hi : view w i = some ⟨some xs, b⟩) (x : α) {n m : Nat} (hm : xs.length + m < n) (ht : thr (w.heap.ctors + m) = true) :
    resizeFillT cfg thr l n (.tmp x) w.heap = .panic ∨ (resizeFillT cfg thr l n (.tmp x) w.heap = .oom ∧ Refuses cfg) := by
  obtain ⟨C, hd, tl, cs, I, hC, e, -⟩ := reach_get hr hi
  rw [I.var hC] at hv; cases hv
  have hl : cs.length = xs.length := by rw [← e]; simp
  exact resizeFillT_bad I.bal (I.rep hC) (by omega) (refIs_tmp (x := x)) ht

/-- C78 fails: `from_iter` (and so `collect` into a list): if the constructor of any element but the first throws, the local list is
destroyed while its last node is not yet linked: undefined behaviour. -/
theorem C78_from_iter_throw_fails (hr : Reach cfg w) {xs : List α} {m : Nat} (h0 : 0 < m) (hm : m < xs.length)
    (hg : ∀ j < m, thr (w.heap.ctors + j) = false) (ht : thr (w.heap.ctors + m) = true) :
    fromIterT cfg thr xs w.heap = .ub ∨ (fromIterT cfg thr xs w.heap = .oom ∧ Refuses cfg) := by
  obtain ⟨C, I⟩ := reach_inv hr
  exact fromIterT_bad I.bal h0 hm hg ht

/-- C78 (partial): if the first element's constructor throws, `from_iter` gives no list and leaves every list of the program as it was.
Missing: the node obtained for that element is lost. -/
theorem C78_from_iter_first_partial (hr : Reach cfg w) {xs : List α} (hx : xs ≠ []) (ht : thr w.heap.ctors = true) :
    (fromIterT cfg thr xs w.heap).SafeIf (Refuses cfg) (fun q =>
      q.1 = none ∧ view { w with heap := q.2 } = view w ∧ cells { w with heap := q.2 } = cells w ∧
      q.2.ctors = w.heap.ctors ∧ q.2.dtors = w.heap.dtors) := by
  obtain ⟨C, I⟩ := reach_inv hr
  refine (fromIterT_first I.bal hx ht).imp ?_
  rintro q ⟨h1, b, k, s, hc, hd, -⟩
  obtain ⟨v1, v2⟩ := I.unseen s
  exact ⟨h1, v1, v2, by rw [s.ctors, hc]; rfl, by rw [s.dtors, hd]; rfl⟩

/-- C78 fails: `push_front`, `emplace_front`, `push_back`, `emplace_back` are `noexcept`: a constructor that throws ends the program. -/
theorem C78_push_throw_fails (l : Lst) (x : α) (h : Heap α) (ht : thr h.ctors = true) (hf : cfg.refuse h.next cfg.dsize = false) :
    pushFrontT cfg thr l (.tmp x) h = .panic ∧ pushBackT cfg thr l (.tmp x) h = .panic := by
  constructor <;>
    simp [pushFrontT, pushBackT, Prog.bind_run, deref, constructNodeT_eq, ht, hf, Prog.panic]

/-! ## A case of each -/

/-- On both list types there is a reachable state with a list `[3, 1, 2, 1]` and a list `[5, 7]`, whose variables have fields. -/
theorem exThrow (dbl : Bool) : ∃ w l o, Reach (exCfg dbl) w ∧ w.vars 0 = some l ∧ w.vars 1 = some o ∧
    view w 0 = some ⟨some ([3, 1] ++ [2, 1]), 0⟩ ∧ view w 1 = some ⟨some [5, 7], 0⟩ := by
  obtain ⟨w, h, hP⟩ := exReach dbl
  obtain ⟨C, hd, tl, cs, I, hC, -, -⟩ := reach_get h (hP 0 (by decide))
  obtain ⟨hd', tl', cs', hD, -⟩ := ideal_full (by rw [← I.view]; exact hP 1 (by decide)) rfl
  exact ⟨w, _, _, h, I.var hC, I.var hD, hP 0 (by decide), hP 1 (by decide)⟩

/-- the first construction throws -/
example (dbl : Bool) : ∃ w l, ∃ thr : Nat → Bool, Reach (exCfg dbl) w ∧ w.vars 0 = some l ∧
    ((do let p ← iterAt l 2; emplaceAfterT (exCfg dbl) thr l p (.tmp 9)) w.heap).SafeIf (Refuses (exCfg dbl)) (fun q =>
      q.1 = (true, l) ∧ view { w with heap := q.2 } = view w ∧ cells { w with heap := q.2 } = cells w) := by
  obtain ⟨w, l, o, h, hl, ho, h0, h1⟩ := exThrow dbl
  exact ⟨w, l, fun _ => true, h, hl, (C78_insert_partial h hl h0 9 rfl).1⟩

/-- the second construction throws, doubly linked list -/
example : ∃ w l, ∃ thr : Nat → Bool, Reach (exCfg true) w ∧ w.vars 0 = some l ∧
    ((do let p ← iterAt l 3; insertRangeT (exCfg true) thr l p [7, 8, 9]) w.heap).SafeIf (Refuses (exCfg true)) (fun q =>
      q.1.1 = true ∧ traverse q.1.2 q.2 = Out.ub ∧ destruct (exCfg true) q.1.2 q.2 = Out.ub) ∧
    ((do let p ← iterAt l 3; insertFillT (exCfg true) thr l p 3 (.tmp 9)) w.heap).SafeIf (Refuses (exCfg true)) (fun q =>
      q.1.1 = true ∧ traverse q.1.2 q.2 = Out.ub ∧ destruct (exCfg true) q.1.2 q.2 = Out.ub) := by
  obtain ⟨w, l, o, h, hl, ho, h0, h1⟩ := exThrow true
  have hg : ∀ j < 1, (fun k => k == w.heap.ctors + 1) (w.heap.ctors + j) = false := by
    intro j hj; obtain rfl : j = 0 := by omega
    simp
  exact ⟨w, l, fun k => k == w.heap.ctors + 1, h, hl, C78_insert_range_throw_fails h rfl hl h0 (by decide) (by decide) hg (by simp),
    C78_insert_fill_throw_fails h rfl hl h0 9 (by decide) (by decide) hg (by simp)⟩

/-- the second construction throws -/
example (dbl : Bool) : ∃ w l o, ∃ thr : Nat → Bool, Reach (exCfg dbl) w ∧ w.vars 0 = some l ∧ w.vars 1 = some o ∧
    ((do let p ← iterAt l 2; insertAfterRangeT (exCfg dbl) thr l p [7, 8, 9]) w.heap).SafeIf (Refuses (exCfg dbl)) (fun q =>
      q.1.1 = true ∧ traverse q.1.2 q.2 = Out.ub ∧ destruct (exCfg dbl) q.1.2 q.2 = Out.ub) ∧
    ((do let p ← iterAt l 2; insertAfterFillT (exCfg dbl) thr l p 3 (.tmp 9)) w.heap).SafeIf (Refuses (exCfg dbl)) (fun q =>
      q.1.1 = true ∧ traverse q.1.2 q.2 = Out.ub ∧ destruct (exCfg dbl) q.1.2 q.2 = Out.ub) ∧
    (listAssignT (exCfg dbl) thr l [7, 8, 9] w.heap).SafeIf (Refuses (exCfg dbl)) (fun q =>
      q.1.1 = true ∧ traverse q.1.2 q.2 = Out.ub ∧ destruct (exCfg dbl) q.1.2 q.2 = Out.ub) ∧
    (copyAssignT (exCfg dbl) thr l o w.heap).SafeIf (Refuses (exCfg dbl)) (fun q =>
      q.1.1 = true ∧ traverse q.1.2 q.2 = Out.ub ∧ destruct (exCfg dbl) q.1.2 q.2 = Out.ub) ∧
    (newRangeT (exCfg dbl) thr [7, 8, 9] 0 w.heap).SafeIf (Refuses (exCfg dbl)) (fun q =>
      q.1 = none ∧ q.2.ctors = w.heap.ctors + 1 ∧ q.2.dtors = w.heap.dtors ∧
      q.2.newBytes = w.heap.newBytes + 2 * (exCfg dbl).vsize + (1 + 1) * (exCfg dbl).dsize ∧ q.2.freeBytes = w.heap.freeBytes) := by
  obtain ⟨w, l, o, h, hl, ho, h0, h1⟩ := exThrow dbl
  have hg : ∀ j < 1, (fun k => k == w.heap.ctors + 1) (w.heap.ctors + j) = false := by
    intro j hj; obtain rfl : j = 0 := by omega
    simp
  refine ⟨w, l, o, fun k => k == w.heap.ctors + 1, h, hl, ho, ?_, ?_, ?_, ?_, ?_⟩
  · exact C78_range_throw_fails h hl h0 (by decide) (by decide) hg (by simp)
  · exact C78_fill_throw_fails h hl h0 9 (by decide) (by decide) hg (by simp)
  · exact C78_list_assign_throw_fails h hl h0 (by decide) (by decide) hg (by simp)
  · exact C78_copy_assign_throw_fails h (by decide) hl ho h0 h1 (m := 1) (by decide) hg (by simp)
  · exact C78_construct_leak_fails h 0 (by decide) hg (by simp)

/-- the second construction throws -/
example (dbl : Bool) : ∃ w l, ∃ thr : Nat → Bool, Reach (exCfg dbl) w ∧ w.vars 0 = some l ∧
    resizeFillT (exCfg dbl) thr l 6 (.tmp 9) w.heap = .panic ∧
    fromIterT (exCfg dbl) thr [7, 8, 9] w.heap = .ub ∧
    (newFillT (exCfg dbl) thr 3 (.tmp 9) 0 w.heap).SafeIf (Refuses (exCfg dbl)) (fun q =>
      q.1 = none ∧ q.2.ctors = w.heap.ctors + 1 ∧ q.2.dtors = w.heap.dtors ∧
      q.2.newBytes = w.heap.newBytes + 2 * (exCfg dbl).vsize + (1 + 1) * (exCfg dbl).dsize ∧ q.2.freeBytes = w.heap.freeBytes) ∧
    (newCopyT (exCfg dbl) thr l 0 w.heap).SafeIf (Refuses (exCfg dbl)) (fun q =>
      q.1 = none ∧ q.2.ctors = w.heap.ctors + 1 ∧ q.2.dtors = w.heap.dtors ∧
      q.2.newBytes = w.heap.newBytes + 2 * (exCfg dbl).vsize + (1 + 1) * (exCfg dbl).dsize ∧ q.2.freeBytes = w.heap.freeBytes) := by
  obtain ⟨w, l, o, h, hl, ho, h0, h1⟩ := exThrow dbl
  have hg : ∀ j < 1, (fun k => k == w.heap.ctors + 1) (w.heap.ctors + j) = false := by
    intro j hj; obtain rfl : j = 0 := by omega
    simp
  have hrf : ¬ Refuses (exCfg dbl) := by rintro ⟨_, _, hf⟩; simp [exCfg] at hf
  obtain ⟨c1, c2⟩ := C78_construct_fill_copy_leak_fails (thr := fun k => k == w.heap.ctors + 1) (m := 1) h 0 9 hl h0 hg (by simp)
  refine ⟨w, l, fun k => k == w.heap.ctors + 1, h, hl, ?_, ?_, c1 3 (by decide), c2 (by decide)⟩
  · rcases C78_resize_throw_fails (thr := fun k => k == w.heap.ctors + 1) h hl h0 9 (n := 6) (m := 1) (by decide) (by simp) with e | ⟨-, e⟩
    · exact e
    · exact absurd e hrf
  · rcases C78_from_iter_throw_fails (thr := fun k => k == w.heap.ctors + 1) (m := 1) h (xs := [7, 8, 9]) (by decide) (by decide) hg (by simp) with e | ⟨-, e⟩
    · exact e
    · exact absurd e hrf

/-- the first construction throws -/
example (dbl : Bool) : ∃ w, Reach (exCfg dbl) w ∧ (fromIterT (exCfg dbl) (fun _ => true) [7, 8, 9] w.heap).SafeIf (Refuses (exCfg dbl)) (fun q =>
      q.1 = none ∧ view { w with heap := q.2 } = view w ∧ cells { w with heap := q.2 } = cells w ∧
      q.2.ctors = w.heap.ctors ∧ q.2.dtors = w.heap.dtors) := by
  obtain ⟨w, l, o, h, hl, ho, h0, h1⟩ := exThrow dbl
  exact ⟨w, h, C78_from_iter_first_partial h (by decide) rfl⟩

/-- the allocator of the example grants these calls their memory, so the outcomes above do occur -/
example (dbl : Bool) (l : Lst) (h : Heap Nat) :
    pushFrontT (exCfg dbl) (fun _ => true) l (.tmp 9) h = .panic ∧ pushBackT (exCfg dbl) (fun _ => true) l (.tmp 9) h = .panic :=
  C78_push_throw_fails l 9 h rfl (by simp [exCfg])

end Verif.Props.Lists
