import Verif.Proof.LLIter
import Verif.Props.LinkedList
/-!
# Properties C79 and C33 (part): iterators of a list as positions

`walkIn i s ms`: the client takes `before_begin()`, `begin()` or `end()` of list variable `i` and applies the moves `ms` (`++`, `--`,
prefix and postfix).  `walk n ms p` is where these moves lead from position `p` in a list of `n` elements, `none` if the iterator is moved
again after it left the list (Spec/LinkedListIter.lean).
-/
namespace Verif.Props.Lists
open Verif Verif.Model.LL Verif.Proof.LL
open Verif.Spec.LL hiding sorted walk
open Verif.Spec.LL (Pos)

variable {α : Type} {cfg : Cfg α} {w : World α} {i : Nat}

/-- C79.  Moving an iterator is moving a position, up for every list and down for doubly linked ones.  The walk is undefined exactly if an
iterator that left the list is moved again; otherwise reading gives the element at the position and is undefined if there is none. -/
theorem C79_walk (hr : Reach cfg w) {xs : List α} {a : Nat} (hi : view w i = some ⟨some xs, a⟩) (s : Start) {ms : List Move}
    (hm : cfg.dbl = true ∨ ms.all forward = true) :
    match Spec.LL.walk xs.length ms (startPos xs.length s) with
    | none => walkIn i s ms w = .ub
    | some p => ∃ it, walkIn i s ms w = .ok (it, w) ∧
        load it w.heap = match elemAtPos xs p with
          | some x => .ok (x, w.heap)
          | none => .ub := by
  obtain ⟨C, hd, tl, cs, I, hC, rfl, -⟩ := reach_get hr hi
  have e := walkIn_run I hC s hm
  rw [show ∀ cs : Cells α, (vals cs).length = cs.length from fun _ => List.length_map _, e]
  cases hw : Spec.LL.walk cs.length ms (startPos cs.length s) with
  | none => rfl
  | some p =>
    refine ⟨_, rfl, ?_⟩
    rw [load_ptr (I.rep hC) (valid_walk valid_start hw)]
    cases elemAtPos (vals cs) p <;> rfl

/-- C79.  Two iterators of the same list are equal exactly if they are at the same position. -/
theorem C79_equal (hr : Reach cfg w) {xs : List α} {a : Nat} (hi : view w i = some ⟨some xs, a⟩) {s t : Start} {ms ns : List Move}
    (hm : cfg.dbl = true ∨ ms.all forward = true) (hn : cfg.dbl = true ∨ ns.all forward = true) {p q : Pos}
    (hp : Spec.LL.walk xs.length ms (startPos xs.length s) = some p) (hq : Spec.LL.walk xs.length ns (startPos xs.length t) = some q) :
    ∃ it jt, walkIn i s ms w = .ok (it, w) ∧ walkIn i t ns w = .ok (jt, w) ∧ (itEq it jt = true ↔ p = q) := by
  obtain ⟨C, hd, tl, cs, I, hC, rfl, -⟩ := reach_get hr hi
  rw [show ∀ cs : Cells α, (vals cs).length = cs.length from fun _ => List.length_map _] at hp hq
  refine ⟨ptrOf hd tl cs p, ptrOf hd tl cs q, ?_, ?_, ?_⟩
  · rw [walkIn_run I hC s hm, hp]
  · rw [walkIn_run I hC t hn, hq]
  · simp only [itEq, decide_eq_true_eq]
    exact ⟨ptr_inj (I.rep hC) (valid_walk valid_start hp) (valid_walk valid_start hq), fun e => by rw [e]⟩

/-- C79.  Iterators of different lists are never equal, wherever in the lists they are. -/
theorem C79_other_list (hr : Reach cfg w) {j : Nat} (hij : i ≠ j) {xs ys : List α} {a b : Nat} (hi : view w i = some ⟨some xs, a⟩)
    (hj : view w j = some ⟨some ys, b⟩) {s t : Start} {ms ns : List Move} (hm : cfg.dbl = true ∨ ms.all forward = true)
    (hn : cfg.dbl = true ∨ ns.all forward = true) {k k' : Nat} (hp : Spec.LL.walk xs.length ms (startPos xs.length s) = some (.at k))
    (hq : Spec.LL.walk ys.length ns (startPos ys.length t) = some (.at k')) :
    ∃ it jt, walkIn i s ms w = .ok (it, w) ∧ walkIn j t ns w = .ok (jt, w) ∧ itEq it jt = false := by
  obtain ⟨C, hd, tl, cs, I, hC, rfl, -⟩ := reach_get hr hi
  rw [I.view] at hj
  obtain ⟨hd', tl', ds, hD, rfl⟩ := ideal_full hj rfl
  simp only [show ∀ cs : Cells α, (vals cs).length = cs.length from fun _ => List.length_map _] at hp hq hD
  refine ⟨ptrOf hd tl cs (.at k), ptrOf hd' tl' ds (.at k'), ?_, ?_, ?_⟩
  · rw [walkIn_run I hC s hm, hp]
  · rw [walkIn_run I hD t hn, hq]
  · have v1 := valid_walk valid_start hp
    have v2 := valid_walk valid_start hq
    simp only [Valid] at v1 v2
    have l1 : (nodes hd tl cs).length = cs.length + 2 := by simp [nodes, addrs]
    have hk : k < (nodes hd tl cs).length := by omega
    simp only [itEq, ptrOf]
    refine decide_eq_false fun e => ?_
    rw [List.getElem?_eq_getElem hk] at e
    refine I.sep i j hij _ (by rw [hC]; exact List.getElem_mem hk) ?_
    rw [hD]; exact List.mem_of_getElem? e.symm

/-- C79.  Writing through an iterator replaces the element at its position and nothing else, in any list. -/
theorem C79_write (hr : Reach cfg w) {xs : List α} {a : Nat} (hi : view w i = some ⟨some xs, a⟩) {s : Start} {ms : List Move}
    (hm : cfg.dbl = true ∨ ms.all forward = true) {k : Nat} (hp : Spec.LL.walk xs.length ms (startPos xs.length s) = some (.at (k + 1)))
    (hk : k < xs.length) (y : α) :
    ∃ it, walkIn i s ms w = .ok (it, w) ∧
      ∃ w', inHeap (store it y) w = .ok ((), w') ∧ Reach cfg w' ∧ view w' = put (view w) i (some ⟨some (xs.set k y), a⟩) := by
  obtain ⟨C, hd, tl, cs, I, hC, rfl, -⟩ := reach_get hr hi
  simp only [show ∀ cs : Cells α, (vals cs).length = cs.length from fun _ => List.length_map _] at hp hk
  refine ⟨_, by rw [walkIn_run I hC s hm, hp], ?_⟩
  have hs : ptrOf hd tl cs (.at (k + 1)) = some cs[k].1 := by
    simp only [ptrOf]; rw [ptr_head (by omega), List.drop_eq_getElem_cons hk, headOf_cons]
  have e := store_run (y := y) ((I.rep hC).cells cs[k] (List.getElem_mem hk))
  have hstore : inHeap (store (ptrOf hd tl cs (.at (k + 1))) y) w = .ok ((), { w with heap := poke cfg a w.heap cs[k].1 y }) := by
    simp only [inHeap, hs, e]; rfl
  refine ⟨_, hstore, ?_⟩
  have h2 : step cfg (.set i (k + 1) y) w = .ok (.unit, { w with heap := poke cfg a w.heap cs[k].1 y }) := by
    have r : Rep cfg w.heap hd tl (cs.take k ++ cs[k] :: cs.drop (k + 1)) a := by simpa using I.rep hC
    have := set_ok r y
    rw [show cs.take k ++ cs[k] :: cs.drop (k + 1) = cs by simp, List.length_take, Nat.min_eq_left (by omega)] at this
    simp only [Prog.bind_run] at this
    simp only [step, look, Prog.bind_run, var_run (I.var hC), Out.bind_ok, inHeap_run]
    cases e : iterAt (lst hd tl cs a) (k + 1) w.heap with
    | ok q => rw [e] at this; simp only [Out.bind_ok] at this ⊢; rw [this]; rfl
    | _ => rw [e] at this; cases this
  have h1 := reach_step hr (op := .set i (k + 1) y) (r := .unit) (A' := put (view w) i (some ⟨some ((vals cs).set k y), a⟩)) (by
    simp [specStep, edit, needs, hi, vals]; omega)
  rw [h2] at h1
  exact ⟨h1.2.2.1, h1.2.1⟩

/-- C33 is false of the code: the reverse iterators of a doubly linked list cannot be moved at all: neither `++`, `--` nor their postfix forms terminate. -/
theorem C33_reverse_step_fails (up : Bool) (cur : Ptr) (h : Heap α) : stepRev up cur h = .div ∧ postRev up cur h = .div :=
  ⟨stepRev_div up cur h, postRev_div up cur h⟩

example (dbl : Bool) : ∃ w, Reach (exCfg dbl) w ∧ view w 0 = some ⟨some [3, 1, 2, 1], 0⟩ ∧ view w 1 = some ⟨some [5, 7], 0⟩ ∧
    Spec.LL.walk 4 [.inc, .postInc true, .postInc false] (startPos 4 .begin) = some (.at 3) ∧ elemAtPos [3, 1, 2, 1] (.at 3) = some 2 ∧
    Spec.LL.walk 4 [.dec, .postDec false] (startPos 4 .fin) = some (.at 3) ∧
    Spec.LL.walk 4 [.inc] (startPos 4 .fin) = some .off ∧ Spec.LL.walk 4 [.inc, .inc] (startPos 4 .fin) = none := by
  obtain ⟨w, h, hP⟩ := exReach dbl
  exact ⟨w, h, hP 0 (by decide), hP 1 (by decide), by decide, by decide, by decide, by decide, by decide⟩

end Verif.Props.Lists
