import Verif.Spec.LinkedListIter
import Verif.Proof.LLReach
import Verif.Proof.LLFail2
/-! # Linked lists: iterators -/
namespace Verif.Proof.LL
open Verif Verif.Model.LL
open Verif.Spec.LL (Pos)

variable {α : Type} {cfg : Cfg α} {h : Heap α} {hd tl own : Nat} {cs : Cells α}

/-- the pointer of a position -/
def ptrOf (hd tl : Nat) (cs : Cells α) : Pos → Ptr
  | .at k => (nodes hd tl cs)[k]?
  | .off => none

/-- a position of the list, or nowhere -/
def Valid (n : Nat) : Pos → Prop
  | .at k => k ≤ n + 1
  | .off => True

theorem ptr_last {k : Nat} (hk : k ≤ cs.length) : (nodes hd tl cs)[k]? = some (lastOf hd (cs.take k)) := by
  induction cs generalizing hd k with
  | nil => obtain rfl : k = 0 := by simpa using hk
           simp [nodes]
  | cons c cs ih =>
    cases k with
    | zero => simp [nodes]
    | succ k =>
      have := ih (hd := c.1) (k := k) (by simpa using hk)
      simp only [nodes, addrs, List.map_cons, List.cons_append, List.getElem?_cons_succ, List.take_succ_cons] at this ⊢
      rw [this]; simp [lastOf_cons]

theorem ptr_head {k : Nat} (hk : k ≤ cs.length) : (nodes hd tl cs)[k + 1]? = some (headOf tl (cs.drop k)) := by
  induction cs generalizing hd k with
  | nil => obtain rfl : k = 0 := by simpa using hk
           simp [nodes, addrs]
  | cons c cs ih =>
    cases k with
    | zero => simp [nodes, addrs]
    | succ k =>
      have := ih (hd := c.1) (k := k) (by simpa using hk)
      simp only [nodes, addrs, List.map_cons, List.cons_append, List.getElem?_cons_succ, List.drop_succ_cons] at this ⊢
      exact this

theorem ptr_end : (nodes hd tl cs)[cs.length + 1]? = some tl := by
  have := ptr_head (hd := hd) (tl := tl) (cs := cs) (Nat.le_refl _)
  simpa using this

theorem getNext_ptr (r : Rep cfg h hd tl cs own) {p : Pos} (hv : Valid cs.length p) :
    getNext (ptrOf hd tl cs p) h = match Spec.LL.up cs.length p with
      | none => .ub
      | some q => .ok (ptrOf hd tl cs q, h) := by
  cases p with
  | off => rfl
  | «at» k =>
    simp only [Spec.LL.up, ptrOf]
    by_cases hk : k ≤ cs.length
    · rw [ptr_last hk, if_pos hk]
      simp only [ptrOf]
      rw [ptr_head hk]
      exact Rep.getNext_at (c1 := cs.take k) (c2 := cs.drop k) (by simpa using r)
    · obtain rfl : k = cs.length + 1 := by simp only [Valid] at hv; omega
      rw [ptr_end, if_neg hk]
      exact getNext_run r.vtl.live r.last

theorem getPrev_ptr (r : Rep cfg h hd tl cs own) (hd' : cfg.dbl = true) {p : Pos} (hv : Valid cs.length p) :
    getPrev (ptrOf hd tl cs p) h = match Spec.LL.down p with
      | none => .ub
      | some q => .ok (ptrOf hd tl cs q, h) := by
  cases p with
  | off => rfl
  | «at» k =>
    cases k with
    | zero => exact getPrev_run r.vhd.live (r.first hd')
    | succ k =>
      simp only [Spec.LL.down, ptrOf]
      have hk : k ≤ cs.length := by simp only [Valid] at hv; omega
      rw [ptr_last hk, ptr_head hk]
      exact Rep.getPrev_at (c1 := cs.take k) (c2 := cs.drop k) (by simpa using r) hd'

theorem valid_up {n : Nat} {p q : Pos} (h : Spec.LL.up n p = some q) : Valid n q := by
  cases p with
  | off => cases h
  | «at» k =>
    simp only [Spec.LL.up, Option.some.injEq] at h
    subst h
    split
    · simp only [Valid]; omega
    · trivial

theorem valid_down {n : Nat} {p q : Pos} (hv : Valid n p) (h : Spec.LL.down p = some q) : Valid n q := by
  match p with
  | .off => cases h
  | .at 0 => cases h; trivial
  | .at (k + 1) => cases h; simp only [Valid] at hv ⊢; omega

theorem valid_move {n : Nat} {p q : Pos} {m : Move} (hv : Valid n p) (h : Spec.LL.move n m p = some q) : Valid n q := by
  cases m with
  | inc => exact valid_up h
  | dec => exact valid_down hv h
  | postInc old =>
    simp only [Spec.LL.move, Option.map_eq_some_iff] at h
    obtain ⟨q', h1, rfl⟩ := h
    cases old
    · exact valid_up h1
    · exact hv
  | postDec old =>
    simp only [Spec.LL.move, Option.map_eq_some_iff] at h
    obtain ⟨q', h1, rfl⟩ := h
    cases old
    · exact valid_down hv h1
    · exact hv

theorem apply_ptr (r : Rep cfg h hd tl cs own) {p : Pos} (hv : Valid cs.length p) {m : Move}
    (hm : cfg.dbl = true ∨ Spec.LL.forward m = true) :
    itApply (ptrOf hd tl cs p) m h = match Spec.LL.move cs.length m p with
      | none => .ub
      | some q => .ok (ptrOf hd tl cs q, h) := by
  have hdbl : Spec.LL.forward m = false → cfg.dbl = true := by
    intro e; rcases hm with hm | hm
    · exact hm
    · rw [hm] at e; cases e
  cases m with
  | inc => exact getNext_ptr r hv
  | dec => exact getPrev_ptr r (hdbl rfl) hv
  | postInc old =>
    simp only [itApply, itPostInc, Spec.LL.move, Prog.bind_run, getNext_ptr r hv]
    cases Spec.LL.up cs.length p with
    | none => rfl
    | some q => cases old <;> rfl
  | postDec old =>
    simp only [itApply, itPostDec, Spec.LL.move, Prog.bind_run, getPrev_ptr r (hdbl rfl) hv]
    cases Spec.LL.down p with
    | none => rfl
    | some q => cases old <;> rfl

theorem applyAll_ptr (r : Rep cfg h hd tl cs own) {p : Pos} (hv : Valid cs.length p) {ms : List Move}
    (hm : cfg.dbl = true ∨ ms.all Spec.LL.forward = true) :
    itApplyAll (ptrOf hd tl cs p) ms h = match Spec.LL.walk cs.length ms p with
      | none => .ub
      | some q => .ok (ptrOf hd tl cs q, h) := by
  induction ms generalizing p with
  | nil => rfl
  | cons m ms ih =>
    have h1 : cfg.dbl = true ∨ Spec.LL.forward m = true := hm.imp id fun h => by simp at h; exact h.1
    have h2 : cfg.dbl = true ∨ ms.all Spec.LL.forward = true := hm.imp id fun h => by simp at h; simpa using h.2
    simp only [itApplyAll, Spec.LL.walk, Prog.bind_run, apply_ptr r hv h1]
    cases e : Spec.LL.move cs.length m p with
    | none => rfl
    | some q => exact ih (valid_move hv e) h2

theorem valid_walk {n : Nat} {p q : Pos} {ms : List Move} (hv : Valid n p) (h : Spec.LL.walk n ms p = some q) : Valid n q := by
  induction ms generalizing p with
  | nil => cases h; exact hv
  | cons m ms ih =>
    simp only [Spec.LL.walk, Option.bind_eq_some_iff] at h
    obtain ⟨q', h1, h2⟩ := h
    exact ih (valid_move hv h1) h2

theorem valid_start {n : Nat} {s : Start} : Valid n (Spec.LL.startPos n s) := by
  cases s <;> simp [Spec.LL.startPos, Valid]

theorem start_ptr (r : Rep cfg h hd tl cs own) (s : Start) :
    startIt (lst hd tl cs own) s h = .ok (ptrOf hd tl cs (Spec.LL.startPos cs.length s), h) := by
  cases s with
  | beforeBegin => rfl
  | begin =>
    simp only [startIt, lst, Spec.LL.startPos]
    rw [r.getNext_hd]
    simp only [ptrOf, ptr_head (Nat.zero_le _), List.drop_zero]
  | fin => simp only [startIt, lst, Spec.LL.startPos, ptrOf, ptr_end]; rfl

theorem ptr_inj (r : Rep cfg h hd tl cs own) {p q : Pos} (hp : Valid cs.length p) (hq : Valid cs.length q)
    (he : ptrOf hd tl cs p = ptrOf hd tl cs q) : p = q := by
  have len : (nodes hd tl cs).length = cs.length + 2 := by simp [nodes, addrs]
  have out : ∀ k, k ≤ cs.length + 1 → (nodes hd tl cs)[k]? ≠ none := by
    intro k hk e
    rw [List.getElem?_eq_none_iff] at e; omega
  match p, q with
  | .off, .off => rfl
  | .off, .at k => exact absurd he.symm (out k hq)
  | .at k, .off => exact absurd he (out k hp)
  | .at k, .at k' =>
    simp only [Valid] at hp hq
    have := (List.getElem?_inj (by omega) r.nodup).1 he
    rw [this]

theorem load_ptr (r : Rep cfg h hd tl cs own) {p : Pos} (hv : Valid cs.length p) :
    load (ptrOf hd tl cs p) h = match Spec.LL.elemAtPos (vals cs) p with
      | none => .ub
      | some x => .ok (x, h) := by
  match p with
  | .off => rfl
  | .at 0 =>
    have := r.vhd
    simp only [ptrOf, Spec.LL.elemAtPos, nodes, List.getElem?_cons_zero]
    simp only [load, withNode]
    rw [show h.info hd = _ from this]
  | .at (k + 1) =>
    simp only [Valid] at hv
    simp only [ptrOf, Spec.LL.elemAtPos]
    rw [ptr_head (by omega)]
    by_cases hk : k < cs.length
    · rw [List.drop_eq_getElem_cons hk, headOf_cons, r.load_cell (c := cs[k]) (List.getElem_mem hk)]
      simp [vals, hk]
    · obtain rfl : k = cs.length := by omega
      have := r.vtl
      simp only [List.drop_length, headOf_nil, vals, List.getElem?_map, List.getElem?_eq_none (Nat.le_refl _), Option.map_none]
      simp only [load, withNode]
      rw [show h.info tl = _ from this]

theorem postRev_div (up : Bool) (cur : Ptr) (h : Heap α) : postRev up cur h = .div := by
  have := postRev.fixpoint_induct (α := α) cur (fun f => ∀ up h, f up h = .div) ?_ ?_
  · exact this up h
  · refine Lean.Order.admissible_pi_apply (fun _ (g : M α (Ptr × Ptr)) => ∀ h, g h = .div) fun up => ?_
    refine Lean.Order.admissible_pi_apply (β := fun _ : Heap α => Out ((Ptr × Ptr) × Heap α)) (fun _ (o : Out ((Ptr × Ptr) × Heap α)) => o = .div) fun h => ?_
    exact Lean.Order.admissible_flatOrder (b := (Out.div : Out ((Ptr × Ptr) × Heap α))) (fun o => o = (Out.div : Out ((Ptr × Ptr) × Heap α))) rfl
  · intro f ih up h; exact ih _ h

theorem walkIn_run {C : Ghost α} {w : World α} {i : Nat} (I : Inv cfg C w) (hC : C i = some (full hd tl cs own)) (s : Start) {ms : List Move}
    (hm : cfg.dbl = true ∨ ms.all Spec.LL.forward = true) :
    walkIn i s ms w = match Spec.LL.walk cs.length ms (Spec.LL.startPos cs.length s) with
      | none => .ub
      | some q => .ok (ptrOf hd tl cs q, w) := by
  have hv : var i w = .ok (lst hd tl cs own, w) := by simp [var, I.var hC]
  simp only [walkIn, Prog.bind_run, hv, Out.bind_ok, inHeap, start_ptr (I.rep hC)]
  show (itApplyAll (ptrOf hd tl cs _) ms w.heap >>= _) = _
  rw [applyAll_ptr (I.rep hC) valid_start hm]
  cases Spec.LL.walk cs.length ms (Spec.LL.startPos cs.length s) <;> rfl

end Verif.Proof.LL
