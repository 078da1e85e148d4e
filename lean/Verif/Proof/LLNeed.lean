import Verif.Proof.LLReach
import Verif.Spec.LinkedListNeed
/-! # Linked lists: which calls ask for memory, and when they fail for lack of it -/
namespace Verif.Proof.LL
open Verif Verif.Model.LL
open Verif.Spec.LL hiding sorted
open Verif.Spec (End)
open Verif.Proof.Mem (Cost)

variable {α β γ σ : Type} {cfg : Cfg α}

/-- `p` asks for no memory. -/
def NoMem (nx : σ → Nat) (p : Prog σ β) : Prop := ∀ s, p s ≠ .oom ∧ ∀ b s', p s = .ok (b, s') → nx s' = nx s

abbrev NM (p : M α β) : Prop := NoMem Heap.next p
abbrev NW (p : Prog (World α) β) : Prop := NoMem (fun w => w.heap.next) p

section
variable {nx : σ → Nat}

theorem NoMem.bind {p : Prog σ β} {f : β → Prog σ γ} (h : NoMem nx p) (hf : ∀ b, NoMem nx (f b)) : NoMem nx (p >>= f) := by
  intro s
  simp only [Prog.bind_run]
  cases hp : p s with
  | ok b =>
    obtain ⟨b, s'⟩ := b
    refine ⟨(hf b s').1, fun c s2 e => ?_⟩
    rw [(hf b s').2 c s2 e, (h s).2 b s' hp]
  | oom => exact absurd hp (h s).1
  | _ => exact ⟨(by simp), fun _ _ h => by simp at h⟩

theorem NoMem.pure {b : β} : NoMem nx (Pure.pure b : Prog σ β) := by
  intro s
  refine ⟨(by simp), fun b' s' e => ?_⟩
  simp only [Prog.pure_run, Out.ok.injEq, Prod.mk.injEq] at e
  rw [e.2]

theorem NoMem.adm : Lean.Order.admissible fun p : Prog σ β => NoMem nx p := by
  refine Lean.Order.admissible_pi_apply (β := fun _ : σ => Out (β × σ))
    (fun s (o : Out (β × σ)) => o ≠ .oom ∧ ∀ b s', o = .ok (b, s') → nx s' = nx s) fun s => ?_
  refine Lean.Order.admissible_flatOrder (b := (Out.div : Out (β × σ)))
    (fun o => o ≠ (Out.oom : Out (β × σ)) ∧ ∀ b s', o = (Out.ok (b, s') : Out (β × σ)) → nx s' = nx s) ?_
  exact ⟨(fun h => by cases h), fun _ _ h => by cases h⟩
end

/-! ## Nodes -/
theorem nm_withNode {p : Ptr} {k : Nat → Info α → M α β} (h : ∀ a i, NM (k a i)) : NM (withNode p k) := by
  intro s
  unfold withNode
  cases p with
  | none => exact ⟨(by simp), fun _ _ h => by cases h⟩
  | some a =>
    cases hi : s.info a with
    | none => simp [hi]
    | some i => simp only [hi]; exact h a i s

theorem nm_dbgAssert {b : Bool} : NM (dbgAssert cfg b) := by
  unfold dbgAssert; split
  · intro s; exact ⟨(by simp [Prog.panic]), fun _ _ h => by cases h⟩
  · exact .pure

theorem nm_getNext {p : Ptr} : NM (getNext p : M α Ptr) := nm_withNode fun a _ s => by
  cases h : s.nxt a <;> simp [h]
theorem nm_getPrev {p : Ptr} : NM (getPrev p : M α Ptr) := nm_withNode fun a _ s => by
  cases h : s.prv a <;> simp [h]
theorem nm_putNext {p q : Ptr} : NM (putNext p q : M α Unit) := nm_withNode fun a _ s => by
  refine ⟨(by simp), fun _ _ e => ?_⟩; cases e; rfl
theorem nm_putPrev {p q : Ptr} : NM (putPrev p q : M α Unit) := nm_withNode fun a _ s => by
  refine ⟨(by simp), fun _ _ e => ?_⟩; cases e; rfl
theorem nm_dataNull {p : Ptr} : NM (dataNull p : M α Bool) := nm_withNode fun a i s => by
  obtain ⟨_, _, d⟩ := i; cases d <;> simp <;> (intros; simp_all)
theorem nm_load {p : Ptr} : NM (load p : M α α) := nm_withNode fun a i s => by
  obtain ⟨_, _, d⟩ := i; cases d <;> simp
theorem nm_store {p : Ptr} {x : α} : NM (store p x) := nm_withNode fun a i s => by
  obtain ⟨_, _, d⟩ := i; cases d <;> simp
theorem nm_freeNode {o n : Nat} {p : Ptr} : NM (freeNode o n p : M α Unit) := nm_withNode fun a i s => by
  by_cases hc : i.owner = o ∧ i.bytes = n
  · simp [hc]
  · simp [hc]
theorem nm_destroyData {p : Ptr} : NM (destroyData p : M α Unit) := nm_withNode fun a i s => by
  obtain ⟨_, _, d⟩ := i; cases d <;> simp

/-- closes `NM` goals from the lemmas for the parts -/
syntax "nomem" ("[" term,* "]")? : tactic
macro_rules
  | `(tactic| nomem) => `(tactic| nomem [])
  | `(tactic| nomem [$ts,*]) => do
    let ts ← ts.getElems.mapM fun t => `(tactic| exact $t)
    `(tactic| repeat' first
      | exact NoMem.pure
      | exact nm_getNext | exact nm_getPrev | exact nm_putNext | exact nm_putPrev | exact nm_dataNull | exact nm_load | exact nm_store
      | exact nm_dbgAssert | exact nm_freeNode | exact nm_destroyData
      $[| $ts:tactic]*
      | refine NoMem.bind ?_ fun _ => ?_
      | split
      | dsimp only)

theorem nm_setNext {p q : Ptr} : NM (setNext cfg p q) := by unfold setNext; nomem
theorem nm_destroyNode {o : Nat} {p : Ptr} : NM (destroyNode cfg o p) := by unfold destroyNode; nomem
theorem nm_take {p : Ptr} : NM (take cfg p) := by unfold take; nomem
theorem nm_deref {r : Ref α} : NM (deref r) := by unfold deref; nomem
theorem nm_constructData {p : Ptr} {x : α} : NM (constructData cfg p x) := by
  unfold constructData
  nomem
  refine nm_withNode fun a i s => ?_
  obtain ⟨_, _, d⟩ := i; cases d <;> simp <;> rintro _ rfl <;> rfl

/-! ## Members that never allocate -/
theorem nm_destroyLoop {o : Nat} {stop cur : Ptr} : NM (destroyLoop cfg o stop cur) := by
  suffices ∀ cur, NM (destroyLoop cfg o stop cur) from this cur
  refine destroyLoop.fixpoint_induct cfg o stop (fun f => ∀ cur, NM (f cur)) ?_ ?_
  · exact Lean.Order.admissible_pi_apply (fun _ (g : M α Unit) => NM g) fun _ => NoMem.adm
  · intro f ih cur
    dsimp only
    nomem [nm_destroyNode, ih _]

theorem nm_clear {l : Lst} : NM (clear cfg l) := by unfold clear; nomem [nm_destroyLoop, nm_setNext]
theorem nm_destruct {l : Lst} : NM (destruct cfg l) := by unfold destruct; nomem [nm_clear, nm_destroyNode]
theorem nm_moveAssign {l o : Lst} : NM (moveAssign cfg l o) := by unfold moveAssign; nomem [nm_destruct]

theorem nm_front {l : Lst} : NM (front l : M α (Option α)) := by unfold front; nomem
theorem nm_back {l : Lst} : NM (back l : M α (Option α)) := by unfold back; nomem
theorem nm_frontUnchecked {l : Lst} : NM (frontUnchecked l : M α α) := by unfold frontUnchecked; nomem
theorem nm_backUnchecked {l : Lst} : NM (backUnchecked l : M α α) := by unfold backUnchecked; nomem
theorem nm_frontUncheckedConst {l : Lst} : NM (frontUncheckedConst cfg l) := by unfold frontUncheckedConst; nomem

theorem nm_advance {p : Ptr} (n : Nat) : NM (advance n p : M α Ptr) := by
  induction n generalizing p with
  | zero => exact .pure
  | succ n ih => exact nm_getNext.bind fun _ => ih

theorem nm_retreat {p : Ptr} (n : Nat) : NM (retreat n p : M α Ptr) := by
  induction n generalizing p with
  | zero => exact .pure
  | succ n ih => exact nm_getPrev.bind fun _ => ih

theorem nm_iterAt {l : Lst} {n : Nat} : NM (iterAt l n : M α Ptr) := nm_advance n

theorem nm_distFrom {it p : Ptr} {n : Nat} : NM (distFrom it p n : M α Nat) := by
  suffices ∀ p n, NM (distFrom it p n : M α Nat) from this p n
  refine distFrom.fixpoint_induct (α := α) it (fun f => ∀ p n, NM (f p n)) ?_ ?_
  · exact Lean.Order.admissible_pi_apply (fun _ (g : Nat → M α Nat) => ∀ n, NM (g n)) fun _ =>
      Lean.Order.admissible_pi_apply (fun _ (g : M α Nat) => NM g) fun _ => NoMem.adm
  · intro f ih p n
    dsimp only
    nomem [ih _ _]

theorem nm_walk {stop cur : Ptr} {acc : List α} : NM (walk stop cur acc) := by
  suffices ∀ p n, NM (walk stop p n : M α _) from this cur acc
  refine walk.fixpoint_induct (α := α) stop (fun f => ∀ p n, NM (f p n)) ?_ ?_
  · exact Lean.Order.admissible_pi_apply (fun _ (g : List α → M α (List α)) => ∀ n, NM (g n)) fun _ =>
      Lean.Order.admissible_pi_apply (fun _ (g : M α (List α)) => NM g) fun _ => NoMem.adm
  · intro f ih p n
    dsimp only
    nomem [ih _ _]

theorem nm_walkBack {stop cur : Ptr} {acc : List α} : NM (walkBack stop cur acc) := by
  suffices ∀ p n, NM (walkBack stop p n : M α _) from this cur acc
  refine walkBack.fixpoint_induct (α := α) stop (fun f => ∀ p n, NM (f p n)) ?_ ?_
  · exact Lean.Order.admissible_pi_apply (fun _ (g : List α → M α (List α)) => ∀ n, NM (g n)) fun _ =>
      Lean.Order.admissible_pi_apply (fun _ (g : M α (List α)) => NM g) fun _ => NoMem.adm
  · intro f ih p n
    dsimp only
    nomem [ih _ _]

theorem nm_stepRev {up : Bool} {cur : Ptr} : NM (stepRev up cur : M α Ptr) := by
  suffices ∀ up, NM (stepRev up cur : M α _) from this up
  refine stepRev.fixpoint_induct (α := α) cur (fun f => ∀ up, NM (f up)) ?_ ?_
  · exact Lean.Order.admissible_pi_apply (fun _ (g : M α Ptr) => NM g) fun _ => NoMem.adm
  · intro f ih up
    exact ih _

theorem nm_walkRev {stop cur : Ptr} {acc : List α} : NM (walkRev stop cur acc) := by
  suffices ∀ p n, NM (walkRev stop p n : M α _) from this cur acc
  refine walkRev.fixpoint_induct (α := α) stop (fun f => ∀ p n, NM (f p n)) ?_ ?_
  · exact Lean.Order.admissible_pi_apply (fun _ (g : List α → M α (List α)) => ∀ n, NM (g n)) fun _ =>
      Lean.Order.admissible_pi_apply (fun _ (g : M α (List α)) => NM g) fun _ => NoMem.adm
  · intro f ih p n
    dsimp only
    nomem [ih _ _, nm_stepRev]

theorem nm_traverse {l : Lst} : NM (traverse l : M α (List α)) := by unfold traverse; nomem [nm_walk]
theorem nm_traverseBack {l : Lst} : NM (traverseBack l : M α (List α)) := by unfold traverseBack; nomem [nm_walkBack]
theorem nm_traverseRev {l : Lst} : NM (traverseRev l : M α (List α)) := by unfold traverseRev; nomem [nm_walkRev]
theorem nm_iter {l : Lst} : NM (iter l : M α Iter) := by unfold iter; nomem
theorem nm_iterNext {it : Iter} : NM (it.next : M α _) := by unfold Iter.next; nomem
theorem nm_iterPrev {it : Iter} : NM (it.prev : M α _) := by unfold Iter.prev; nomem
theorem nm_takes {it : Iter} (es : List End) : NM (it.takes es : M α _) := by
  induction es generalizing it with
  | nil => exact .pure
  | cons e es ih => unfold Iter.takes; nomem [nm_iterNext, nm_iterPrev, ih]

theorem nm_eraseAfter {l : Lst} {pos : Ptr} : NM (eraseAfter cfg l pos) := by unfold eraseAfter; nomem [nm_setNext, nm_destroyNode]
theorem nm_eraseAfterRange {l : Lst} {a b : Ptr} : NM (eraseAfterRange cfg l a b) := by
  suffices ∀ l, NM (eraseAfterRange cfg l a b) from this l
  refine eraseAfterRange.fixpoint_induct cfg a b (fun f => ∀ l, NM (f l)) ?_ ?_
  · exact Lean.Order.admissible_pi_apply (fun _ (g : M α (Lst × Ptr)) => NM g) fun _ => NoMem.adm
  · intro f ih l
    dsimp only
    nomem [nm_eraseAfter, ih _]
theorem nm_erase {l : Lst} {pos : Ptr} : NM (erase cfg l pos) := by unfold erase; nomem [nm_setNext, nm_destroyNode]
theorem nm_eraseLoop {o : Nat} {last first : Ptr} {n : Nat} : NM (eraseLoop cfg o last first n) := by
  suffices ∀ f n, NM (eraseLoop cfg o last f n) from this first n
  refine eraseLoop.fixpoint_induct cfg o last (fun f => ∀ p n, NM (f p n)) ?_ ?_
  · exact Lean.Order.admissible_pi_apply (fun _ (g : Nat → M α Nat) => ∀ n, NM (g n)) fun _ =>
      Lean.Order.admissible_pi_apply (fun _ (g : M α Nat) => NM g) fun _ => NoMem.adm
  · intro f ih p n
    dsimp only
    nomem [ih _ _, nm_destroyNode]
theorem nm_eraseRange {l : Lst} {a b : Ptr} : NM (eraseRange cfg l a b) := by unfold eraseRange; nomem [nm_setNext, nm_eraseLoop]
theorem nm_popFront {l : Lst} : NM (popFront cfg l) := by unfold popFront; nomem [nm_setNext, nm_destroyNode]
theorem nm_popBack {l : Lst} : NM (popBack cfg l) := by unfold popBack; nomem [nm_setNext, nm_destroyNode]
theorem nm_shorten {l : Lst} {n : Nat} : NM (shorten cfg l n) := by
  unfold shorten; nomem [nm_setNext, nm_destroyLoop, nm_retreat _, nm_advance _]

theorem nm_isEnd {p : Ptr} : NM (isEnd p : M α Bool) := by unfold isEnd; nomem
theorem nm_mergeLoop {less : α → α → Bool} {a b p : Ptr} : NM (mergeLoop cfg less a b p) := by
  suffices ∀ a b p, NM (mergeLoop cfg less a b p) from this a b p
  refine mergeLoop.fixpoint_induct cfg less (fun f => ∀ a b p, NM (f a b p)) ?_ ?_
  · exact Lean.Order.admissible_pi_apply (fun _ (g : Ptr → Ptr → M α (Ptr × Ptr × Ptr)) => ∀ n m, NM (g n m)) fun _ =>
      Lean.Order.admissible_pi_apply (fun _ (g : Ptr → M α (Ptr × Ptr × Ptr)) => ∀ n, NM (g n)) fun _ =>
      Lean.Order.admissible_pi_apply (fun _ (g : M α (Ptr × Ptr × Ptr)) => NM g) fun _ => NoMem.adm
  · intro f ih a b p
    dsimp only
    nomem [ih _ _ _, nm_setNext, nm_isEnd]
theorem nm_lastLoop {p : Ptr} : NM (lastLoop p : M α Ptr) := by
  suffices ∀ p, NM (lastLoop p : M α Ptr) from this p
  refine lastLoop.fixpoint_induct (α := α) (fun f => ∀ l, NM (f l)) ?_ ?_
  · exact Lean.Order.admissible_pi_apply (fun _ (g : M α Ptr) => NM g) fun _ => NoMem.adm
  · intro f ih l
    dsimp only
    nomem [ih _, nm_isEnd]
theorem nm_mergeChains {less : α → α → Bool} {a b : Ptr} : NM (mergeChains cfg less a b) := by
  unfold mergeChains; nomem [nm_isEnd, nm_mergeLoop, nm_setNext, nm_lastLoop]
theorem nm_isRealEnd {p : Ptr} : NM (isRealEnd p : M α Bool) := by unfold isRealEnd; nomem
theorem nm_midLoop {a b : Ptr} : NM (midLoop a b : M α Ptr) := by
  suffices ∀ a b, NM (midLoop a b : M α Ptr) from this a b
  refine midLoop.fixpoint_induct (α := α) (fun f => ∀ a b, NM (f a b)) ?_ ?_
  · exact Lean.Order.admissible_pi_apply (fun _ (g : Ptr → M α Ptr) => ∀ n, NM (g n)) fun _ =>
      Lean.Order.admissible_pi_apply (fun _ (g : M α Ptr) => NM g) fun _ => NoMem.adm
  · intro f ih a b
    dsimp only
    nomem [ih _ _, nm_isRealEnd]
theorem nm_mergeSort {less : α → α → Bool} {a : Ptr} : NM (mergeSort cfg less a) := by
  suffices ∀ a, NM (mergeSort cfg less a) from this a
  refine mergeSort.fixpoint_induct cfg less (fun f => ∀ l, NM (f l)) ?_ ?_
  · exact Lean.Order.admissible_pi_apply (fun _ (g : M α (Ptr × Ptr)) => NM g) fun _ => NoMem.adm
  · intro f ih l
    dsimp only
    nomem [ih _, nm_midLoop, nm_mergeChains]
theorem nm_sort {less : α → α → Bool} {l : Lst} : NM (sort cfg less l) := by unfold sort; nomem [nm_mergeSort, nm_setNext]
theorem nm_merge {less : α → α → Bool} {l o : Lst} : NM (merge cfg less l o) := by unfold merge; nomem [nm_mergeChains, nm_setNext]
theorem nm_mergeMove {less : α → α → Bool} {l o : Lst} : NM (mergeMove cfg less l o) := by
  unfold mergeMove; nomem [nm_mergeChains, nm_setNext, nm_destroyNode]
theorem nm_realTailLoop {t p : Ptr} : NM (realTailLoop t p : M α Ptr) := by
  suffices ∀ p, NM (realTailLoop t p : M α Ptr) from this p
  refine realTailLoop.fixpoint_induct (α := α) t (fun f => ∀ l, NM (f l)) ?_ ?_
  · exact Lean.Order.admissible_pi_apply (fun _ (g : M α Ptr) => NM g) fun _ => NoMem.adm
  · intro f ih l
    dsimp only
    nomem [ih _]
theorem nm_realTail {l : Lst} : NM (realTail cfg l) := by unfold realTail; nomem [nm_realTailLoop]
theorem nm_spliceAfter {l o : Lst} {p : Ptr} : NM (spliceAfter cfg l p o) := by unfold spliceAfter; nomem [nm_realTail, nm_setNext]
theorem nm_splice {l o : Lst} {p : Ptr} : NM (splice cfg l p o) := by unfold splice; nomem [nm_realTail, nm_setNext]
theorem nm_spliceAfterMove {l o : Lst} {p : Ptr} : NM (spliceAfterMove cfg l p o) := by
  unfold spliceAfterMove; nomem [nm_realTail, nm_setNext, nm_destroyNode]
theorem nm_spliceMove {l o : Lst} {p : Ptr} : NM (spliceMove cfg l p o) := by
  unfold spliceMove; nomem [nm_realTail, nm_setNext, nm_destroyNode]

theorem nm_removeLoop {o : Nat} {t : Ptr} {p : σ → α → M α (Bool × σ)} (hp : ∀ s x, NM (p s x)) {s : σ} {cur last : Ptr} {len cnt : Nat} :
    NM (removeLoop cfg o t p s cur last len cnt) := by
  suffices ∀ s cur last len cnt, NM (removeLoop cfg o t p s cur last len cnt) from this s cur last len cnt
  refine removeLoop.fixpoint_induct cfg o t p (fun f => ∀ s cur last len cnt, NM (f s cur last len cnt)) ?_ ?_
  · exact Lean.Order.admissible_pi_apply (fun _ (g : Ptr → Ptr → Nat → Nat → M α (Nat × Nat × σ)) => ∀ n m k l, NM (g n m k l)) fun _ =>
      Lean.Order.admissible_pi_apply (fun _ (g : Ptr → Nat → Nat → M α (Nat × Nat × σ)) => ∀ n m k, NM (g n m k)) fun _ =>
      Lean.Order.admissible_pi_apply (fun _ (g : Nat → Nat → M α (Nat × Nat × σ)) => ∀ n m, NM (g n m)) fun _ =>
      Lean.Order.admissible_pi_apply (fun _ (g : Nat → M α (Nat × Nat × σ)) => ∀ n, NM (g n)) fun _ =>
      Lean.Order.admissible_pi_apply (fun _ (g : M α (Nat × Nat × σ)) => NM g) fun _ => NoMem.adm
  · intro f ih s cur last len cnt
    dsimp only
    nomem [ih _ _ _ _ _, hp _ _, nm_setNext, nm_destroyNode]
theorem nm_removeIf {l : Lst} {p : σ → α → M α (Bool × σ)} (hp : ∀ s x, NM (p s x)) {s : σ} : NM (removeIf cfg l p s) := by
  unfold removeIf; nomem [nm_removeLoop hp]
theorem nm_remove {eq : α → α → Bool} {l : Lst} {r : Ref α} : NM (remove cfg eq l r) := by
  unfold remove
  refine (nm_removeIf fun _ x => ?_).bind fun _ => .pure
  nomem [nm_deref]

theorem nm_reverseLoop {t p q : Ptr} : NM (reverseLoop cfg t p q) := by
  suffices ∀ a b, NM (reverseLoop cfg t a b) from this p q
  refine reverseLoop.fixpoint_induct cfg t (fun f => ∀ a b, NM (f a b)) ?_ ?_
  · exact Lean.Order.admissible_pi_apply (fun _ (g : Ptr → M α Ptr) => ∀ n, NM (g n)) fun _ =>
      Lean.Order.admissible_pi_apply (fun _ (g : M α Ptr) => NM g) fun _ => NoMem.adm
  · intro f ih a b
    dsimp only
    nomem [ih _ _, nm_setNext]
theorem nm_reverseLoop2 {p q : Ptr} : NM (reverseLoop2 p q : M α Unit) := by
  suffices ∀ a b, NM (reverseLoop2 a b : M α Unit) from this p q
  refine reverseLoop2.fixpoint_induct (α := α) (fun f => ∀ a b, NM (f a b)) ?_ ?_
  · exact Lean.Order.admissible_pi_apply (fun _ (g : Ptr → M α Unit) => ∀ n, NM (g n)) fun _ =>
      Lean.Order.admissible_pi_apply (fun _ (g : M α Unit) => NM g) fun _ => NoMem.adm
  · intro f ih a b
    dsimp only
    nomem [ih _ _]
theorem nm_reverse {l : Lst} : NM (reverse cfg l) := by unfold reverse; nomem [nm_reverseLoop, nm_reverseLoop2, nm_setNext]
theorem nm_uniqueLoop {o : Nat} {t : Ptr} {p : α → α → Bool} {a b c : Ptr} {len cnt : Nat} : NM (uniqueLoop cfg o t p a b c len cnt) := by
  suffices ∀ a b c len cnt, NM (uniqueLoop cfg o t p a b c len cnt) from this a b c len cnt
  refine uniqueLoop.fixpoint_induct cfg o t p (fun f => ∀ a b c len cnt, NM (f a b c len cnt)) ?_ ?_
  · exact Lean.Order.admissible_pi_apply (fun _ (g : Ptr → Ptr → Nat → Nat → M α (Nat × Nat)) => ∀ n m k l, NM (g n m k l)) fun _ =>
      Lean.Order.admissible_pi_apply (fun _ (g : Ptr → Nat → Nat → M α (Nat × Nat)) => ∀ n m k, NM (g n m k)) fun _ =>
      Lean.Order.admissible_pi_apply (fun _ (g : Nat → Nat → M α (Nat × Nat)) => ∀ n m, NM (g n m)) fun _ =>
      Lean.Order.admissible_pi_apply (fun _ (g : Nat → M α (Nat × Nat)) => ∀ n, NM (g n)) fun _ =>
      Lean.Order.admissible_pi_apply (fun _ (g : M α (Nat × Nat)) => NM g) fun _ => NoMem.adm
  · intro f ih a b c len cnt
    dsimp only
    nomem [ih _ _ _ _ _, nm_setNext, nm_destroyNode]
theorem nm_unique {l : Lst} {p : α → α → Bool} : NM (unique cfg l p) := by unfold unique; nomem [nm_uniqueLoop]

theorem nm_intoNext {l : Lst} : NM (intoNext cfg l) := by unfold intoNext; nomem [nm_take, nm_popFront]
theorem nm_intoPrev {l : Lst} : NM (intoPrev cfg l) := by unfold intoPrev; nomem [nm_take, nm_popBack]
theorem nm_drain {l : Lst} (es : List End) : NM (drain cfg l es) := by
  induction es generalizing l with
  | nil => exact nm_destruct.bind fun _ => .pure
  | cons e es ih => unfold drain; nomem [nm_intoNext, nm_intoPrev, ih]
theorem nm_printLoop {shw : α → String} {n : Nat} {hi lo : Ptr} {i : Nat} {out : String} : NM (printLoop shw n hi lo i out) := by
  suffices ∀ lo i out, NM (printLoop shw n hi lo i out) from this lo i out
  refine printLoop.fixpoint_induct shw n hi (fun f => ∀ lo i out, NM (f lo i out)) ?_ ?_
  · exact Lean.Order.admissible_pi_apply (fun _ (g : Nat → String → M α String) => ∀ n m, NM (g n m)) fun _ =>
      Lean.Order.admissible_pi_apply (fun _ (g : String → M α String) => ∀ n, NM (g n)) fun _ =>
      Lean.Order.admissible_pi_apply (fun _ (g : M α String) => NM g) fun _ => NoMem.adm
  · intro f ih a b p
    dsimp only
    nomem [ih _ _ _]
theorem nm_print {shw : α → String} {l : Lst} : NM (print cfg shw l) := by unfold print; nomem [nm_printLoop]

/-! ## Client calls -/
theorem nw_inHeap {f : M α β} (h : NM f) : NW (inHeap f) := by
  intro w
  unfold inHeap
  cases hf : f w.heap with
  | ok b => obtain ⟨b, h'⟩ := b; refine ⟨(by simp), fun _ _ e => ?_⟩; cases e; exact (h _).2 _ _ hf
  | oom => exact absurd hf (h _).1
  | _ => exact ⟨(by simp), fun _ _ e => by simp at e⟩

theorem nw_var {i : Nat} : NW (var i : Prog (World α) Lst) := by
  intro w
  unfold var
  cases h : w.vars i <;> simp [h]

theorem nw_setVar {i : Nat} {o : Option Lst} : NW (setVar i o : Prog (World α) Unit) := by
  intro w; refine ⟨(by simp [setVar]), fun _ _ e => ?_⟩; cases e; rfl

theorem nw_argRef {r : Arg α} : NW (argRef r) := by
  cases r with
  | val x => exact .pure
  | elem j k => exact nw_var.bind fun _ => (nw_inHeap nm_iterAt).bind fun _ => .pure

theorem nw_create {i : Nat} {f : M α Lst} (h : NM f) : NW (create i f) := (nw_inHeap h).bind fun _ => nw_setVar.bind fun _ => .pure
theorem nw_change {i : Nat} {f : Lst → M α Lst} (h : ∀ l, NM (f l)) : NW (change i f) :=
  nw_var.bind fun l => (nw_inHeap (h l)).bind fun _ => nw_setVar.bind fun _ => .pure
theorem nw_changeN {i : Nat} {f : Lst → M α (Lst × Nat)} (h : ∀ l, NM (f l)) : NW (changeN i f) :=
  nw_var.bind fun l => (nw_inHeap (h l)).bind fun _ => nw_setVar.bind fun _ => .pure
theorem nw_changeP {i : Nat} {f : Lst → M α (Lst × Ptr)} (h : ∀ l, NM (f l)) : NW (changeP i f) :=
  nw_var.bind fun l => (nw_inHeap (h l)).bind fun _ => nw_setVar.bind fun _ => (nw_inHeap nm_distFrom).bind fun _ => .pure
theorem nw_change2 {i j : Nat} {f : Lst → Lst → M α (Lst × Lst)} (h : ∀ l o, NM (f l o)) : NW (change2 i j f) :=
  nw_var.bind fun l => nw_var.bind fun o => (nw_inHeap (h l o)).bind fun _ => nw_setVar.bind fun _ => nw_setVar.bind fun _ => .pure
theorem nw_look {i : Nat} {f : Lst → M α (Res α)} (h : ∀ l, NM (f l)) : NW (look i f) := nw_var.bind fun l => nw_inHeap (h l)

theorem step_nomem (op : Op α) (h : mayGrow op = false) : NW (step cfg op) := by
  cases op with
  | newAlloc | newFill | newCount | newRange | newMoveAlloc | newCopy | newCopyAlloc | fromIter | copyAssign | listAssign | insertAfter
  | insertAfterFill | insertAfterRange | insert | insertFill | insertRange | pushFront | pushBack | resize | resizeFill => cases h
  | newMove i j => exact nw_var.bind fun _ => nw_setVar.bind fun _ => nw_setVar.bind fun _ => .pure
  | moveAssign i j =>
    simp only [step]; split
    · exact nw_look fun _ => .pure
    · exact nw_change2 fun _ _ => nm_moveAssign
  | swap i j => exact nw_var.bind fun _ => nw_var.bind fun _ => nw_setVar.bind fun _ => nw_setVar.bind fun _ => .pure
  | drop i => exact nw_var.bind fun _ => (nw_inHeap nm_destruct).bind fun _ => nw_setVar.bind fun _ => .pure
  | moved i => exact nw_look fun _ => .pure
  | clear i => exact nw_change fun _ => nm_clear
  | front i => exact nw_look fun _ => nm_front.bind fun _ => .pure
  | frontUnchecked i => exact nw_look fun _ => nm_frontUnchecked.bind fun _ => .pure
  | frontUncheckedConst i => exact nw_look fun _ => nm_frontUncheckedConst.bind fun _ => .pure
  | back i => exact nw_look fun _ => nm_back.bind fun _ => .pure
  | backUnchecked i => exact nw_look fun _ => nm_backUnchecked.bind fun _ => .pure
  | size i => exact nw_look fun _ => .pure
  | empty i => exact nw_look fun _ => .pure
  | set i p x => exact nw_look fun _ => nm_iterAt.bind fun _ => nm_store.bind fun _ => .pure
  | get i p => exact nw_look fun _ => nm_iterAt.bind fun _ => nm_load.bind fun _ => .pure
  | eraseAfter i p => exact nw_changeP fun _ => nm_iterAt.bind fun _ => nm_eraseAfter
  | eraseAfterRange i lo hi => exact nw_changeP fun _ => nm_iterAt.bind fun _ => nm_iterAt.bind fun _ => nm_eraseAfterRange
  | erase i p => exact nw_changeP fun _ => nm_iterAt.bind fun _ => nm_erase
  | eraseRange i lo hi => exact nw_changeP fun _ => nm_iterAt.bind fun _ => nm_iterAt.bind fun _ => nm_eraseRange
  | popFront i => exact nw_change fun _ => nm_popFront
  | popBack i => exact nw_change fun _ => nm_popBack
  | merge i j less =>
    simp only [step]; split
    · exact nw_look fun _ => nm_dbgAssert.bind fun _ => .pure
    · exact nw_change2 fun _ _ => nm_merge
  | mergeMove i j less =>
    simp only [step]; split
    · exact nw_look fun _ => nm_dbgAssert.bind fun _ => .pure
    · exact nw_change2 fun _ _ => nm_mergeMove
  | spliceAfter i p j => exact nw_change2 fun _ _ => nm_iterAt.bind fun _ => nm_spliceAfter
  | splice i p j => exact nw_change2 fun _ _ => nm_iterAt.bind fun _ => nm_splice
  | spliceAfterMove i p j => exact nw_change2 fun _ _ => nm_iterAt.bind fun _ => nm_spliceAfterMove
  | spliceMove i p j => exact nw_change2 fun _ _ => nm_iterAt.bind fun _ => nm_spliceMove
  | remove i eq r => exact nw_argRef.bind fun _ => nw_changeN fun _ => nm_remove
  | removeIf i p => exact nw_changeN fun _ => (nm_removeIf fun _ _ => .pure).bind fun _ => .pure
  | reverse i => exact nw_change fun _ => nm_reverse
  | unique i p => exact nw_changeN fun _ => nm_unique
  | sort i less => exact nw_change fun _ => nm_sort
  | traverse i => exact nw_look fun _ => nm_traverse.bind fun _ => .pure
  | traverseBack i => exact nw_look fun _ => nm_traverseBack.bind fun _ => .pure
  | traverseRev i => exact nw_look fun _ => nm_traverseRev.bind fun _ => .pure
  | iter i es => exact nw_look fun _ => nm_iter.bind fun _ => (nm_takes es).bind fun _ => .pure
  | drain i es => exact nw_var.bind fun _ => nw_setVar.bind fun _ => (nw_inHeap (nm_drain es)).bind fun _ => .pure
  | print i shw => exact nw_look fun _ => nm_print.bind fun _ => .pure


/-! ## Members that allocate -/

/-- The same element type with an allocator that refuses nothing. -/
def grant (cfg : Cfg α) : Cfg α := { cfg with refuse := fun _ _ => false }

/-- If `p'`, the program run with an allocator that refuses nothing, returns, then `p` returns the same unless one of the
requests it makes is refused. -/
def Agr (cfg : Cfg α) (nx : σ → Nat) (p' p : Prog σ β) : Prop := ∀ s b s', p' s = .ok (b, s') → nx s ≤ nx s' ∧
  ((p s = .ok (b, s') ∧ ∀ k, nx s ≤ k → k < nx s' → cfg.refuse k cfg.vsize = false ∨ cfg.refuse k cfg.dsize = false) ∨
    (p s = .oom ∧ ∃ k, nx s ≤ k ∧ k < nx s' ∧ (cfg.refuse k cfg.vsize = true ∨ cfg.refuse k cfg.dsize = true)))

abbrev AM (cfg : Cfg α) (p' p : M α β) : Prop := Agr cfg Heap.next p' p
abbrev AW (cfg : Cfg α) (p' p : Prog (World α) β) : Prop := Agr cfg (fun w => w.heap.next) p' p

theorem NoMem.agr {nx : σ → Nat} {p : Prog σ β} (h : NoMem nx p) : Agr cfg nx p p := by
  intro s b s' e
  have := (h s).2 b s' e
  exact ⟨by omega, .inl ⟨e, fun k h1 h2 => by omega⟩⟩

theorem Agr.bind {nx : σ → Nat} {p' p : Prog σ β} {f' f : β → Prog σ γ} (h : Agr cfg nx p' p) (hf : ∀ b, Agr cfg nx (f' b) (f b)) :
    Agr cfg nx (p' >>= f') (p >>= f) := by
  intro s c s' e
  rw [Prog.bind_run] at e
  cases hp : p' s with
  | ok q =>
    obtain ⟨b, s1⟩ := q
    rw [hp] at e
    simp only [Out.bind_ok] at e
    obtain ⟨h1, h2⟩ := h s b s1 hp
    obtain ⟨h3, h4⟩ := hf b s1 c s' e
    refine ⟨by omega, ?_⟩
    rw [Prog.bind_run]
    rcases h2 with ⟨h2, h5⟩ | ⟨h2, k, h5, h6, h7⟩
    · rw [h2]
      simp only [Out.bind_ok]
      rcases h4 with ⟨h4, h6⟩ | ⟨h4, k, h6, h7, h8⟩
      · refine .inl ⟨h4, fun k h7 h8 => ?_⟩
        rcases Nat.lt_or_ge k (nx s1) with h | h
        · exact h5 k h7 h
        · exact h6 k h h8
      · exact .inr ⟨h4, k, by omega, h7, h8⟩
    · rw [h2]
      exact .inr ⟨rfl, k, h5, by omega, h7⟩
  | _ => rw [hp] at e; simp at e

theorem am_allocNode {o n : Nat} (hn : n = cfg.vsize ∨ n = cfg.dsize) {d : Data α} : AM cfg (allocNode (grant cfg) o n d) (allocNode cfg o n d) := by
  intro h b h' e
  have e' : h'.next = h.next + 1 := by cases e; rfl
  refine ⟨by omega, ?_⟩
  by_cases hr : cfg.refuse h.next n = true
  · refine .inr ⟨by simp [allocNode, hr], h.next, by omega, by omega, ?_⟩
    rcases hn with rfl | rfl
    · exact .inl hr
    · exact .inr hr
  · refine .inl ⟨?_, fun k h1 h2 => ?_⟩
    · unfold allocNode
      rw [if_neg hr]
      exact e
    · obtain rfl : k = h.next := by omega
      rcases hn with rfl | rfl
      · exact .inl (by simpa using hr)
      · exact .inr (by simpa using hr)

theorem am_buildVirtual {o : Nat} : AM cfg (buildVirtual (grant cfg) o) (buildVirtual cfg o) := by
  refine (am_allocNode (.inl rfl)).bind fun r => ?_
  have e : (grant cfg).dbl = cfg.dbl := rfl
  rw [e]
  exact NoMem.agr (by nomem)

theorem am_constructNode {o : Nat} {x : α} : AM cfg (constructNode (grant cfg) o x) (constructNode cfg o x) := by
  refine (am_allocNode (.inr rfl)).bind fun r => ?_
  exact NoMem.agr (p := constructData cfg r x >>= fun _ => Pure.pure r) (by nomem [nm_constructData])

theorem am_setNext {p q : Ptr} : AM cfg (setNext (grant cfg) p q) (setNext cfg p q) := NoMem.agr nm_setNext
theorem am_getNext {p : Ptr} : AM cfg (getNext p) (getNext p) := NoMem.agr nm_getNext
theorem am_getPrev {p : Ptr} : AM cfg (getPrev p) (getPrev p) := NoMem.agr nm_getPrev
theorem am_load {p : Ptr} : AM cfg (load p) (load p) := NoMem.agr nm_load
theorem am_deref {r : Ref α} : AM cfg (deref r) (deref r) := NoMem.agr nm_deref
theorem am_dbgAssert {b : Bool} : AM cfg (dbgAssert (grant cfg) b) (dbgAssert cfg b) := NoMem.agr nm_dbgAssert
theorem am_pure {b : β} : AM cfg (Pure.pure b : M α β) (Pure.pure b) := NoMem.agr .pure
theorem am_clear {l : Lst} : AM cfg (clear (grant cfg) l) (clear cfg l) := by
  have e : clear (grant cfg) l = clear cfg l := by with_unfolding_all rfl
  rw [e]; exact NoMem.agr nm_clear
theorem am_destruct {l : Lst} : AM cfg (destruct (grant cfg) l) (destruct cfg l) := by
  have e : destruct (grant cfg) l = destruct cfg l := by with_unfolding_all rfl
  rw [e]; exact NoMem.agr nm_destruct

theorem am_fillLoop {o : Nat} {r : Ref α} (n : Nat) {p : Ptr} : AM cfg (fillLoop (grant cfg) o r n p) (fillLoop cfg o r n p) := by
  induction n generalizing p with
  | zero => exact am_pure
  | succ n ih => exact am_deref.bind fun _ => am_constructNode.bind fun _ => am_setNext.bind fun _ => ih

theorem am_rangeLoop {o : Nat} (xs : List α) {p : Ptr} : AM cfg (rangeLoop (grant cfg) o xs p) (rangeLoop cfg o xs p) := by
  induction xs generalizing p with
  | nil => exact am_pure
  | cons x xs ih => exact am_constructNode.bind fun _ => am_setNext.bind fun _ => ih

theorem am_extendLoop {o : Nat} {t : Ptr} {r : Ref α} (n : Nat) {p : Ptr} :
    AM cfg (extendLoop (grant cfg) o t r n p) (extendLoop cfg o t r n p) := by
  induction n generalizing p with
  | zero => exact am_pure
  | succ n ih => exact am_deref.bind fun _ => am_constructNode.bind fun _ => am_setNext.bind fun _ => am_setNext.bind fun _ => ih

theorem am_initEmpty {o : Nat} : AM cfg (initEmpty (grant cfg) o) (initEmpty cfg o) :=
  am_buildVirtual.bind fun _ => am_buildVirtual.bind fun _ => am_setNext.bind fun _ => am_pure

theorem am_newAlloc {a : Nat} : AM cfg (newAlloc (grant cfg) a) (newAlloc cfg a) := am_initEmpty.bind fun _ => am_pure

theorem am_newFill {n : Nat} {r : Ref α} {a : Nat} : AM cfg (newFill (grant cfg) n r a) (newFill cfg n r a) := by
  unfold newFill; split
  · exact am_newAlloc
  · exact am_buildVirtual.bind fun _ => am_buildVirtual.bind fun _ => (am_fillLoop n).bind fun _ => am_setNext.bind fun _ =>
      am_setNext.bind fun _ => am_pure

theorem am_newRange {xs : List α} {a : Nat} : AM cfg (newRange (grant cfg) xs a) (newRange cfg xs a) := by
  unfold newRange; split
  · exact am_newAlloc
  · exact am_buildVirtual.bind fun _ => am_buildVirtual.bind fun _ => (am_rangeLoop xs).bind fun _ => am_setNext.bind fun _ =>
      am_setNext.bind fun _ => am_pure

theorem am_fromIter {xs : List α} : AM cfg (fromIter (grant cfg) xs) (fromIter cfg xs) :=
  am_newAlloc.bind fun _ => (am_rangeLoop xs).bind fun _ => am_setNext.bind fun _ => am_pure

theorem am_copyLoop {o : Nat} {stop rp p : Ptr} {n : Nat} : AM cfg (copyLoop (grant cfg) o stop rp p n) (copyLoop cfg o stop rp p n) := by
  suffices ∀ rp p n, AM cfg (copyLoop (grant cfg) o stop rp p n) (copyLoop cfg o stop rp p n) from this rp p n
  refine copyLoop.fixpoint_induct (grant cfg) o stop (fun f => ∀ rp p n, AM cfg (f rp p n) (copyLoop cfg o stop rp p n)) ?_ ?_
  · refine Lean.Order.admissible_pi_apply (fun rp (g : Ptr → Nat → M α (Ptr × Nat)) => ∀ p n, AM cfg (g p n) (copyLoop cfg o stop rp p n)) fun rp => ?_
    refine Lean.Order.admissible_pi_apply (fun p (g : Nat → M α (Ptr × Nat)) => ∀ n, AM cfg (g n) (copyLoop cfg o stop rp p n)) fun p => ?_
    refine Lean.Order.admissible_pi_apply (fun n (g : M α (Ptr × Nat)) => AM cfg g (copyLoop cfg o stop rp p n)) fun n => ?_
    refine Lean.Order.admissible_pi_apply (β := fun _ : Heap α => Out ((Ptr × Nat) × Heap α))
      (fun s (x : Out ((Ptr × Nat) × Heap α)) => ∀ b s', x = .ok (b, s') → s.next ≤ s'.next ∧
        ((copyLoop cfg o stop rp p n s = .ok (b, s') ∧
            ∀ k, s.next ≤ k → k < s'.next → cfg.refuse k cfg.vsize = false ∨ cfg.refuse k cfg.dsize = false) ∨
          (copyLoop cfg o stop rp p n s = .oom ∧
            ∃ k, s.next ≤ k ∧ k < s'.next ∧ (cfg.refuse k cfg.vsize = true ∨ cfg.refuse k cfg.dsize = true)))) fun s => ?_
    refine Lean.Order.admissible_flatOrder (b := (Out.div : Out ((Ptr × Nat) × Heap α))) _ ?_
    intro b s' e
    cases e
  · intro f ih rp p n
    rw [copyLoop]
    dsimp only
    split
    · exact am_pure
    · exact am_load.bind fun _ => am_constructNode.bind fun _ => am_getNext.bind fun _ => am_setNext.bind fun _ => ih _ _ _

theorem am_copyImpl {o : Lst} {a : Nat} : AM cfg (copyImpl (grant cfg) o a) (copyImpl cfg o a) := by
  refine am_dbgAssert.bind fun _ => ?_
  split
  · exact am_initEmpty.bind fun _ => am_pure
  · exact am_getNext.bind fun _ => am_buildVirtual.bind fun _ => am_buildVirtual.bind fun _ => am_copyLoop.bind fun _ =>
      am_setNext.bind fun _ => am_setNext.bind fun _ => am_pure

theorem am_copyAssign {l o : Lst} : AM cfg (copyAssign (grant cfg) l o) (copyAssign cfg l o) := am_destruct.bind fun _ => am_copyImpl

theorem am_listAssign {l : Lst} {xs : List α} : AM cfg (listAssign (grant cfg) l xs) (listAssign cfg l xs) :=
  am_clear.bind fun _ => (am_rangeLoop xs).bind fun _ => am_setNext.bind fun _ => am_pure

theorem am_emplaceAfter {l : Lst} {p : Ptr} {r : Ref α} : AM cfg (emplaceAfter (grant cfg) l p r) (emplaceAfter cfg l p r) :=
  am_dbgAssert.bind fun _ => am_deref.bind fun _ => am_constructNode.bind fun _ => am_getNext.bind fun _ => am_setNext.bind fun _ =>
    am_setNext.bind fun _ => am_pure

theorem am_insertAfterFill {l : Lst} {p : Ptr} {n : Nat} {r : Ref α} :
    AM cfg (insertAfterFill (grant cfg) l p n r) (insertAfterFill cfg l p n r) := by
  refine am_dbgAssert.bind fun _ => ?_
  split
  · exact am_pure
  · exact am_getNext.bind fun _ => (am_fillLoop n).bind fun _ => am_setNext.bind fun _ => am_getNext.bind fun _ => am_pure

theorem am_insertAfterRange {l : Lst} {p : Ptr} {xs : List α} :
    AM cfg (insertAfterRange (grant cfg) l p xs) (insertAfterRange cfg l p xs) := by
  refine am_dbgAssert.bind fun _ => ?_
  split
  · exact am_pure
  · exact am_getNext.bind fun _ => (am_rangeLoop xs).bind fun _ => am_setNext.bind fun _ => am_getNext.bind fun _ => am_pure

theorem am_emplace {l : Lst} {p : Ptr} {r : Ref α} : AM cfg (emplace (grant cfg) l p r) (emplace cfg l p r) :=
  am_dbgAssert.bind fun _ => am_deref.bind fun _ => am_constructNode.bind fun _ => am_getPrev.bind fun _ => am_setNext.bind fun _ =>
    am_setNext.bind fun _ => am_pure

theorem am_insertFill {l : Lst} {p : Ptr} {n : Nat} {r : Ref α} : AM cfg (insertFill (grant cfg) l p n r) (insertFill cfg l p n r) := by
  refine am_dbgAssert.bind fun _ => ?_
  split
  · exact am_pure
  · exact am_getPrev.bind fun _ => (am_fillLoop n).bind fun _ => am_setNext.bind fun _ => am_getNext.bind fun _ => am_pure

theorem am_insertRange {l : Lst} {p : Ptr} {xs : List α} : AM cfg (insertRange (grant cfg) l p xs) (insertRange cfg l p xs) := by
  unfold insertRange
  split
  · exact am_pure
  · exact am_getPrev.bind fun _ => (am_rangeLoop xs).bind fun _ => am_setNext.bind fun _ => am_getNext.bind fun _ => am_pure

theorem am_pushFront {l : Lst} {r : Ref α} : AM cfg (pushFront (grant cfg) l r) (pushFront cfg l r) :=
  am_deref.bind fun _ => am_constructNode.bind fun _ => am_getNext.bind fun _ => am_setNext.bind fun _ => am_setNext.bind fun _ => am_pure

theorem am_pushBack {l : Lst} {r : Ref α} : AM cfg (pushBack (grant cfg) l r) (pushBack cfg l r) :=
  am_deref.bind fun _ => am_constructNode.bind fun _ => am_getPrev.bind fun _ => am_setNext.bind fun _ => am_setNext.bind fun _ => am_pure

theorem am_extend {l : Lst} {n : Nat} {r : Ref α} : AM cfg (extend (grant cfg) l n r) (extend cfg l n r) := by
  unfold extend
  have e : (grant cfg).dbl = cfg.dbl := rfl
  dsimp only
  rw [e]
  split
  · exact am_getPrev.bind fun _ => (am_extendLoop _).bind fun _ => am_pure
  · exact (NoMem.agr (nm_advance _)).bind fun _ => (am_extendLoop _).bind fun _ => am_pure

theorem am_resizeFill {l : Lst} {n : Nat} {r : Ref α} : AM cfg (resizeFill (grant cfg) l n r) (resizeFill cfg l n r) := by
  unfold resizeFill
  split
  · exact am_clear
  · split
    · exact am_pure
    · split
      · exact am_extend
      · have e : shorten (grant cfg) l n = shorten cfg l n := by with_unfolding_all rfl
        rw [e]; exact NoMem.agr nm_shorten

theorem aw_inHeap {f' f : M α β} (h : AM cfg f' f) : AW cfg (inHeap f') (inHeap f) := by
  intro w b w' e
  unfold inHeap at e ⊢
  cases hf : f' w.heap with
  | ok q =>
    obtain ⟨c, h'⟩ := q
    rw [hf] at e
    cases e
    obtain ⟨h1, h2⟩ := h _ _ _ hf
    refine ⟨h1, ?_⟩
    rcases h2 with ⟨h2, h3⟩ | ⟨h2, h3⟩
    · exact .inl ⟨by rw [h2]; rfl, h3⟩
    · exact .inr ⟨by rw [h2]; rfl, h3⟩
  | _ => rw [hf] at e; simp at e

theorem aw_create {i : Nat} {f' f : M α Lst} (h : AM cfg f' f) : AW cfg (create i f') (create i f) :=
  (aw_inHeap h).bind fun _ => NoMem.agr (nw_setVar.bind fun _ => .pure)
theorem aw_change {i : Nat} {f' f : Lst → M α Lst} (h : ∀ l, AM cfg (f' l) (f l)) : AW cfg (change i f') (change i f) :=
  (NoMem.agr nw_var).bind fun l => (aw_inHeap (h l)).bind fun _ => NoMem.agr (nw_setVar.bind fun _ => .pure)
theorem aw_changeP {i : Nat} {f' f : Lst → M α (Lst × Ptr)} (h : ∀ l, AM cfg (f' l) (f l)) : AW cfg (changeP i f') (changeP i f) :=
  (NoMem.agr nw_var).bind fun l => (aw_inHeap (h l)).bind fun _ =>
    NoMem.agr (nw_setVar.bind fun _ => (nw_inHeap nm_distFrom).bind fun _ => .pure)

theorem am_at {l : Lst} {p : Nat} {f' f : Ptr → M α β} (h : ∀ l, AM cfg (f' l) (f l)) : AM cfg (iterAt l p >>= f') (iterAt l p >>= f) :=
  (NoMem.agr nm_iterAt).bind h
theorem aw_arg {r : Arg α} {f' f : Ref α → Prog (World α) β} (h : ∀ l, AW cfg (f' l) (f l)) : AW cfg (argRef r >>= f') (argRef r >>= f) :=
  (NoMem.agr nw_argRef).bind h
theorem aw_var {i : Nat} {f' f : Lst → Prog (World α) β} (h : ∀ l, AW cfg (f' l) (f l)) : AW cfg (var i >>= f') (var i >>= f) :=
  (NoMem.agr nw_var).bind h

/-! ## How many nodes -/
section
variable {C : Ghost α} {w : World α} {i j p hd tl own : Nat} {cs : Cells α} {r : Res α} {A' : Ideal α}

theorem Inv.grant (I : Inv cfg C w) : Inv (grant cfg) C w := by
  refine ⟨I.vars, fun i o h => ?_, I.sep, I.kept, I.bal, I.lost⟩
  have := I.ok i o h
  obtain ⟨b, a⟩ := o
  cases b with
  | none => trivial
  | some b => exact ⟨this.nodup, this.chain, this.vhd, this.vtl, this.cells, this.first, this.last⟩

theorem grant_grants : ¬ Refuses (grant cfg) := by rintro ⟨k, n, h⟩; cases h

/-- The call makes `n` requests, and fails only if one of them is refused. -/
def Asks (cfg : Cfg α) (op : Op α) (w : World α) (n : Nat) : Prop :=
  (∀ q, step cfg op w = .ok q → q.2.heap.next = w.heap.next + n ∧
    ∀ k, w.heap.next ≤ k → k < w.heap.next + n → cfg.refuse k cfg.vsize = false ∨ cfg.refuse k cfg.dsize = false) ∧
  (step cfg op w = .oom → Refused cfg w.heap.next n)

theorem asks_none {op : Op α} (h : NW (step cfg op)) : Asks cfg op w 0 :=
  ⟨fun q e => ⟨(h w).2 q.1 q.2 e, fun k h1 h2 => by omega⟩, fun e => absurd e (h w).1⟩

theorem asks_of {op : Op α} {n : Nat} {P : Res α × World α → Prop} (h : AW cfg (step (LL.grant cfg) op) (step cfg op))
    (hg : (step (LL.grant cfg) op w).SafeIf (Refuses (LL.grant cfg)) P) (hn : ∀ q, P q → q.2.heap.next = w.heap.next + n) : Asks cfg op w n := by
  obtain ⟨⟨b, w'⟩, e, hP⟩ := hg.ok_of grant_grants
  have hn := hn _ hP
  obtain ⟨h1, h2⟩ := h _ _ _ e
  simp only at h1 h2 hn
  rw [hn] at h2
  rcases h2 with ⟨h2, h3⟩ | ⟨h2, h3⟩
  · refine ⟨fun q e => ?_, fun e => ?_⟩
    · rw [h2] at e; cases e; exact ⟨hn, h3⟩
    · rw [h2] at e; cases e
  · refine ⟨fun q e => ?_, fun _ => h3⟩
    rw [h2] at e; cases e

theorem count_full (h : C i = some (full hd tl cs own)) : count (ideal C) i = cs.length := by
  simp [count, contents, ideal, h, Obj.value, full, vals]

theorem asks_copyAssign (I : Inv cfg C w) (hij : i ≠ j) {o : Obj α} (hi : C i = some o) (hj : C j = some (full hd tl cs own)) :
    Asks cfg (.copyAssign i j) w (cs.length + 2) := by
  have I' := I.grant
  have hv : w.vars i = some o.fields := by rw [I.vars, hi]; rfl
  obtain ⟨h', k, e1, e2, -⟩ := destruct_obj I' hi
  have rj : Rep (LL.grant cfg) h' hd tl cs own := by
    refine (I'.rep hj).step e2 ?_
    have := I.sep j i (Ne.symm hij)
    rw [hi, hj] at this
    exact this
  have hh : h'.next = w.heap.next := (nm_destruct _).2 _ _ e1
  refine asks_of (P := fun q => q.2.heap.next = w.heap.next + (cs.length + 2)) ?_ ?_ fun _ h => h
  · simp only [step, hij, if_false]
    exact aw_var fun _ => aw_change fun _ => am_copyAssign
  · simp only [step, hij, if_false, Prog.bind_run, var_run (I'.var hj), Out.bind_ok, change, var_run hv, copyAssign, inHeap_run, e1]
    refine Out.SafeIf.bind (P := fun q => q.2.heap.next = w.heap.next + (cs.length + 2)) ?_ ?_
    · refine (copyImpl_ok e2.bal rj own).bind ?_
      rintro ⟨l, h2⟩ ⟨hd', tl', cs', h1, h2, h3⟩
      have := h3.step.costs.2.2
      simp only at this
      rw [hh] at this
      exact this
    · rintro ⟨l, w'⟩ h
      exact h

theorem asks_ok (op : Op α) (I : Inv cfg C w) (hs : specStep false cfg.dbl cfg.dflt op (ideal C) = some (r, A')) :
    Asks cfg op w (nodesFor (ideal C) op) := by
  have I' := I.grant
  cases op with
  | newAlloc i a =>
    obtain ⟨h1, rfl, rfl⟩ := born_inv hs
    exact asks_of (aw_create am_newAlloc) (s_newAlloc I' h1 a) fun q ⟨_, _, _, _, _, _, h⟩ => h.2.2
  | newFill i n r a =>
    obtain ⟨x, h0, hs⟩ := Option.bind_eq_some_iff.1 hs
    obtain ⟨h1, rfl, rfl⟩ := born_inv hs
    exact asks_of (aw_arg fun _ => aw_create am_newFill) (s_newFill I' h1 h0 n a) fun q ⟨_, _, _, _, _, _, h⟩ => h.2.2
  | newCount i n a =>
    obtain ⟨h1, rfl, rfl⟩ := born_inv hs
    exact asks_of (aw_create am_newFill) (s_newCount I' h1 n a) fun q ⟨_, _, _, _, _, _, h⟩ => h.2.2
  | newRange i xs a =>
    obtain ⟨h1, rfl, rfl⟩ := born_inv hs
    exact asks_of (aw_create am_newRange) (s_newRange I' h1 xs a) fun q ⟨_, _, _, _, _, _, h⟩ => h.2.2
  | fromIter i xs =>
    obtain ⟨h1, rfl, rfl⟩ := born_inv hs
    exact asks_of (aw_create am_fromIter) (s_fromIter I' h1 xs) fun q ⟨_, _, _, _, _, _, h⟩ => h.2.2
  | newMoveAlloc i j a =>
    obtain ⟨hd, tl, cs, own, h1, hs⟩ := full_inv (C := C) (i := _) (β := Res α × Ideal α) (y := (r, A')) (f := fun own ys => needs ((ideal C i).isNone) <| only false (a = own) <|
      some (.unit, put (put (ideal C) i (some ⟨some ys, a⟩)) j (some ⟨none, own⟩))) hs
    obtain ⟨h2, hs⟩ := needs_inv hs
    obtain ⟨rfl, hs⟩ := only_inv hs
    cases hs
    obtain ⟨w', e1, e2, -⟩ := s_newMoveAlloc I (ideal_isNone h2) h1
    refine ⟨fun q e => ?_, fun e => ?_⟩
    · rw [e1] at e; cases e; exact ⟨by rw [e2]; rfl, fun k h3 h4 => absurd h4 (by simp only [nodesFor]; omega)⟩
    · rw [e1] at e; cases e
  | newCopy i j =>
    obtain ⟨hd, tl, cs, own, h1, hs⟩ := full_inv (C := C) (i := _) (β := Res α × Ideal α) (y := (r, A')) (f := fun own ys => born (ideal C) i ⟨some ys, own⟩) hs
    obtain ⟨h2, rfl, rfl⟩ := born_inv hs
    simp only [nodesFor, count_full h1]
    exact asks_of (aw_var fun _ => aw_create am_copyImpl) (s_newCopy I' h2 h1) fun q ⟨_, _, _, _, _, _, h⟩ => h.2.2
  | newCopyAlloc i j a =>
    obtain ⟨hd, tl, cs, own, h1, hs⟩ := full_inv (C := C) (i := _) (β := Res α × Ideal α) (y := (r, A')) (f := fun _ ys => born (ideal C) i ⟨some ys, a⟩) hs
    obtain ⟨h2, rfl, rfl⟩ := born_inv hs
    simp only [nodesFor, count_full h1]
    exact asks_of (aw_var fun _ => aw_create am_copyImpl) (s_newCopyAlloc I' h2 h1 a) fun q ⟨_, _, _, _, _, _, h⟩ => h.2.2
  | copyAssign i j =>
    obtain ⟨o, h1, hs⟩ := bind_inv hs
    obtain ⟨hd, tl, cs, own, h2, hs⟩ := full_inv (C := C) (i := _) (β := Res α × Ideal α) (y := (r, A')) (f := fun own ys =>
      if i = j then some (.unit, ideal C) else some (.unit, put (ideal C) i (some ⟨some ys, own⟩))) hs
    by_cases hij : i = j
    · simp only [nodesFor, hij, if_true]
      refine asks_none ?_
      simp only [step, if_true]
      exact nw_look fun _ => .pure
    · simp only [nodesFor, hij, if_false, count_full h2]
      exact asks_copyAssign I hij h1 h2
  | listAssign i xs =>
    obtain ⟨hd, tl, cs, own, xs', h1, h2, rfl⟩ := edit_inv hs
    exact asks_of (aw_change fun _ => am_listAssign) (s_listAssign I' h1 xs) fun q ⟨_, _, _, _, h⟩ => h.2.2
  | insertAfter i p r =>
    obtain ⟨x, h0, hs⟩ := Option.bind_eq_some_iff.1 hs
    obtain ⟨hd, tl, cs, own, xs', h1, h2, rfl⟩ := edit_inv hs
    obtain ⟨h3, h2⟩ := needs_inv h2
    rw [vals_len] at h3
    exact asks_of (aw_arg fun _ => aw_changeP fun _ => am_at fun _ => am_emplaceAfter) (s_insertAfter I' h1 h0 h3) fun q ⟨_, _, _, _, h⟩ => h.2.2
  | insertAfterFill i p n r =>
    obtain ⟨x, h0, hs⟩ := Option.bind_eq_some_iff.1 hs
    obtain ⟨hd, tl, cs, own, xs', h1, h2, rfl⟩ := edit_inv hs
    obtain ⟨h3, h2⟩ := needs_inv h2
    rw [vals_len] at h3
    exact asks_of (aw_arg fun _ => aw_changeP fun _ => am_at fun _ => am_insertAfterFill) (s_insertAfterFill I' h1 h0 h3 n) fun q ⟨_, _, _, _, h⟩ => h.2.2
  | insertAfterRange i p ys =>
    obtain ⟨hd, tl, cs, own, xs', h1, h2, rfl⟩ := edit_inv hs
    obtain ⟨h3, h2⟩ := needs_inv h2
    rw [vals_len] at h3
    exact asks_of (aw_changeP fun _ => am_at fun _ => am_insertAfterRange) (s_insertAfterRange I' h1 h3 ys) fun q ⟨_, _, _, _, h⟩ => h.2.2
  | insert i p r =>
    obtain ⟨hd', hs⟩ := needs_inv hs
    obtain ⟨x, h0, hs⟩ := Option.bind_eq_some_iff.1 hs
    obtain ⟨hd, tl, cs, own, xs', h1, h2, rfl⟩ := edit_inv hs
    obtain ⟨h3, h2⟩ := needs_inv h2
    rw [vals_len] at h3
    exact asks_of (aw_arg fun _ => aw_changeP fun _ => am_at fun _ => am_emplace) (s_insert hd' I' h1 h0 h3) fun q ⟨_, _, _, _, h⟩ => h.2.2
  | insertFill i p n r =>
    obtain ⟨hd', hs⟩ := needs_inv hs
    obtain ⟨x, h0, hs⟩ := Option.bind_eq_some_iff.1 hs
    obtain ⟨hd, tl, cs, own, xs', h1, h2, rfl⟩ := edit_inv hs
    obtain ⟨h3, h2⟩ := needs_inv h2
    rw [vals_len] at h3
    exact asks_of (aw_arg fun _ => aw_changeP fun _ => am_at fun _ => am_insertFill) (s_insertFill (cfg := LL.grant cfg) hd' I' h1 h0 h3 n) fun q ⟨_, _, _, _, h⟩ => h.2.2
  | insertRange i p ys =>
    obtain ⟨hd', hs⟩ := needs_inv hs
    obtain ⟨hd, tl, cs, own, xs', h1, h2, rfl⟩ := edit_inv hs
    obtain ⟨h3, h2⟩ := needs_inv h2
    rw [vals_len] at h3
    exact asks_of (aw_changeP fun _ => am_at fun _ => am_insertRange) (s_insertRange (cfg := LL.grant cfg) hd' I' h1 h3 ys) fun q ⟨_, _, _, _, h⟩ => h.2.2
  | pushFront i r =>
    obtain ⟨x, h0, hs⟩ := Option.bind_eq_some_iff.1 hs
    obtain ⟨hd, tl, cs, own, xs', h1, h2, rfl⟩ := edit_inv hs
    exact asks_of (aw_arg fun _ => aw_change fun _ => am_pushFront) (s_pushFront I' h1 h0) fun q ⟨_, _, _, _, h⟩ => h.2.2
  | pushBack i r =>
    obtain ⟨hd', hs⟩ := needs_inv hs
    obtain ⟨x, h0, hs⟩ := Option.bind_eq_some_iff.1 hs
    obtain ⟨hd, tl, cs, own, xs', h1, h2, rfl⟩ := edit_inv hs
    exact asks_of (aw_arg fun _ => aw_change fun _ => am_pushBack) (s_pushBack hd' I' h1 h0) fun q ⟨_, _, _, _, h⟩ => h.2.2
  | resize i n =>
    obtain ⟨hd, tl, cs, own, xs', h1, h2, rfl⟩ := edit_inv hs
    simp only [nodesFor, count_full h1]
    exact asks_of (aw_change fun _ => am_resizeFill) (s_resize I' h1 n) fun q ⟨_, _, _, _, h⟩ => h.2.2
  | resizeFill i n r =>
    obtain ⟨x, h0, hs⟩ := Option.bind_eq_some_iff.1 hs
    obtain ⟨hd, tl, cs, own, xs', h1, h2, rfl⟩ := edit_inv hs
    simp only [nodesFor, count_full h1]
    exact asks_of (aw_arg fun _ => aw_change fun _ => am_resizeFill) (s_resizeFill I' h1 h0 n) fun q ⟨_, _, _, _, h⟩ => h.2.2
  | _ => exact asks_none (step_nomem _ rfl)
end

end Verif.Proof.LL
