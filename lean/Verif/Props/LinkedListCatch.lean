import Verif.Proof.LLCatch2
import Verif.Props.LinkedList
/-!
# Property C115: lists in programs that catch the exceptions of element constructors

Full statement (refuted): if constructing an element throws during a call on a list, the exception reaches the caller, all
lists are as they were and can be used and destroyed, and no element and no memory is lost.
-/
namespace Verif.Props.Lists
open Verif Verif.Model.LL Verif.Proof.LL
open Verif.Spec.LL hiding sorted

variable {α β : Type} {cfg : Cfg α} {w : World α} {loss : Loss}

/-- C115, histories of survived exceptions.  A program may catch any number of exceptions, as long as every throwing call is one
the lists survive (`fateC`): then every call answers as on ideal lists (`none` for an exception), the lists are the ideal
lists, and once all of them are destroyed exactly `loss` is missing.

Missing: calls that are not survived (`C115_exact`), and what is lost (`C115_loses_fails`). -/
theorem C115_history_partial (ops : List (Op α × Option Nat)) {rs : List (Option (Res α))} {A : Ideal α}
    (hs : specRunC cfg.dbl cfg.dflt cfg.vsize cfg.dsize ops start = some (rs, A, loss)) :
    (runC cfg ops {}).SafeIf (Refuses cfg) (fun q => q.1 = rs ∧ view q.2 = A ∧
      ((∀ i, A i = none) → q.2.heap.ctors = q.2.heap.dtors + loss.elems ∧ q.2.heap.newBytes = q.2.heap.freeBytes + loss.bytes)) := by
  refine (runC_ok ops holdsC_start hs).imp ?_
  rintro q ⟨e, H⟩
  refine ⟨e, H.view, fun hA => ?_⟩
  obtain ⟨L, C, I, rfl, ha⟩ := H
  exact I.ended (fun i => ideal_isNone (by rw [hA i]; rfl)) ha

/-- C115, exactly.  In every state such a program reaches, a call that is allowed there and constructs more than `m` elements, the
construction number `m` of which throws, has the outcome `fateC` gives, unless memory is refused:

* the exception reaches the caller, the lists are those of `fateC`, and the program can go on, having lost that much more;
* the program is terminated;
* the exception reaches the caller and list `i` is damaged: destroying or traversing it is undefined behaviour; the other lists
  are as they were;
* the exception reaches the caller and the moved-from list `i` claims to have `n` elements; the other lists are as they were;
* undefined behaviour. -/
theorem C115_exact (hr : ReachC cfg loss w) {op : Op α} {p : Res α × Ideal α}
    (hs : specStep false cfg.dbl cfg.dflt op (view w) = some p) {m : Nat} (hm : m < (work (view w) op).made) :
    match fateC cfg.vsize cfg.dsize (view w) m op with
    | .caught A more => (stepC cfg op (some m) w).SafeIf (Refuses cfg) (fun q => q.1 = none ∧ view q.2 = A ∧ ReachC cfg (loss + more) q.2)
    | .ends => stepC cfg op (some m) w = .panic ∨ (stepC cfg op (some m) w = .oom ∧ Refuses cfg)
    | .damaged i => (stepC cfg op (some m) w).SafeIf (Refuses cfg) (fun q => q.1 = none ∧ (∀ j, j ≠ i → view q.2 j = view w j) ∧
        step cfg (.drop i) q.2 = .ub ∧ step cfg (.traverse i) q.2 = .ub)
    | .stray i n more => (stepC cfg op (some m) w).SafeIf (Refuses cfg) (fun q => q.1 = none ∧ (∀ j, j ≠ i → view q.2 j = view w j) ∧
        step cfg (.moved i) q.2 = .ok (.bool true, q.2) ∧ step cfg (.size i) q.2 = .ok (.num n, q.2) ∧
        q.2.heap.ctors + w.heap.dtors = w.heap.ctors + q.2.heap.dtors + more.elems ∧
        q.2.heap.newBytes + w.heap.freeBytes = w.heap.newBytes + q.2.heap.freeBytes + more.bytes)
    | .undefined => stepC cfg op (some m) w = .ub ∨ (stepC cfg op (some m) w = .oom ∧ Refuses cfg) := by
  obtain ⟨A, H⟩ := reachC_holds hr
  have hA := H.view
  obtain ⟨L, C, I, rfl, ha⟩ := H
  have h1 : specStep false cfg.dbl cfg.dflt op (ideal C) = some (p.1, p.2) := by rw [← hA]; exact hs
  have h2 : m < (work (ideal C) op).made := by rw [← hA]; exact hm
  have key := throw_fares op I h1 h2
  rw [← hA] at key
  cases hf : fateC cfg.vsize cfg.dsize (view w) m op with
  | caught A1 l1 =>
    rw [hf] at key
    have hc : specStepC cfg.dbl cfg.dflt cfg.vsize cfg.dsize op (some m) (view w, loss) = some (none, A1, loss + l1) := by
      simp only [specStepC, hs, Option.bind_some, needs, hm, if_true, hf]
    refine Out.SafeIf.with (stepC_threw (Q := fun w' => ∃ L' C', InvL cfg L' C' w' ∧ ideal C' = A1 ∧
      ∀ e b, Amount L e b → Amount L' (e + l1.elems) (b + l1.bytes)) key) ?_
    rintro ⟨a, w'⟩ he ⟨e, L', C', I', e', am⟩
    exact ⟨e, I'.view.trans e', reachC_snoc hr hc he⟩
  | ends => rw [hf] at key; exact stepC_ends key
  | undefined => rw [hf] at key; exact stepC_undefined key
  | damaged i => rw [hf] at key; exact stepC_threw (Q := fun w' => (∀ j, j ≠ i → view w' j = view w j) ∧ step cfg (.drop i) w' = .ub ∧
      step cfg (.traverse i) w' = .ub) key
  | stray i n more =>
    rw [hf] at key
    exact stepC_threw (Q := fun w' => (∀ j, j ≠ i → view w' j = view w j) ∧ step cfg (.moved i) w' = .ok (.bool true, w') ∧
      step cfg (.size i) w' = .ok (.num n, w') ∧ Gains w.heap w'.heap more.elems more.bytes) key

/-- C115: after any survived exceptions every call that throws nothing does what it does on ideal lists, and the program can go on. -/
theorem C115_goes_on_partial (hr : ReachC cfg loss w) {op : Op α} {p : Res α × Ideal α}
    (hs : specStep false cfg.dbl cfg.dflt op (view w) = some p) :
    (stepC cfg op none w).SafeIf (Refuses cfg) (fun q => q.1 = some p.1 ∧ view q.2 = p.2 ∧ ReachC cfg loss q.2) := by
  obtain ⟨A, H⟩ := reachC_holds hr
  have hA := H.view
  subst hA
  have hc : specStepC cfg.dbl cfg.dflt cfg.vsize cfg.dsize op none (view w, loss) = some (some p.1, p.2, loss) := by
    simp only [specStepC, hs, Option.bind_some]
  refine Out.SafeIf.with (stepC_ok H hc) ?_
  rintro ⟨a, w'⟩ he ⟨e, H'⟩
  exact ⟨e, H'.view, reachC_snoc hr hc he⟩

/-- C115: a call that constructs at most `m` elements in nodes is not touched by what happens when construction number `m` throws, in any
state whatsoever. -/
theorem C115_not_reached {op : Op α} {q : Res α × World α} (h : step cfg op w = .ok q) {m : Nat}
    (hm : q.2.heap.ctors ≤ w.heap.ctors + m) : stepC cfg op (some m) w = .ok (some q.1, q.2) := by
  obtain ⟨w', e⟩ := throwStep_other (thr := throwAt w.heap.ctors m) h fun k _ hk => by
    simp only [throwAt, beq_eq_false_iff_ne]; omega
  simp only [stepC, e, Out.bind_ok, Bool.false_eq_true, if_false, h]

/-- C115 fails for memory, always: every program that survives exceptions and destroys all its lists has lost at least one node for each of
the exceptions. -/
theorem C115_loses_fails (ops : List (Op α × Option Nat)) {rs : List (Option (Res α))} {A : Ideal α}
    (hs : specRunC cfg.dbl cfg.dflt cfg.vsize cfg.dsize ops start = some (rs, A, loss)) (hA : ∀ i, A i = none) :
    (runC cfg ops {}).SafeIf (Refuses cfg) (fun q =>
      q.2.heap.freeBytes + (ops.countP fun o => o.2.isSome) * cfg.dsize ≤ q.2.heap.newBytes) := by
  refine (C115_history_partial ops hs).imp ?_
  rintro q ⟨-, -, h⟩
  have h1 := (h hA).2
  have h2 := specRunC_loses ops hs
  have h3 : (start (α := α)).2.bytes = 0 := rfl
  rw [h3] at h2
  have h4 : loss.bytes = (A, loss).2.bytes := rfl
  omega

/-! ## Programs -/

theorem reachC_of (hc : ¬ Refuses cfg) (ops : List (Op α × Option Nat)) (Q : Ideal α → Loss → Bool)
    (hs : (match specRunC cfg.dbl cfg.dflt cfg.vsize cfg.dsize ops start with | none => false | some (_, A, l) => Q A l) = true) :
    ∃ w loss, ReachC cfg loss w ∧ Q (view w) loss = true := by
  cases he : specRunC cfg.dbl cfg.dflt cfg.vsize cfg.dsize ops start with
  | none => rw [he] at hs; cases hs
  | some q =>
    obtain ⟨rs, A, l⟩ := q
    rw [he] at hs
    have := C115_history_partial ops he
    cases hr : runC cfg ops {} with
    | ok q =>
      rw [hr] at this
      exact ⟨q.2, l, ⟨ops, rs, A, q.1, he, hr⟩, by rw [this.2.1]; exact hs⟩
    | oom => rw [hr] at this; exact absurd this hc
    | _ => rw [hr] at this; exact this.elim

/-- Exceptions in a constructor, a copy constructor, insertions, assignments and `from_iter`; calls in between. -/
def exOpsC : List (Op Nat × Option Nat) :=
  [(.newRange 0 [3, 1, 2] 0, none), (.newRange 1 [5, 7] 0, some 1), (.newRange 1 [5, 7] 0, none), (.insertAfter 0 1 (.elem 1 0), some 0),
    (.insertAfter 0 1 (.elem 1 0), none), (.newCopy 2 0, some 3), (.insertAfterRange 1 0 [8, 9], some 0), (.fromIter 2 [4, 4], some 0),
    (.newMove 3 1, none), (.copyAssign 1 0, some 0), (.listAssign 3 [6], some 0)]

/-- The lists then, and what has been lost: 1 + 3 elements. -/
def exAfterC (A : Ideal Nat) (l : Loss) : Bool :=
  decide (A 0 = some ⟨some [3, 5, 1, 2], 0⟩) && decide (A 1 = some ⟨none, 0⟩) && decide (A 2 = none) && decide (A 3 = some ⟨some [], 0⟩) &&
    decide (l.elems = 4)

theorem exReachC (dbl : Bool) : ∃ w loss, ReachC (exCfg dbl) loss w ∧ exAfterC (view w) loss = true :=
  reachC_of (exCfg_ok dbl) exOpsC exAfterC (by cases dbl <;> decide +kernel)

/-- The program of the example destroys all its lists, and has lost 7 nodes at least. -/
example (dbl : Bool) : ∃ rs A loss, specRunC (exCfg dbl).dbl (exCfg dbl).dflt (exCfg dbl).vsize (exCfg dbl).dsize
    (exOpsC ++ [(.drop 0, none), (.drop 1, none), (.drop 3, none)]) start = some (rs, A, loss) ∧ (∀ i, A i = none) ∧
    (exOpsC.countP fun o => o.2.isSome) = 7 := by
  refine ⟨_, _, _, rfl, fun i => ?_, by decide⟩
  by_cases h0 : i = 0 <;> by_cases h1 : i = 1 <;> by_cases h2 : i = 2 <;> by_cases h3 : i = 3 <;> simp [put, emptied, start, h0, h1, h2, h3]

/-- Constructing a list of two elements: the second construction is reached, the third is not. -/
example (dbl : Bool) :
    (∃ q, step (exCfg dbl) (.newRange 0 [5, 7] 0) {} = .ok q ∧ stepC (exCfg dbl) (.newRange 0 [5, 7] 0) (some 2) {} = .ok (some q.1, q.2)) ∧
    (match stepC (exCfg dbl) (.newRange 0 [5, 7] 0) (some 1) {} with | .ok q => q.1.isNone | _ => false) = true := by
  have k : (match step (exCfg dbl) (.newRange 0 [5, 7] 0) {} with | .ok q => decide (q.2.heap.ctors ≤ 2) | _ => false) = true := by
    cases dbl <;> decide +kernel
  refine ⟨?_, by cases dbl <;> decide +kernel⟩
  cases e : step (exCfg dbl) (.newRange 0 [5, 7] 0) {} with
  | ok q =>
    rw [e] at k
    exact ⟨q, rfl, C115_not_reached e (by simpa using k)⟩
  | _ => rw [e] at k; cases k

/-- What each fate looks like in the state of the example: list 0 holds `3, 5, 1, 2`, list 1 was moved from, list 3 is empty. -/
theorem C115_each_fate_fails (dbl : Bool) : ∃ w loss, ReachC (exCfg dbl) loss w ∧
    -- an insertion of three elements whose second construction throws
    ((stepC (exCfg dbl) (.insertAfterRange 0 1 [7, 8, 9]) (some 1) w).SafeIf (Refuses (exCfg dbl)) (fun q => q.1 = none ∧
      (∀ j, j ≠ 0 → view q.2 j = view w j) ∧ step (exCfg dbl) (.drop 0) q.2 = .ub ∧ step (exCfg dbl) (.traverse 0) q.2 = .ub)) ∧
    -- a copy assignment
    ((stepC (exCfg dbl) (.copyAssign 3 0) (some 0) w).SafeIf (Refuses (exCfg dbl)) (fun q => q.1 = none ∧
      (∀ j, j ≠ 3 → view q.2 j = view w j) ∧ step (exCfg dbl) (.drop 3) q.2 = .ub ∧ step (exCfg dbl) (.traverse 3) q.2 = .ub)) ∧
    -- a copy assignment to a list that was moved from
    ((stepC (exCfg dbl) (.copyAssign 1 0) (some 2) w).SafeIf (Refuses (exCfg dbl)) (fun q => q.1 = none ∧
      step (exCfg dbl) (.moved 1) q.2 = .ok (.bool true, q.2) ∧ step (exCfg dbl) (.size 1) q.2 = .ok (.num 2, q.2))) ∧
    stepC (exCfg dbl) (.pushFront 3 (.val 4)) (some 0) w = .panic ∧
    stepC (exCfg dbl) (.resize 0 7) (some 2) w = .panic ∧
    stepC (exCfg dbl) (.fromIter 2 [7, 8, 9]) (some 1) w = .ub := by
  obtain ⟨w, loss, hr, hP⟩ := exReachC dbl
  simp only [exAfterC, Bool.and_eq_true, decide_eq_true_eq] at hP
  obtain ⟨⟨⟨⟨h0, h1⟩, h2⟩, h3⟩, -⟩ := hP
  refine ⟨w, loss, hr, ?_, ?_, ?_, ?_, ?_, ?_⟩
  · have k := C115_exact hr (op := .insertAfterRange 0 1 [7, 8, 9]) (m := 1) (by simp [specStep, edit, h0, needs]; rfl) (by simp [work, add, build])
    simpa [fateC] using k
  · have k := C115_exact hr (op := .copyAssign 3 0) (m := 0) (by simp [specStep, h0, h3]; rfl) (by simp [work, lenOf, h0, h3, lose, build, work_add, Var.elems])
    simpa [fateC, h3] using k
  · have k := C115_exact hr (op := .copyAssign 1 0) (m := 2) (by simp [specStep, h0, h1]; rfl) (by simp [work, lenOf, h0, h1, lose, build, work_add, Var.elems])
    simp only [fateC, h1, Option.any_some, Option.isNone_none, if_true] at k
    rw [if_neg (by decide)] at k
    exact Out.SafeIf.imp k fun q h => ⟨h.1, h.2.2.1, h.2.2.2.1⟩
  · have k := C115_exact hr (op := .pushFront 3 (.val 4)) (m := 0) (by simp [specStep, argVal, edit, h3]; rfl) (by simp [work, add, build])
    exact k.resolve_right fun h => exCfg_ok dbl h.2
  · have k := C115_exact hr (op := .resize 0 7) (m := 2) (by simp [specStep, edit, h0]; rfl) (by simp [work, lenOf, h0, add, Var.elems])
    exact k.resolve_right fun h => exCfg_ok dbl h.2
  · have k := C115_exact hr (op := .fromIter 2 [7, 8, 9]) (m := 1) (by simp [specStep, born, needs, h2]; rfl) (by simp [work, add, build])
    exact k.resolve_right fun h => exCfg_ok dbl h.2

end Verif.Props.Lists
