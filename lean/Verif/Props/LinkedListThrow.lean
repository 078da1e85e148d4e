import Verif.Proof.LLThrow
import Verif.Props.LinkedListFault
/-!
# Property C81: lists when the comparison function throws

C81 (full statement, refuted): after a call of `sort`, `merge` or `unique` whose predicate throws, every list of the program can be used
and destroyed, and the lists together still hold the elements they held (except those `unique` had already dropped).

`thr k` says that the predicate throws at its `k`-th call (counted from 0) during the call of the member.
-/
namespace Verif.Props.Lists
open Verif Verif.Model.LL Verif.Proof.LL
open Verif.Spec.LL hiding sorted

variable {α : Type} {cfg : Cfg α} {w : World α} {less : α → α → Bool} {thr : Nat → Bool} {i j : Nat} {l o : Lst}

/-- The chain of the list leads nowhere: walking through it is undefined, and so is destroying it. -/
def Wrecked (cfg : Cfg α) (l : Lst) (h : Heap α) : Prop := traverse l h = .ub ∧ destruct cfg l h = .ub

/-- C81 fails: `sort` of a list with elements either does what it does without exceptions, or the predicate threw and the list is
wrecked, whichever call of the predicate threw.  With two elements or more the predicate is called, so the second case does happen. -/
theorem C81_sort_throw_fails (hr : Reach cfg w) (hv : w.vars i = some l) {xs : List α} {a : Nat} (hi : view w i = some ⟨some xs, a⟩)
    (hx : xs ≠ []) : ∃ b l' h', sortT cfg less thr l w.heap = .ok ((b, l'), h') ∧
      (b = false → sort cfg less l w.heap = .ok (l', h')) ∧
      (b = true → l' = l ∧ Wrecked cfg l h') ∧
      ((∀ k, thr k = false) → b = false) ∧ (2 ≤ xs.length → thr 0 = true → b = true) := by
  obtain ⟨C, hd, tl, cs, I, hC, e, -⟩ := reach_get hr hi
  rw [I.var hC] at hv; cases hv
  have hl : xs.length = cs.length := by rw [← e]; simp
  have hc : cs ≠ [] := by rintro rfl; exact hx e.symm
  rcases sortT_ok (less := less) (thr := thr) (I.rep hC) hc with ⟨l', h', e1, e2, e3⟩ | ⟨h', e1, ⟨k, -, hk⟩, e3⟩
  · refine ⟨false, l', h', e1, fun _ => e2, fun h => (by cases h), fun _ => rfl, fun h2 h0 => ?_⟩
    rw [e3 (by omega)] at h0; cases h0
  · refine ⟨true, _, h', e1, fun h => (by cases h), fun _ => ⟨rfl, e3⟩, fun h => ?_, fun _ _ => rfl⟩
    rw [h k] at hk; cases hk

/-- C81 fails: `a.merge(b)` of two lists with elements and the same allocator either does what it does without exceptions, or the
predicate threw.  Then `b` is empty, `a` says that it holds all elements, but it is wrecked or elements are missing in it.  No node is
freed, so the missing ones are lost.  The predicate is called at least once. -/
theorem C81_merge_throw_fails (hr : Reach cfg w) (hij : i ≠ j) (hv : w.vars i = some l) (hw : w.vars j = some o) {xs ys : List α} {a : Nat}
    (hi : view w i = some ⟨some xs, a⟩) (hj : view w j = some ⟨some ys, a⟩) (hx : xs ≠ []) (hy : ys ≠ []) :
    ∃ b l' o' h', mergeT cfg less thr l o w.heap = .ok ((b, l', o'), h') ∧
      (b = false → merge cfg less l o w.heap = .ok ((l', o'), h')) ∧
      (b = true → o'.len = 0 ∧ traverse o' h' = .ok ([], h') ∧ l'.len = xs.length + ys.length ∧ h'.info = w.heap.info ∧
        (Wrecked cfg l' h' ∨ ∃ zs : List α, traverse l' h' = .ok (zs, h') ∧ zs.length < xs.length + ys.length)) ∧
      ((∀ k, thr k = false) → b = false) ∧ (thr 0 = true → b = true) := by
  obtain ⟨C, hd, tl, cs, I, hC, e, -⟩ := reach_get hr hi
  rw [I.view] at hj
  obtain ⟨hd2, tl2, ds, hD, e2⟩ := ideal_full hj rfl
  rw [I.var hC] at hv; cases hv
  rw [I.var hD] at hw; cases hw
  have hl : xs.length = cs.length := by rw [← e]; simp
  have hl2 : ys.length = ds.length := by rw [← e2]; simp
  have hc : cs ≠ [] := by rintro rfl; exact hx e.symm
  have hd' : ds ≠ [] := by rintro rfl; exact hy e2.symm
  rcases mergeT_ok (less := less) (thr := thr) I.bal (I.rep hC) (I.rep hD) (I.disj hij hC hD) hc hd' with
    ⟨q, h', e1, e2, e3⟩ | ⟨h', e1, ⟨k, -, hk⟩, e3, e4, e5⟩
  · refine ⟨false, q.1, q.2, h', e1, fun _ => e2, fun h => (by cases h), fun _ => rfl, fun h0 => ?_⟩
    rw [e3] at h0; cases h0
  · refine ⟨true, _, _, h', e1, fun h => (by cases h), fun _ => ⟨rfl, ?_, by rw [hl, hl2], e3, ?_⟩, fun h => ?_, fun _ => rfl⟩
    · exact traverse_ok e4
    · rw [hl, hl2]
      exact e5.imp id fun ⟨zs, h1, h2⟩ => ⟨zs, h2, h1⟩
    · rw [h k] at hk; cases hk

/-- C81 (partial): `unique` keeps its promise.  If the predicate throws at its `m`-th call (`m = xs.length`: at none), the elements compared
so far lost their repetitions, the others follow unchanged, the other lists are untouched, and everything done afterwards goes on like
with ideal lists of these contents.
Missing: `sort` and `merge`, see `C81_sort_throw_fails` and `C81_merge_throw_fails`. -/
theorem C81_unique_throw_partial (hr : Reach cfg w) (hv : w.vars i = some l) {x : α} {xs : List α} {a : Nat}
    (hi : view w i = some ⟨some (x :: xs), a⟩) (p : α → α → Bool) {m : Nat} (hm : m ≤ xs.length)
    (hg : ∀ k < m, thr k = false) (ht : m < xs.length → thr m = true) :
    ∃ l' n h', uniqueT cfg thr l p w.heap = .ok ((decide (m < xs.length), l', n), h') ∧
      n + (uniqueBy p (x :: xs.take m)).length = 1 + m ∧
      view ⟨h', upd w.vars i (some l')⟩ =
        (fun k => if k = i then some ⟨some (uniqueBy p (x :: xs.take m) ++ xs.drop m), a⟩ else view w k) ∧
      ∀ (ops : List (Op α)) {rs : List (Res α)} {A : Ideal α},
        specRun false cfg.dbl cfg.dflt ops (view ⟨h', upd w.vars i (some l')⟩) = some (rs, A) →
        (run cfg ops ⟨h', upd w.vars i (some l')⟩).SafeIf (Refuses cfg) fun q => q.1 = rs ∧ view q.2 = A := by
  obtain ⟨C, hd, tl, cs, I, hC, e, -⟩ := reach_get hr hi
  rw [I.var hC] at hv; cases hv
  obtain ⟨c, cs, rfl, rfl, rfl⟩ := List.map_eq_cons_iff.1 e
  simp only [List.length_map] at hm ht ⊢
  obtain ⟨h', e1, q, ed⟩ := uniqueT_ok (thr := thr) I.bal (I.rep hC) p hm hg ht
  have J : Inv cfg (cput C i (some (full hd tl (c :: (uniqCells p c.2 (cs.take m) ++ cs.drop m)) a)))
      ⟨h', upd w.vars i (some (lst hd tl (c :: (uniqCells p c.2 (cs.take m) ++ cs.drop m)) a))⟩ := by
    refine I.put1 i (o := some (full hd tl (c :: (uniqCells p c.2 (cs.take m) ++ cs.drop m)) a)) (by rw [hC]; exact ed.step) ?_
    rintro x hx; cases hx; exact ed.rep
  have hu := vals_uniq p c.2 (cs.take m)
  have hlen := len_uniq p c.2 (cs.take m)
  have hlu : (uniqueAfter p c.2 ((cs.take m).map Prod.snd)).length = (uniqCells p c.2 (cs.take m)).length := by
    have := congrArg List.length hu
    simpa using this.symm
  refine ⟨_, _, h', e1, ?_, ?_, fun ops rs A hs => ?_⟩
  · simp only [uniqueBy, List.length_cons, ← List.map_take, hlu]
    have : (cs.take m).length = m := by simp; omega
    omega
  · rw [J.view, I.view]
    funext k
    by_cases hk : k = i
    · subst hk
      simp only [ideal, cput_same, if_true]
      show some (⟨some (vals (c :: (uniqCells p c.2 (cs.take m) ++ cs.drop m))), a⟩ : Spec.LL.Var α) = _
      rw [vals, vals] at hu
      rw [vals, List.map_cons, List.map_append, hu, List.map_take, List.map_drop]
      rfl
    · simp only [ideal, cput_ne C _ hk, if_neg hk]
  · rw [J.view] at hs
    refine (run_ok ops J hs).imp ?_
    rintro q ⟨h1, C', J', h2⟩
    exact ⟨h1, by rw [J'.view, h2]⟩

/-- C81 fails: `remove_if` is declared `noexcept`, so a predicate that throws at its `k`-th call terminates the program (the predicate here
counts its calls; a call that throws is `panic`).  The predicate is called exactly once per element: it terminates the program if and only
if it throws at one of its first `xs.length` calls, and otherwise the elements it accepts are removed. -/
theorem C81_remove_if_throw_fails (hr : Reach cfg w) (hv : w.vars i = some l) {xs : List α} {a : Nat}
    (hi : view w i = some ⟨some xs, a⟩) (p : α → Bool) :
    ((∃ k < xs.length, thr k = true) →
      removeIf cfg l (fun k x => if thr k then Prog.panic else return (p x, k + 1)) 0 w.heap = .panic) ∧
    ((∀ k < xs.length, thr k = false) → ∃ l' h',
      removeIf cfg l (fun k x => if thr k then Prog.panic else return (p x, k + 1)) 0 w.heap =
        .ok ((l', (xs.filter p).length, xs.length), h') ∧
      traverse l' h' = .ok (xs.filter fun x => !p x, h')) := by
  obtain ⟨C, hd, tl, cs, I, hC, e, -⟩ := reach_get hr hi
  rw [I.var hC] at hv; cases hv
  have hl : xs.length = cs.length := by rw [← e]; simp
  constructor
  · rintro ⟨k, hk, ht⟩
    exact removeIf_term I.bal (I.rep hC) p thr k (by omega) ht
  · intro ht
    obtain ⟨h', e1, ed⟩ := removeIf_calm I.bal (I.rep hC) p thr (by rw [← hl]; exact ht)
    have hf : (xs.filter p).length = (cs.filter fun c => p c.2).length := by
      rw [← e]
      have := congrArg List.length (vals_filter p cs)
      simp only [vals, List.length_map] at this
      exact this.symm
    refine ⟨lst hd tl (cs.filter fun c => !p c.2) a, h', ?_, ?_⟩
    · rw [hf, hl]; exact e1
    · have := traverse_ok ed.rep
      rw [vals_filter (fun x => !p x) cs] at this
      rw [← e]
      exact this

/-! ## A case of each -/

/-- removing the odd elements of `[3, 1, 2, 1]`: a predicate that throws at its third call terminates, one that throws at its fifth is fine -/
example (dbl : Bool) : ∃ w l, Reach (exCfg dbl) w ∧ w.vars 0 = some l ∧
    removeIf (exCfg dbl) l (fun k x => if k == 2 then Prog.panic else return (x % 2 == 1, k + 1)) 0 w.heap = .panic ∧
    ∃ l' h', removeIf (exCfg dbl) l (fun k x => if k == 4 then Prog.panic else return (x % 2 == 1, k + 1)) 0 w.heap = .ok ((l', 3, 4), h') ∧
      traverse l' h' = .ok ([2], h') := by
  obtain ⟨w, l, o, h, hl, ho, h0, h1⟩ := exThrow dbl
  exact ⟨w, l, h, hl, (C81_remove_if_throw_fails (thr := fun k => k == 2) h hl h0 (fun x => x % 2 == 1)).1 ⟨2, by decide, rfl⟩,
    (C81_remove_if_throw_fails (thr := fun k => k == 4) h hl h0 (fun x => x % 2 == 1)).2 (by decide)⟩

/-- sorting `[3, 1, 2, 1]` with a predicate that throws at once wrecks the list -/
example (dbl : Bool) : ∃ w l h', Reach (exCfg dbl) w ∧ w.vars 0 = some l ∧ sortT (exCfg dbl) (· < ·) (fun _ => true) l w.heap = .ok ((true, l), h') ∧
    Wrecked (exCfg dbl) l h' := by
  obtain ⟨w, l, o, h, hl, ho, h0, h1⟩ := exThrow dbl
  obtain ⟨b, l', h', e1, -, e2, -, e3⟩ := C81_sort_throw_fails (less := (· < ·)) (thr := fun _ => true) h hl h0 (by simp)
  obtain rfl := e3 (by simp) rfl
  obtain ⟨rfl, e2⟩ := e2 rfl
  exact ⟨w, _, h', h, hl, e1, e2⟩

/-- and one that never throws sorts it -/
example (dbl : Bool) : ∃ w l l' h', Reach (exCfg dbl) w ∧ w.vars 0 = some l ∧
    sortT (exCfg dbl) (· < ·) (fun _ => false) l w.heap = .ok ((false, l'), h') ∧ sort (exCfg dbl) (· < ·) l w.heap = .ok (l', h') := by
  obtain ⟨w, l, o, h, hl, ho, h0, h1⟩ := exThrow dbl
  obtain ⟨b, l', h', e1, e2, -, e3, -⟩ := C81_sort_throw_fails (less := (· < ·)) (thr := fun _ => false) h hl h0 (by simp)
  obtain rfl := e3 fun _ => rfl
  exact ⟨w, l, l', h', h, hl, e1, e2 rfl⟩

/-- merging `[5, 7]` into `[3, 1, 2, 1]` with a predicate that throws at once: the size is 6, the elements are less -/
example (dbl : Bool) : ∃ w l o l' o' h', Reach (exCfg dbl) w ∧ w.vars 0 = some l ∧ w.vars 1 = some o ∧
    mergeT (exCfg dbl) (· < ·) (fun _ => true) l o w.heap = .ok ((true, l', o'), h') ∧ l'.len = 6 ∧
    (Wrecked (exCfg dbl) l' h' ∨ ∃ zs, traverse l' h' = .ok (zs, h') ∧ zs.length < 6) := by
  obtain ⟨w, l, o, h, hl, ho, h0, h1⟩ := exThrow dbl
  obtain ⟨b, l', o', h', e1, -, e2, -, e3⟩ :=
    C81_merge_throw_fails (less := (· < ·)) (thr := fun _ => true) h (by decide : (0 : Nat) ≠ 1) hl ho h0 h1 (by simp) (by simp)
  obtain rfl := e3 rfl
  obtain ⟨-, -, e4, -, e5⟩ := e2 rfl
  exact ⟨w, l, o, l', o', h', h, hl, ho, e1, e4, e5⟩

/-- `unique` of `[3, 1, 2, 1]` where the predicate "always equal" throws at its third call: 1 and 2 are gone, the last 1 is kept -/
example (dbl : Bool) : ∃ w l l' n h', Reach (exCfg dbl) w ∧ w.vars 0 = some l ∧
    uniqueT (exCfg dbl) (fun k => k == 2) l (fun _ _ => true) w.heap = .ok ((true, l', n), h') ∧ n = 2 ∧
    view ⟨h', upd w.vars 0 (some l')⟩ 0 = some ⟨some [3, 1], 0⟩ := by
  obtain ⟨w, l, o, h, hl, ho, h0, h1⟩ := exThrow dbl
  obtain ⟨l', n, h', e1, e2, e3, -⟩ := C81_unique_throw_partial (thr := fun k => k == 2) (x := 3) (xs := [1, 2, 1]) (m := 2) h hl h0 (fun _ _ => true)
    (by decide) (by decide) (by decide)
  refine ⟨w, l, l', n, h', h, hl, e1, ?_, by rw [e3]; rfl⟩
  simp [uniqueBy, uniqueAfter] at e2
  omega

end Verif.Props.Lists
