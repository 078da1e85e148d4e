import Verif.Props.LinkedListThrow
/-!
# Property C94: how often lists call the comparison function

The number of calls is observed from outside, with a comparison function that throws at its `k`-th call (`thr k`, counted from 0): a member
makes at most `b` calls if and only if a function that throws at the `b`-th call or later only is never seen to throw.
-/
namespace Verif.Props.Lists
open Verif Verif.Model.LL Verif.Proof.LL
open Verif.Spec.LL hiding sorted

variable {α : Type} {cfg : Cfg α} {w : World α} {less : α → α → Bool} {thr : Nat → Bool} {i j : Nat} {l o : Lst}

/-- C94: sorting `n` elements, `1 ≤ n ≤ 2^e`, calls the comparison at most `n * e` times, for every comparison function. -/
theorem C94_sort_comparisons (hr : Reach cfg w) (hv : w.vars i = some l) {xs : List α} {a : Nat} (hi : view w i = some ⟨some xs, a⟩)
    (hx : xs ≠ []) {e : Nat} (he : xs.length ≤ 2 ^ e) (ht : ∀ k < xs.length * e, thr k = false) :
    ∃ l' h', sortT cfg less thr l w.heap = .ok ((false, l'), h') ∧ sort cfg less l w.heap = .ok (l', h') := by
  obtain ⟨C, hd, tl, cs, I, hC, ec, -⟩ := reach_get hr hi
  rw [I.var hC] at hv; cases hv
  have hl : xs.length = cs.length := by rw [← ec]; simp
  have hc : cs ≠ [] := by rintro rfl; exact hx ec.symm
  rcases sortT_ok (less := less) (thr := thr) (I.rep hC) hc with ⟨l', h', e1, e2, -⟩ | ⟨h', e1, ⟨k, hk, hk2⟩, -⟩
  · exact ⟨l', h', e1, e2⟩
  · rw [hl] at he ht
    rw [ht k (Nat.lt_of_lt_of_le hk (sortCost_le e he))] at hk2
    cases hk2

/-- C94: `a.merge(b)` of `n` and `m` elements calls the comparison at most `n + m - 1` times, for every comparison function, whether the
lists are sorted or not. -/
theorem C94_merge_comparisons (hr : Reach cfg w) (hij : i ≠ j) (hv : w.vars i = some l) (hw : w.vars j = some o) {xs ys : List α} {a : Nat}
    (hi : view w i = some ⟨some xs, a⟩) (hj : view w j = some ⟨some ys, a⟩) (hx : xs ≠ []) (hy : ys ≠ [])
    (ht : ∀ k < xs.length + ys.length - 1, thr k = false) :
    ∃ l' o' h', mergeT cfg less thr l o w.heap = .ok ((false, l', o'), h') ∧ merge cfg less l o w.heap = .ok ((l', o'), h') := by
  obtain ⟨C, hd, tl, cs, I, hC, e, -⟩ := reach_get hr hi
  rw [I.view] at hj
  obtain ⟨hd2, tl2, ds, hD, e2⟩ := ideal_full hj rfl
  rw [I.var hC] at hv; cases hv
  rw [I.var hD] at hw; cases hw
  have hl : xs.length = cs.length := by rw [← e]; simp
  have hl2 : ys.length = ds.length := by rw [← e2]; simp
  have hc : cs ≠ [] := by rintro rfl; exact hx e.symm
  have hd' : ds ≠ [] := by rintro rfl; exact hy e2.symm
  rcases mergeT_ok (less := less) (thr := thr) I.bal (I.rep hC) (I.rep hD) (I.disj hij hC hD) hc hd' with
    ⟨q, h', e1, e2, -⟩ | ⟨h', e1, ⟨k, hk, hk2⟩, -⟩
  · exact ⟨q.1, q.2, h', e1, e2⟩
  · rw [hl, hl2] at ht
    rw [ht k hk] at hk2
    cases hk2

/-- C94: `unique` of `n` elements calls the predicate exactly `n - 1` times: a predicate that does not throw in its first `n - 1` calls is
not seen to throw, and one that throws in one of them is. -/
theorem C94_unique_comparisons (hr : Reach cfg w) (hv : w.vars i = some l) {x : α} {xs : List α} {a : Nat}
    (hi : view w i = some ⟨some (x :: xs), a⟩) (p : α → α → Bool) :
    ∃ b l' n h', uniqueT cfg thr l p w.heap = .ok ((b, l', n), h') ∧ (b = true ↔ ∃ k < xs.length, thr k = true) := by
  by_cases h : ∃ k < xs.length, thr k = true
  · -- the first call that throws
    obtain ⟨m, hm1, hm2, hm3⟩ : ∃ m < xs.length, thr m = true ∧ ∀ k < m, thr k = false := by
      obtain ⟨k, hk, ht⟩ := h
      induction k using Nat.strongRecOn with
      | ind k ih =>
        by_cases hh : ∃ q < k, thr q = true
        · obtain ⟨q, hq, htq⟩ := hh
          exact ih q hq (Nat.lt_trans hq hk) htq
        · exact ⟨k, hk, ht, fun q hq => by
            cases hb : thr q with
            | false => rfl
            | true => exact absurd ⟨q, hq, hb⟩ hh⟩
    obtain ⟨l', n, h', e1, -⟩ := C81_unique_throw_partial hr hv hi p (Nat.le_of_lt hm1) hm3 fun _ => hm2
    exact ⟨_, l', n, h', e1, ⟨fun _ => h, fun _ => decide_eq_true hm1⟩⟩
  · obtain ⟨l', n, h', e1, -⟩ := C81_unique_throw_partial (thr := thr) hr hv hi p (Nat.le_refl _) (fun q hq => by
        cases hb : thr q with
        | false => rfl
        | true => exact absurd ⟨q, hq, hb⟩ h) fun hlt => absurd hlt (Nat.lt_irrefl _)
    exact ⟨_, l', n, h', e1, ⟨fun hb => absurd (of_decide_eq_true hb) (Nat.lt_irrefl _), fun hb => absurd hb h⟩⟩

/-! ## A case of each -/

/-- sorting the four elements `[3, 1, 2, 1]` takes at most 8 comparisons: one that throws at the ninth is not seen to throw -/
example (dbl : Bool) : ∃ w l l' h', Reach (exCfg dbl) w ∧ w.vars 0 = some l ∧
    sortT (exCfg dbl) (· < ·) (fun k => decide (8 ≤ k)) l w.heap = .ok ((false, l'), h') := by
  obtain ⟨w, l, o, h, hl, ho, h0, h1⟩ := exThrow dbl
  obtain ⟨l', h', e1, -⟩ := C94_sort_comparisons (less := (· < ·)) (thr := fun k => decide (8 ≤ k)) h hl h0 (by simp) (e := 2) (by decide) (by decide)
  exact ⟨w, l, l', h', h, hl, e1⟩

/-- merging `[5, 7]` into `[3, 1, 2, 1]` takes at most 5 -/
example (dbl : Bool) : ∃ w l o l' o' h', Reach (exCfg dbl) w ∧ w.vars 0 = some l ∧ w.vars 1 = some o ∧
    mergeT (exCfg dbl) (· < ·) (fun k => decide (5 ≤ k)) l o w.heap = .ok ((false, l', o'), h') := by
  obtain ⟨w, l, o, h, hl, ho, h0, h1⟩ := exThrow dbl
  obtain ⟨l', o', h', e1, -⟩ := C94_merge_comparisons (less := (· < ·)) (thr := fun k => decide (5 ≤ k)) h (by decide : (0 : Nat) ≠ 1) hl ho h0 h1
    (by simp) (by simp) (by decide)
  exact ⟨w, l, o, l', o', h', h, hl, ho, e1⟩

/-- `unique` of four elements calls the predicate a third time, but not a fourth time -/
example (dbl : Bool) : ∃ w l, Reach (exCfg dbl) w ∧ w.vars 0 = some l ∧
    (∃ l' n h', uniqueT (exCfg dbl) (fun k => k == 2) l (fun _ _ => true) w.heap = .ok ((true, l', n), h')) ∧
    ∃ l' n h', uniqueT (exCfg dbl) (fun k => k == 3) l (fun _ _ => true) w.heap = .ok ((false, l', n), h') := by
  obtain ⟨w, l, o, h, hl, ho, h0, h1⟩ := exThrow dbl
  obtain ⟨b, l1, n1, h1', e1, e2⟩ := C94_unique_comparisons (thr := fun k => k == 2) h hl h0 (fun _ _ => true)
  obtain ⟨b', l2, n2, h2', e3, e4⟩ := C94_unique_comparisons (thr := fun k => k == 3) h hl h0 (fun _ _ => true)
  obtain rfl := e2.2 (by decide)
  have hb : b' = false := by
    cases b' with
    | false => rfl
    | true => exact absurd (e4.1 rfl) (by decide)
  subst hb
  exact ⟨w, l, h, hl, ⟨l1, n1, h1', e1⟩, l2, n2, h2', e3⟩

end Verif.Props.Lists
