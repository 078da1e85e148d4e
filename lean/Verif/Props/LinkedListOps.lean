import Verif.Props.LinkedList
import Mathlib.Data.List.Destutter
/-!
# Properties C21-C27 and C30-C32: sorting, merging, splicing, copying lists

Notation as in `Props/LinkedList.lean`.  `put A i x` changes entry `i` of `A` only, so an equation
`view w' = put (view w) i …` also says that no other list changed.
-/
namespace Verif.Props.Lists
open Verif Verif.Model.LL Verif.Proof.LL
open Verif.Spec.LL hiding sorted
open Verif.Spec (End takes givenAt)

variable {α σ : Type} {cfg : Cfg α} {w : World α} {i j : Nat}

/-! ## C21 -/

/-- C21.  For any predicate, consistent or not, and any list that does not have exactly one element, sort terminates, is
safe, and leaves a permutation of the very nodes: nothing is copied, constructed, destroyed or allocated. -/
theorem C21_sort_any_predicate_partial (hr : Reach cfg w) {cs : List (Nat × α)} (hc : cells w i = some cs) (hl : cs.length ≠ 1)
    (less : α → α → Bool) : Changes cfg (.sort i less) w i .unit (fun cs' => cs'.Perm cs) 0 0 0 := by
  obtain ⟨C, hd, tl, a, I, hC, hv⟩ := reach_cells hr hc
  refine changes_of I hC ((s_sort I hC less hl).imp ?_)
  rintro q ⟨h1, cs', h2, rfl, h3⟩
  exact ⟨h1, _, h2, msortBy_perm .., h3⟩

/-- C21.  With a strict weak order the result is a sorted permutation, and the list can be used further.
Missing: lists with exactly one element, see `C21_sort_single_fails`. -/
theorem C21_sort_partial (hr : Reach cfg w) {xs : List α} {a : Nat} (hi : view w i = some ⟨some xs, a⟩) {less : α → α → Bool}
    (hs : swoOn less xs = true) (hl : xs.length ≠ 1) :
    (step cfg (.sort i less) w).SafeIf (Refuses cfg) fun q => q.1 = .unit ∧
      (∃ ys, view q.2 = put (view w) i (some ⟨some ys, a⟩) ∧ ys.Perm xs ∧ ys.Pairwise fun x y => less y x = false) ∧
      Costs w.heap q.2.heap 0 0 0 ∧ Reach cfg q.2 := by
  obtain ⟨C, hd, tl, cs, I, hC, rfl, hc⟩ := reach_get hr hi
  have hspec : specStep false cfg.dbl cfg.dflt (.sort i less) (view w) =
      some (.unit, put (view w) i (some ⟨some (sortBy less (vals cs).reverse), a⟩)) := by
    have hl' : cs.length ≠ 1 := by simpa using hl
    simp [specStep, edit, hi, needs, hs, only, hl']
  refine ((reach_step hr hspec).and (C21_sort_any_predicate_partial hr hc (by simpa using hl) less)).imp ?_
  rintro q ⟨⟨h1, h2, h3, -⟩, -, -, -, -, h4⟩
  exact ⟨h1, ⟨_, h2, sortBy_perm.trans (List.reverse_perm _), sorted_iff.1 (sorted_sortBy (swoOn_iff.1 hs) fun x hx => by simpa using hx)⟩,
    h4, h3⟩

example (dbl : Bool) : ∃ w a, Reach (exCfg dbl) w ∧ view w 0 = some ⟨some [3, 1, 2, 1], a⟩ ∧
    swoOn (fun x y : Nat => decide (x < y)) [3, 1, 2, 1] = true := by
  obtain ⟨w, h, hP⟩ := exReach dbl
  exact ⟨w, 0, h, hP 0 (by decide), by decide⟩

/-- The full property is false of the code: sorting a list with one element, whatever the predicate, leaves an object on
which traversal and destruction are undefined. -/
theorem C21_sort_single_fails (hr : Reach cfg w) {x : α} {a : Nat} (hi : view w i = some ⟨some [x], a⟩) (less : α → α → Bool) :
    run cfg [.sort i less, .traverse i] w = .ub ∧ run cfg [.sort i less, .drop i] w = .ub := by
  obtain ⟨C, hd, tl, cs, I, hC, hx, hc⟩ := reach_get hr hi
  obtain ⟨c, rfl, -⟩ := List.map_eq_singleton_iff.1 hx
  exact sort_one_ub I hC

example (dbl : Bool) : ∃ w a, Reach (exCfg dbl) w ∧ view w 3 = some ⟨some [4], a⟩ := by
  obtain ⟨w, h, hP⟩ := exReach dbl
  exact ⟨w, 9, h, hP 3 (by decide)⟩

/-! ## C22 -/

/-- Neither is less than the other. -/
def same (less : α → α → Bool) (x y : α) : Bool := !less x y && !less y x

theorem same_not_less {less : α → α → Bool} {xs : List α} (hs : Swo less xs) {e x y : α} (he : e ∈ xs) (hx : x ∈ xs) (hy : y ∈ xs)
    (h1 : same less e x = true) (h2 : same less e y = true) : less y x = false := by
  simp only [same, Bool.and_eq_true, Bool.not_eq_true'] at h1 h2
  cases h : less y x with
  | false => rfl
  | true =>
    rcases hs.split y hy e he x hx h with h | h
    · rw [h2.2] at h; cases h
    · rw [h1.1] at h; cases h

/-- C22 is false of the code.  Exactly: sorting any list other than one with a single element brings the elements equivalent
to any given one into reverse order. -/
theorem C22_sort_reverses_ties (hr : Reach cfg w) {xs : List α} {a : Nat} (hi : view w i = some ⟨some xs, a⟩)
    {less : α → α → Bool} (hs : swoOn less xs = true) (hl : xs.length ≠ 1) :
    (step cfg (.sort i less) w).SafeIf (Refuses cfg) fun q => ∃ ys, view q.2 i = some ⟨some ys, a⟩ ∧
      ∀ e ∈ xs, ys.filter (same less e) = (xs.filter (same less e)).reverse := by
  have hspec : specStep false cfg.dbl cfg.dflt (.sort i less) (view w) =
      some (.unit, put (view w) i (some ⟨some (sortBy less xs.reverse), a⟩)) := by
    simp [specStep, edit, hi, needs, hs, only, hl]
  refine (reach_step hr hspec).imp ?_
  rintro q ⟨-, h2, -⟩
  refine ⟨sortBy less xs.reverse, by rw [h2]; simp [put], fun e he => ?_⟩
  rw [sortBy_filter, List.filter_reverse]
  intro x hx y hy h1 h2
  exact same_not_less (swoOn_iff.1 hs) he (by simpa using hx) (by simpa using hy) h1 h2

/-- So sort is not stable as soon as the equivalents of some element are not a palindrome. -/
theorem C22_sort_fails (hr : Reach cfg w) {xs : List α} {a : Nat} (hi : view w i = some ⟨some xs, a⟩)
    {less : α → α → Bool} (hs : swoOn less xs = true) (hl : xs.length ≠ 1) {e : α} (he : e ∈ xs)
    (hp : xs.filter (same less e) ≠ (xs.filter (same less e)).reverse) :
    (step cfg (.sort i less) w).SafeIf (Refuses cfg) fun q => ∃ ys, view q.2 i = some ⟨some ys, a⟩ ∧
      ys.filter (same less e) ≠ xs.filter (same less e) := by
  refine (C22_sort_reverses_ties hr hi hs hl).imp ?_
  rintro q ⟨ys, h1, h2⟩
  exact ⟨ys, h1, by rw [h2 e he]; exact fun h => hp h.symm⟩

/-- comparing by tens: 5 and 7 are equivalent and change places -/
example (dbl : Bool) : ∃ w a, Reach (exCfg dbl) w ∧ view w 1 = some ⟨some [5, 7], a⟩ ∧
    swoOn (fun x y : Nat => decide (x / 10 < y / 10)) [5, 7] = true ∧
    [5, 7].filter (same (fun x y : Nat => decide (x / 10 < y / 10)) 5) ≠
      ([5, 7].filter (same (fun x y : Nat => decide (x / 10 < y / 10)) 5)).reverse := by
  obtain ⟨w, h, hP⟩ := exReach dbl
  exact ⟨w, 0, h, hP 1 (by decide), by decide, by decide⟩

/-- C22.  Called with the non-strict order `y` is not less than `x`, sort is stable.  Missing: strict orders, see
`C22_sort_fails`. -/
theorem C22_sort_nonstrict_partial (hr : Reach cfg w) {xs : List α} {a : Nat} (hi : view w i = some ⟨some xs, a⟩)
    {less : α → α → Bool} (hs : swoOn less xs = true) (hl : xs.length ≠ 1) :
    (step cfg (.sort i fun x y => !less y x) w).SafeIf (Refuses cfg) fun q => ∃ ys, view q.2 i = some ⟨some ys, a⟩ ∧
      ys.Perm xs ∧ (ys.Pairwise fun x y => less y x = false) ∧ ∀ e ∈ xs, ys.filter (same less e) = xs.filter (same less e) := by
  obtain ⟨C, hd, tl, cs, I, hC, rfl, hc⟩ := reach_get hr hi
  refine (s_sort I hC (fun x y => !less y x) (by simpa using hl)).imp ?_
  rintro q ⟨-, cs', I', rfl, -⟩
  have hv : vals (msortBy (onVal fun x y => !less y x) cs) = sortBy less (vals cs) := by
    rw [← msortBy_le (swoOn_iff.1 hs) (fun x hx => hx)]
    exact msortBy_map Prod.snd (fun x y => !less y x) cs
  refine ⟨sortBy less (vals cs), ?_, sortBy_perm, sorted_iff.1 (sorted_sortBy (swoOn_iff.1 hs) fun x hx => hx), fun e he => ?_⟩
  · rw [(I.seen I').2.2, hv]; simp [put]
  · exact sortBy_filter fun x hx y hy h1 h2 => same_not_less (swoOn_iff.1 hs) he hx hy h1 h2

/-- C22 is false of merge too: equivalent elements of the argument are put before those of `*this`, for all sorted lists. -/
theorem C22_merge_argument_first (hr : Reach cfg w) (hij : i ≠ j) {xs ys : List α} {a : Nat} (hi : view w i = some ⟨some xs, a⟩)
    (hj : view w j = some ⟨some ys, a⟩) {less : α → α → Bool} (hs : swoOn less (xs ++ ys) = true)
    (hx : Spec.LL.sorted less xs = true) (hy : Spec.LL.sorted less ys = true) (hne : xs ≠ [] ∨ ys = []) :
    (step cfg (.merge i j less) w).SafeIf (Refuses cfg) fun q => ∃ zs, view q.2 i = some ⟨some zs, a⟩ ∧
      ∀ e ∈ xs ++ ys, zs.filter (same less e) = ys.filter (same less e) ++ xs.filter (same less e) := by
  have hspec : specStep false cfg.dbl cfg.dflt (.merge i j less) (view w) =
      some (.unit, put (put (view w) i (some ⟨some (sortBy less (ys ++ xs)), a⟩)) j (some ⟨some [], a⟩)) := by
    simp [specStep, edit2, hi, hj, needs, hs, hx, hy, only, hne, hij]
  refine (reach_step hr hspec).imp ?_
  rintro q ⟨-, h2, -⟩
  refine ⟨sortBy less (ys ++ xs), by rw [h2]; simp [put, hij], fun e he => ?_⟩
  rw [sortBy_filter, List.filter_append]
  intro x hx y hy h1 h2
  exact same_not_less (swoOn_iff.1 hs) he (by simp at hx ⊢; tauto) (by simp at hy ⊢; tauto) h1 h2

/-! ## C23 -/

/-- C23.  Merging sorted lists gives a sorted list of the elements of both, empties the argument, leaves both usable, and
neither copies nor allocates.  Missing: merging a non-empty list into an empty one, see `C23_merge_into_empty_fails`, and the
rvalue overload, see `C23_merge_rvalue_fails`. -/
theorem C23_merge_partial (hr : Reach cfg w) (hij : i ≠ j) {xs ys : List α} {a : Nat} (hi : view w i = some ⟨some xs, a⟩)
    (hj : view w j = some ⟨some ys, a⟩) {less : α → α → Bool} (hs : swoOn less (xs ++ ys) = true)
    (hx : Spec.LL.sorted less xs = true) (hy : Spec.LL.sorted less ys = true) (hne : xs ≠ [] ∨ ys = []) :
    ∃ w' zs, step cfg (.merge i j less) w = .ok (.unit, w') ∧ Costs w.heap w'.heap 0 0 0 ∧ Reach cfg w' ∧
      view w' = put (put (view w) i (some ⟨some zs, a⟩)) j (some ⟨some [], a⟩) ∧
      zs.Perm (xs ++ ys) ∧ zs.Pairwise fun x y => less y x = false := by
  obtain ⟨C, hd, tl, cs, I, hC, rfl, hc⟩ := reach_get hr hi
  obtain ⟨C', hd2, tl2, ds, I', hC', rfl, hc'⟩ := reach_get hr hj
  rw [I.view] at hj
  obtain ⟨hd2, tl2, ds', hCj, hv⟩ := ideal_full hj rfl
  have := I.cells hCj
  rw [hc'] at this
  cases this
  rw [← I.view] at hj
  rw [vals_ne, vals_nil_iff] at hne
  obtain ⟨w', e1, e2, e3⟩ := s_merge I hij hC hCj less hne
  rw [← vals_ne, ← vals_nil_iff ds] at hne
  have hspec : specStep false cfg.dbl cfg.dflt (.merge i j less) (view w) =
      some (.unit, put (put (view w) i (some ⟨some (sortBy less (vals ds ++ vals cs)), a⟩)) j (some ⟨some [], a⟩)) := by
    simp only [specStep, edit2, hi, hj, needs, hs, hx, hy, only, hij, hne, if_false, if_true, Option.bind_some]
    simp [hij]
  have hst := reach_step hr hspec
  rw [e1] at hst
  obtain ⟨-, g2, g3, -⟩ := hst
  refine ⟨w', _, e1, e2, g3, g2, sortBy_perm.trans List.perm_append_comm, sorted_iff.1 (sorted_sortBy (swoOn_iff.1 hs) ?_)⟩
  intro x hx; simp at hx ⊢; tauto

/-- A list merged with itself, or with an empty list (by either overload), stays as it is. -/
theorem C23_merge_nothing (hr : Reach cfg w) {xs : List α} {a : Nat} (hi : view w i = some ⟨some xs, a⟩) (less : α → α → Bool) :
    step cfg (.merge i i less) w = .ok (.unit, w) ∧ step cfg (.mergeMove i i less) w = .ok (.unit, w) ∧
    ∀ j, i ≠ j → view w j = some ⟨some [], a⟩ →
      (∃ w', step cfg (.merge i j less) w = .ok (.unit, w') ∧ view w' = view w ∧ cells w' i = cells w i) ∧
      (∃ w', step cfg (.mergeMove i j less) w = .ok (.unit, w') ∧ view w' = view w ∧ cells w' i = cells w i) := by
  obtain ⟨C, hd, tl, cs, I, hC, rfl, hc⟩ := reach_get hr hi
  refine ⟨?_, ?_, fun j hij hj => ?_⟩
  · simp only [step, if_true]
    refine look_ok (I.var hC) ?_
    simp only [Prog.bind_run]
    rw [dbgAssert_run (by simp [lst])]
    rfl
  · simp only [step, if_true]
    refine look_ok (I.var hC) ?_
    simp only [Prog.bind_run]
    rw [dbgAssert_run (by simp [lst])]
    rfl
  · rw [I.view] at hj
    obtain ⟨hd2, tl2, ds', hCj, hv⟩ := ideal_full hj rfl
    cases List.map_eq_nil_iff.1 hv
    have hsame : cput (cput C i (some (full hd tl cs a))) j (some (full hd2 tl2 [] a)) = C := by
      funext l
      simp only [cput]
      split
      · rename_i h; rw [h, hCj]
      · split
        · rename_i h; rw [h, hC]
        · rfl
    constructor
    · obtain ⟨w', e1, e2, e3⟩ := s_merge I hij hC hCj less (.inr rfl)
      rw [mrgBy_nil', hsame] at e3
      exact ⟨w', e1, by rw [e3.view, I.view], I.cells_congr e3 rfl⟩
    · obtain ⟨w', e1, -, e3⟩ := s_mergeMove_nil I hij hC hCj less
      rw [hsame] at e3
      exact ⟨w', e1, by rw [e3.view, I.view], I.cells_congr e3 rfl⟩

example (dbl : Bool) : ∃ w, Reach (exCfg dbl) w ∧ view w 1 = some ⟨some [5, 7], 0⟩ ∧ view w 2 = some ⟨some [], 0⟩ ∧
    Spec.LL.sorted (fun x y : Nat => decide (x < y)) [5, 7] = true ∧ swoOn (fun x y : Nat => decide (x < y)) [5, 7] = true := by
  obtain ⟨w, h, hP⟩ := exReach dbl
  exact ⟨w, h, hP 1 (by decide), hP 2 (by decide), by decide, by decide⟩

/-- two non-empty sorted lists with an equivalent pair -/
example (dbl : Bool) : ∃ w, Reach (exCfg dbl) w ∧ view w 0 = some ⟨some [1, 3], 0⟩ ∧ view w 1 = some ⟨some [2, 3], 0⟩ ∧
    swoOn (fun x y : Nat => decide (x < y)) ([1, 3] ++ [2, 3]) = true := by
  obtain ⟨w, h, hP⟩ := reach_of (exCfg_ok dbl) [.newRange 0 [1, 3] 0, .newRange 1 [2, 3] 0]
    (fun (A : Ideal Nat) => decide (A 0 = some ⟨some [1, 3], 0⟩ ∧ A 1 = some ⟨some [2, 3], 0⟩)) (by cases dbl <;> decide +kernel)
  have hP := of_decide_eq_true hP
  exact ⟨w, h, hP.1, hP.2, by decide⟩

/-- The full property is false of the code: merging any non-empty list into an empty one leaves an object whose traversal is
undefined. -/
theorem C23_merge_into_empty_fails (hr : Reach cfg w) (hij : i ≠ j) {ys : List α} {a b : Nat} (hi : view w i = some ⟨some [], a⟩)
    (hj : view w j = some ⟨some ys, b⟩) (hy : ys ≠ []) (less : α → α → Bool) :
    run cfg [.merge i j less, .traverse i] w = .ub := by
  obtain ⟨C, hd, tl, cs, I, hC, hx, hc⟩ := reach_get hr hi
  cases List.map_eq_nil_iff.1 hx
  rw [I.view] at hj
  obtain ⟨hd2, tl2, ds', hCj, rfl⟩ := ideal_full hj rfl
  exact merge_empty_ub I hij hC hCj ((vals_ne _).1 hy)

/-- The rvalue overload: with any non-empty argument the result cannot be traversed. -/
theorem C23_merge_rvalue_fails (hr : Reach cfg w) (hij : i ≠ j) {xs ys : List α} {a : Nat} (hi : view w i = some ⟨some xs, a⟩)
    (hj : view w j = some ⟨some ys, a⟩) (hy : ys ≠ []) (less : α → α → Bool) :
    run cfg [.mergeMove i j less, .traverse i] w = .ub := by
  obtain ⟨C, hd, tl, cs, I, hC, hx, hc⟩ := reach_get hr hi
  rw [I.view] at hj
  obtain ⟨hd2, tl2, ds', hCj, rfl⟩ := ideal_full hj rfl
  exact mergeMove_ub I hij hC hCj ((vals_ne _).1 hy)

/-! ## C24 -/

/-- C24.  Splicing a non-empty list: all its nodes come in order behind (`splice_after`) or before (`splice`) the position,
the argument is left empty (or moved-from, for the rvalue overloads), and nothing is constructed, destroyed or allocated.
Missing: an empty argument, see `C24_splice_empty_fails`. -/
theorem C24_splice_partial (hr : Reach cfg w) (hij : i ≠ j) {cs ds : List (Nat × α)} {a : Nat} (hi : cells w i = some cs)
    (hj : cells w j = some ds) (ha : (view w i).map Var.alloc = some a) (hb : (view w j).map Var.alloc = some a) (hne : ds ≠ [])
    (p : Nat) :
    (p ≤ cs.length →
      (∃ w', step cfg (.spliceAfter i p j) w = .ok (.unit, w') ∧ Costs w.heap w'.heap 0 0 0 ∧ Reach cfg w' ∧
        cells w' i = some (cs.take p ++ (ds ++ cs.drop p)) ∧ view w' j = some ⟨some [], a⟩ ∧
        ∀ l, l ≠ i → l ≠ j → cells w' l = cells w l) ∧
      (∃ w', step cfg (.spliceAfterMove i p j) w = .ok (.unit, w') ∧ Costs w.heap w'.heap 0 0 0 ∧ Reach cfg w' ∧
        cells w' i = some (cs.take p ++ (ds ++ cs.drop p)) ∧ view w' j = some ⟨none, a⟩ ∧
        ∀ l, l ≠ i → l ≠ j → cells w' l = cells w l)) ∧
    (cfg.dbl = true → 1 ≤ p ∧ p ≤ cs.length + 1 →
      (∃ w', step cfg (.splice i p j) w = .ok (.unit, w') ∧ Costs w.heap w'.heap 0 0 0 ∧ Reach cfg w' ∧
        cells w' i = some (cs.take (p - 1) ++ (ds ++ cs.drop (p - 1))) ∧ view w' j = some ⟨some [], a⟩ ∧
        ∀ l, l ≠ i → l ≠ j → cells w' l = cells w l) ∧
      (∃ w', step cfg (.spliceMove i p j) w = .ok (.unit, w') ∧ Costs w.heap w'.heap 0 0 0 ∧ Reach cfg w' ∧
        cells w' i = some (cs.take (p - 1) ++ (ds ++ cs.drop (p - 1))) ∧ view w' j = some ⟨none, a⟩ ∧
        ∀ l, l ≠ i → l ≠ j → cells w' l = cells w l)) := by
  obtain ⟨C, hd, tl, a1, I, hC, hv⟩ := reach_cells hr hi
  obtain ⟨hd2, tl2, a2, hCj⟩ := cells_inv I hj
  have hv2 : view w j = some ⟨some (vals ds), a2⟩ := by rw [I.view, ideal, hCj]; rfl
  obtain rfl : a1 = a := by rw [hv] at ha; exact Option.some.inj ha
  obtain rfl : a2 = a1 := by rw [hv2] at hb; exact Option.some.inj hb
  have fin : ∀ {op : Op α} {w' : World α} {cs' : List (Nat × α)} {o : Obj α},
      step cfg op w = .ok (.unit, w') → Costs w.heap w'.heap 0 0 0 →
      Proof.LL.Inv cfg (cput (cput C i (some (full hd tl cs' a2))) j (some o)) w' →
      (specStep false cfg.dbl cfg.dflt op (view w)).isSome = true →
      ∃ w', step cfg op w = .ok (.unit, w') ∧ Costs w.heap w'.heap 0 0 0 ∧ Reach cfg w' ∧
        cells w' i = some cs' ∧ view w' j = some o.value ∧ ∀ l, l ≠ i → l ≠ j → cells w' l = cells w l := by
    intro op w' cs' o e1 e2 e3 hs
    obtain ⟨⟨r, A⟩, hs⟩ := Option.isSome_iff_exists.1 hs
    refine ⟨w', e1, e2, reach_snoc hr hs e1, e3.cells (by rw [cput_ne _ _ hij, cput_same]), ?_, (I.seen2 e3).2⟩
    rw [(I.seen2 e3).1]; simp [put]
  have hne' : vals ds ≠ [] := (vals_ne _).2 hne
  refine ⟨fun hp => ⟨?_, ?_⟩, fun hd' hp => ⟨?_, ?_⟩⟩
  · obtain ⟨w', e1, e2, e3⟩ := s_spliceAfter I hij hC hCj hp hne
    refine fin e1 e2 e3 ?_
    rw [specStep, edit2, hv, hv2]
    simp only [Option.bind_some, needs, only, hij, ne_eq, not_false_eq_true, and_self, if_true, vals_len, hp, hne', or_true, Option.map_some, Option.isSome_some]
  · obtain ⟨w', e1, e2, e3⟩ := s_spliceAfterMove I hij hC hCj hp hne
    refine fin e1 e2 e3 ?_
    rw [specStep, edit2, hv, hv2]
    simp only [Option.bind_some, needs, only, hij, ne_eq, not_false_eq_true, and_self, if_true, vals_len, hp, hne', or_true, Option.map_some, Option.isSome_some]
  · obtain ⟨w', e1, e2, e3⟩ := s_splice hd' I hij hC hCj hp hne
    refine fin e1 e2 e3 ?_
    rw [specStep, edit2, hv, hv2]
    simp only [Option.bind_some, needs, only, hij, ne_eq, not_false_eq_true, and_self, if_true, vals_len, hp, hne', or_true, Option.map_some, hd', Option.isSome_some]
  · obtain ⟨w', e1, e2, e3⟩ := s_spliceMove hd' I hij hC hCj hp hne
    refine fin e1 e2 e3 ?_
    rw [specStep, edit2, hv, hv2]
    simp only [Option.bind_some, needs, only, hij, ne_eq, not_false_eq_true, and_self, if_true, vals_len, hp, hne', or_true, Option.map_some, hd', Option.isSome_some]

/-- The full property is false of the code: splicing an empty list into any list at any position leaves an object whose
traversal is undefined. -/
theorem C24_splice_empty_fails (hr : Reach cfg w) (hij : i ≠ j) {xs : List α} {a b p : Nat} (hi : view w i = some ⟨some xs, a⟩)
    (hj : view w j = some ⟨some [], b⟩) :
    (p ≤ xs.length → run cfg [.spliceAfter i p j, .traverse i] w = .ub ∧ run cfg [.spliceAfterMove i p j, .traverse i] w = .ub) ∧
    (cfg.dbl = true → 1 ≤ p ∧ p ≤ xs.length + 1 →
      run cfg [.splice i p j, .traverse i] w = .ub ∧ run cfg [.spliceMove i p j, .traverse i] w = .ub) := by
  obtain ⟨C, I⟩ := reach_inv hr
  obtain ⟨hd, tl, cs, hC, rfl, -⟩ := full_of_view I hi
  obtain ⟨hd2, tl2, ds, hCj, hx, -⟩ := full_of_view I hj
  cases List.map_eq_nil_iff.1 hx
  rw [vals_len]
  exact ⟨fun hp => spliceAfter_ub I hij hC hCj hp, fun hd' hp => splice_ub hd' I hij hC hCj hp⟩

example (dbl : Bool) : ∃ w cs ds, Reach (exCfg dbl) w ∧ cells w 0 = some cs ∧ cells w 1 = some ds ∧ cs.length = 4 ∧ ds ≠ [] ∧
    (view w 0).map Var.alloc = some 0 ∧ (view w 1).map Var.alloc = some 0 ∧ view w 2 = some ⟨some [], 0⟩ := by
  obtain ⟨w, cs, ds, h, h1, h2, h3, h4, -, hP⟩ := exCells dbl
  refine ⟨w, cs, ds, h, h1, h3, ?_, ?_, by rw [hP 0 (by decide)]; rfl, by rw [hP 1 (by decide)]; rfl, hP 2 (by decide)⟩
  · rw [← List.length_map (f := Prod.snd), h2]; rfl
  · rintro rfl; cases h4

/-! ## C25 -/

/-- C25.  reverse() reverses the sequence of nodes, so the traversal order, with no construction, destruction or allocation;
doing it twice restores the list, down to its nodes. -/
theorem C25_reverse (hr : Reach cfg w) {cs : List (Nat × α)} (hi : cells w i = some cs) :
    ∃ w', step cfg (.reverse i) w = .ok (.unit, w') ∧ Costs w.heap w'.heap 0 0 0 ∧ Reach cfg w' ∧
      cells w' i = some cs.reverse ∧ (∀ l, l ≠ i → cells w' l = cells w l) ∧
      step cfg (.traverse i) w' = .ok (.seq (cs.map Prod.snd).reverse, w') ∧
      ∃ w'', step cfg (.reverse i) w' = .ok (.unit, w'') ∧ Costs w'.heap w''.heap 0 0 0 ∧ (∀ l, cells w'' l = cells w l) ∧
        view w'' = view w := by
  have main : ∀ {w : World α} {cs : List (Nat × α)}, Reach cfg w → cells w i = some cs →
      ∃ w' a, step cfg (.reverse i) w = .ok (.unit, w') ∧ Costs w.heap w'.heap 0 0 0 ∧ Reach cfg w' ∧ view w i = some ⟨some (vals cs), a⟩ ∧
      cells w' i = some cs.reverse ∧ (∀ l, l ≠ i → cells w' l = cells w l) ∧
      view w' = put (view w) i (some ⟨some (vals cs.reverse), a⟩) := by
    intro w cs hr hi
    obtain ⟨C, hd, tl, a, I, hC, hv⟩ := reach_cells hr hi
    obtain ⟨w', e1, e2, e3⟩ := s_reverse I hC
    have hs : specStep false cfg.dbl cfg.dflt (.reverse i) (view w) = some (.unit, put (view w) i (some ⟨some (vals cs).reverse, a⟩)) := by
      rw [specStep, edit, hv]; rfl
    refine ⟨w', a, e1, e2, reach_snoc hr hs e1, hv, ?_⟩
    split at e3
    · exact ⟨(I.seen e3).1, (I.seen e3).2.1, (I.seen e3).2.2⟩
    · exact ⟨(I.seen e3).1, (I.seen e3).2.1, (I.seen e3).2.2⟩
  obtain ⟨w', a, e1, e2, e3, ev, e4, e5, e6⟩ := main hr hi
  obtain ⟨w'', a', f1, f2, f3, fv, f4, f5, f6⟩ := main e3 e4
  refine ⟨w', e1, e2, e3, e4, e5, ?_, w'', f1, f2, ?_, ?_⟩
  · have := (C16_observers e3 (i := i) (xs := vals cs.reverse) (a := a) (by rw [e6]; simp [put])).2.2.1
    rw [this, vals, List.map_reverse]
  · intro l
    by_cases hl : l = i
    · subst hl; rw [f4, hi, List.reverse_reverse]
    · rw [f5 l hl, e5 l hl]
  · rw [e6] at fv
    simp only [put, if_true, Option.some.injEq, Var.mk.injEq] at fv
    funext l
    rw [f6, e6]
    simp only [put, List.reverse_reverse]
    split
    · rename_i h; rw [h, ev, fv.2]
    · rfl

example (dbl : Bool) : ∃ w cs, Reach (exCfg dbl) w ∧ cells w 0 = some cs ∧ cs.map Prod.snd = [3, 1, 2, 1] := by
  obtain ⟨w, cs, ds, h, h1, h2, -⟩ := exCells dbl
  exact ⟨w, cs, h, h1, h2⟩

/-! ## C26 -/

/-- C26.  unique(pred) keeps exactly the first node of each run of elements equivalent to the first of the run, destroys the
others, and returns their number. -/
theorem C26_unique (hr : Reach cfg w) {xs : List α} {a : Nat} (hi : view w i = some ⟨some xs, a⟩) (p : α → α → Bool) :
    (step cfg (.unique i p) w).SafeIf (Refuses cfg) fun q => q.1 = .num (xs.length - (uniqueBy p xs).length) ∧
      view q.2 = put (view w) i (some ⟨some (uniqueBy p xs), a⟩) ∧
      Costs w.heap q.2.heap 0 (xs.length - (uniqueBy p xs).length) 0 ∧ Reach cfg q.2 := by
  obtain ⟨C, hd, tl, cs, I, hC, rfl, hc⟩ := reach_get hr hi
  have hs : specStep false cfg.dbl cfg.dflt (.unique i p) (view w) =
      some (.num ((vals cs).length - (uniqueBy p (vals cs)).length), put (view w) i (some ⟨some (uniqueBy p (vals cs)), a⟩)) := by
    rw [specStep, edit, hi]; rfl
  refine ((reach_step hr hs).and (s_unique I hC p)).imp ?_
  rintro q ⟨⟨h1, h2, h3, -⟩, h4, cs', h5, rfl, h6⟩
  refine ⟨h1, h2, ?_, h3⟩
  have : (vals cs).length - (uniqueBy p (vals cs)).length = cs.length - (uniqAll p cs).length := by
    rw [← vals_uniqAll, vals_len, vals_len]
  rw [this]; exact h6

/-- The specification of unique agrees with Mathlib's `destutter`. -/
theorem C26_unique_spec (p : α → α → Bool) (xs : List α) : uniqueBy p xs = xs.destutter fun x y => p y x = false := by
  have aux : ∀ (xs : List α) (x : α), x :: uniqueAfter p x xs = xs.destutter' (fun x y => p y x = false) x := by
    intro xs
    induction xs with
    | nil => intro x; rfl
    | cons y ys ih =>
      intro x
      rw [List.destutter'_cons, uniqueAfter]
      cases h : p y x
      · simp only [Bool.false_eq_true, if_false, if_true, ih]
      · simp only [Bool.true_eq_false, if_false, if_true, ih]
  cases xs with
  | nil => rfl
  | cons x xs => exact aux xs x

example (dbl : Bool) : ∃ w, Reach (exCfg dbl) w ∧ view w 0 = some ⟨some [3, 1, 2, 1], 0⟩ ∧
    uniqueBy (fun x y : Nat => x % 2 == y % 2) [3, 1, 2, 1] = [3, 2, 1] := by
  obtain ⟨w, h, hP⟩ := exReach dbl
  exact ⟨w, h, hP 0 (by decide), by decide⟩

/-! ## C27 -/

/-- C27.  remove_if(p) destroys exactly the nodes whose elements satisfy `p`, keeps the others in order, and returns the
number removed. -/
theorem C27_remove_if (hr : Reach cfg w) {cs : List (Nat × α)} (hc : cells w i = some cs) (p : α → Bool) :
    Changes cfg (.removeIf i p) w i (.num (cs.filter fun c => p c.2).length) (fun cs' => cs' = cs.filter fun c => !p c.2) 0
      (cs.filter fun c => p c.2).length 0 := by
  obtain ⟨C, hd, tl, a, I, hC, hv⟩ := reach_cells hr hc
  exact changes_of I hC (s_removeIf I hC p)

/-- C27.  The predicate is called once per element, in order: a predicate that records its arguments records the contents.
(`removeIf` is the member function on the list object `v` in variable `i`.) -/
theorem C27_evaluated_once (hr : Reach cfg w) {cs : List (Nat × α)} (hc : cells w i = some cs) (p : α → Bool) :
    ∃ v v' h', w.vars i = some v ∧
      removeIf cfg v (fun (log : List α) x => return (p x, log ++ [x])) [] w.heap =
        .ok ((v', (cs.filter fun c => p c.2).length, cs.map Prod.snd), h') := by
  obtain ⟨C, hd, tl, a, I, hC, hv⟩ := reach_cells hr hc
  obtain ⟨h', e, -⟩ := removeIf_ok I.bal (I.rep hC) (fun (log : List α) x => return (p x, log ++ [x])) (fun log x => (p x, log ++ [x])) []
    (fun _ _ _ _ _ _ => rfl)
  have h1 : ∀ (cs : List (Nat × α)) (l : List α), stAfter (fun log x => (p x, log ++ [x])) l cs = l ++ cs.map Prod.snd := by
    intro cs
    induction cs with
    | nil => intro l; simp [stAfter]
    | cons c cs ih => intro l; simp [stAfter, ih]
  have h2 : ∀ (cs : List (Nat × α)) (l : List α), goneOf (fun log x => (p x, log ++ [x])) l cs = cs.filter fun c => p c.2 := by
    intro cs
    induction cs with
    | nil => intro l; rfl
    | cons c cs ih => intro l; simp only [goneOf, ih, List.filter_cons]
  rw [h1, h2] at e
  exact ⟨_, _, h', I.var hC, e⟩

/-- C27.  remove(val), where `val` is a value, an element of another list, the last element of this list, or an element of
this list that is not removed.  Missing: other elements of this list, see `C27_remove_own_element_fails`. -/
theorem C27_remove_partial (hr : Reach cfg w) {cs : List (Nat × α)} (hc : cells w i = some cs) {r : Arg α} {x : α}
    (hx : argVal (view w) r = some x) (eq : α → α → Bool) (ho : outlives i eq (cs.map Prod.snd) r = true) :
    Changes cfg (.remove i eq r) w i (.num (cs.filter fun c => eq x c.2).length) (fun cs' => cs' = cs.filter fun c => !eq x c.2) 0
      (cs.filter fun c => eq x c.2).length 0 := by
  obtain ⟨C, hd, tl, a, I, hC, hv⟩ := reach_cells hr hc
  rw [I.view] at hx
  exact changes_of I hC (s_remove I hC hx eq ho)

/-- The full property is false of the code: removing by reference to an element of the list itself that is not the last one
reads the element after it has been destroyed. -/
theorem C27_remove_own_element_fails (hr : Reach cfg w) {xs ys : List α} {x : α} {a : Nat}
    (hi : view w i = some ⟨some (xs ++ x :: ys), a⟩) (hy : ys ≠ []) (eq : α → α → Bool) (he : eq x x = true) :
    step cfg (.remove i eq (.elem i xs.length)) w = .ub := by
  obtain ⟨C, hd, tl, cs, I, hC, hx, hc⟩ := reach_get hr hi
  obtain ⟨u, ds, rfl, rfl, h2⟩ := List.map_eq_append_iff.1 hx
  obtain ⟨c, v, rfl, rfl, rfl⟩ := List.map_eq_cons_iff.1 h2
  exact remove_alias_ub I hC ((vals_ne _).1 hy) eq he (by simp)

example (dbl : Bool) : ∃ w cs, Reach (exCfg dbl) w ∧ cells w 0 = some cs ∧ argVal (view w) (.elem 1 0) = some 5 ∧
    outlives 0 (fun x y : Nat => x == y) (cs.map Prod.snd) (.elem 1 0) = true ∧
    view w 0 = some ⟨some ([3, 1] ++ 2 :: [1]), 0⟩ := by
  obtain ⟨w, cs, ds, h, h1, h2, h3, h4, -, hP⟩ := exCells dbl
  exact ⟨w, cs, h, h1, by simp [argVal, contents, hP, exView], by simp [outlives], hP 0 (by decide)⟩

/-! ## C30 -/

/-- C30.  Copy construction (with the source's allocator or another one): equal contents in nodes that did not exist before;
no list changes, its nodes included. -/
theorem C30_copy (hr : Reach cfg w) {xs : List α} {a : Nat} (hi : view w i = none) (hj : view w j = some ⟨some xs, a⟩) (b : Nat) :
    ((step cfg (.newCopy i j) w).SafeIf (Refuses cfg) fun q => Reach cfg q.2 ∧ view q.2 = put (view w) i (some ⟨some xs, a⟩) ∧
      (∀ l, l ≠ i → cells q.2 l = cells w l) ∧ ∀ cs, cells q.2 i = some cs → ∀ c ∈ cs, w.heap.info c.1 = none) ∧
    ((step cfg (.newCopyAlloc i j b) w).SafeIf (Refuses cfg) fun q => Reach cfg q.2 ∧ view q.2 = put (view w) i (some ⟨some xs, b⟩) ∧
      (∀ l, l ≠ i → cells q.2 l = cells w l) ∧ ∀ cs, cells q.2 i = some cs → ∀ c ∈ cs, w.heap.info c.1 = none) := by
  obtain ⟨C, I⟩ := reach_inv hr
  obtain ⟨hd, tl, cs, hC, rfl, -⟩ := full_of_view I hj
  have hCi := none_of_view I hi
  constructor
  · have hs : specStep false cfg.dbl cfg.dflt (.newCopy i j) (view w) = some (.unit, put (view w) i (some ⟨some (vals cs), a⟩)) := by
      rw [specStep, hj]; simp [born, needs, hi]
    refine ((reach_step hr hs).and (s_newCopy I hCi hC)).imp ?_
    rintro q ⟨⟨-, h2, h3, h4⟩, -, hd', tl', cs', I', -⟩
    refine ⟨h3, h2, fun l hl => h4 l (by simp [writes, hl]), fun ds hds c hc => ?_⟩
    rw [I'.cells (cput_same ..)] at hds; cases hds
    exact I.fresh_nodes hCi I' hc
  · have hs : specStep false cfg.dbl cfg.dflt (.newCopyAlloc i j b) (view w) = some (.unit, put (view w) i (some ⟨some (vals cs), b⟩)) := by
      rw [specStep, hj]; simp [born, needs, hi]
    refine ((reach_step hr hs).and (s_newCopyAlloc I hCi hC b)).imp ?_
    rintro q ⟨⟨-, h2, h3, h4⟩, -, hd', tl', cs', I', -⟩
    refine ⟨h3, h2, fun l hl => h4 l (by simp [writes, hl]), fun ds hds c hc => ?_⟩
    rw [I'.cells (cput_same ..)] at hds; cases hds
    exact I.fresh_nodes hCi I' hc

/-- C30.  Afterwards a call upon one of the two lists does not change the other: any call leaves the contents, allocator and
nodes of every list it does not write to. -/
theorem C30_independent (hr : Reach cfg w) {op : Op α} {r : Res α} {A : Ideal α}
    (h : specStep false cfg.dbl cfg.dflt op (view w) = some (r, A)) (hw : j ∉ writes op) :
    (step cfg op w).SafeIf (Refuses cfg) fun q => cells q.2 j = cells w j ∧ view q.2 j = view w j := by
  obtain ⟨C, I⟩ := reach_inv hr
  refine (step_ok op I (by rw [← I.view]; exact h)).imp ?_
  rintro q ⟨-, C', I', -, hf⟩
  refine ⟨I.cells_congr I' (hf j hw), ?_⟩
  rw [I'.view, I.view, ideal, ideal, hf j hw]

/-- C30.  Move construction transfers the nodes themselves: memory is untouched, the new list has the source's nodes and
allocator, and the source reports moved(). -/
theorem C30_move (hr : Reach cfg w) {v : Var α} (hi : view w i = none) (hj : view w j = some v) :
    ∃ w', step cfg (.newMove i j) w = .ok (.unit, w') ∧ w'.heap = w.heap ∧ Reach cfg w' ∧ cells w' i = cells w j ∧
      view w' = put (put (view w) i (some v)) j (some ⟨none, v.alloc⟩) ∧ step cfg (.moved j) w' = .ok (.bool true, w') := by
  obtain ⟨C, I⟩ := reach_inv hr
  have hCi := none_of_view I hi
  have hj' := hj
  rw [I.view, ideal] at hj'
  obtain ⟨o, hC, rfl⟩ := Option.map_eq_some_iff.1 hj'
  have hij : i ≠ j := by rintro rfl; rw [hi] at hj; cases hj
  obtain ⟨w', e1, e2, e3⟩ := s_newMove I hCi hC
  have hs : specStep false cfg.dbl cfg.dflt (.newMove i j) (view w) =
      some (.unit, put (put (view w) i (some o.value)) j (some ⟨none, o.value.alloc⟩)) := by
    rw [specStep, hj]; simp [needs, hi]
  have hv := (I.seen2 e3).1
  refine ⟨w', e1, e2, reach_snoc hr hs e1, ?_, hv, ?_⟩
  · rw [cells, cells, e3.vars, I.vars, cput_ne _ _ hij, cput_same, hC, e2]
  · have := e3.vars j
    rw [cput_same] at this
    exact look_ok this rfl

/-- C30.  Move construction with an allocator equal to the source's transfers the nodes.  Missing: a different allocator, see
`C30_move_alloc_fails`. -/
theorem C30_move_alloc_partial (hr : Reach cfg w) {xs : List α} {a : Nat} (hi : view w i = none) (hj : view w j = some ⟨some xs, a⟩) :
    ∃ w', step cfg (.newMoveAlloc i j a) w = .ok (.unit, w') ∧ w'.heap = w.heap ∧ Reach cfg w' ∧ cells w' i = cells w j ∧
      view w' = put (put (view w) i (some ⟨some xs, a⟩)) j (some ⟨none, a⟩) := by
  obtain ⟨C, I⟩ := reach_inv hr
  have hCi := none_of_view I hi
  obtain ⟨hd, tl, cs, hC, rfl, hc⟩ := full_of_view I hj
  have hij : i ≠ j := by rintro rfl; rw [hi] at hj; cases hj
  obtain ⟨w', e1, e2, e3⟩ := s_newMoveAlloc I hCi hC
  have hs : specStep false cfg.dbl cfg.dflt (.newMoveAlloc i j a) (view w) =
      some (.unit, put (put (view w) i (some ⟨some (vals cs), a⟩)) j (some ⟨none, a⟩)) := by
    rw [specStep, hj]; simp [needs, only, hi]
  refine ⟨w', e1, e2, reach_snoc hr hs e1, ?_, (I.seen2 e3).1⟩
  rw [hc]; exact e3.cells (by rw [cput_ne _ _ hij, cput_same])

/-- The full property is false of the code.  Moving a non-empty list to a different allocator reads a destroyed node (if the
allocators never refuse memory, to rule out running out of memory before).  Moving an empty one and destroying both lists
leaves a node allocated that belongs to no list. -/
theorem C30_move_alloc_fails (hr : Reach cfg w) {xs : List α} {a b : Nat} (hj : view w j = some ⟨some xs, a⟩) (hab : b ≠ a) :
    (xs ≠ [] → ¬ Refuses cfg → step cfg (.newMoveAlloc i j b) w = .ub) ∧
    (xs = [] → view w i = none → (run cfg [.newMoveAlloc i j b, .drop i, .drop j] w).SafeIf (Refuses cfg) fun q =>
      q.2.vars i = none ∧ q.2.vars j = none ∧ (∀ l, l ≠ i → l ≠ j → q.2.vars l = w.vars l) ∧
      ∃ t, q.2.heap.info t ≠ none ∧ ∀ l v, q.2.vars l = some v → v.head ≠ some t ∧ v.tail ≠ some t ∧
        ∀ ds, cells q.2 l = some ds → t ∉ ds.map Prod.fst) := by
  obtain ⟨C, I⟩ := reach_inv hr
  obtain ⟨hd, tl, cs, hC, rfl, hc⟩ := full_of_view I hj
  refine ⟨fun h1 h2 => newMoveAlloc_ub h2 I hC ((vals_ne _).1 h1) hab, fun h1 hi => ?_⟩
  cases List.map_eq_nil_iff.1 h1
  have hij : i ≠ j := by rintro rfl; rw [hi] at hj; cases hj
  exact newMoveAlloc_leak I hij (none_of_view I hi) hC hab

/-- C30.  Copy assignment: equal contents in nodes of its own, the source and all others unchanged; self-assignment changes
nothing.  Move assignment: the target has the source's nodes, the source is moved-from; self-assignment changes nothing. -/
theorem C30_assign (hr : Reach cfg w) {u : Var α} (hi : view w i = some u) :
    (∀ xs a, view w j = some ⟨some xs, a⟩ → i ≠ j → (step cfg (.copyAssign i j) w).SafeIf (Refuses cfg) fun q => Reach cfg q.2 ∧
      view q.2 = put (view w) i (some ⟨some xs, a⟩) ∧ (∀ l, l ≠ i → cells q.2 l = cells w l) ∧
      ∀ cs ds, cells q.2 i = some cs → cells q.2 j = some ds → ∀ c ∈ cs, c.1 ∉ ds.map Prod.fst) ∧
    (u.items ≠ none → step cfg (.copyAssign i i) w = .ok (.unit, w)) ∧
    (∀ v, view w j = some v → i ≠ j → ∃ w', step cfg (.moveAssign i j) w = .ok (.unit, w') ∧ Reach cfg w' ∧
      view w' = put (put (view w) i (some v)) j (some ⟨none, v.alloc⟩) ∧ cells w' i = cells w j ∧
      ∀ l, l ≠ i → l ≠ j → cells w' l = cells w l) ∧
    step cfg (.moveAssign i i) w = .ok (.unit, w) := by
  obtain ⟨C, I⟩ := reach_inv hr
  have hi' := hi
  rw [I.view, ideal] at hi'
  obtain ⟨o, hC, rfl⟩ := Option.map_eq_some_iff.1 hi'
  have hv : w.vars i = some o.fields := by rw [I.vars, hC]; rfl
  refine ⟨fun xs a hj hij => ?_, fun _ => ?_, fun v hj hij => ?_, ?_⟩
  rotate_left 1
  · rw [step, if_pos rfl]; exact look_ok hv rfl
  rotate_left 1
  · rw [step, if_pos rfl]; exact look_ok hv rfl
  · obtain ⟨hd, tl, cs, hCj, rfl, -⟩ := full_of_view I hj
    have hs : specStep false cfg.dbl cfg.dflt (.copyAssign i j) (view w) = some (.unit, put (view w) i (some ⟨some (vals cs), a⟩)) := by
      rw [specStep, hi, hj]; simp [hij]
    refine ((reach_step hr hs).and (s_copyAssign I hij hC hCj)).imp ?_
    rintro q ⟨⟨-, h2, h3, h4⟩, -, hd', tl', cs', I', -⟩
    refine ⟨h3, h2, fun l hl => h4 l (by simp [writes, hl]), fun cs ds hcs hds c hc hm => ?_⟩
    obtain ⟨hd1, tl1, a1, k1⟩ := cells_inv I' hcs
    obtain ⟨hd2, tl2, a2, k2⟩ := cells_inv I' hds
    refine I'.sep i j hij c.1 ?_ ?_
    · rw [k1, onodes_full, nodes]
      exact List.mem_cons_of_mem _ (List.mem_append_left _ (List.mem_map.2 ⟨c, hc, rfl⟩))
    · rw [k2, onodes_full, nodes]
      exact List.mem_cons_of_mem _ (List.mem_append_left _ hm)
  · have hj' := hj
    rw [I.view, ideal] at hj'
    obtain ⟨o', hCj, rfl⟩ := Option.map_eq_some_iff.1 hj'
    obtain ⟨w', e1, -, e3⟩ := s_moveAssign I hij hC hCj
    have hs : specStep false cfg.dbl cfg.dflt (.moveAssign i j) (view w) =
        some (.unit, put (put (view w) i (some o'.value)) j (some ⟨none, o'.value.alloc⟩)) := by
      rw [specStep, hi, hj]; simp [hij]
    refine ⟨w', e1, reach_snoc hr hs e1, (I.seen2 e3).1, ?_, (I.seen2 e3).2⟩
    obtain ⟨b, al⟩ := o'
    cases b with
    | none =>
      have f1 : w'.vars i = some (Obj.fields (⟨none, al⟩ : Obj α)) := by rw [e3.vars, cput_ne _ _ hij, cput_same]; rfl
      have f2 : w.vars j = some (Obj.fields (⟨none, al⟩ : Obj α)) := by rw [I.vars, hCj]; rfl
      rw [cells, cells, f1, f2]
      simp [Obj.fields]
    | some b =>
      obtain ⟨hd, tl, cs⟩ := b
      rw [I.cells hCj]
      exact e3.cells (by rw [cput_ne _ _ hij, cput_same])

example (dbl : Bool) : ∃ w, Reach (exCfg dbl) w ∧ view w 0 = some ⟨some [3, 1, 2, 1], 0⟩ ∧ view w 2 = some ⟨some [], 0⟩ ∧
    view w 3 = some ⟨some [4], 9⟩ ∧ view w 6 = none ∧ ¬ Refuses (exCfg dbl) := by
  obtain ⟨w, h, hP⟩ := exReach dbl
  exact ⟨w, h, hP 0 (by decide), hP 2 (by decide), hP 3 (by decide), hP 6 (by decide), exCfg_ok dbl⟩

/-! ## C31 -/

/-- C31.  The constructors, given a variable that names no list yet. -/
theorem C31_constructors (hr : Reach cfg w) (hi : view w i = none) (n a : Nat) (xs : List α) :
    (∀ r x, argVal (view w) r = some x → (step cfg (.newFill i n r a) w).SafeIf (Refuses cfg) fun q => Reach cfg q.2 ∧
      view q.2 = put (view w) i (some ⟨some (List.replicate n x), a⟩) ∧ Costs w.heap q.2.heap n 0 (n + 2)) ∧
    ((step cfg (.newCount i n a) w).SafeIf (Refuses cfg) fun q => Reach cfg q.2 ∧
      view q.2 = put (view w) i (some ⟨some (List.replicate n cfg.dflt), a⟩) ∧ Costs w.heap q.2.heap n 0 (n + 2)) ∧
    ((step cfg (.newRange i xs a) w).SafeIf (Refuses cfg) fun q => Reach cfg q.2 ∧
      view q.2 = put (view w) i (some ⟨some xs, a⟩) ∧ Costs w.heap q.2.heap xs.length 0 (xs.length + 2)) ∧
    ((step cfg (.fromIter i xs) w).SafeIf (Refuses cfg) fun q => Reach cfg q.2 ∧
      view q.2 = put (view w) i (some ⟨some xs, 0⟩) ∧ Costs w.heap q.2.heap xs.length 0 (xs.length + 2)) := by
  obtain ⟨C, I⟩ := reach_inv hr
  have hCi := none_of_view I hi
  refine ⟨fun r x hx => ?_, ?_, ?_, ?_⟩
  · have hs : specStep false cfg.dbl cfg.dflt (.newFill i n r a) (view w) = some (.unit, put (view w) i (some ⟨some (List.replicate n x), a⟩)) := by
      rw [specStep, hx]; simp [born, needs, hi]
    rw [I.view] at hx
    refine ((reach_step hr hs).and (s_newFill I hCi hx n a)).imp ?_
    rintro q ⟨⟨-, h2, h3, -⟩, -, _, _, _, -, -, h4⟩
    exact ⟨h3, h2, h4⟩
  · have hs : specStep false cfg.dbl cfg.dflt (.newCount i n a) (view w) = some (.unit, put (view w) i (some ⟨some (List.replicate n cfg.dflt), a⟩)) := by
      rw [specStep]; simp [born, needs, hi]
    refine ((reach_step hr hs).and (s_newCount I hCi n a)).imp ?_
    rintro q ⟨⟨-, h2, h3, -⟩, -, _, _, _, -, -, h4⟩
    exact ⟨h3, h2, h4⟩
  · have hs : specStep false cfg.dbl cfg.dflt (.newRange i xs a) (view w) = some (.unit, put (view w) i (some ⟨some xs, a⟩)) := by
      rw [specStep]; simp [born, needs, hi]
    refine ((reach_step hr hs).and (s_newRange I hCi xs a)).imp ?_
    rintro q ⟨⟨-, h2, h3, -⟩, -, _, _, _, -, -, h4⟩
    exact ⟨h3, h2, h4⟩
  · have hs : specStep false cfg.dbl cfg.dflt (.fromIter i xs) (view w) = some (.unit, put (view w) i (some ⟨some xs, 0⟩)) := by
      rw [specStep]; simp [born, needs, hi]
    refine ((reach_step hr hs).and (s_fromIter I hCi xs)).imp ?_
    rintro q ⟨⟨-, h2, h3, -⟩, -, _, _, _, -, -, h4⟩
    exact ⟨h3, h2, h4⟩

/-- C31.  resize(n) and resize(n, x) keep the first `n` nodes and append copies of the fill value; the fill value may be an
element of the list itself.  Assignment from a list of values replaces the contents. -/
theorem C31_resize (hr : Reach cfg w) {cs : List (Nat × α)} (hc : cells w i = some cs) (n : Nat) :
    (∀ r x, argVal (view w) r = some x → Changes cfg (.resizeFill i n r) w i .unit
      (fun cs' => ∃ ns, ns.map Prod.snd = List.replicate (n - cs.length) x ∧ cs' = cs.take n ++ ns) (n - cs.length) (cs.length - n) (n - cs.length)) ∧
    Changes cfg (.resize i n) w i .unit
      (fun cs' => ∃ ns, ns.map Prod.snd = List.replicate (n - cs.length) cfg.dflt ∧ cs' = cs.take n ++ ns) (n - cs.length) (cs.length - n) (n - cs.length) ∧
    (∀ xs, Changes cfg (.listAssign i xs) w i .unit (fun cs' => cs'.map Prod.snd = xs) xs.length cs.length xs.length) := by
  obtain ⟨C, hd, tl, a, I, hC, hv⟩ := reach_cells hr hc
  refine ⟨fun r x hx => ?_, changes_of I hC (s_resize I hC n), fun xs => changes_of I hC (s_listAssign I hC xs)⟩
  rw [I.view] at hx
  exact changes_of I hC (s_resizeFill I hC hx n)

example (dbl : Bool) : ∃ w cs, Reach (exCfg dbl) w ∧ cells w 0 = some cs ∧ argVal (view w) (.elem 0 3) = some 1 ∧ view w 6 = none := by
  obtain ⟨w, cs, ds, h, h1, h2, h3, h4, -, hP⟩ := exCells dbl
  exact ⟨w, cs, h, h1, by simp [argVal, contents, hP, exView], hP 6 (by decide)⟩

/-! ## C32 -/

/-- C32.  Any sequence of next() and prev() (for `List`) or next() (for `ForwardList`) on into_iter(), after which the iterator
is abandoned: the answers are those of an ideal two-ended sequence, so that each element is handed out at most once, from the
front in order and from the back in reverse order; all elements are destroyed, nothing is allocated, and the list is
moved-from. -/
theorem C32_into_iter (hr : Reach cfg w) {xs : List α} {a : Nat} (hi : view w i = some ⟨some xs, a⟩) (es : List End)
    (he : cfg.dbl = true ∨ ∀ e ∈ es, e = .front) :
    ∃ rs rest w', step cfg (.drain i es) w = .ok (.opts rs, w') ∧ (rs, rest) = takes es xs ∧
      givenAt .front es rs ++ rest ++ (givenAt .back es rs).reverse = xs ∧
      Costs w.heap w'.heap 0 xs.length 0 ∧ Reach cfg w' ∧ view w' = put (view w) i (some ⟨none, a⟩) := by
  obtain ⟨C, hd, tl, cs, I, hC, rfl, hc⟩ := reach_get hr hi
  obtain ⟨w', e1, e2, e3⟩ := s_drain I hC es he
  have hs : specStep false cfg.dbl cfg.dflt (.drain i es) (view w) =
      some (.opts (takes es (vals cs)).1, put (view w) i (some ⟨none, a⟩)) := by
    rw [specStep, hi]
    simp only [Option.bind_some, needs]
    rw [if_pos]
    rcases he with he | he
    · exact .inl he
    · exact .inr (List.all_eq_true.2 fun e h => by rw [he e h]; rfl)
  refine ⟨_, _, w', e1, rfl, Spec.takes_partition es _, by rw [vals_len]; exact e2, reach_snoc hr hs e1, ?_⟩
  rw [e3.view, I.view, ideal_put]; rfl

example (dbl : Bool) : ∃ w, Reach (exCfg dbl) w ∧ view w 0 = some ⟨some [3, 1, 2, 1], 0⟩ ∧
    ((exCfg dbl).dbl = true ∨ ∀ e ∈ [End.front, End.front], e = .front) := by
  obtain ⟨w, h, hP⟩ := exReach dbl
  exact ⟨w, h, hP 0 (by decide), .inr (by decide)⟩

end Verif.Props.Lists
