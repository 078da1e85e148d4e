import Verif.Props.NestedSift
/-!
# Property C130: sorting linked lists of vectors of vectors, ...

`sortAt cfg p i` is `x.sort(p)` for the list at address `i`.  `lessBy (cmpAt ε cmp c)` is `a < b` for the nested vectors `c`, which is what `sort()`
uses: `operator<=>` compares them in lexicographic order at every depth (C127).
-/
namespace Verif.Props
open Verif Verif.Model.Mem Verif.Model.Nested Verif.Spec.Nested Verif.Proof.Nested

variable {α ε : Type}

/-- "less" of nested vectors is a strict weak order if the values at the bottom are in a total order -/
theorem nested_swo (cmp : α → α → Option Ordering) (heq : ∀ x y, cmp x y = some .eq ↔ x = y) (hsym : ∀ x y, cmp y x = flip' (cmp x y))
    (htot : ∀ x y, cmp x y ≠ none) (htr : ∀ x y z, cmp x y = some .lt → cmp y z = some .lt → cmp x z = some .lt) (c : Ordered α)
    (xs : List (FVal ε c.full)) : Proof.LL.Swo (fun x y => order cmp c (nest c x) (nest c y) == some .lt) xs := by
  obtain ⟨h1, h2, h3, h4⟩ := C127_total_order cmp heq hsym htot htr c
  constructor
  · intro x _ y _ h
    have h : order cmp c (nest c x) (nest c y) = some .lt := by simpa using h
    show (order cmp c (nest c y) (nest c x) == some .lt) = false
    rw [h2, h]; rfl
  · intro x _ y _ z _ h
    have h : order cmp c (nest c x) (nest c z) = some .lt := by simpa using h
    show (order cmp c (nest c x) (nest c y) == some .lt) = true ∨ (order cmp c (nest c y) (nest c z) == some .lt) = true
    cases e : order cmp c (nest c x) (nest c y) with
    | none => exact absurd e (h3 _ _)
    | some o =>
      cases o with
      | lt => exact .inl rfl
      | eq => rw [(h1 _ _).1 e] at h; right; rw [h]; rfl
      | gt =>
        have e' : order cmp c (nest c y) (nest c x) = some .lt := by rw [h2, e]; rfl
        right; rw [h4 _ _ _ e' h]; rfl

section
variable (cfg : Model.LL.Cfg Unit) (c : Ordered α) (ops : List (NOp ((Full.linked cfg c.full).sig ε)))
  {rs : List (Option ((Full.linked cfg c.full).sig ε).Ret)} {A : Nat → Option (Spec.LL.Var (FVal ε c.full))}
  (h : nspecRun (fmeaning ε (.linked cfg c.full)) ops (fun _ => none) = some (rs, A))
  {q : List (Option ((Full.linked cfg c.full).sig ε).Ret) × LWorld (c.full.State ε)}
  (hq : nrun ((Full.linked cfg c.full).cls ε) ops ((Full.linked cfg c.full).cls ε).start = .ok q) {i : Nat} {xs : List (FVal ε c.full)} {a : Nat}
  (hi : A i = some ⟨some xs, a⟩) (hl : xs.length ≠ 1)
include h hq hi hl

/-- C130.  After any program: `sort()` of a linked list of nested vectors puts the elements in lexicographic order, at every depth; they are the same
elements, with their contents, capacities and allocators.  Any further program continues from there, and everything is returned if it ends all
objects.  Missing: lists with exactly one element, for which `sort` loses the end of the list (`C21_sort_single_fails`). -/
theorem C130_sort_partial (cmp : α → α → Option Ordering) (heq : ∀ x y, cmp x y = some .eq ↔ x = y) (hsym : ∀ x y, cmp y x = flip' (cmp x y))
    (htot : ∀ x y, cmp x y ≠ none) (htr : ∀ x y z, cmp x y = some .lt → cmp y z = some .lt → cmp x z = some .lt) :
    ∃ ys : List (FVal ε c.full), ys.Perm xs ∧ (ys.map (nest c)).Pairwise (fun x y => order cmp c x y = some .lt ∨ x = y) ∧
      ∀ (ops' : List (NOp ((Full.linked cfg c.full).sig ε))) (rs' : List (Option ((Full.linked cfg c.full).sig ε).Ret))
        (A' : Nat → Option (Spec.LL.Var (FVal ε c.full))),
        nspecRun (fmeaning ε (.linked cfg c.full)) ops' (place A i (some ⟨some ys, a⟩)) = some (rs', A') →
        (sortAt cfg (lessBy (cmpAt ε cmp c)) i q.2).Safe fun p => (nrun ((Full.linked cfg c.full).cls ε) ops' p.2).Safe fun z =>
          z.1 = rs' ∧ ((∀ j, A' j = none) → ((Full.linked cfg c.full).cls ε).idle z.2) := by
  have hs := nested_swo cmp heq hsym htot htr c xs
  obtain ⟨h1, h2, h3, -⟩ := C127_total_order cmp heq hsym htot htr c
  refine ⟨_, Proof.LL.msortBy_perm (less := fun x y => order cmp c (nest c x) (nest c y) == some .lt) xs, ?_, fun ops' rs' A' h' => ?_⟩
  · rw [Proof.LL.msortBy_eq hs fun _ h => h]
    have := Proof.LL.sorted_iff.1 (Proof.LL.sorted_sortBy hs (xs := xs.reverse) fun x hx => by simpa using hx)
    rw [List.pairwise_map]
    refine this.imp ?_
    intro x y hxy
    have hxy : order cmp c (nest c y) (nest c x) ≠ some .lt := by simpa using hxy
    cases e : order cmp c (nest c x) (nest c y) with
    | none => exact absurd e (h3 _ _)
    | some o =>
      cases o with
      | lt => exact .inl rfl
      | eq => exact .inr ((h1 _ _).1 e)
      | gt => exact absurd (by rw [h2, e]; rfl) hxy
  · exact (sortAt_ok (L := flaw ε c.full) (law_then (flaw ε (.linked cfg c.full)) h hq) hi hl (lessBy_reads (cmpAt_reads cmp c))).mono fun p hp =>
      (nrun_ok (flaw ε (.linked cfg c.full)) ops' hp h').mono fun _ hz => ⟨hz.1, (flaw ε (.linked cfg c.full)).idle hz.2⟩

/-- C130.  With any comparison of the values at the bottom, also an inconsistent one, `sort` ends, and leaves the same elements in some order; any
further program continues from there.  Missing: lists with exactly one element. -/
theorem C130_sort_any_partial (cmp : α → α → Option Ordering) :
    ∃ ys : List (FVal ε c.full), ys.Perm xs ∧
      ∀ (ops' : List (NOp ((Full.linked cfg c.full).sig ε))) (rs' : List (Option ((Full.linked cfg c.full).sig ε).Ret))
        (A' : Nat → Option (Spec.LL.Var (FVal ε c.full))),
        nspecRun (fmeaning ε (.linked cfg c.full)) ops' (place A i (some ⟨some ys, a⟩)) = some (rs', A') →
        (sortAt cfg (lessBy (cmpAt ε cmp c)) i q.2).Safe fun p => (nrun ((Full.linked cfg c.full).cls ε) ops' p.2).Safe fun z =>
          z.1 = rs' ∧ ((∀ j, A' j = none) → ((Full.linked cfg c.full).cls ε).idle z.2) :=
  ⟨_, Proof.LL.msortBy_perm (less := fun x y => order cmp c (nest c x) (nest c y) == some .lt) xs, fun ops' rs' A' h' =>
    (sortAt_ok (L := flaw ε c.full) (law_then (flaw ε (.linked cfg c.full)) h hq) hi hl (lessBy_reads (cmpAt_reads cmp c))).mono fun p hp =>
      (nrun_ok (flaw ε (.linked cfg c.full)) ops' hp h').mono fun _ hz => ⟨hz.1, (flaw ε (.linked cfg c.full)).idle hz.2⟩⟩
end

/-- C130.  Sorting a list that was moved from aborts with assertions, and is undefined without. -/
theorem C130_moved_fails (cfg : Model.LL.Cfg Unit) (f : Full α) (ops : List (NOp ((Full.linked cfg f).sig ε)))
    {rs : List (Option ((Full.linked cfg f).sig ε).Ret)} {A : Nat → Option (Spec.LL.Var (FVal ε f))}
    (h : nspecRun (fmeaning ε (.linked cfg f)) ops (fun _ => none) = some (rs, A))
    {q : List (Option ((Full.linked cfg f).sig ε).Ret) × LWorld (f.State ε)}
    (hq : nrun ((Full.linked cfg f).cls ε) ops ((Full.linked cfg f).cls ε).start = .ok q) {i a : Nat} (hi : A i = some ⟨none, a⟩)
    (p : Nat → Nat → Prog (f.State ε) Bool) : sortAt cfg p i q.2 = if cfg.debug then .panic else .ub := by
  have hv := moved_fields (L := flaw ε f) (law_then (flaw ε (.linked cfg f)) h hq) hi
  cases hd : cfg.debug <;>
    simp [sortAt, lsort, Prog.bind_run, lobj, hv, inLSt, inNodes, Model.LL.dbgAssert, hd, Model.LL.getNext, Model.LL.withNode]

/-! ## The hypotheses are met -/

section
/-- the elements of `List<Vector<int>>` -/
def sortElem : Ordered Nat := .values exTy

def sortProg : List (NOp ((Full.linked siftCfg sortElem.full).sig Nat)) :=
  [.make 0 (.alloc 0), .call 0 (.pushBack (.list [2] 0)), .call 0 (.pushBack (.list [1, 2] 5)), .call 0 (.pushBack (.list [] 0)),
   .call 0 (.pushBack (.list [1, 1, 7] 0)), .call 0 (.pushBack (.list [2] 3))]

/-- the program runs on memory -/
example : (match nrun ((Full.linked siftCfg sortElem.full).cls Nat) sortProg ((Full.linked siftCfg sortElem.full).cls Nat).start with
    | .ok _ => true | _ => false) = true := by decide +kernel

/-- what the list holds then, not in order -/
example : (nspecRun (fmeaning Nat (.linked siftCfg sortElem.full)) sortProg fun _ => none).map
      (fun p => (p.2 0).map fun v => v.items.map (List.map (nest (ε := Nat) sortElem))) = some (some (some [[2], [1, 2], [], [1, 1, 7], [2]])) := rfl

/-- after a move it holds nothing: `C130_moved_fails` -/
example : (nspecRun (fmeaning Nat (.linked siftCfg sortElem.full)) (sortProg ++ [.move 1 0]) fun _ => none).map
      (fun p => (p.2 0).map fun v => v.items.isNone) = some (some true) := rfl

/-- a comparison as the theorem wants it -/
example : (∀ x y : Nat, some (compare x y) = some .eq ↔ x = y) ∧ (∀ x y : Nat, some (compare y x) = flip' (some (compare x y))) ∧
    (∀ x y : Nat, some (compare x y) ≠ none) ∧ ∀ x y z : Nat, some (compare x y) = some .lt → some (compare y z) = some .lt → some (compare x z) = some .lt := by
  refine ⟨fun x y => by simp, fun x y => ?_, by simp, fun x y z h1 h2 => ?_⟩
  · rcases Nat.lt_trichotomy x y with h | h | h
    · rw [Nat.compare_eq_lt.2 h, Nat.compare_eq_gt.2 h]; rfl
    · rw [h, Nat.compare_eq_eq.2 rfl]; rfl
    · rw [Nat.compare_eq_gt.2 h, Nat.compare_eq_lt.2 h]; rfl
  · simp only [Option.some.injEq, Nat.compare_eq_lt] at *; omega

/-- in this order the elements are sorted as `[[], [1, 1, 7], [1, 2], [2], [2]]` -/
example : [[], [1, 1, 7], [1, 2], [2], [2]].Pairwise fun x y => order (fun x y : Nat => some (compare x y)) sortElem x y = some .lt ∨ x = y := by
  show List.Pairwise (fun x y : List Nat => Spec.Vector.lexSeq (fun x y : Nat => some (compare x y)) x y = some .lt ∨ x = y) _
  decide

end
end Verif.Props
