import Verif.Props.NestedSort
import Verif.Proof.NestedJoin
/-!
# Property C131: `swap`, `splice`, `splice_after` and `merge` of linked lists of vectors, results, ...

`swapAt i j` is `x.swap(y)`; `spliceAt C cfg way i p j` is `x.splice(it, y)`, `x.splice_after(it, y)`, or the same with `std::move(y)`, where `it` is
`p` steps from `x.before_begin()`; `mergeAt cfg less i j` is `x.merge(y, less)`, for the list `x` at address `i` and the list `y` at address `j`.
-/
namespace Verif.Props
open Verif Verif.Model.Mem Verif.Model.Nested Verif.Spec.Nested Verif.Proof.Nested

variable {α ε : Type}

section
variable (cfg : Model.LL.Cfg Unit) (f : Full α) (ops : List (NOp ((Full.linked cfg f).sig ε)))
  {rs : List (Option ((Full.linked cfg f).sig ε).Ret)} {A : Nat → Option (Spec.LL.Var (FVal ε f))}
  (h : nspecRun (fmeaning ε (.linked cfg f)) ops (fun _ => none) = some (rs, A))
  {q : List (Option ((Full.linked cfg f).sig ε).Ret) × LWorld (f.State ε)}
  (hq : nrun ((Full.linked cfg f).cls ε) ops ((Full.linked cfg f).cls ε).start = .ok q) {i j p : Nat} {xs ys : List (FVal ε f)} {a : Nat}
include h hq

/-- C131.  After any program: `swap` exchanges two lists, also moved-from ones, with their allocators, and does not touch the elements; a list may be
swapped with itself.  Any further program continues from there. -/
theorem C131_swap {u v : Spec.LL.Var (FVal ε f)} (hi : A i = some u) (hj : A j = some v) (ops' : List (NOp ((Full.linked cfg f).sig ε)))
    {rs' : List (Option ((Full.linked cfg f).sig ε).Ret)} {A' : Nat → Option (Spec.LL.Var (FVal ε f))}
    (h' : nspecRun (fmeaning ε (.linked cfg f)) ops' (place (place A i (some v)) j (some u)) = some (rs', A')) :
    (swapAt i j q.2).Safe fun p => p.2.st = q.2.st ∧
      (nrun ((Full.linked cfg f).cls ε) ops' p.2).Safe fun z => z.1 = rs' ∧ ((∀ j, A' j = none) → ((Full.linked cfg f).cls ε).idle z.2) := by
  have k := swapAt_ok (L := flaw ε f) (law_then (flaw ε (.linked cfg f)) h hq) hi hj
  have ks : ∀ z, swapAt i j q.2 = .ok z → z.2.st = q.2.st := by
    intro z hz
    simp only [swapAt, lobj, Prog.bind_run] at hz
    cases e1 : q.2.vars i with
    | none => rw [e1] at hz; cases hz
    | some l =>
      cases e2 : q.2.vars j with
      | none => rw [e1] at hz; simp only [Out.bind_ok, e2] at hz; cases hz
      | some o =>
        rw [e1] at hz
        simp only [Out.bind_ok, e2, setLobj] at hz
        cases hz
        rfl
  cases e : swapAt i j q.2 with
  | ok z =>
    rw [e] at k
    exact ⟨ks z e, (nrun_ok (flaw ε (.linked cfg f)) ops' k h').mono fun _ hz => ⟨hz.1, (flaw ε (.linked cfg f)).idle hz.2⟩⟩
  | _ => rw [e] at k; exact k

/-- C131.  After any program: splicing a list into another one with the same allocator puts all its elements, in order and with their contents and
capacities, behind the position (`splice_after`) or in front of it (`splice`, on doubly linked lists).  The other list is empty after that, or
moved from with `std::move`.  Any further program continues from there.  Missing: an empty other list (`C24_splice_empty_fails`), and a
list spliced into itself. -/
theorem C131_splice_partial (hij : i ≠ j) (hi : A i = some ⟨some xs, a⟩) (hj : A j = some ⟨some ys, a⟩) (hy : ys ≠ []) (way : Way)
    (hp : if way.after then p ≤ xs.length else cfg.dbl = true ∧ 1 ≤ p ∧ p ≤ xs.length + 1) (ops' : List (NOp ((Full.linked cfg f).sig ε)))
    {rs' : List (Option ((Full.linked cfg f).sig ε).Ret)} {A' : Nat → Option (Spec.LL.Var (FVal ε f))}
    (h' : nspecRun (fmeaning ε (.linked cfg f)) ops' (place (place A i (some
      ⟨some (xs.take (if way.after then p else p - 1) ++ (ys ++ xs.drop (if way.after then p else p - 1))), a⟩)) j
      (some ⟨if way.moved then none else some [], a⟩)) = some (rs', A')) :
    (spliceAt (f.cls ε) cfg way i p j q.2).Safe fun p =>
      (nrun ((Full.linked cfg f).cls ε) ops' p.2).Safe fun z => z.1 = rs' ∧ ((∀ j, A' j = none) → ((Full.linked cfg f).cls ε).idle z.2) :=
  (spliceAt_ok (L := flaw ε f) (law_then (flaw ε (.linked cfg f)) h hq) hij hi hj hy way hp).mono fun p hp =>
    (nrun_ok (flaw ε (.linked cfg f)) ops' hp h').mono fun _ hz => ⟨hz.1, (flaw ε (.linked cfg f)).idle hz.2⟩

/-- C131.  `x.merge(x)` changes nothing, whatever the predicate does. -/
theorem C131_merge_self (hi : A i = some ⟨some xs, a⟩) (less : Nat → Nat → Prog (f.State ε) Bool) : mergeAt cfg less i i q.2 = .ok ((), q.2) :=
  mergeAt_same (L := flaw ε f) (law_then (flaw ε (.linked cfg f)) h hq) hi less
end

/-- C131.  After any program: `merge` of two sorted linked lists of nested vectors with the same allocator leaves the first with the elements of both,
in lexicographic order at every depth, with their contents, capacities and allocators, and the second empty.  Any further program continues from
there.  Missing: merging a list that is not empty into an empty one (`C23_merge_into_empty_fails`). -/
theorem C131_merge_partial (cfg : Model.LL.Cfg Unit) (c : Ordered α) (ops : List (NOp ((Full.linked cfg c.full).sig ε)))
    {rs : List (Option ((Full.linked cfg c.full).sig ε).Ret)} {A : Nat → Option (Spec.LL.Var (FVal ε c.full))}
    (h : nspecRun (fmeaning ε (.linked cfg c.full)) ops (fun _ => none) = some (rs, A))
    {q : List (Option ((Full.linked cfg c.full).sig ε).Ret) × LWorld (c.full.State ε)}
    (hq : nrun ((Full.linked cfg c.full).cls ε) ops ((Full.linked cfg c.full).cls ε).start = .ok q) {i j : Nat} {xs ys : List (FVal ε c.full)} {a : Nat}
    (hij : i ≠ j) (hi : A i = some ⟨some xs, a⟩) (hj : A j = some ⟨some ys, a⟩)
    (cmp : α → α → Option Ordering) (heq : ∀ x y, cmp x y = some .eq ↔ x = y) (hsym : ∀ x y, cmp y x = flip' (cmp x y))
    (htot : ∀ x y, cmp x y ≠ none) (htr : ∀ x y z, cmp x y = some .lt → cmp y z = some .lt → cmp x z = some .lt)
    (hx : (xs.map (nest c)).Pairwise (fun x y => order cmp c x y = some .lt ∨ x = y))
    (hy : (ys.map (nest c)).Pairwise (fun x y => order cmp c x y = some .lt ∨ x = y)) (hne : xs ≠ [] ∨ ys = []) :
    ∃ zs : List (FVal ε c.full), zs.Perm (xs ++ ys) ∧ (zs.map (nest c)).Pairwise (fun x y => order cmp c x y = some .lt ∨ x = y) ∧
      ∀ (ops' : List (NOp ((Full.linked cfg c.full).sig ε))) (rs' : List (Option ((Full.linked cfg c.full).sig ε).Ret))
        (A' : Nat → Option (Spec.LL.Var (FVal ε c.full))),
        nspecRun (fmeaning ε (.linked cfg c.full)) ops' (place (place A i (some ⟨some zs, a⟩)) j (some ⟨some [], a⟩)) = some (rs', A') →
        (mergeAt cfg (lessBy (cmpAt ε cmp c)) i j q.2).Safe fun p => (nrun ((Full.linked cfg c.full).cls ε) ops' p.2).Safe fun z =>
          z.1 = rs' ∧ ((∀ j, A' j = none) → ((Full.linked cfg c.full).cls ε).idle z.2) := by
  obtain ⟨h1, h2, h3, -⟩ := C127_total_order cmp heq hsym htot htr c
  have back : ∀ x y : FVal ε c.full, (order cmp c (nest c y) (nest c x) == some .lt) = false ↔
      (order cmp c (nest c x) (nest c y) = some .lt ∨ nest c x = nest c y) := by
    intro x y
    rw [h2 (nest c x) (nest c y)]
    cases e : order cmp c (nest c x) (nest c y) with
    | none => exact absurd e (h3 _ _)
    | some o =>
      cases o with
      | lt => exact ⟨fun _ => .inl rfl, fun _ => rfl⟩
      | eq => exact ⟨fun _ => .inr ((h1 _ _).1 e), fun _ => rfl⟩
      | gt =>
        refine ⟨fun k => ?_, fun k => ?_⟩
        · exact absurd k (by decide)
        · rcases k with k | k
          · cases k
          · rw [(h1 _ _).2 k] at e; cases e
  have srt : ∀ zs : List (FVal ε c.full), Spec.LL.sorted (fun x y => order cmp c (nest c x) (nest c y) == some .lt) zs = true ↔
      (zs.map (nest c)).Pairwise (fun x y => order cmp c x y = some .lt ∨ x = y) := by
    intro zs
    rw [List.pairwise_map, Proof.LL.sorted_iff]
    exact ⟨fun k => k.imp fun {x y} hxy => (back x y).1 (by simpa using hxy), fun k => k.imp fun {x y} hxy => by simpa using (back x y).2 hxy⟩
  refine ⟨Spec.LL.sortBy (fun x y => order cmp c (nest c x) (nest c y) == some .lt) (ys ++ xs),
    Proof.LL.sortBy_perm.trans List.perm_append_comm, ?_, fun ops' rs' A' h' => ?_⟩
  · exact (srt _).1 (Proof.LL.sorted_sortBy (nested_swo cmp heq hsym htot htr c (ys ++ xs)) fun _ h => h)
  · exact (mergeAt_ok (L := flaw ε c.full) (law_then (flaw ε (.linked cfg c.full)) h hq) hij hi hj (lessBy_reads (cmpAt_reads cmp c))
      (Proof.LL.swoOn_iff.2 (nested_swo cmp heq hsym htot htr c (xs ++ ys))) ((srt _).2 hx) ((srt _).2 hy) hne).mono fun p hp =>
      (nrun_ok (flaw ε (.linked cfg c.full)) ops' hp h').mono fun _ hz => ⟨hz.1, (flaw ε (.linked cfg c.full)).idle hz.2⟩

/-! ## The hypotheses are met -/

section
def joinProg : List (NOp ((Full.linked siftCfg sortElem.full).sig Nat)) :=
  [.make 0 (.alloc 0), .call 0 (.pushBack (.list [] 0)), .call 0 (.pushBack (.list [1, 2] 5)), .call 0 (.pushBack (.list [3] 0)),
   .make 1 (.alloc 0), .call 1 (.pushBack (.list [1, 1, 7] 0)), .call 1 (.pushBack (.list [2] 3))]

/-- the program runs on memory -/
example : (match nrun ((Full.linked siftCfg sortElem.full).cls Nat) joinProg ((Full.linked siftCfg sortElem.full).cls Nat).start with
    | .ok _ => true | _ => false) = true := by decide +kernel

/-- what the two lists hold then: both sorted, with the same allocator -/
example : (nspecRun (fmeaning Nat (.linked siftCfg sortElem.full)) joinProg fun _ => none).map
      (fun p => ((p.2 0).map fun v => (v.items.map (List.map (nest (ε := Nat) sortElem)), v.alloc),
        (p.2 1).map fun v => (v.items.map (List.map (nest (ε := Nat) sortElem)), v.alloc))) =
    some (some (some [[], [1, 2], [3]], 0), some (some [[1, 1, 7], [2]], 0)) := rfl

example : [[], [1, 2], [3]].Pairwise (fun x y => order (fun x y : Nat => some (compare x y)) sortElem x y = some .lt ∨ x = y) ∧
    [[1, 1, 7], [2]].Pairwise (fun x y => order (fun x y : Nat => some (compare x y)) sortElem x y = some .lt ∨ x = y) := by
  show List.Pairwise (fun x y : List Nat => Spec.Vector.lexSeq (fun x y : Nat => some (compare x y)) x y = some .lt ∨ x = y) _ ∧
    List.Pairwise (fun x y : List Nat => Spec.Vector.lexSeq (fun x y : Nat => some (compare x y)) x y = some .lt ∨ x = y) _
  decide

/-- a position for each way: the list is doubly linked and has three elements -/
example : siftCfg.dbl = true ∧ ∀ way : Way, if way.after then 2 ≤ 3 else siftCfg.dbl = true ∧ 1 ≤ 2 ∧ 2 ≤ 3 + 1 :=
  ⟨rfl, fun way => by cases way.after <;> decide⟩

/-- the lists as memory has them after splicing: three and two elements make five, in the new order -/
example : (match (do let _ ← nrun ((Full.linked siftCfg sortElem.full).cls Nat) joinProg
                     spliceAt (sortElem.full.cls Nat) siftCfg ⟨false, true⟩ 0 2 1) ((Full.linked siftCfg sortElem.full).cls Nat).start with
    | .ok p => ((p.2.vars 0).map (·.len), (p.2.vars 1).map (·.head)) | _ => (none, none)) = (some 5, some none) := by decide +kernel
end
end Verif.Props
