import Mathlib.Data.List.Destutter
import Verif.Props.NestedLinked
import Verif.Props.NestedCmp
import Verif.Proof.NestedSift
/-!
# Property C129: `remove_if` and `unique` of linked lists of vectors, results, ...

`removeIfAt C cfg c test i` is `x.remove_if([](auto& e) { return test(e.c()); })` for the list at address `i`; `uniqueAt C cfg p i` is
`x.unique(p)`.  After a call, the lists hold what the statement says, in the sense that every further program gives the results of the
specification from there on, and returns everything if it ends all objects.
-/
namespace Verif.Props
open Verif Verif.Model.Mem Verif.Model.Nested Verif.Spec.Nested Verif.Proof.Nested

variable {α ε : Type}

section
variable (cfg : Model.LL.Cfg Unit) (f : Full α) (ops : List (NOp ((Full.linked cfg f).sig ε)))
  {rs : List (Option ((Full.linked cfg f).sig ε).Ret)} {A : Nat → Option (Spec.LL.Var (FVal ε f))}
  (h : nspecRun (fmeaning ε (.linked cfg f)) ops (fun _ => none) = some (rs, A))
  {q : List (Option ((Full.linked cfg f).sig ε).Ret) × LWorld (f.State ε)}
  (hq : nrun ((Full.linked cfg f).cls ε) ops ((Full.linked cfg f).cls ε).start = .ok q) {i : Nat} {xs : List (FVal ε f)} {a : Nat}
include h hq

/-- C129.  After any program: `remove_if` with a predicate that asks a question about the element that has an answer, and does not change it,
removes the elements for which the predicate holds, keeps the others in order, and returns how many were removed.  It needs no memory: it
ends.  Any further program continues from there. -/
theorem C129_remove_if (hi : A i = some ⟨some xs, a⟩) (c : (f.sig ε).Call) (test : (f.sig ε).Ret → Bool) (r : FVal ε f → (f.sig ε).Ret)
    (hr : ∀ x ∈ xs, (fmeaning ε f).run c x = some (r x, x)) (ops' : List (NOp ((Full.linked cfg f).sig ε)))
    {rs' : List (Option ((Full.linked cfg f).sig ε).Ret)} {A' : Nat → Option (Spec.LL.Var (FVal ε f))}
    (h' : nspecRun (fmeaning ε (.linked cfg f)) ops' (place A i (some ⟨some (xs.filter fun x => !test (r x)), a⟩)) = some (rs', A')) :
    (removeIfAt (f.cls ε) cfg c test i q.2).Safe fun p => p.1 = (xs.filter fun x => test (r x)).length ∧
      (nrun ((Full.linked cfg f).cls ε) ops' p.2).Safe fun z => z.1 = rs' ∧ ((∀ j, A' j = none) → ((Full.linked cfg f).cls ε).idle z.2) :=
  (removeIfAt_ok (L := flaw ε f) (law_then (flaw ε (.linked cfg f)) h hq) hi hr test).mono fun p hp =>
    ⟨hp.1, (nrun_ok (flaw ε (.linked cfg f)) ops' hp.2 h').mono fun _ hz => ⟨hz.1, (flaw ε (.linked cfg f)).idle hz.2⟩⟩

/-- C129.  The removed elements end at once: if `remove_if` empties the only list that had elements, the elements have returned all their memory, at
every depth. -/
theorem C129_removed_end (hi : A i = some ⟨some xs, a⟩) (c : (f.sig ε).Call) (test : (f.sig ε).Ret → Bool) (r : FVal ε f → (f.sig ε).Ret)
    (hr : ∀ x ∈ xs, (fmeaning ε f).run c x = some (r x, x)) (hall : ∀ x ∈ xs, test (r x) = true)
    (hA : ∀ j v, j ≠ i → A j = some v → v.items = none ∨ v.items = some []) :
    (removeIfAt (f.cls ε) cfg c test i q.2).Safe fun p => p.1 = xs.length ∧ (f.cls ε).idle p.2.st.objs := by
  refine (removeIfAt_ok (L := flaw ε f) (law_then (flaw ε (.linked cfg f)) h hq) hi hr test).mono fun p hp => ⟨?_, ?_⟩
  · rw [hp.1, List.filter_eq_self.2 hall]
  · refine linked_elements (L := flaw ε f) hp.2 fun j v hj => ?_
    by_cases e : j = i
    · subst e
      rw [place_same] at hj
      cases hj
      refine .inr (congrArg some (List.filter_eq_nil_iff.2 fun x hx => ?_))
      simp [hall x hx]
    · rw [place_ne _ _ e] at hj
      exact hA j v e hj

/-- C129.  On a list that was moved from, `remove_if` and `unique` abort with assertions; without, they return 0 and change nothing. -/
theorem C129_moved (hi : A i = some ⟨none, a⟩) (c : (f.sig ε).Call) (test : (f.sig ε).Ret → Bool) (p : Nat → Nat → Prog (f.State ε) Bool) :
    removeIfAt (f.cls ε) cfg c test i q.2 = (if cfg.debug then .panic else .ok (0, q.2)) ∧
    uniqueAt (f.cls ε) cfg p i q.2 = (if cfg.debug then .panic else .ok (0, q.2)) :=
  have k := sift_moved (L := flaw ε f) (law_then (flaw ε (.linked cfg f)) h hq) hi
  ⟨k.1 c test, k.2 p⟩
end

/-- what `unique` keeps, seen through a view of the elements in which they are equal if equivalent -/
theorem unique_destutter {V W : Type} [DecidableEq W] {g : V → V → Bool} {n : V → W} (hg : ∀ x y, g x y = true ↔ n x = n y) (xs : List V) :
    (Spec.LL.uniqueBy g xs).map n = (xs.map n).destutter (· ≠ ·) := by
  cases xs with
  | nil => rfl
  | cons x xs =>
    simp only [Spec.LL.uniqueBy, List.map_cons, List.destutter_cons']
    induction xs generalizing x with
    | nil => rfl
    | cons y ys ih =>
      simp only [Spec.LL.uniqueAfter, List.map_cons, List.destutter'_cons]
      by_cases e : n y = n x
      · rw [if_pos ((hg y x).2 e), if_neg (by simpa using e.symm)]
        exact ih x
      · rw [if_neg (by simpa [hg] using e), if_pos (Ne.symm e), List.map_cons, ih y]

section
variable (cfg : Model.LL.Cfg Unit) (c : Equated α) (ops : List (NOp ((Full.linked cfg c.full).sig ε)))
  {rs : List (Option ((Full.linked cfg c.full).sig ε).Ret)} {A : Nat → Option (Spec.LL.Var (FVal ε c.full))}
  (h : nspecRun (fmeaning ε (.linked cfg c.full)) ops (fun _ => none) = some (rs, A))
  {q : List (Option ((Full.linked cfg c.full).sig ε).Ret) × LWorld (c.full.State ε)}
  (hq : nrun ((Full.linked cfg c.full).cls ε) ops ((Full.linked cfg c.full).cls ε).start = .ok q) {i : Nat} {xs : List (FVal ε c.full)} {a : Nat}
include h hq

/-- C129.  After any program: `unique()` of a linked list of nested vectors and results leaves, of every run of neighbours with equal contents, one
element, in order, and returns how many were removed; it is the first of the run that stays.  Any further program continues from there. -/
theorem C129_unique [DecidableEq (Inside ε c)] (hi : A i = some ⟨some xs, a⟩) (eqA : α → α → Bool) (eqE : ε → ε → Bool)
    (hA : ∀ x y, eqA x y = true ↔ x = y) (hE : ∀ x y, eqE x y = true ↔ x = y) :
    ∃ ys : List (FVal ε c.full), ys.map (inside c) = (xs.map (inside c)).destutter (· ≠ ·) ∧ ys.Sublist xs ∧ ys.head? = xs.head? ∧
      ∀ (ops' : List (NOp ((Full.linked cfg c.full).sig ε))) (rs' : List (Option ((Full.linked cfg c.full).sig ε).Ret))
        (A' : Nat → Option (Spec.LL.Var (FVal ε c.full))),
        nspecRun (fmeaning ε (.linked cfg c.full)) ops' (place A i (some ⟨some ys, a⟩)) = some (rs', A') →
        (uniqueAt (c.full.cls ε) cfg (eqAt eqA eqE c) i q.2).Safe fun p => p.1 + ys.length = xs.length ∧
          (nrun ((Full.linked cfg c.full).cls ε) ops' p.2).Safe fun z =>
            z.1 = rs' ∧ ((∀ j, A' j = none) → ((Full.linked cfg c.full).cls ε).idle z.2) := by
  have sub : ∀ (g : FVal ε c.full → FVal ε c.full → Bool) x xs, (Spec.LL.uniqueAfter g x xs).Sublist xs := by
    intro g x xs
    induction xs generalizing x with
    | nil => exact List.Sublist.refl _
    | cons y ys ih =>
      simp only [Spec.LL.uniqueAfter]
      split
      · exact (ih x).cons _
      · exact (ih y).cons₂ _
  have hs : (Spec.LL.uniqueBy (eqVal eqA eqE c) xs).Sublist xs := by
    cases xs with
    | nil => exact List.Sublist.refl _
    | cons x xs => exact (sub _ x xs).cons₂ _
  refine ⟨_, unique_destutter (eqVal_iff hA hE c) xs, hs, ?_, fun ops' rs' A' h' => ?_⟩
  · cases xs <;> rfl
  · refine (uniqueAt_ok (L := flaw ε c.full) (law_then (flaw ε (.linked cfg c.full)) h hq) hi (eqAt_reads eqA eqE c)).mono fun p hp => ⟨?_, ?_⟩
    · rw [hp.1]; have := hs.length_le; omega
    · exact (nrun_ok (flaw ε (.linked cfg c.full)) ops' hp.2 h').mono fun _ hz => ⟨hz.1, (flaw ε (.linked cfg c.full)).idle hz.2⟩

/-- C129, for any `==` of the values and errors, also one that is not an equivalence: an element stays if it is not `==` to the last that stayed
before it. -/
theorem C129_unique_pointwise (hi : A i = some ⟨some xs, a⟩) (eqA : α → α → Bool) (eqE : ε → ε → Bool)
    (ops' : List (NOp ((Full.linked cfg c.full).sig ε))) {rs' : List (Option ((Full.linked cfg c.full).sig ε).Ret)}
    {A' : Nat → Option (Spec.LL.Var (FVal ε c.full))}
    (h' : nspecRun (fmeaning ε (.linked cfg c.full)) ops' (place A i (some ⟨some (Spec.LL.uniqueBy (eqVal eqA eqE c) xs), a⟩)) = some (rs', A')) :
    (uniqueAt (c.full.cls ε) cfg (eqAt eqA eqE c) i q.2).Safe fun p => p.1 = xs.length - (Spec.LL.uniqueBy (eqVal eqA eqE c) xs).length ∧
      (nrun ((Full.linked cfg c.full).cls ε) ops' p.2).Safe fun z =>
        z.1 = rs' ∧ ((∀ j, A' j = none) → ((Full.linked cfg c.full).cls ε).idle z.2) :=
  (uniqueAt_ok (L := flaw ε c.full) (law_then (flaw ε (.linked cfg c.full)) h hq) hi (eqAt_reads eqA eqE c)).mono fun p hp =>
    ⟨hp.1, (nrun_ok (flaw ε (.linked cfg c.full)) ops' hp.2 h').mono fun _ hz => ⟨hz.1, (flaw ε (.linked cfg c.full)).idle hz.2⟩⟩
end

/-! ## The hypotheses are met -/

section
def siftCfg : Model.LL.Cfg Unit :=
  { dbl := true, debug := true, vsize := 24, dsize := 72, mv := id, dflt := (), refuse := fun _ _ => false }

/-- the elements of `List<Vector<int>>` -/
def siftElem : Equated Nat := .values exTy

def siftProg : List (NOp ((Full.linked siftCfg siftElem.full).sig Nat)) :=
  [.make 0 (.alloc 0), .call 0 (.pushBack (.list [1, 2] 0)), .call 0 (.pushBack (.list [1, 2] 5)), .call 0 (.pushBack (.list [] 0)),
   .call 0 (.pushBack (.list [1, 2] 0)), .call 0 (.pushBack (.list [3] 0))]

/-- the program runs on memory -/
example : (match nrun ((Full.linked siftCfg siftElem.full).cls Nat) siftProg ((Full.linked siftCfg siftElem.full).cls Nat).start with
    | .ok _ => true | _ => false) = true := by decide +kernel

/-- what the list holds then, and what it holds, empty, after a move -/
example : (nspecRun (fmeaning Nat (.linked siftCfg siftElem.full)) siftProg fun _ => none).map
      (fun p => (p.2 0).map fun v => v.items.map (List.map (inside siftElem))) = some (some (some [[1, 2], [1, 2], [], [1, 2], [3]])) := rfl

example : (nspecRun (fmeaning Nat (.linked siftCfg siftElem.full)) (siftProg ++ [.move 1 0]) fun _ => none).map
      (fun p => (p.2 0).map fun v => v.items.isNone) = some (some true) := rfl

/-- the predicate `[](auto& e) { return e.size() == 2; }` has an answer for every vector -/
example (x : Spec.Vector.Var Nat) : (fmeaning Nat siftElem.full).run .size x = some (.num x.xs.length, x) := rfl

/-- `remove_if` with it leaves `[[], [3]]`, and further calls see that -/
example {A : Nat → Option (Spec.LL.Var (FVal Nat siftElem.full))} {rs : List (Option ((Full.linked siftCfg siftElem.full).sig Nat).Ret)}
    (h : nspecRun (fmeaning Nat (.linked siftCfg siftElem.full)) siftProg (fun _ => none) = some (rs, A)) : ∃ xs a, A 0 = some ⟨some xs, a⟩ ∧
      (xs.filter fun x : Spec.Vector.Var Nat => !(x.xs.length == 2)).map (inside (ε := Nat) siftElem) = [[], [3]] ∧
      (nspecRun (fmeaning Nat (.linked siftCfg siftElem.full)) [.call 0 .size, .drop 0]
        (place A 0 (some ⟨some (xs.filter fun x : Spec.Vector.Var Nat => !(x.xs.length == 2)), a⟩))).map (fun p => p.1) = some [some (.num 2), none] := by
  cases h
  exact ⟨_, _, rfl, rfl, rfl⟩

/-- `unique()` leaves `[[1, 2], [], [1, 2], [3]]` -/
example : [[1, 2], [1, 2], [], [1, 2], [3]].destutter (· ≠ ·) = [[1, 2], [], [1, 2], [3]] := rfl

end
end Verif.Props
