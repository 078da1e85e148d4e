import Verif.Proof.VectorThrow3
import Verif.Props.Vector
/-!
# Property C75 over whole programs: vectors whose element copies may throw

C75 (full statement, refuted by the `_fails` theorems of Props/VectorFault.lean and once more, exactly, by `C75_throw_exact`): after a
call during which copying an element throws, the vectors can be used and destroyed, and no element and no memory is lost.

Programs catch the exception and go on.  `copied` (Spec/VectorThrow.lean) lists the values a call copies, `caught` says which throws
the library survives and with what result.
-/
namespace Verif.Props
open Verif Verif.Model.Mem Verif.Model.Vector Verif.Proof.Mem Verif.Proof.Vector
open Verif.Spec.Vector hiding upd

variable {α : Type} {ty : ElemTy α} {bad : α → Bool}

/-- C75 (partial).  A program over any number of vectors, in which every throwing call is one the library survives, runs without
undefined behaviour; each call returns what the specification says, or throws where it says; the vectors are what the specification
says, also those a throwing call was working on; nothing is lost.
Missing: the other throwing calls, see `C75_throw_exact`. -/
theorem C75_history_partial (ops : List (Op α)) {rs : List (Option (Res α))} {A : Ideal α}
    (h : specRunT bad ty.size ty.dflt ops (fun _ => none) = some (rs, A)) :
    (runT ty bad ops {}).Safe fun q => q.1 = rs ∧ view q.2 = A ∧ (∀ i, (q.2.vars i).isSome = (A i).isSome) ∧ Intact q.2 ∧
      ((∀ i, A i = none) → (∀ b, q.2.heap.blocks b = none) ∧ q.2.heap.ctors = q.2.heap.dtors ∧
        q.2.heap.newBytes = q.2.heap.freeBytes) := by
  refine (runT_ok ops inv_init h).mono fun q hq => ⟨hq.1, hq.2.view, ?_, hq.2.intact, ?_⟩
  · intro i
    cases ha : A i with
    | none => rw [hq.2.get_none ha]; rfl
    | some a => obtain ⟨v, hv, _⟩ := hq.2.get ha; rw [hv]; rfl
  · intro hall
    have he : ∀ b, q.2.heap.blocks b = none := by
      intro b
      cases hb : q.2.heap.blocks b with
      | none => rfl
      | some blk =>
        obtain ⟨i, v, hv, _⟩ := hq.2.cover b blk hb
        rw [hq.2.get_none (hall i)] at hv; cases hv
    exact ⟨he, hq.2.bal.empty he⟩

/-- 3 cannot be copied. -/
def exBad : Nat → Bool := (· == 3)

/-- A program with four throwing calls: two insertions, an element assignment, a copy assignment that gets stuck halfway. -/
def exThrows : List (Op Nat) :=
  [.fromIter 0 [1, 2, 3], .insert 0 1 (.val 3), .set 0 0 3, .insert 0 1 (.elem 0 2), .get 0 2,
   .newList 1 [7, 8, 9, 6] 0, .copyAssign 1 0, .get 1 1, .get 1 2, .drop 0, .drop 1]

example : (specRunT exBad exTy.size exTy.dflt exThrows (fun _ => none)).map Prod.fst =
    some [some .unit, none, none, none, some (.val 3), some .unit, none,
      some (.val 2), some (.val 9), some .unit, some .unit] := rfl

example : isOk (fun q => decide (q.1.length = 11 ∧ q.2.heap.ctors = q.2.heap.dtors)) (runT exTy exBad exThrows {}) = true := by
  decide +kernel

/-- C75, a call that copies only values that can be copied: it returns what it returns for other element types. -/
theorem C75_no_bad_copy {w : World α} (hr : ReachT ty bad w) {op : Op α} {r : Res α} {A' : Ideal α}
    (hs : specStep false ty.size ty.dflt op (view w) = some (r, A')) (hg : ∀ x ∈ copied ty.dflt (view w) op, bad x = false) :
    (stepT ty bad op w).Safe fun q => q.1 = some r ∧ view q.2 = A' ∧ Intact q.2 :=
  (stepT_ok op (reachT_inv hr) (r := some r) (A' := A') (by simp only [specStepT, hs, Option.bind_some, if_pos hg])).mono
    fun _ hq => ⟨hq.1, hq.2.view, hq.2.intact⟩

/-- C75, exactly.  From any state a program gets into, any allowed call that copies a value that cannot be copied throws, and leaves
every vector it does not write to alone.  If `caught` has an answer, the vectors are what it says and nothing is lost; if it has none,
the state is damaged: a vector counts an element that does not exist, or an element or a block of memory is lost. -/
theorem C75_throw_exact {w : World α} (hr : ReachT ty bad w) {op : Op α} {p : Res α × Ideal α}
    (hs : specStep false ty.size ty.dflt op (view w) = some p) (hg : ∃ x ∈ copied ty.dflt (view w) op, bad x = true) :
    (stepT ty bad op w).Safe fun q => q.1 = none ∧ (∀ j, j ∉ writes op → view q.2 j = view w j) ∧
      match caught bad (view w) op with
      | some A' => view q.2 = A' ∧ Intact q.2
      | none => ¬ Intact q.2 := by
  obtain ⟨x, hx, hb⟩ := hg
  obtain ⟨r, A'⟩ := p
  refine (stepT_throws op (reachT_inv hr) hs (fun hall => by rw [hall x hx] at hb; cases hb)).mono ?_
  rintro q ⟨h1, i, hw, h2, h3⟩
  refine ⟨h1, fun j hj => h2 j (by rw [hw] at hj; simpa using hj), ?_⟩
  cases hc : caught bad (view w) op with
  | none => rw [hc] at h3; exact h3
  | some A1 => rw [hc] at h3; exact ⟨h3.view, h3.intact⟩

theorem reachT_of (ops : List (Op α)) (P : Ideal α → Bool)
    (h1 : (specRunT bad ty.size ty.dflt ops (fun _ => none)).any (fun p => P p.2) = true)
    (h2 : isOk (fun _ => true) (runT ty bad ops {}) = true) : ∃ w, ReachT ty bad w ∧ P (view w) = true := by
  obtain ⟨⟨rs', w⟩, he, _⟩ := of_isOk h2
  cases hs : specRunT bad ty.size ty.dflt ops (fun _ => none) with
  | none => rw [hs] at h1; cases h1
  | some p =>
    obtain ⟨rs, A⟩ := p
    rw [hs] at h1
    have := runT_ok ops inv_init hs
    rw [he] at this
    exact ⟨w, ⟨ops, rs, A, rs', hs, he⟩, by rw [Inv.view this.2]; simpa using h1⟩

/-- After four throws: copying vector 0 or appending its element 2 throws and is not survived, copy assignment to a vector that is
long enough is. -/
example : ∃ w, ReachT exTy exBad w ∧ (specStep false exTy.size exTy.dflt (.newCopy 2 0) (view w)).isSome ∧
    (∃ x ∈ copied exTy.dflt (view w) (.newCopy 2 0), exBad x = true) ∧ (caught exBad (view w) (.newCopy 2 0)).isNone ∧
    (specStep false exTy.size exTy.dflt (.push 1 (.elem 0 2)) (view w)).isSome ∧
    (∃ x ∈ copied exTy.dflt (view w) (.push 1 (.elem 0 2)), exBad x = true) ∧ (caught exBad (view w) (.push 1 (.elem 0 2))).isNone ∧
    (specStep false exTy.size exTy.dflt (.copyAssign 1 0) (view w)).isSome ∧
    (∃ x ∈ copied exTy.dflt (view w) (.copyAssign 1 0), exBad x = true) ∧ (caught exBad (view w) (.copyAssign 1 0)).isSome := by
  obtain ⟨w, h, hP⟩ := reachT_of (ty := exTy) (bad := exBad) (exThrows.take 9) (fun A =>
    (specStep false exTy.size exTy.dflt (.newCopy 2 0) A).isSome &&
    ((copied exTy.dflt A (.newCopy 2 0)).any exBad && ((caught exBad A (.newCopy 2 0)).isNone &&
    ((specStep false exTy.size exTy.dflt (.push 1 (.elem 0 2)) A).isSome &&
    ((copied exTy.dflt A (.push 1 (.elem 0 2))).any exBad && ((caught exBad A (.push 1 (.elem 0 2))).isNone &&
    ((specStep false exTy.size exTy.dflt (.copyAssign 1 0) A).isSome &&
    ((copied exTy.dflt A (.copyAssign 1 0)).any exBad && (caught exBad A (.copyAssign 1 0)).isSome))))))))
    (by decide +kernel) (by decide +kernel)
  simp only [Bool.and_eq_true, List.any_eq_true] at hP
  exact ⟨w, h, hP⟩

end Verif.Props
