import Verif.Proof.Threads
import Verif.Props.Vector
import Verif.Props.LinkedList
import Verif.Props.BString
/-!
# Property C111: threads that use different objects do not affect each other

After `init` the threads start; their calls take place in the order `sched` (Spec/Threads.lean).  Every object belongs to one thread, or to
nobody and is only looked at.  `alone t` is what thread `t` gets if no other thread makes a call.
-/
namespace Verif.Props
open Verif Verif.Spec.Threads Verif.Proof.Threads

section vectors
open Verif.Model.Vector
open Verif.Spec.Vector (specRun Ideal writes reads view)
variable {α : Type} {ty : Model.Mem.ElemTy α}

/-- **C111**, vectors.  Whatever the schedule, every thread gets the answers it would get alone, its vectors end up as they would alone, and
the vectors that are nobody's stay as they were.
Missing: the calls C01 excludes. -/
theorem C111_vectors_partial (init : List (Op α)) (sched : Schedule (Op α)) (owner : Owner) {r0 : List (Res α)} {A0 : Ideal α}
    (h0 : specRun false ty.size ty.dflt init (fun _ => none) = some (r0, A0)) (hb : Behaved owner writes reads sched)
    {alone : Nat → List (Res α)} {A : Nat → Ideal α} (h : ∀ t, specRun false ty.size ty.dflt (calls t sched) A0 = some (alone t, A t)) :
    (run ty (init ++ sched.map Prod.snd) {}).Safe fun q =>
      q.1.take init.length = r0 ∧ (∀ t, answers t sched (q.1.drop init.length) = alone t) ∧
      (∀ t i, owner i = some t → view q.2 i = A t i) ∧ ∀ i, owner i = none → view q.2 i = A0 i := by
  simp only [vector_run] at h0 h
  obtain ⟨rs, A', g1, g2, g3, g4⟩ := interleave (vector_framed false ty.size ty.dflt) sched hb A0 (fun _ => A0) (fun _ _ _ => rfl) h
  have ⟨e, el⟩ := runWith_append h0 g1
  rw [← vector_run] at e
  refine (C01_vector_history_partial (ty := ty) _ e).mono ?_
  rintro ⟨rs', w⟩ ⟨rfl, rfl, -⟩
  refine ⟨by rw [← el]; simp, fun t => by rw [← el]; simp [g2], g3, g4⟩

end vectors

section lists
open Verif.Model.LL
open Verif.Spec.LL (specRun Ideal writes reads view)
variable {α : Type} {cfg : Cfg α}

/-- **C111**, lists of both kinds.
Missing: the calls C16 and C17 exclude. -/
theorem C111_lists_partial (init : List (Op α)) (sched : Schedule (Op α)) (owner : Owner) {r0 : List (Res α)} {A0 : Ideal α}
    (h0 : specRun false cfg.dbl cfg.dflt init (fun _ => none) = some (r0, A0)) (hb : Behaved owner writes reads sched)
    {alone : Nat → List (Res α)} {A : Nat → Ideal α} (h : ∀ t, specRun false cfg.dbl cfg.dflt (calls t sched) A0 = some (alone t, A t)) :
    (run cfg (init ++ sched.map Prod.snd) {}).SafeIf (Refuses cfg) fun q =>
      q.1.take init.length = r0 ∧ (∀ t, answers t sched (q.1.drop init.length) = alone t) ∧
      (∀ t i, owner i = some t → view q.2 i = A t i) ∧ ∀ i, owner i = none → view q.2 i = A0 i := by
  simp only [list_run] at h0 h
  obtain ⟨rs, A', g1, g2, g3, g4⟩ := interleave (list_framed false cfg.dbl cfg.dflt) sched hb A0 (fun _ => A0) (fun _ _ _ => rfl) h
  have ⟨e, el⟩ := runWith_append h0 g1
  rw [← list_run] at e
  have key : (run cfg (init ++ sched.map Prod.snd) {}).SafeIf (Refuses cfg) fun q => q.1 = r0 ++ rs ∧ view q.2 = A' := by
    cases hd : cfg.dbl with
    | true =>
      rw [hd] at e
      exact (Lists.C16_list_history_partial hd _ e).imp fun q h => ⟨h.1, h.2.1⟩
    | false =>
      rw [hd] at e
      exact (Lists.C17_forward_list_history_partial hd _ e).imp fun q h => ⟨h.1, h.2.1⟩
  refine key.imp ?_
  rintro ⟨rs', w⟩ ⟨rfl, rfl⟩
  refine ⟨by rw [← el]; simp, fun t => by rw [← el]; simp [g2], g3, g4⟩

end lists

section strings
open Verif.Model.BStr
open Verif.Spec.BStr (specRun Ideal writes reads view)
variable {cfg : Cfg}

/-- **C111**, strings.
Missing: the calls C40 excludes. -/
theorem C111_strings_partial (init : List Op) (sched : Schedule Op) (owner : Owner) {r0 : List Res} {A0 : Ideal}
    (h0 : specRun false cfg.lenient cfg.enc init (fun _ => none) = some (r0, A0)) (hb : Behaved owner writes reads sched)
    {alone : Nat → List Res} {A : Nat → Ideal} (h : ∀ t, specRun false cfg.lenient cfg.enc (calls t sched) A0 = some (alone t, A t)) :
    (run cfg (init ++ sched.map Prod.snd) {}).SafeIf (Refuses cfg) fun q =>
      q.1.take init.length = r0 ∧ (∀ t, answers t sched (q.1.drop init.length) = alone t) ∧
      (∀ t i, owner i = some t → view q.2 i = A t i) ∧ ∀ i, owner i = none → view q.2 i = A0 i := by
  simp only [string_run] at h0 h
  obtain ⟨rs, A', g1, g2, g3, g4⟩ := interleave (string_framed false cfg.lenient cfg.enc) sched hb A0 (fun _ => A0) (fun _ _ _ => rfl) h
  have ⟨e, el⟩ := runWith_append h0 g1
  rw [← string_run] at e
  refine (Strings.C40_history_partial (cfg := cfg) _ e).imp ?_
  rintro ⟨rs', w⟩ ⟨rfl, rfl⟩
  refine ⟨by rw [← el]; simp, fun t => by rw [← el]; simp [g2], g3, g4⟩

end strings

/-! Two threads: vector 0 is nobody's, 1 and 3 belong to the first thread, 2 to the second. -/

def exInit : List (Model.Vector.Op Nat) := [.newList 0 [4, 5] 0, .newList 1 [1] 0]

def exSched : Schedule (Model.Vector.Op Nat) :=
  [(1, .push 1 (.elem 0 1)), (2, .newCopy 2 0), (1, .newMove 3 1 0), (2, .push 2 (.elem 0 0)), (1, .collect 3), (2, .collect 2), (2, .collect 0),
   (1, .equal 3 0 (· == ·))]

def exOwner : Owner := fun i => match i with | 1 => some 1 | 3 => some 1 | 2 => some 2 | _ => none

example : Behaved exOwner Spec.Vector.writes Spec.Vector.reads exSched := by
  simp [Behaved, exSched, Spec.Vector.writes, Spec.Vector.reads, Spec.Vector.argReads, exOwner]

example : (Spec.Vector.specRun false exTy.size exTy.dflt exInit (fun _ => none)).any (fun p =>
      [1, 2].all fun t => (Spec.Vector.specRun false exTy.size exTy.dflt (calls t exSched) p.2).any fun q =>
        q.1.filterMap (fun r => match r with | .seq xs => some xs | _ => none) == if t = 1 then [[1, 5]] else [[4, 5, 4], [4, 5]]) = true := by
  decide +kernel

/-- A thread that changes a vector of nobody's is not covered. -/
example : ¬ Behaved exOwner Spec.Vector.writes Spec.Vector.reads [(1, (.push 0 (.val 1) : Model.Vector.Op Nat))] := by
  simp [Behaved, Spec.Vector.writes, exOwner]

example : Behaved exOwner Spec.LL.writes Spec.LL.reads
      [(1, (.splice 1 1 3 : Model.LL.Op Nat)), (2, .newCopy 2 0), (1, .traverse 0), (2, .sort 2 (fun a b => decide (a < b)))] ∧
    (Spec.LL.specRun false true 0 [.newRange 0 [2, 1] 0, .newRange 1 [5] 0, .newRange 3 [6] 0] (fun _ => none)).any (fun p =>
      (Spec.LL.specRun false true 0 [.splice 1 1 3, .traverse 0] p.2).isSome &&
      (Spec.LL.specRun false true 0 [.newCopy 2 0, .sort 2 (fun a b => decide (a < b))] p.2).isSome) = true := by
  refine ⟨by simp [Behaved, Spec.LL.writes, Spec.LL.reads, exOwner], by decide +kernel⟩

example : Behaved exOwner Spec.BStr.writes Spec.BStr.reads [(1, .pushBack 1 [66]), (2, .newCopy 2 0), (1, .newMove 3 1), (2, .size 0)] ∧
    (Spec.BStr.specRun false true .ascii [.newLit 0 [65] 0, .newLit 1 [65] 0] (fun _ => none)).any (fun p =>
      (Spec.BStr.specRun false true .ascii [.pushBack 1 [66], .newMove 3 1] p.2).isSome &&
      (Spec.BStr.specRun false true .ascii [.newCopy 2 0, .size 0] p.2).isSome) = true := by
  refine ⟨by simp [Behaved, Spec.BStr.writes, Spec.BStr.reads, exOwner], by decide +kernel⟩

end Verif.Props
