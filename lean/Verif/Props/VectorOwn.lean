import Verif.Proof.VectorOwn
import Verif.Props.Vector
/-! # Property C90: owning iterators of vectors -/
namespace Verif.Props
open Verif Verif.Model.Mem Verif.Model.Vector Verif.Model.VectorOwn Verif.Spec.Vector Verif.Spec.VectorOwn
open Verif.Proof.Vector
open Verif.Proof.VectorOwn

variable {α : Type} {ty : ElemTy α}

/-- **C90.**  Programs that make, advance, move and destroy any number of owning iterators, in both directions, between
any allowed calls on vectors: nothing undefined happens, every `next()` gives what the ideal iterator gives, all vectors
have the contents of their ideal lists, and when the vectors and iterators are gone every element is destroyed and all
memory returned.  Missing: `next()` of an iterator that was moved from, see `C90_moved_next_fails`; and the calls on
vectors C01 excludes. -/
theorem C90_own_partial (ops : List (OOp α)) {rs : List (Res α)} {s : State α}
    (h : ownRun false ty.size ty.dflt ops start = some (rs, s)) :
    (orun ty ops {}).Safe fun q => q.1 = rs ∧ (∀ i, s.its i = none → view q.2.base i = s.vecs i) ∧
      ((∀ i, s.free i = true) → (∀ b, q.2.base.heap.blocks b = none) ∧ q.2.base.heap.ctors = q.2.base.heap.dtors ∧
        q.2.base.heap.newBytes = q.2.base.heap.freeBytes) := by
  refine (orun_ok ops oinv_init h).mono ?_
  rintro ⟨rs', w⟩ ⟨h1, H, I⟩
  refine ⟨h1, fun i hi => ?_, fun hall => ?_⟩
  · rw [Inv.view I.inv]
    cases hv : s.vecs i with
    | none => rw [over_none hv, (I.none_of hi).1]
    | some a => rw [over_some hv]
  · have he : ∀ b, w.base.heap.blocks b = none := by
      intro b
      cases hb : w.base.heap.blocks b with
      | none => rfl
      | some blk =>
        obtain ⟨i, v, hv, _⟩ := I.inv.cover b blk hb
        obtain ⟨a, ha, _⟩ := I.inv.rep_of hv
        obtain ⟨f1, f2⟩ := free_of (hall i)
        rw [over_none f1, (I.none_of f2).1] at ha
        cases ha
    exact ⟨he, I.inv.bal.empty he⟩

/-- A history for the example: a vector is drained half, the iterator moved on, the vector filled again; another one is
drained from the back. -/
def exOwn : List (OOp Nat) :=
  [.vec (.newList 0 [1, 2, 3] 0), .make 1 0, .next 1, .vec (.push 0 (.val 9)), .move 2 1, .next 2, .vec (.newList 3 [4, 5] 0),
   .makeRev 4 3, .next 4, .next 2, .next 2, .move 5 1, .next 5, .move 6 2, .next 6, .drop 1, .drop 2, .drop 4, .drop 5, .drop 6,
   .vec (.drop 3), .vec (.drop 0)]

example : (ownRun false exTy.size exTy.dflt exOwn start).any (fun p => p.2.free 0 && p.2.free 4 &&
      decide (p.1.filterMap (fun r => match r with | .opt o => some o | _ => none) =
        [some 1, some 2, some 5, some 3, none, none, none])) = true ∧
    isOk (fun q => decide (q.2.base.heap.ctors = q.2.base.heap.dtors ∧ 0 < q.2.base.heap.ctors)) (orun exTy exOwn {}) = true := by
  decide +kernel

/-- The unrestricted property is false of the code, whatever the program did before: an iterator that still had elements
to give, once moved from, reads through a null pointer when asked for the next element.  (A refused request for memory is a separate outcome:
the move makes one, for a vector it then throws away.) -/
theorem C90_moved_next_fails (ops : List (OOp α)) {rs rs' : List (Res α)} {s : State α} {w : OWorld α}
    (h : ownRun false ty.size ty.dflt ops start = some (rs, s)) (hw : orun ty ops {} = .ok (rs', w)) {i j : Nat} {t : α} {ts : List α}
    (hj : s.its j = some (.fwd (t :: ts))) (hi : s.free i = true) :
    (∃ s', ownRun true ty.size ty.dflt [.move i j, .next j] s = some ([.unit, .opt none], s')) ∧
    (orun ty [.move i j, .next j] w = .ub ∨ orun ty [.move i j, .next j] w = .oom) := by
  have I := orun_ok (ty := ty) ops oinv_init h
  rw [hw] at I
  obtain ⟨-, H, I⟩ := I
  refine ⟨⟨(s.setIt i (some (.fwd (t :: ts)))).setIt j (some .moved), by simp [ownRun, ownStep, hj, hi, State.setIt, only]⟩, ?_⟩
  obtain ⟨hi1, hi2⟩ := free_of hi
  have hij : j ≠ i := by rintro rfl; rw [hi2] at hj; cases hj
  have hvj := I.disj j (by rw [hj]; simp)
  obtain ⟨pos, len, a, hk, hh, hst⟩ := I.fwd_of hj
  have hlen : 0 < len := by
    rcases hst with ⟨e, _⟩ | ⟨_, zs, _, e, _⟩
    · cases e
    · rw [e]; simp; omega
  have hCj : over s.vecs H j = some a := by rw [over_none hvj, hh]
  obtain ⟨u, hu, ru, hc, hl⟩ := I.inv.get hCj
  have key := base_move (ty := ty) I.inv (i := i) (j := j) (by rw [over_none hi1, (I.none_of hi2).1]) hCj hu
  simp only [orun, ostep, move, Prog.bind_run, run_kind hk, onBase_run, run_var hu, Out.bind_ok, inHeap_run]
  cases hd : newDefault ty w.base.heap with
  | oom => exact .inr rfl
  | ub => rw [hd] at key; exact key.elim
  | panic => rw [hd] at key; exact key.elim
  | div => rw [hd] at key; exact key.elim
  | ok q =>
    rw [hd] at key
    obtain ⟨h', e, J⟩ := key
    refine .inl ?_
    simp only [Out.bind_ok, e, setVar, setKind, Prog.pure_run, next, Prog.bind_run, kind, if_true, onBase_run, var, bindVar,
      inHeap_run, IntoIter.next, hlen, Vec.blank, take]
    rfl

example : isUb (orun exTy [.vec (.newList 0 [1, 2, 3] 0), .make 1 0, .next 1, .move 2 1, .next 1] {}) = true := by decide +kernel

end Verif.Props
