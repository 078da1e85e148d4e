import Verif.Props.VectorExact
import Verif.Proof.VectorGive
/-! # Moving elements out of vectors (C108) -/
namespace Verif.Props
open Verif Verif.Model.Mem Verif.Model.Vector Verif.Model.VectorGive Verif.Spec.Vector Verif.Spec.VectorGive
open Verif.Proof.Vector
open Verif.Proof.VectorGive

variable {α : Type} {ty : ElemTy α}

/-- **C108.**  Programs that also move elements out of their vectors, into values of their own, into other elements, or into the same or another
vector at its end or at any position: nothing undefined happens, every call gives what the ideal lists give, the vectors are the ideal lists, where
the moved element holds its moved-from value and every other element is as it was, and once the vectors are gone every element is destroyed once and
all memory returned.  Missing: pushing an own element onto a full vector, see `C108_push_own_fails`; insertion at `begin()`, see
`C108_insert_begin_fails`; and the calls C01 excludes. -/
theorem C108_give_partial (ops : List (GOp α)) {rs : List (Res α)} {A : Ideal α}
    (h : giveRun false ty.size ty.dflt ty.mv ops (fun _ => none) = some (rs, A)) :
    (grun ty ops {}).Safe fun q => q.1 = rs ∧ view q.2 = A ∧
      ((∀ i, A i = none) → (∀ b, q.2.heap.blocks b = none) ∧ q.2.heap.ctors = q.2.heap.dtors ∧
        q.2.heap.newBytes = q.2.heap.freeBytes) := by
  refine (run_give ops inv_init h).mono ?_
  rintro ⟨rs', w⟩ ⟨h1, I⟩
  refine ⟨h1, I.view, fun hall => ?_⟩
  have he : ∀ b, w.heap.blocks b = none := by
    intro b
    cases hb : w.heap.blocks b with
    | none => rfl
    | some blk =>
      obtain ⟨i, v, hv, _⟩ := I.cover b blk hb
      obtain ⟨a, ha, _⟩ := I.rep_of hv
      rw [hall i] at ha
      cases ha
  exact ⟨he, I.bal.empty he⟩

/-- A history for the example: elements are moved out, onto the end of another vector, into the middle of the own one, over another element, and
onto the own end with room to spare. -/
def exGive : List (GOp Nat) :=
  [.base (.newList 0 [1, 2, 3] 0), .base (.newList 1 [7, 8] 5), .takeOut 0 1, .pushMove 1 0 0, .base (.get 0 0), .insertMove 1 1 1 2,
   .base (.push 1 (.val 5)), .pushMove 1 1 0, .setMove 0 1 1 1, .emplaceMove 0 3 1 5, .pushMove 0 0 3]

example : (giveRun false exTy.size exTy.dflt exTy.mv exGive (fun _ => none)).any (fun p =>
      decide ((p.2 0).map (·.xs) = some [0, 1, 3, 0, 7] ∧ (p.2 1).map (·.xs) = some [0, 0, 8, 0, 5, 0])) = true ∧
    isOk (fun q => decide ((view q.2 0).map (·.xs) = some [0, 0, 3] ∧ (view q.2 1).map (·.xs) = some [7, 8, 1]))
      (grun exTy (exGive.take 5) {}) = true ∧
    (giveRun false exTy.size exTy.dflt exTy.mv (exGive ++ [.base (.drop 0), .base (.drop 1)]) (fun _ => none)).isSome = true := by
  decide +kernel

/-- The unrestricted property is false of the code: pushing an own element onto a full vector moves from memory that was just released, whatever
the program did before.  (Unless the request for memory is refused first.) -/
theorem C108_push_own_fails (ops : List (GOp α)) {rs rs' : List (Res α)} {A : Ideal α} {w : World α}
    (h : giveRun false ty.size ty.dflt ty.mv ops (fun _ => none) = some (rs, A)) (hw : grun ty ops {} = .ok (rs', w))
    {i k : Nat} {a : Var α} (hi : A i = some a) (hk : k < a.xs.length) (hfull : a.xs.length = a.cap) :
    (∃ A', giveStep true ty.size ty.dflt ty.mv (.pushMove i i k) A = some (.unit, A')) ∧
    (gstep ty (.pushMove i i k) w = .ub ∨ gstep ty (.pushMove i i k) w = .oom) := by
  have I := run_give (ty := ty) ops inv_init h
  rw [hw] at I
  obtain ⟨-, I⟩ := I
  refine ⟨⟨_, by simp [giveStep, moveOut, hi, List.getElem?_eq_getElem hk, Spec.Vector.upd, Spec.Vector.put, only]; rfl⟩, ?_⟩
  obtain ⟨v, hv, rep, hc, _⟩ := I.get hi
  have := rep.len
  simp only [gstep, Prog.bind_run, run_var hv, Out.bind_ok]
  exact change_out hv (pushMove_alias rep I.bal hk (by omega))

/-- Inserting a moved element at the beginning of a vector that is not empty is undefined, as is inserting any other value there (C06). -/
theorem C108_insert_begin_fails (ops : List (GOp α)) {rs rs' : List (Res α)} {A : Ideal α} {w : World α}
    (h : giveRun false ty.size ty.dflt ty.mv ops (fun _ => none) = some (rs, A)) (hw : grun ty ops {} = .ok (rs', w))
    {i j k : Nat} {a b : Var α} (hi : A i = some a) (hne : a.xs ≠ []) (hj : A j = some b) (hk : k < b.xs.length) :
    (∃ A', giveStep true ty.size ty.dflt ty.mv (.insertMove i 0 j k) A = some (.pos (some 0), A')) ∧
    (gstep ty (.insertMove i 0 j k) w = .ub ∨ gstep ty (.insertMove i 0 j k) w = .oom) ∧
    (gstep ty (.emplaceMove i 0 j k) w = .ub ∨ gstep ty (.emplaceMove i 0 j k) w = .oom) := by
  have I := run_give (ty := ty) ops inv_init h
  rw [hw] at I
  obtain ⟨-, I⟩ := I
  have hx : b.xs[k]? = some b.xs[k] := List.getElem?_eq_getElem hk
  have hm : moveOut ty.mv A j k = some (b.xs[k], Spec.Vector.put A j (some ⟨b.xs.set k (ty.mv b.xs[k]), b.cap, b.alloc⟩)) := by
    simp only [moveOut, hj, Option.bind_some, hx, Option.map_some]
  obtain ⟨c, hc, hcn⟩ : ∃ c, Spec.Vector.put A j (some ⟨b.xs.set k (ty.mv b.xs[k]), b.cap, b.alloc⟩) i = some c ∧ c.xs ≠ [] := by
    by_cases e : i = j
    · subst e; rw [hi] at hj; cases hj
      exact ⟨_, put_same _ _ _, by simpa using hne⟩
    · exact ⟨a, by rw [put_ne _ e]; exact hi, hne⟩
  refine ⟨⟨_, by simp [giveStep, hm, Spec.Vector.upd, hc, only]; rfl⟩, ?_⟩
  obtain ⟨u, hu, -⟩ := I.get hj
  obtain ⟨h', e1, I1⟩ := take_ok I hm hu
  obtain ⟨v, hv, rep, _, _⟩ := I1.get hc
  have hv' : w.vars i = some v := hv
  have he := emplace_begin (x := b.xs[k]) rep I1.bal hcn
  simp only at he
  constructor
  · simp only [gstep, Prog.bind_run, run_var hu, Out.bind_ok]
    refine change'_out hv' ?_
    simp only [Model.VectorGive.insertMove, Prog.bind_run, e1, Out.bind_ok]
    rcases he with h | h <;> rw [h] <;> simp
  · simp only [gstep, Prog.bind_run, run_var hu, Out.bind_ok]
    refine change_out hv' ?_
    simp only [Model.VectorGive.emplaceMove, Prog.bind_run, e1, Out.bind_ok]
    exact he

example : isOk (fun q => decide ((view q.2 0).map (fun v => (v.xs, v.cap)) = some ([1, 2], 2))) (grun exTy [.base (.newList 0 [1, 2] 0)] {}) = true ∧
    (giveRun false exTy.size exTy.dflt exTy.mv [.base (.newList 0 [1, 2] 0)] (fun _ => none)).any
      (fun p => decide ((p.2 0).map (fun v => (v.xs, v.cap)) = some ([1, 2], 2))) = true ∧
    isUb (grun exTy [.base (.newList 0 [1, 2] 0), .pushMove 0 0 1] {}) = true := by
  decide +kernel

end Verif.Props
