import Verif.Proof.VectorRequest
import Verif.Props.VectorEdit
/-! # Property C15: explicit requests (see Props/Vector.lean for the vocabulary and for automatic growth) -/
namespace Verif.Props
open Verif Verif.Model.Mem Verif.Model.Vector Verif.Proof.Mem Verif.Proof.Vector
open Verif.Spec.Vector hiding upd

variable {α : Type} {ty : ElemTy α}

/-- The block of a vector has room for the capacity it announces. -/
def HasRoom (w : World α) (v : Vec) : Prop :=
  0 < v.cap → ∃ b blk, v.ptr = some b ∧ w.heap.blocks b = some blk ∧ blk.slots.length = v.cap

theorem reach_room {w : World α} (hr : Reach ty w) {i : Nat} {v : Vec} (hv : w.vars i = some v) {a : Var α} (hi : view w i = some a) :
    v.cap = a.cap ∧ v.cap * ty.size < wordSize ∧ HasRoom w v := by
  obtain ⟨v', hv', rep, hc, _⟩ := reach_get hr hi
  rw [hv] at hv'; cases hv'
  have ho := rep.own
  have hsm := ho.small
  have hW : wordSize = 18446744073709551616 := rfl
  refine ⟨hc, by omega, fun hp => ?_⟩
  cases hptr : v.ptr with
  | none => rw [hptr] at ho; simp only [Own] at ho; omega
  | some b =>
    rw [hptr] at ho
    have hlen := ho.length
    simp only [Own] at ho
    exact ⟨b, _, rfl, ho.1, hlen⟩

/-- C15, explicit requests whose number of bytes fits in a word, on every reachable vector and for every such count: the
call succeeds with a block that has room for the announced capacity, which is at least the count (or memory runs out).
Missing: all other counts, see `C15_explicit_request_exact`. -/
theorem C15_explicit_request_partial {w : World α} (hr : Reach ty w) {i : Nat} {xs : List α} {cap a : Nat}
    (hi : view w i = some ⟨xs, cap, a⟩) (x : α) (n : Nat) (hn : n * ty.size < wordSize) (op : Op α)
    (hop : op = .reserve i n ∨ op = .resize i n ∨ op = .resizeFill i n (.val x) ∨ op = .assignFill i n (.val x)) :
    (step ty op w).Safe fun q => ∃ v, q.2.vars i = some v ∧ n ≤ v.cap ∧ v.cap * ty.size < wordSize ∧ HasRoom q.2 v := by
  have h1 : ∃ r A', specStep false ty.size ty.dflt op (view w) = some (r, A') ∧ ∃ ys, A' i = some ⟨ys, max cap n, a⟩ := by
    rcases hop with rfl | rfl | rfl | rfl <;>
    · refine ⟨_, _, by simp [specStep, Spec.Vector.upd, hi, only, inside, argVal, hn]; exact ⟨rfl, rfl⟩, _, by simp [put]; rfl⟩
  obtain ⟨r, A', hs, ys, hA⟩ := h1
  refine (reach_step hr hs).mono ?_
  rintro ⟨r', w'⟩ ⟨_, hvw, hr'⟩
  simp only at hvw hr' ⊢
  rw [← hvw] at hA
  obtain ⟨v, hv, -⟩ := reach_get hr' hA
  obtain ⟨h1, h2, h3⟩ := reach_room hr' hv hA
  exact ⟨v, hv, by simp at h1; omega, h2, h3⟩

/-- The same for the constructors with a count. -/
theorem C15_constructor_partial {w : World α} (hr : Reach ty w) {i : Nat} (hi : view w i = none) (x : α) (n a : Nat)
    (hn : n * ty.size < wordSize) (op : Op α) (hop : op = .newFill i n (.val x) a ∨ op = .newCount i n a) :
    (step ty op w).Safe fun q => ∃ v, q.2.vars i = some v ∧ v.cap = n ∧ HasRoom q.2 v := by
  have h1 : ∃ r A', specStep false ty.size ty.dflt op (view w) = some (r, A') ∧ ∃ ys, A' i = some ⟨ys, n, a⟩ := by
    rcases hop with rfl | rfl <;>
    · refine ⟨_, _, by simp [specStep, born, hi, only, argVal, hn]; exact ⟨rfl, rfl⟩, _, by simp [put]; rfl⟩
  obtain ⟨r, A', hs, ys, hA⟩ := h1
  refine (reach_step hr hs).mono ?_
  rintro ⟨r', w'⟩ ⟨_, hvw, hr'⟩
  simp only at hvw hr' ⊢
  rw [← hvw] at hA
  obtain ⟨v, hv, -⟩ := reach_get hr' hA
  obtain ⟨h1, h2, h3⟩ := reach_room hr' hv hA
  exact ⟨v, hv, h1, h3⟩

/-- C15, all other counts: the property fails for every element size, every reachable vector and every count whose number of bytes does
not fit in a word.  `reserve` never returns a vector whose block has room for the announced capacity; `resize`, `assign` and the
constructors with a count write outside the block (unless memory runs out first). -/
theorem C15_explicit_request_exact {w : World α} (hr : Reach ty w) (n : Nat) (hn : wordSize ≤ n * ty.size) (x : α) :
    (∀ i xs cap a, view w i = some ⟨xs, cap, a⟩ →
      (∀ r w', step ty (.reserve i n) w = .ok (r, w') → ∃ v, w'.vars i = some v ∧ v.cap = n ∧ ¬ HasRoom w' v) ∧
      (∀ op, op = .resize i n ∨ op = .resizeFill i n (.val x) ∨ op = .assignFill i n (.val x) → step ty op w = .ub ∨ step ty op w = .oom)) ∧
    (∀ i a op, op = .newFill i n (.val x) a ∨ op = .newCount i n a → step ty op w = .ub ∨ step ty op w = .oom) := by
  refine ⟨fun i xs cap a hi => ?_, fun i a op hop => ?_⟩
  · obtain ⟨v, hv, rep, hc, _⟩ := reach_get hr hi
    refine ⟨fun r w' hs => ?_, fun op hop => ?_⟩
    · have hg := reserve_got rep (reach_bal hr) (rep_cap_lt rep hn)
      simp only [step, change, Prog.bind_run, run_var hv, Out.bind_ok, inHeap_run] at hs
      cases hres : reserve ty v n w.heap with
      | ok q =>
        obtain ⟨v', h'⟩ := q
        rw [hres] at hg hs
        obtain ⟨_, h2, b, blk, hb, hblk, hlen⟩ := hg
        simp only [Out.bind_ok, setVar, Prog.pure_run, Out.ok.injEq, Prod.mk.injEq] at hs
        obtain ⟨_, rfl⟩ := hs
        refine ⟨v', by simp [bindVar], h2, fun hroom => ?_⟩
        have hlt := got_lt hn
        obtain ⟨b', blk', e1, e2, e3⟩ := hroom (by simp only at h2; omega)
        simp only at hb hblk
        rw [hb] at e1; cases e1
        simp only [hblk] at e2; cases e2
        simp only at h2
        omega
      | _ => rw [hres] at hs; simp at hs
    · rcases hop with rfl | rfl | rfl
      · exact change_out hv (resizeFill_short rep (reach_bal hr) ty.dflt hn)
      · simp only [step, argRef, Prog.bind_run, Out.bind_ok, Prog.pure_run]
        exact change_out hv (resizeFill_short rep (reach_bal hr) x hn)
      · simp only [step, argRef, Prog.bind_run, Out.bind_ok, Prog.pure_run]
        exact change_out hv (assignFill_short rep (reach_bal hr) x hn)
  · rcases hop with rfl | rfl
    · simp only [step, argRef, Prog.bind_run, Out.bind_ok, Prog.pure_run, create, inHeap_run]
      rcases newFill_short (ty := ty) (reach_bal hr) (a := a) x hn with h | h
      · left; rw [h]; rfl
      · right; rw [h]; rfl
    · simp only [step, Prog.bind_run, create, inHeap_run, newCount]
      rcases newFill_short (ty := ty) (reach_bal hr) (a := a) ty.dflt hn with h | h
      · left; rw [h]; rfl
      · right; rw [h]; rfl

/-- both kinds of count, on a reachable vector with elements: 8-byte elements, five of them and 2^61 + 1 -/
example : ∃ w, Reach exTy w ∧ view w 1 = some ⟨[1, 2, 3], 3, 0⟩ ∧ view w 3 = none ∧ 5 * exTy.size < wordSize ∧
    wordSize ≤ 2305843009213693953 * exTy.size := by
  obtain ⟨w, h, _, h1, _, h3⟩ := exReach
  exact ⟨w, h, h1, h3, by decide, by decide⟩

/-- and there `reserve` does return, with room for one element only -/
example : (match run exTy [.newAlloc 0 0, .reserve 0 2305843009213693953] {} with
    | .ok (_, w) => (w.vars 0).any fun v => v.cap == 2305843009213693953 &&
        (v.ptr.bind w.heap.blocks).any fun b => b.slots.length == 1
    | _ => false) = true := by decide +kernel

end Verif.Props
