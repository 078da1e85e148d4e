import Verif.Proof.Collect
import Verif.Props.Vector
import Verif.Props.LinkedList
/-!
# Property C98: pipelines from containers in memory into containers in memory

`run K src pipe d`: `Container d = c.iter() | pipe | collect<Container>();` where `c` is the container `src` and `d` the new
one (Model/Collect.lean).  `all (one pipe) xs`: the elements `xs` go through the stages of the pipeline one after the other,
each function called at most once per element and in stage order; the result is the list of survivors (Spec/Pipe.lean).
`Good K m`: all containers are in a state that an allowed history reaches.  `items`, `made`: contents of the container read
and of the new one.  `Others`: no other container changed (Spec/Collect.lean).  `Safe`: no undefined behaviour, no panic,
termination; the only alternative to the stated result is that the allocator is out of memory.
-/
namespace Verif.Props
open Verif Verif.Model.Collect Verif.Spec.Collect Verif.Spec.Pipe
open Verif.Model.Iter (Pipe)

namespace Collects

variable {κ α β γ : Type} {K : Kinds α β} {src : Src} {pipe : Pipe κ α γ} {d : Dst α β γ} {w : World κ (Memory α β)} {xs : List α}

/-- C98.  The client's functions run on the elements of the container from first to last, the new container holds the
survivors in order, and neither the container read nor any other container changes. -/
theorem C98_collect (hg : Good K w.mem) (hx : items w.mem src = some xs) (hd : Unused w.mem d) {ys : List γ} {k : κ}
    (ha : all (one pipe) xs w.client = .ok (ys, k)) :
    (run K src pipe d w).Safe fun q =>
      q.2.client = k ∧ made q.2.mem d = some ys ∧ items q.2.mem src = some xs ∧ Others w.mem q.2.mem d ∧ Good K q.2.mem := by
  rw [Proof.Collect.run_ok hg hx ha]
  have := Proof.Collect.plain_ok hg hd ys
  cases he : plain K ys d w.mem with
  | ok q =>
    rw [he] at this
    obtain ⟨h1, h2, h3⟩ := this
    refine ⟨rfl, h2, ?_, h3, h1⟩
    show items q.2 src = some xs
    cases d with
    | vec i =>
      obtain ⟨hv, hl, -⟩ := h3
      cases src with
      | vec j =>
        have hne : j ≠ i := by rintro rfl; simp [items, show Spec.Vector.view w.mem.vecs j = none from hd] at hx
        simpa [items, hv j hne] using hx
      | list j => simpa [items, hl] using hx
    | list i =>
      obtain ⟨hl, hv, -⟩ := h3
      cases src with
      | list j =>
        have hne : j ≠ i := by rintro rfl; simp [items, show Spec.LL.view w.mem.lists j = none from hd] at hx
        simpa [items, hl j hne] using hx
      | vec j => simpa [items, hv] using hx
    | vec' i => obtain ⟨-, hv, hl, -⟩ := h3; cases src <;> simpa [items, hv, hl] using hx
    | list' i => obtain ⟨-, hv, hl, -⟩ := h3; cases src <;> simpa [items, hv, hl] using hx
  | oom => trivial
  | _ => rw [he] at this; exact this.elim

/-- C98 for functions without effects: the new container holds what the pipeline, as a function on lists, makes of the
contents of the container read. -/
theorem C98_collect_pure (hg : Good K w.mem) (hx : items w.mem src = some xs) (hd : Unused w.mem d) (pp : PurePipe α γ) :
    (run K src (pp.toPipe κ) d w).Safe fun q =>
      q.2.client = w.client ∧ made q.2.mem d = some (pp.onList xs) ∧ items q.2.mem src = some xs ∧ Others w.mem q.2.mem d ∧
        Good K q.2.mem :=
  C98_collect hg hx hd (by rw [Proof.Pipe.all_pure]; rfl)

/-- C98: precisely when memory runs out and what the allocator is asked for.  The call is `from_iter` on an iterator that
hands out the survivors, so what is known about that call (capacity, number of constructions and destructions, requests
to the allocator) holds of it. -/
theorem C98_collect_is_from_iter (hg : Good K w.mem) (hx : items w.mem src = some xs) {ys : List γ} {k : κ}
    (ha : all (one pipe) xs w.client = .ok (ys, k)) :
    run K src pipe d w = (plain K ys d w.mem >>= fun q => .ok (q.1, ⟨k, q.2⟩)) := Proof.Collect.run_ok hg hx ha

/-- C98: a function that panics, does not return, or is undefined on an element it receives makes the whole call do the
same, unless memory runs out before. -/
theorem C98_collect_function_fails (hg : Good K w.mem) (hx : items w.mem src = some xs) :
    (all (one pipe) xs w.client = .panic → run K src pipe d w = .panic ∨ run K src pipe d w = .oom) ∧
    (all (one pipe) xs w.client = .div → run K src pipe d w = .div ∨ run K src pipe d w = .oom) ∧
    (all (one pipe) xs w.client = .ub → run K src pipe d w = .ub ∨ run K src pipe d w = .oom) := by
  refine ⟨fun h => ?_, fun h => ?_, fun h => ?_⟩
  all_goals
    have := Proof.Collect.run_fail (d := d) hg hx (by rw [h]; rintro q ⟨⟩) fun _ => .oom
    rw [h] at this
    exact this.symm

/-! ## Examples -/

def exKinds : Kinds Nat Nat := ⟨exTy, Lists.exCfg true, exTy, Lists.exCfg false⟩

theorem exGood : ∃ m, Good exKinds m ∧ items m (.vec 0) = some [1, 2, 3] ∧ items m (.list 0) = some [3, 1, 2, 1] ∧
    Unused m (.vec 3) ∧ Unused m (.list 6) ∧ Unused m (.vec' 3) ∧ Unused m (.list' 6) := by
  obtain ⟨v, hv, h0, -, -, h3⟩ := exReach
  obtain ⟨l, hl, h4⟩ := Lists.exReach true
  obtain ⟨l', hl', h5⟩ := Lists.exReach false
  refine ⟨⟨v, l, v, l'⟩, ⟨hv, hl, hv, hl'⟩, ?_, ?_, h3, h4 6 (by decide), h3, h5 6 (by decide)⟩
  · simp [items, h0]
  · simp [items, h4 0 (by decide), Lists.exView]

def exNote (a : Nat) : Prog (List Nat) Nat := fun s => .ok (a + 1, s ++ [a])

/-- A pipeline with effects: the first stage notes every element it sees and adds one, the second keeps the even ones and
panics on 10. -/
def exPipe : Pipe (List Nat) Nat Nat :=
  .filter (.map .source exNote) fun b => if b = 10 then Prog.panic else return (b % 2 == 0, b)

theorem exPipe_one (a : Nat) (s : List Nat) : one exPipe a s =
    if a + 1 = 10 then .panic else .ok (if (a + 1) % 2 == 0 then some (a + 1) else none, s ++ [a]) := by
  rw [exPipe, Proof.Pipe.one_filter, Proof.Pipe.one_map]
  simp only [Proof.Pipe.addFilter, Proof.Pipe.addMap, one, exNote, Prog.bind_run, Prog.pure_run, Out.bind_ok]
  by_cases h : a + 1 = 10
  · rw [if_pos h, if_pos h]; rfl
  · rw [if_neg h, if_neg h]
    cases h2 : (a + 1) % 2 == 0 <;> simp [h2]

/-- The hypotheses are met and the call does something: the vector `1, 2, 3` gives the list `2, 4`, and the functions saw
`1, 2, 3`. -/
example : ∃ m q, Good exKinds m ∧ items m (.vec 0) = some [1, 2, 3] ∧
    run exKinds (.vec 0) exPipe (.list 6) ⟨[], m⟩ = .ok q ∧ q.2.client = [1, 2, 3] ∧ made q.2.mem (.list 6) = some [2, 4] := by
  obtain ⟨m, hg, h0, -, -, hu, -⟩ := exGood
  have ha : all (one exPipe) [1, 2, 3] [] = .ok ([2, 4], [1, 2, 3]) := by simp [all, Prog.bind_run, exPipe_one]
  have h := C98_collect (w := ⟨[], m⟩) hg h0 hu ha
  have e := C98_collect_is_from_iter (d := .list 6) (w := ⟨[], m⟩) hg h0 ha
  have h2 : (Model.LL.step (Lists.exCfg true) (.fromIter 6 [2, 4]) m.lists).SafeIf (Model.LL.Refuses (Lists.exCfg true)) _ :=
    Proof.LL.reach_step hg.lists (op := .fromIter 6 [2, 4]) (r := .unit)
      (A' := Spec.LL.put (Spec.LL.view m.lists) 6 (some ⟨some [2, 4], 0⟩))
      (by simp only [Spec.LL.specStep, Spec.LL.born, Spec.LL.needs]; rw [if_pos (by rw [show Spec.LL.view m.lists 6 = none from hu]; rfl)])
  cases hr : run exKinds (.vec 0) exPipe (.list 6) ⟨[], m⟩ with
  | ok q => rw [hr] at h; exact ⟨m, q, hg, h0, hr, h.1, h.2.1⟩
  | oom =>
    rw [hr] at e
    simp only [plain, Part.on, lists, Prog.bind_run, exKinds] at e
    cases hs : Model.LL.step (Lists.exCfg true) (.fromIter 6 [2, 4]) m.lists with
    | ok q => rw [hs] at e; cases e
    | oom => rw [hs] at h2; exact absurd h2 (Lists.exCfg_ok true)
    | _ => rw [hs] at h2; exact h2.elim
  | _ => rw [hr] at h; exact h.elim

/-- From the list `3, 1, 2, 1` into a vector of the same element type. -/
example : ∃ m, Good exKinds m ∧ (run exKinds (.list 0) exPipe (.vec 3) ⟨[], m⟩).Safe fun q =>
    q.2.client = [3, 1, 2, 1] ∧ made q.2.mem (.vec 3) = some [4, 2, 2] := by
  obtain ⟨m, hg, -, h0, hu, -⟩ := exGood
  have ha : all (one exPipe) [3, 1, 2, 1] [] = .ok ([4, 2, 2], [3, 1, 2, 1]) := by simp [all, Prog.bind_run, exPipe_one]
  exact ⟨m, hg, (C98_collect (w := ⟨[], m⟩) hg h0 hu ha).mono fun q h => ⟨h.1, h.2.1⟩⟩

/-- A function that panics on the last element. -/
example : ∃ m, Good exKinds m ∧ (all (one (exPipe.map fun b => if b = 4 then Prog.panic else return b)) [1, 2, 3] [] = .panic) ∧
    items m (.vec 0) = some [1, 2, 3] := by
  obtain ⟨m, hg, h0, -⟩ := exGood
  refine ⟨m, hg, ?_, h0⟩
  rw [Proof.Pipe.one_map]
  simp [all, Proof.Pipe.addMap, Prog.bind_run, exPipe_one, Prog.panic]

end Collects
end Verif.Props
