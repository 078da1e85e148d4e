import Verif.Proof.ConsumeRun
import Verif.Props.Collect
/-!
# Property C100: pipelines that consume a list in memory

`run K j t pipe call d`: `Container d = l.into_iter() | pipe | collect<Container>();` (`call = .piped`) or
`Container d = collect<Container>(l.into_iter() | pipe);` (`call = .direct`) for the list `j` (Model/Consume.lean); the iterator
objects of the expression are list variables from `t` on, which are unused before.  `Others`: every other container is as
before and the iterator objects are gone; `plainly`: the same effects as calls one after the other (Spec/Consume.lean).
`all (one pipe) xs`, `Good`, `Unused`, `made`, `Safe` as for property C98.
-/
namespace Verif.Props
open Verif Verif.Model.Collect Verif.Spec.Collect Verif.Spec.Pipe Verif.Spec.Consume
open Verif.Model.Consume (Call stages)
open Verif.Model.Iter (Pipe)

namespace Consumes

variable {κ α β γ : Type} {K : Kinds α β} {j t a : Nat} {pipe : Pipe κ α γ} {call : Call} {d : Dst α β γ} {w : World κ (Memory α β)}
  {xs : List α}

/-- C100.  The client's functions run on the elements of the list from first to last, the new container holds the survivors
in order, the list is moved-from and keeps its allocator, and no other container changes. -/
theorem C100_consume (hg : Good K w.mem) (hx : Spec.LL.view w.mem.lists j = some ⟨some xs, a⟩) (hf : Free w.mem t) (hB : Below t d)
    (hd : Unused w.mem d) {ys : List γ} {k : κ} (ha : all (one pipe) xs w.client = .ok (ys, k)) :
    (Model.Consume.run K j t pipe call d w).Safe fun q =>
      q.2.client = k ∧ made q.2.mem d = some ys ∧ Spec.LL.view q.2.mem.lists j = some ⟨none, a⟩ ∧
        Spec.Consume.Others w.mem q.2.mem j d ∧ Good K q.2.mem := by
  rw [Proof.Consume.run_eq hg hx hf hB hd call ha]
  have := Proof.Consume.plainly_ok hg hx hf hB hd (stages pipe) xs.length call ys
  cases he : plainly K j t (stages pipe) xs.length call ys d w.mem with
  | ok q =>
    rw [he] at this
    obtain ⟨h1, h2, h3, h4⟩ := this
    exact ⟨rfl, h2, h3, h4, h1⟩
  | oom => trivial
  | _ => rw [he] at this; exact this.elim

/-- C100 for functions without effects: the new container holds what the pipeline, as a function on lists, makes of the
contents of the list. -/
theorem C100_consume_pure (hg : Good K w.mem) (hx : Spec.LL.view w.mem.lists j = some ⟨some xs, a⟩) (hf : Free w.mem t) (hB : Below t d)
    (hd : Unused w.mem d) (pp : PurePipe α γ) :
    (Model.Consume.run K j t (pp.toPipe κ) call d w).Safe fun q =>
      q.2.client = w.client ∧ made q.2.mem d = some (pp.onList xs) ∧ Spec.LL.view q.2.mem.lists j = some ⟨none, a⟩ ∧
        Spec.Consume.Others w.mem q.2.mem j d ∧ Good K q.2.mem :=
  C100_consume hg hx hf hB hd (by rw [Proof.Pipe.all_pure]; rfl)

/-- C100: precisely which calls on containers the expression amounts to.  Every adapter copies the whole list once, and so
does `| collect`; then the survivors are put into the new container, the elements are taken from the last copy, and the
copies are destroyed. -/
theorem C100_consume_is_calls (hg : Good K w.mem) (hx : Spec.LL.view w.mem.lists j = some ⟨some xs, a⟩) (hf : Free w.mem t)
    (hB : Below t d) (hd : Unused w.mem d) {ys : List γ} {k : κ} (ha : all (one pipe) xs w.client = .ok (ys, k)) :
    Model.Consume.run K j t pipe call d w =
      (plainly K j t (adapters pipe) xs.length call ys d w.mem >>= fun q => .ok (q.1, ⟨k, q.2⟩)) := by
  rw [← Proof.Consume.stages_eq]
  exact Proof.Consume.run_eq hg hx hf hB hd call ha

/-- C100: the exact cost in elements and nodes of lists of `α`.  Per adapter, and once more for `| collect`, every element is
copied; every copy and the original are destroyed.  If the new container is a list of `α` its elements and nodes are added. -/
theorem C100_consume_cost (hg : Good K w.mem) (hx : Spec.LL.view w.mem.lists j = some ⟨some xs, a⟩) (hf : Free w.mem t)
    (hB : Below t d) (hd : Unused w.mem d) {ys : List γ} {k : κ} (ha : all (one pipe) xs w.client = .ok (ys, k))
    {q : Unit × World κ (Memory α β)} (he : Model.Consume.run K j t pipe call d w = .ok q) :
    q.2.mem.lists.heap.ctors = w.mem.lists.heap.ctors + (copies (adapters pipe) call * xs.length + newElems ys.length d) ∧
    q.2.mem.lists.heap.dtors = w.mem.lists.heap.dtors + (copies (adapters pipe) call * xs.length + xs.length) ∧
    q.2.mem.lists.heap.next = w.mem.lists.heap.next + (copies (adapters pipe) call * (xs.length + 2) + newNodes ys.length d) := by
  rw [← Proof.Consume.stages_eq]
  rw [Proof.Consume.run_eq hg hx hf hB hd call ha] at he
  cases hp : plainly K j t (stages pipe) xs.length call ys d w.mem with
  | ok p =>
    rw [hp] at he
    cases he
    exact Proof.Consume.plainly_work hg hx hf hB hd (stages pipe) xs.length call ys p hp
  | _ => rw [hp] at he; cases he

/-- C100: a function that panics, does not return, or is undefined on an element it receives makes the whole expression do
the same, unless memory runs out before. -/
theorem C100_consume_function_fails (hg : Good K w.mem) (hx : Spec.LL.view w.mem.lists j = some ⟨some xs, a⟩) (hf : Free w.mem t)
    (hB : Below t d) :
    (all (one pipe) xs w.client = .panic →
      Model.Consume.run K j t pipe call d w = .panic ∨ Model.Consume.run K j t pipe call d w = .oom) ∧
    (all (one pipe) xs w.client = .div →
      Model.Consume.run K j t pipe call d w = .div ∨ Model.Consume.run K j t pipe call d w = .oom) ∧
    (all (one pipe) xs w.client = .ub →
      Model.Consume.run K j t pipe call d w = .ub ∨ Model.Consume.run K j t pipe call d w = .oom) := by
  refine ⟨fun h => ?_, fun h => ?_, fun h => ?_⟩
  all_goals
    have := Proof.Consume.run_fails (d := d) hg hx hf hB call (by rw [h]; rintro q ⟨⟩) fun _ => .oom
    rw [h] at this
    exact this.symm

/-! ## Examples -/

theorem exLists {w : Model.LL.World Nat} (hr : Spec.LL.Reach (Lists.exCfg true) w) (hz : ∀ i, Spec.LL.view w i = none) :
    ∃ w', Spec.LL.Reach (Lists.exCfg true) w' ∧ Spec.LL.view w' = Spec.LL.put (Spec.LL.view w) 0 (some ⟨some [3, 1, 2, 1], 7⟩) := by
  have hs : Spec.LL.specStep false true 0 (.newRange 0 [3, 1, 2, 1] 7) (Spec.LL.view w) =
      some (.unit, Spec.LL.put (Spec.LL.view w) 0 (some ⟨some [3, 1, 2, 1], 7⟩)) := by
    simp [Spec.LL.specStep, Spec.LL.born, Spec.LL.needs, hz]
  have h := Proof.LL.reach_step hr hs
  cases he : Model.LL.step (Lists.exCfg true) (.newRange 0 [3, 1, 2, 1] 7) w with
  | ok q => rw [he] at h; exact ⟨q.2, h.2.2.1, h.2.1⟩
  | oom => rw [he] at h; exact absurd h (Lists.exCfg_ok true)
  | _ => rw [he] at h; exact h.elim

theorem exGood : ∃ m, Good Collects.exKinds m ∧ Spec.LL.view m.lists 0 = some ⟨some [3, 1, 2, 1], 7⟩ ∧ Free m 5 ∧
    Unused m (.list 2 : Dst Nat Nat Nat) := by
  have hz : ∀ i, Spec.LL.view ({} : Model.LL.World Nat) i = none := fun _ => rfl
  obtain ⟨w', h1, h2⟩ := exLists ⟨[], [], _, [], rfl, rfl⟩ hz
  refine ⟨⟨{}, w', {}, {}⟩, ⟨⟨[], [], _, [], rfl, rfl⟩, h1, ⟨[], [], _, [], rfl, rfl⟩, ⟨[], [], _, [], rfl, rfl⟩⟩, ?_, fun i hi => ?_, ?_⟩
  · simp [h2, Spec.LL.put]
  · simp [h2, Spec.LL.put, show i ≠ 0 by omega, hz]
  · simp [Unused, h2, Spec.LL.put, hz]

theorem exAll : all (one Collects.exPipe) [3, 1, 2, 1] [] = .ok ([4, 2, 2], [3, 1, 2, 1]) := by
  simp [all, Prog.bind_run, Collects.exPipe_one]

/-- The list `3, 1, 2, 1` is consumed and the list `4, 2, 2` made; the functions saw `3, 1, 2, 1`. -/
example (call : Call) : ∃ m, Good Collects.exKinds m ∧ Spec.LL.view m.lists 0 = some ⟨some [3, 1, 2, 1], 7⟩ ∧
    (Model.Consume.run Collects.exKinds 0 5 Collects.exPipe call (.list 2) ⟨[], m⟩).Safe fun q =>
      q.2.client = [3, 1, 2, 1] ∧ made q.2.mem (.list 2) = some [4, 2, 2] ∧ Spec.LL.view q.2.mem.lists 0 = some ⟨none, 7⟩ := by
  obtain ⟨m, hg, hx, hf, hd⟩ := exGood
  exact ⟨m, hg, hx, Out.Safe.mono (C100_consume (call := call) (d := .list 2) (w := ⟨[], m⟩) hg hx hf (by decide : 2 < 5) hd exAll)
    fun q h => ⟨h.1, h.2.1, h.2.2.1⟩⟩

/-- With two adapters and `| collect` the four elements are copied three times. -/
example : adapters Collects.exPipe = 2 ∧ copies 2 .piped * 4 + newElems 3 (.list 2 : Dst Nat Nat Nat) = 15 :=
  ⟨by simp [Collects.exPipe, adapters], rfl⟩

/-- A function that panics on the last element. -/
example : all (one (Collects.exPipe.filter fun b => if b = 2 then Prog.panic else return (true, b))) [3, 1, 2, 1] [] = .panic := by
  rw [Proof.Pipe.one_filter]
  simp [all, Proof.Pipe.addFilter, Prog.bind_run, Collects.exPipe_one, Prog.panic]

end Consumes
end Verif.Props
