import Verif.Proof.ListConsume
import Verif.Props.Consume
/-!
# Property C104: terminals over pipelines that consume a list

`fold cfg form j t pipe f init`: `fold(l.into_iter() | pipe, init, f)` (`form = .direct`) or `l.into_iter() | pipe | fold(init, f)`
(`form = .piped`) for the list `j`; `forEach`, `reduce`, `find` likewise; `findIn cfg pipe u p` and `lastIn cfg pipe u`: `find(it, p)`,
`last(it)` for an iterator variable whose list is `u` (Model/ListConsume.lean).  `Before`, `Consumed`, `left`, `visit`, `Keeps`:
Spec/ListConsume.lean.  `foldOver (one pipe) f init xs`, `findOver`, `reduceOver`, `all`: the client's functions on the plain
list `xs`, from first to last, with all their effects on the client's state (Spec/Pipe.lean).  `adapters pipe`: the number of adapters.
`Costs h h' m n k`: `m` elements are constructed, `n` destroyed, `k` nodes requested.  `Refused cfg lo n`: the memory resource refuses one of
the next `n` requests.
-/
namespace Verif.Props.ListConsumes
open Verif Verif.Model.ListConsume Verif.Spec.ListConsume Verif.Spec.Pipe
open Verif.Spec.LL (view Reach put Costs Refused specRun)
open Verif.Spec.Consume (adapters)
open Verif.Model.LL (Op Cfg Res)
open Verif.Model.Iter (Pipe)

variable {κ α β ρ : Type} {cfg : Cfg α} {w : Model.LL.World α} {j t u a : Nat} {xs : List α} {pipe : Pipe κ α β}

/-- **C104, `fold`.**  The result and all effects on the client's state are those of the functions on the plain list of elements, whether they return,
panic or do not return; the list is moved-from, every other list is as before, and the iterator objects of the expression are
gone.  Every adapter copies the whole list, and nothing else is constructed; everything is destroyed.  The only other outcome is that a request
for memory is refused, before the client's functions are called. -/
theorem C104_fold (B : Before cfg w j t xs a) (form : Form) (f : ρ → β → Prog κ ρ) (init : ρ) (c : κ) :
    (Refused cfg w.heap.next (adapters pipe * (xs.length + 2)) ∧
      fold cfg form j t pipe (fun acc b => do let r ← f acc b; return (r, [])) init ⟨c, w⟩ = .oom) ∨
    ∃ w', Consumed cfg w w' j a ∧
      Costs w.heap w'.heap (adapters pipe * xs.length) (adapters pipe * xs.length + xs.length) (adapters pipe * (xs.length + 2)) ∧
      fold cfg form j t pipe (fun acc b => do let r ← f acc b; return (r, [])) init ⟨c, w⟩ =
        foldOver (one pipe) f init xs c >>= fun q => .ok (q.1, ⟨q.2, w'⟩) := by
  rw [← Proof.Consume.stages_eq]
  exact Proof.ListConsume.fold_whole B form f init c

/-- **C104, `for_each`.** -/
theorem C104_for_each (B : Before cfg w j t xs a) (form : Form) (f : β → Prog κ Unit) (c : κ) :
    (Refused cfg w.heap.next (adapters pipe * (xs.length + 2)) ∧
      forEach cfg form j t pipe (fun b => do f b; return []) ⟨c, w⟩ = .oom) ∨
    ∃ w', Consumed cfg w w' j a ∧
      Costs w.heap w'.heap (adapters pipe * xs.length) (adapters pipe * xs.length + xs.length) (adapters pipe * (xs.length + 2)) ∧
      forEach cfg form j t pipe (fun b => do f b; return []) ⟨c, w⟩ =
        foldOver (one pipe) (fun _ b => f b) () xs c >>= fun q => .ok (q.1, ⟨q.2, w'⟩) := by
  rw [Proof.ListConsume.forEach_eq]
  have e : (fun (_ : Unit) (b : β) => (do let ops ← (do f b; return [] : Prog κ (List (Op α))); return ((), ops) : Prog κ (Unit × List (Op α)))) =
      fun (_ : Unit) b => do let r ← f b; return (r, []) := by
    funext _ a c
    simp only [Prog.bind_run]
    cases f a c <;> rfl
  rw [e]
  exact C104_fold B form (fun _ => f) () c

/-- **C104, functions that call lists.**  The client's function may itself call lists, also the one that is being consumed: as long as all the calls made —
those that make, ask and destroy the iterator objects and those of the function, in the order in which they happen — are
calls properties C16 and C17 cover, everything goes as that list of calls goes. -/
theorem C104_fold_is_calls (B : Before cfg w j t xs a) (form : Form) {f : ρ → β → Prog κ (ρ × List (Op α))} (hk : Keeps t f)
    {init r : ρ} {c c' : κ} {calls : List (Op α)} {rs : List (Res α)} {A' : Spec.LL.Ideal α}
    (hv : visit (form.param (t + 3 * adapters pipe)) (one pipe) f init xs c = .ok ((r, calls), c'))
    (hs : specRun false cfg.dbl cfg.dflt
      (source j t (adapters pipe) ++ form.enter (t + 3 * adapters pipe) ++ calls ++ form.leave (t + 3 * adapters pipe)) (view w) = some (rs, A')) :
    (fold cfg form j t pipe f init ⟨c, w⟩).Safe fun q =>
      q.1 = r ∧ q.2.client = c' ∧ Reach cfg q.2.mem ∧ view q.2.mem = A' := by
  rw [← Proof.Consume.stages_eq] at hv hs
  rw [Proof.ListConsume.calls_whole B form hk hv hs]
  have := Proof.LL.reach_run B.reach _ hs
  revert this
  cases Model.LL.run cfg (source j t (Model.Consume.stages pipe) ++ form.enter (t + 3 * Model.Consume.stages pipe) ++ calls ++
      form.leave (t + 3 * Model.Consume.stages pipe)) w with
  | ok q => exact fun h => ⟨rfl, rfl, h.2.2, h.2.1⟩
  | oom => exact fun _ => trivial
  | _ => exact id

/-- **C104, `reduce`.**  As `fold` with the first survivor as the initial value, and no value if there is no survivor.  The elements behind the first
survivor are copied once more. -/
theorem C104_reduce (B : Before cfg w j t xs a) (form : Form) (f : β → β → Prog κ β) (c : κ) :
    (Refused cfg w.heap.next ((adapters pipe + 1) * (xs.length + 2)) ∧ reduce cfg form j t pipe f ⟨c, w⟩ = .oom) ∨
    ∃ w', Consumed cfg w w' j a ∧
      (∀ b rest c', findOver (one pipe) (fun b => return (true, b)) xs c = .ok (some (b, rest), c') →
        Costs w.heap w'.heap (adapters pipe * xs.length + rest.length) (adapters pipe * xs.length + xs.length + rest.length)
          (adapters pipe * (xs.length + 2) + (rest.length + 2))) ∧
      reduce cfg form j t pipe f ⟨c, w⟩ = reduceOver (one pipe) f xs c >>= fun q => .ok (q.1, ⟨q.2, w'⟩) := by
  rw [← Proof.Consume.stages_eq]
  exact Proof.ListConsume.reduce_whole B form f c

/-- **C104, `find` on a temporary.**  The first survivor that satisfies `p`; `p` sees the survivors up to it and no others; the elements behind it are
destroyed with the iterator object. -/
theorem C104_find (B : Before cfg w j t xs a) (p : β → Prog κ (Bool × β)) (c : κ) :
    (Refused cfg w.heap.next (adapters pipe * (xs.length + 2)) ∧ find cfg j t pipe p ⟨c, w⟩ = .oom) ∨
    ∃ w', Consumed cfg w w' j a ∧
      Costs w.heap w'.heap (adapters pipe * xs.length) (adapters pipe * xs.length + xs.length) (adapters pipe * (xs.length + 2)) ∧
      find cfg j t pipe p ⟨c, w⟩ = findOver (one pipe) p xs c >>= fun q => .ok (q.1.map Prod.fst, ⟨q.2, w'⟩) := by
  rw [← Proof.Consume.stages_eq]
  exact Proof.ListConsume.find_whole B p c

/-- **C104, `find` on an iterator variable.**  The elements behind the match, and only those, are still to come; no other list
changes, and no memory is requested. -/
theorem C104_find_variable (hr : Reach cfg w) (hv : view w u = some ⟨some xs, a⟩) (p : β → Prog κ (Bool × β)) (c : κ) :
    ∃ fin : Option (β × List α) → Model.LL.World α,
      findIn cfg pipe u p ⟨c, w⟩ = (findOver (one pipe) p xs c >>= fun q => .ok (q.1.map Prod.fst, ⟨q.2, fin q.1⟩)) ∧
      ∀ o c', findOver (one pipe) p xs c = .ok (o, c') → Reach cfg (fin o) ∧ view (fin o) = put (view w) u (some ⟨some (left o), a⟩) :=
  Proof.ListConsume.findIn_whole hr hv p c

/-- **C104, `last` on an iterator variable.**  The last survivor, if there is one; no elements are left. -/
theorem C104_last_variable (hr : Reach cfg w) (hv : view w u = some ⟨some xs, a⟩) (c : κ) :
    ∃ w', Reach cfg w' ∧ view w' = put (view w) u (some ⟨some [], a⟩) ∧
      lastIn cfg pipe u ⟨c, w⟩ = all (one pipe) xs c >>= fun q => .ok (q.1.getLast?, ⟨q.2, w'⟩) :=
  Proof.ListConsume.lastIn_whole hr hv c

/-! ## Examples -/

theorem exBefore : ∃ w, Before (Lists.exCfg true) w 0 5 [3, 1, 2, 1] 7 := by
  have hz : ∀ i, Spec.LL.view ({} : Model.LL.World Nat) i = none := fun _ => rfl
  obtain ⟨w', h1, h2⟩ := Consumes.exLists ⟨[], [], _, [], rfl, rfl⟩ hz
  refine ⟨w', h1, ?_, fun i hi => ?_⟩
  · simp [h2, Spec.LL.put]
  · simp [h2, Spec.LL.put, show i ≠ 0 by omega, hz]

theorem exRefused {n m : Nat} : ¬ Refused (Lists.exCfg true) n m := by
  rintro ⟨k, -, -, h⟩
  simp [Lists.exCfg] at h

theorem exFold : foldOver (one Collects.exPipe) (fun acc b => return acc * 10 + b) 0 [3, 1, 2, 1] [] = .ok (422, [3, 1, 2, 1]) := by
  simp [foldOver, Prog.bind_run, Collects.exPipe_one]

theorem exReduce : reduceOver (one Collects.exPipe) (fun acc b => return acc * 10 + b) [3, 1, 2, 1] [] = .ok (some 422, [3, 1, 2, 1]) := by
  simp [reduceOver, foldOver, Prog.bind_run, Collects.exPipe_one]

theorem exFind : findOver (one Collects.exPipe) (fun b => return (b == 2, b)) [3, 1, 2, 1] [] = .ok (some (2, [2, 1]), [3, 1]) := by
  simp [findOver, Prog.bind_run, Collects.exPipe_one]

/-- The list `3, 1, 2, 1` is consumed, the survivors `4, 2, 2` are folded. -/
example (form : Form) : ∃ w w', Before (Lists.exCfg true) w 0 5 [3, 1, 2, 1] 7 ∧ Consumed (Lists.exCfg true) w w' 0 7 ∧
    fold (Lists.exCfg true) form 0 5 Collects.exPipe (fun acc b => do let r ← (return acc * 10 + b); return (r, [])) 0 ⟨[], w⟩ =
      .ok (422, ⟨[3, 1, 2, 1], w'⟩) := by
  obtain ⟨w, B⟩ := exBefore
  rcases C104_fold (pipe := Collects.exPipe) B form (fun acc b => return acc * 10 + b) 0 [] with ⟨h, -⟩ | ⟨w', h1, -, h2⟩
  · exact (exRefused h).elim
  · exact ⟨w, w', B, h1, by rw [h2, exFold]; rfl⟩

example (form : Form) : ∃ w w', Before (Lists.exCfg true) w 0 5 [3, 1, 2, 1] 7 ∧ Consumed (Lists.exCfg true) w w' 0 7 ∧
    reduce (Lists.exCfg true) form 0 5 Collects.exPipe (fun acc b => return acc * 10 + b) ⟨[], w⟩ = .ok (some 422, ⟨[3, 1, 2, 1], w'⟩) := by
  obtain ⟨w, B⟩ := exBefore
  rcases C104_reduce (pipe := Collects.exPipe) B form (fun acc b => return acc * 10 + b) [] with ⟨h, -⟩ | ⟨w', h1, -, h2⟩
  · exact (exRefused h).elim
  · exact ⟨w, w', B, h1, by rw [h2, exReduce]; rfl⟩

/-- The functions see `3, 1` and then no more. -/
example : ∃ w w', Before (Lists.exCfg true) w 0 5 [3, 1, 2, 1] 7 ∧ Consumed (Lists.exCfg true) w w' 0 7 ∧
    find (Lists.exCfg true) 0 5 Collects.exPipe (fun b => return (b == 2, b)) ⟨[], w⟩ = .ok (some 2, ⟨[3, 1], w'⟩) := by
  obtain ⟨w, B⟩ := exBefore
  rcases C104_find (pipe := Collects.exPipe) B (fun b => return (b == 2, b)) [] with ⟨h, -⟩ | ⟨w', h1, -, h2⟩
  · exact (exRefused h).elim
  · exact ⟨w, w', B, h1, by rw [h2, exFind]; rfl⟩

/-- What the function does with the elements it receives: it makes list 0 anew from the first one and appends the others. -/
def exBody (n b : Nat) : Prog Unit (Nat × List (Op Nat)) :=
  return (n + 1, if n = 0 then [.drop 0, .newRange 0 [b] 9] else [.pushBack 0 (.val b)])

/-- The list `3, 1, 2, 1` is consumed by a function that fills that very variable again. -/
example (form : Form) : ∃ w, Before (Lists.exCfg true) w 0 5 [3, 1, 2, 1] 7 ∧
    (fold (Lists.exCfg true) form 0 5 (.source : Pipe Unit Nat Nat) exBody 0 ⟨(), w⟩).Safe fun q =>
      q.1 = 4 ∧ view q.2.mem 0 = some ⟨some [3, 1, 2, 1], 9⟩ := by
  obtain ⟨w, B⟩ := exBefore
  refine ⟨w, B, ?_⟩
  have h0 := B.list
  have h5 := B.free 5 (by omega)
  have h6 := B.free 6 (by omega)
  have hk : Keeps 5 exBody := by
    intro acc b c r ops c' h op ho l hl
    cases h
    split at ho <;> simp at ho <;> rcases ho with rfl | rfl <;> simp [Spec.LL.writes] at hl <;> omega
  have hv : visit (form.param 5) (one (.source : Pipe Unit Nat Nat)) exBody 0 [3, 1, 2, 1] () =
      .ok ((4, [.popFront (form.param 5), .drop 0, .newRange 0 [3] 9, .popFront (form.param 5), .pushBack 0 (.val 1),
        .popFront (form.param 5), .pushBack 0 (.val 2), .popFront (form.param 5), .pushBack 0 (.val 1)]), ()) := by
    simp [visit, one, exBody, Prog.bind_run]
  have hs : ∃ rs A', specRun false true 0 (source 0 5 0 ++ form.enter 5 ++ [.popFront (form.param 5), .drop 0, .newRange 0 [3] 9,
        .popFront (form.param 5), .pushBack 0 (.val 1), .popFront (form.param 5), .pushBack 0 (.val 2), .popFront (form.param 5),
        .pushBack 0 (.val 1)] ++ form.leave 5) (view w) = some (rs, A') ∧ A' 0 = some ⟨some [3, 1, 2, 1], 9⟩ := by
    cases form <;>
      simp [source, Model.Consume.adapts, Form.enter, Form.leave, Form.param, specRun, Spec.LL.specStep, Spec.LL.needs, Spec.LL.edit,
        Spec.LL.born, Spec.LL.argVal, put, h0, h5, h6]
  obtain ⟨rs, A', hs, hA⟩ := hs
  have ha : adapters (.source : Pipe Unit Nat Nat) = 0 := by rw [adapters]
  exact (C104_fold_is_calls (pipe := (.source : Pipe Unit Nat Nat)) B form hk (by rw [ha]; exact hv) (by rw [ha]; exact hs)).mono fun q h => ⟨h.1, by rw [h.2.2.2, hA]⟩

/-- The iterator variable 0 holds `3, 1, 2, 1`; after `find` it holds `2, 1`. -/
example : ∃ w w', Reach (Lists.exCfg true) w ∧ view w 0 = some ⟨some [3, 1, 2, 1], 7⟩ ∧
    findIn (Lists.exCfg true) Collects.exPipe 0 (fun b => return (b == 2, b)) ⟨[], w⟩ = .ok (some 2, ⟨[3, 1], w'⟩) ∧
    view w' 0 = some ⟨some [2, 1], 7⟩ := by
  obtain ⟨w, B⟩ := exBefore
  obtain ⟨fin, h1, h2⟩ := C104_find_variable (pipe := Collects.exPipe) B.reach B.list (fun b => return (b == 2, b)) []
  exact ⟨w, _, B.reach, B.list, by rw [h1, exFind]; rfl, by rw [(h2 _ _ exFind).2]; simp [put, left]⟩

example : ∃ w w', Reach (Lists.exCfg true) w ∧ view w 0 = some ⟨some [3, 1, 2, 1], 7⟩ ∧
    lastIn (Lists.exCfg true) Collects.exPipe 0 ⟨[], w⟩ = .ok (some 2, ⟨[3, 1, 2, 1], w'⟩) ∧ view w' 0 = some ⟨some [], 7⟩ := by
  obtain ⟨w, B⟩ := exBefore
  obtain ⟨w', -, h2, h3⟩ := C104_last_variable (pipe := Collects.exPipe) B.reach B.list []
  exact ⟨w, w', B.reach, B.list, by rw [h3, Consumes.exAll]; rfl, by rw [h2]; simp [put]⟩

end Verif.Props.ListConsumes
