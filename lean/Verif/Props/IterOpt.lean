import Verif.Proof.IterOpt
import Verif.Props.Iter
/-!
# Property C102: the option objects elements travel in

`next mv src st` is `next()` of the pipeline `st` over a source, `fold mv (next mv src st)`, ... are the terminals over it
(Model/IterOpt.lean): every `Option` an element is in is an object with a lifetime and a payload, and number `k` is the first
that is not in use.  `Holds A m`: the option objects are those `A` lists, with those contents, and no payload is leaked or
destroyed twice.  `Same`: two runs end in the same way (Spec/IterOpt.lean).  `pull`, `one`, `foldOver`, ...: what the pipeline
does to the elements one by one (Spec/Pipe.lean).
-/
namespace Verif.Props
open Verif Verif.Spec.IterOpt Verif.Spec.Pipe
open Verif.Model.IterOpt (next W Stage)
open Verif.Model.Iter (Next)
open Verif.Spec.Opt (Ideal put)

namespace IterOpts

variable {κ σ α ρ : Type} (mv : α → α) (src : Next κ σ α) (st : List (Stage κ α)) {A : Ideal α} {w : W κ α} {k : Nat}

/-- **C102, next().**  Over any source and any functions, a call of `next()` does what treating the elements as values does; the
result is in the object it initialises, and no other object is left. -/
theorem C102_next (hA : Holds A w.mem) (hf : Free A k) (s : σ) :
    Same (next mv src st s k w) (pull src (one (pipe st)) s w.client) fun q q' =>
      q.1 = q'.1.2 ∧ q.2.client = q'.2 ∧ Holds (put A k (some q'.1.1)) q.2.mem := by
  have := Proof.IterOpt.next_gives (mv := mv) src st s k w.client w.mem A hA hf
  rw [Proof.Pipe.pipe_next] at this
  exact this

/-- **C102, terminals over any source**, also one that never ends: they do what they do over values (Model/Iter.lean). -/
theorem C102_any_source (hA : Holds A w.mem) (hf : Free A k) (s : σ) :
    (∀ (f : ρ → α → Prog κ ρ) init, Same (Model.IterOpt.fold mv (next mv src st) f init s k w)
      (Model.Iter.fold ((pipe st).next src) f init s w.client) fun q q' => q.1 = q'.1 ∧ q.2.client = q'.2 ∧ Holds A q.2.mem) ∧
    (∀ f : α → Prog κ Unit, Same (Model.IterOpt.forEach mv (next mv src st) f s k w)
      (Model.Iter.forEach ((pipe st).next src) f s w.client) fun q q' => q.1 = q'.1 ∧ q.2.client = q'.2 ∧ Holds A q.2.mem) ∧
    Same (Model.IterOpt.collect mv (next mv src st) s k w)
      (Model.Iter.collect ((pipe st).next src) [] s w.client) (fun q q' => q.1 = q'.1 ∧ q.2.client = q'.2 ∧ Holds A q.2.mem) ∧
    (∀ f : α → α → Prog κ α, Same (Model.IterOpt.reduce mv (next mv src st) f s k w)
      (Model.Iter.reduce ((pipe st).next src) f s w.client) fun q q' => q.2.client = q'.2 ∧ Holds (put A k (some q'.1)) q.2.mem) ∧
    (∀ p : α → Prog κ (Bool × α), Same (Model.IterOpt.find mv (next mv src st) p s k w)
      (Model.Iter.find ((pipe st).next src) p s w.client) fun q q' =>
        q.1 = q'.1.2 ∧ q.2.client = q'.2 ∧ Holds (put A k (some q'.1.1)) q.2.mem) ∧
    Same (Model.IterOpt.last mv (next mv src st) s k w)
      (Model.Iter.last ((pipe st).next src) s w.client) fun q q' =>
        q.1 = q'.1.2 ∧ q.2.client = q'.2 ∧ Holds (put A k (some q'.1.1)) q.2.mem := by
  have hg := Proof.IterOpt.next_gives (mv := mv) src st
  exact ⟨fun f init => Proof.IterOpt.fold_same hg f init s k w.client w.mem A hA hf,
    fun f => Proof.IterOpt.forEach_same hg f s k w.client w.mem A hA hf,
    Proof.IterOpt.collect_same hg s k w.client w.mem A hA hf,
    fun f => Proof.IterOpt.reduce_same hg f s k w.client w.mem A hA hf,
    fun p => Proof.IterOpt.find_gives hg p s k w.client w.mem A hA hf,
    Proof.IterOpt.last_gives hg s k w.client w.mem A hA hf⟩

variable {nx : σ → Out (Option α × σ)} {s s' : σ} {xs : List α}

/-- **C102, fold** over the elements `xs`: the function runs on every survivor right after its stages, and afterwards the option
objects are those from before. -/
theorem C102_fold (hA : Holds A w.mem) (hf : Free A k) (h : Spec.Produces nx s xs s') (f : ρ → α → Prog κ ρ) (init : ρ) :
    Same (Model.IterOpt.fold mv (next mv (quiet nx) st) f init s k w) (foldOver (one (pipe st)) f init xs w.client) fun q q' =>
      q.1 = q'.1 ∧ q.2.client = q'.2 ∧ Holds A q.2.mem := by
  rw [← (C55_terminals (pipe st) h).1 f init]
  exact (C102_any_source mv _ st hA hf s).1 f init

/-- **C102, for_each.** -/
theorem C102_for_each (hA : Holds A w.mem) (hf : Free A k) (h : Spec.Produces nx s xs s') (f : α → Prog κ Unit) :
    Same (Model.IterOpt.forEach mv (next mv (quiet nx) st) f s k w) (foldOver (one (pipe st)) (fun _ b => f b) () xs w.client)
      fun q q' => q.1 = q'.1 ∧ q.2.client = q'.2 ∧ Holds A q.2.mem := by
  rw [← (C55_terminals (ρ := Unit) (pipe st) h).2.1 f]
  exact (C102_any_source (ρ := Unit) mv _ st hA hf s).2.1 f

/-- **C102, collect.** -/
theorem C102_collect (hA : Holds A w.mem) (hf : Free A k) (h : Spec.Produces nx s xs s') :
    Same (Model.IterOpt.collect mv (next mv (quiet nx) st) s k w) (all (one (pipe st)) xs w.client)
      fun q q' => q.1 = q'.1 ∧ q.2.client = q'.2 ∧ Holds A q.2.mem := by
  rw [← C55_collect (pipe st) h]
  exact (C102_any_source (ρ := Unit) mv _ st hA hf s).2.2.1

/-- **C102, reduce**: the result is in the object it initialises. -/
theorem C102_reduce (hA : Holds A w.mem) (hf : Free A k) (h : Spec.Produces nx s xs s') (f : α → α → Prog κ α) :
    Same (Model.IterOpt.reduce mv (next mv (quiet nx) st) f s k w) (reduceOver (one (pipe st)) f xs w.client)
      fun q q' => q.2.client = q'.2 ∧ Holds (put A k (some q'.1)) q.2.mem := by
  rw [← (C55_terminals (ρ := Unit) (pipe st) h).2.2.1 f]
  exact (C102_any_source (ρ := Unit) mv _ st hA hf s).2.2.2.1 f

/-- **C102, last**, over a source that stays exhausted. -/
theorem C102_last (hA : Holds A w.mem) (hf : Free A k) (h : Spec.Produces nx s xs s') (hend : nx s' = .ok (none, s')) :
    Same (Model.IterOpt.last mv (next mv (quiet nx) st) s k w) (foldOver (one (pipe st)) (fun _ b => return some b) none xs w.client)
      fun q q' => q.1 = s' ∧ q.2.client = q'.2 ∧ Holds (put A k (some q'.1)) q.2.mem := by
  have h1 := (C55_terminals (ρ := Unit) (pipe st) h).2.2.2 hend
  have h2 := (C102_any_source (ρ := Unit) mv (quiet nx) st hA hf s).2.2.2.2.2
  rw [h1, Prog.bind_run] at h2
  cases he : foldOver (one (pipe st)) (fun _ b => return some b) none xs w.client <;>
    cases hx : Model.IterOpt.last mv (next mv (quiet nx) st) s k w <;> rw [he, hx] at h2 <;> first | exact h2.elim | exact h2 | trivial

/-! ## The hypotheses are met -/

/-- handing out a list -/
def exNext : List Nat → Out (Option Nat × List Nat)
  | [] => .ok (none, [])
  | a :: as => .ok (some a, as)

/-- keep odd elements, then add one and write it down -/
def exStages : List (Stage (List Nat) Nat) :=
  [.map fun a => do let l ← Prog.get; Prog.set (l ++ [a]); return a + 1, .filter fun a => return (a % 2 = 1, a)]

/-- one option object that holds 7 and one that is empty -/
def exHeld : Ideal Nat := fun i => if i = 0 then some (some 7) else if i = 1 then some none else none

theorem exHolds : ∃ w : W (List Nat) Nat, w.client = [] ∧ Holds exHeld w.mem := by
  refine ⟨⟨[], fun i => if i = 0 then ⟨true, true, some 7, 1, 0⟩ else if i = 1 then ⟨true, false, none, 0, 0⟩ else {}⟩, rfl, ?_⟩
  intro i
  simp only [exHeld]
  split
  · simp
  · split <;> simp

theorem exProduces : Spec.Produces exNext [3, 4, 5] [3, 4, 5] [] := .cons rfl (.cons rfl (.cons rfl (.nil rfl)))

/-- the program of the example: objects 0 and 1 exist, the elements are 3, 4, 5 -/
example : ∃ w : W (List Nat) Nat, Holds exHeld w.mem ∧ Free exHeld 2 ∧ Spec.Produces exNext [3, 4, 5] [3, 4, 5] [] ∧
    exNext [] = .ok (none, []) ∧ w.client = [] := by
  obtain ⟨w, h1, h2⟩ := exHolds
  refine ⟨w, h2, ?_, exProduces, rfl, h1⟩
  intro i hi
  rw [exHeld, if_neg (by omega), if_neg (by omega)]

/-- there: 3 and 5 survive the filter and 4 and 6 are collected; the functions saw 3 and 5 -/
theorem exAll : all (one (pipe exStages)) [3, 4, 5] [] = .ok ([4, 6], [3, 5]) := by
  simp [all, pipe, exStages, one, Prog.bind_run, Prog.get, Prog.set]

/-- hence the call on objects returns [4, 6], and object 0 still holds 7, object 1 is empty and there are no others -/
example : ∃ w q : W (List Nat) Nat, Holds exHeld w.mem ∧
    Model.IterOpt.collect (fun _ => 0) (next (fun _ => 0) (quiet exNext) exStages) [3, 4, 5] 2 w = .ok ([4, 6], q) ∧
      q.client = [3, 5] ∧ Holds exHeld q.mem := by
  obtain ⟨w, h1, h2⟩ := exHolds
  have := C102_collect (fun _ => 0) exStages h2 (k := 2) (by
    intro i hi
    rw [exHeld, if_neg (by omega), if_neg (by omega)]) exProduces
  rw [h1, exAll] at this
  cases he : Model.IterOpt.collect (fun _ => 0) (next (fun _ => 0) (quiet exNext) exStages) [3, 4, 5] 2 w with
  | ok r =>
    rw [he] at this
    obtain ⟨l, q⟩ := r
    obtain ⟨e1, e2, e3⟩ := this
    have e1 : l = [4, 6] := e1
    exact ⟨w, q, h2, by rw [he, e1], e2, e3⟩
  | _ => rw [he] at this; exact this.elim

/-- reducing gives 10 in object 2, and the last element is 6 -/
example : reduceOver (one (pipe exStages)) (fun a b => return a + b) [3, 4, 5] [] = .ok (some 10, [3, 5]) ∧
    foldOver (one (pipe exStages)) (fun _ b => return some b) none [3, 4, 5] [] = .ok (some 6, [3, 5]) := by
  simp [reduceOver, foldOver, pipe, exStages, one, Prog.bind_run, Prog.get, Prog.set]

end IterOpts
end Verif.Props
