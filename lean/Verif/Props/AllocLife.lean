import Verif.Proof.AllocLife
/-!
# C107: the allocator inside a container lives as long as the container and is destroyed once

`objects` (Spec/AllocLife.lean) is what the program sees: which container objects exist.  `run false` is C++ strictly read: using or
destroying a destroyed allocator is undefined.  `run true` lets such calls happen and counts them.
-/
namespace Verif.Props
open Verif Verif.Model.AllocLife
open Verif.Spec.AllocLife (objects owning list string assigns owningNew listNew stringNew)

/-- Vectors and the iterators that own one: however a program constructs, copies, moves, assigns, swaps and destroys them, no
dead allocator is used, exactly the existing objects have a live allocator, allocators are constructed only where objects are, and the destructor
has run once for each constructed allocator that is no longer there. -/
theorem C107_vector {α : Type} (ops : List (Model.VectorOwn.OOp α)) (s : List Nat) (h : objects owning ops [] = some s) :
    ∃ w, run false ocall ops {} = .ok ((), w) ∧ (∀ i, w.obj (.var i) = if i ∈ s then some true else none) ∧
      w.obj .tmp = none ∧ w.made = (ops.map owningNew).sum ∧ w.made = w.gone + s.length := by
  obtain ⟨w, e, iw⟩ := Proof.AllocLife.run_ok false ocall owning (fun _ => True)
    (fun op s s' _ h => Proof.AllocLife.owning_call op s s' h) ops (fun _ _ => trivial) [] s {} h Proof.AllocLife.inv_init
  refine ⟨w, e, iw.vars, iw.tmp, ?_, iw.count⟩
  simpa using Proof.AllocLife.run_made Proof.AllocLife.owning_new e

/-- A program that constructs, copies, moves, swaps, assigns, iterates and destroys. -/
example : (objects owning ([.vec (.newList 0 [1, 2] 5), .vec (.newCopy 1 0), .vec (.newMove 2 0 0), .vec (.copyAssign 0 1),
    .vec (.swap 1 2), .make 3 1, .next 3, .move 4 3, .vec (.moveAssign 1 2), .vec (.drain 1 3), .drop 3, .drop 4,
    .vec (.drop 0)] : List (Model.VectorOwn.OOp Nat)) []) = some [2, 1] := by decide

/-- Lists, as long as no list is assigned to another one. -/
theorem C107_list_partial {α : Type} (ops : List (Model.LL.Op α)) (s : List Nat) (h : objects list ops [] = some s)
    (ha : ∀ op ∈ ops, ∀ i j, i ≠ j → op ≠ .copyAssign i j ∧ op ≠ .moveAssign i j) :
    ∃ w, run false lcall ops {} = .ok ((), w) ∧ (∀ i, w.obj (.var i) = if i ∈ s then some true else none) ∧
      w.obj .tmp = none ∧ w.made = (ops.map listNew).sum ∧ w.made = w.gone + s.length := by
  obtain ⟨w, e, iw⟩ := Proof.AllocLife.run_ok false lcall list (fun op => assigns op = false)
    (fun op s s' g h => Proof.AllocLife.list_call op s s' g h) ops (fun op ho => by
      cases op <;> simp only [assigns]
      case copyAssign i j => by_cases e : i = j <;> simp [e]; exact (ha _ ho i j e).1 rfl
      case moveAssign i j => by_cases e : i = j <;> simp [e]; exact (ha _ ho i j e).2 rfl)
    [] s {} h Proof.AllocLife.inv_init
  refine ⟨w, e, iw.vars, iw.tmp, ?_, iw.count⟩
  simpa using Proof.AllocLife.run_made Proof.AllocLife.list_new e

example : (objects list ([.newRange 0 [1, 2] 5, .newCopy 1 0, .newMove 2 0, .swap 1 2, .newMoveAlloc 3 1 7, .copyAssign 2 2,
    .pushBack 2 (.elem 3 0), .drain 3 [], .drop 0, .drop 3] : List (Model.LL.Op Nat)) []) = some [2, 1] := by decide

/-- Every assignment of a list to a different list, after any program and before any other, uses the allocator it has destroyed. -/
theorem C107_list_assign_fails {α : Type} (ops ops' : List (Model.LL.Op α)) (i j : Nat) (hij : i ≠ j) :
    run false lcall (ops ++ .copyAssign i j :: ops') {} = .ub ∧ run false lcall (ops ++ .moveAssign i j :: ops') {} = .ub := by
  have hp : Place.var j ≠ Place.var i := fun e => hij (Place.var.inj e).symm
  constructor
  · refine Proof.AllocLife.run_then_ub _ _ _ _ (fun w => ?_) _
    simp only [lcall, hij, if_false]
    exact Proof.AllocLife.then_ub [.use (.var i)] _ (Proof.AllocLife.kill_use _ _ hp _) w
  · refine Proof.AllocLife.run_then_ub _ _ _ _ (fun w => ?_) _
    simp only [lcall, hij, if_false]
    exact Proof.AllocLife.then_ub [.use (.var i)] _ (Proof.AllocLife.kill_use _ _ hp _) w

/-- A program that ought to be fine reaches such an assignment. -/
example : objects list ([.newRange 0 [1, 2] 5, .newRange 1 [3] 5, .copyAssign 0 1] : List (Model.LL.Op Nat)) [] = some [1, 0] := by
  decide

/-- What compiled code does then: of all programs, those with `n` assignments between different lists run the destructor of
an allocator `n` times too often. -/
theorem C107_list_destructions {α : Type} (ops : List (Model.LL.Op α)) (s : List Nat) (h : objects list ops [] = some s) :
    ∃ w, run true lcall ops {} = .ok ((), w) ∧ (∀ i, (w.obj (.var i)).isSome ↔ i ∈ s) ∧
      w.made = (ops.map listNew).sum ∧ w.gone + s.length = w.made + ops.countP assigns := by
  obtain ⟨w, e, hw, c⟩ := Proof.AllocLife.run_count lcall list 1 (fun op => if assigns op then 1 else 0)
    Proof.AllocLife.list_count ops [] s {} h Proof.AllocLife.here_init
  refine ⟨w, e, fun i => by rw [hw.vars i]; simp, by simpa using Proof.AllocLife.run_made Proof.AllocLife.list_new e, ?_⟩
  have : (ops.map fun op => if assigns op then 1 else 0).sum = ops.countP assigns := by
    clear h e c
    induction ops with
    | nil => rfl
    | cons op ops ih =>
      rw [List.map_cons, List.sum_cons, ih, List.countP_cons]
      split <;> omega
  rw [this] at c
  simpa using c

example : objects list ([.newRange 0 [1, 2] 5, .newRange 1 [3] 5, .copyAssign 0 1, .drop 0, .drop 1] : List (Model.LL.Op Nat)) [] =
    some [] := by decide

/-- Strings that are not destroyed have a live allocator. -/
theorem C107_string_partial (ops : List Model.BStr.Op) (s : List Nat) (h : objects string ops [] = some s)
    (hd : ∀ i, .drop i ∉ ops) :
    ∃ w, run false scall ops {} = .ok ((), w) ∧ (∀ i, w.obj (.var i) = if i ∈ s then some true else none) ∧
      w.obj .tmp = none ∧ w.made = (ops.map stringNew).sum ∧ w.made = w.gone + s.length := by
  obtain ⟨w, e, iw⟩ := Proof.AllocLife.run_ok false scall string (fun op => ∀ i, op ≠ .drop i)
    (fun op s s' g h => Proof.AllocLife.string_call op s s' g h) ops (fun op ho i e => hd i (e ▸ ho))
    [] s {} h Proof.AllocLife.inv_init
  refine ⟨w, e, iw.vars, iw.tmp, ?_, iw.count⟩
  simpa using Proof.AllocLife.run_made Proof.AllocLife.string_new e

example : objects string [.newLit 0 [104, 105] 3, .newCopy 1 0, .newMove 2 0, .copyAssign 0 1, .moveAssign 1 2, .pushBack 1 [65]] [] =
    some [2, 1, 0] := by decide

/-- The end of the life of any string destroys its allocator twice. -/
theorem C107_string_fails (ops ops' : List Model.BStr.Op) (i : Nat) : run false scall (ops ++ .drop i :: ops') {} = .ub := by
  refine Proof.AllocLife.run_then_ub _ _ _ _ (fun w => ?_) _
  exact Proof.AllocLife.then_ub [.use (.var i)] _ (Proof.AllocLife.kill_kill _ _) w

example : objects string [.newLit 0 [104, 105] 3, .drop 0] [] = some [] := by decide

/-- What compiled code does then: two runs of the destructor for every destroyed string. -/
theorem C107_string_destructions (ops : List Model.BStr.Op) (s : List Nat) (h : objects string ops [] = some s) :
    ∃ w, run true scall ops {} = .ok ((), w) ∧ (∀ i, (w.obj (.var i)).isSome ↔ i ∈ s) ∧
      w.made = (ops.map stringNew).sum ∧ w.gone + 2 * s.length = 2 * w.made := by
  obtain ⟨w, e, hw, c⟩ := Proof.AllocLife.run_count scall string 2 (fun _ => 0)
    Proof.AllocLife.string_count ops [] s {} h Proof.AllocLife.here_init
  refine ⟨w, e, fun i => by rw [hw.vars i]; simp, by simpa using Proof.AllocLife.run_made Proof.AllocLife.string_new e, ?_⟩
  have : (ops.map fun _ => 0).sum = 0 := by
    clear h e c
    induction ops with
    | nil => rfl
    | cons op ops ih => rw [List.map_cons, List.sum_cons, ih]
  rw [this] at c
  simpa using c

example : objects string [.newLit 0 [104, 105] 3, .newCopy 1 0, .drop 0] [] = some [1] := by decide

end Verif.Props
