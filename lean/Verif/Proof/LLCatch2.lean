import Verif.Proof.LLCatch
/-!
# Calls that construct fewer elements than the one that would throw
-/
namespace Verif.Proof.LL
open Verif Verif.Model.LL

variable {α β γ δ : Type} {cfg : Cfg α} {thr : Nat → Bool}

/-- If `p` ends and none of the constructions it made throws, `f` ends in the same state, with the result passed through `g`. -/
structure FolT (thr : Nat → Bool) (g : β → γ) (p : M α β) (f : M α γ) : Prop where
  run : ∀ h q, p h = .ok q → h.ctors ≤ q.2.ctors ∧ ((∀ k, h.ctors ≤ k → k < q.2.ctors → thr k = false) → f h = .ok (g q.1, q.2))

/-- `p` undoes no construction -/
structure Up (p : M α β) : Prop where
  le : ∀ h q, p h = .ok q → h.ctors ≤ q.2.ctors

theorem FolT.pure {g : β → γ} (b : β) : FolT (α := α) thr g (Pure.pure b) (Pure.pure (g b)) := by
  refine ⟨fun h q e => ?_⟩
  cases e
  exact ⟨Nat.le_refl _, fun _ => rfl⟩

theorem FolT.bind {ε ζ : Type} {g : β → γ} {g' : ε → ζ} {x : M α ε} {y : M α ζ} {p : ε → M α β} {f : ζ → M α γ}
    (hx : FolT thr g' x y) (hp : ∀ a, FolT thr g (p a) (f (g' a))) : FolT thr g (x >>= p) (y >>= f) := by
  refine ⟨fun h q e => ?_⟩
  rw [Prog.bind_run] at e
  cases e1 : x h with
  | ok a =>
    rw [e1] at e
    obtain ⟨l1, k1⟩ := hx.run h a e1
    obtain ⟨l2, k2⟩ := (hp a.1).run a.2 q e
    refine ⟨Nat.le_trans l1 l2, fun hk => ?_⟩
    rw [Prog.bind_run, k1 fun k h1 h2 => hk k h1 (by omega), Out.bind_ok]
    exact k2 fun k h1 h2 => hk k (by omega) h2
  | _ => rw [e1] at e; cases e

theorem Up.fol {p : M α β} (hp : Up p) : FolT thr id p p := ⟨fun h q e => ⟨hp.le h q e, fun _ => e⟩⟩

theorem FolT.after {ε : Type} {g : β → γ} {x : M α ε} {p : ε → M α β} {f : ε → M α γ} (hx : Up x) (hp : ∀ a, FolT thr g (p a) (f a)) :
    FolT thr g (x >>= p) (x >>= f) := FolT.bind hx.fol hp

theorem Up.bind {x : M α β} {f : β → M α γ} (hx : Up x) (hf : ∀ a, Up (f a)) : Up (x >>= f) := by
  refine ⟨fun h q e => ?_⟩
  rw [Prog.bind_run] at e
  cases e1 : x h with
  | ok a => rw [e1] at e; exact Nat.le_trans (hx.le h a e1) ((hf a.1).le a.2 q e)
  | _ => rw [e1] at e; cases e

theorem Up.pure (b : β) : Up (α := α) (Pure.pure b) := by
  refine ⟨fun h q e => ?_⟩; cases e; exact Nat.le_refl _

theorem Up.ite {c : Prop} [Decidable c] {x y : M α β} (hx : Up x) (hy : Up y) : Up (if c then x else y) := by
  split <;> assumption

theorem up_node {p : Ptr} {k : Nat → Info α → M α β} (hk : ∀ a i, Up (k a i)) : Up (withNode p k) := by
  refine ⟨fun h q e => ?_⟩
  unfold withNode at e
  split at e
  · cases e
  · split at e
    · cases e
    · exact (hk _ _).le h q e

theorem up_getNext (p : Ptr) : Up (α := α) (getNext p) := up_node fun a i => .mk fun h q e => by
  split at e <;> cases e; exact Nat.le_refl _

theorem up_getPrev (p : Ptr) : Up (α := α) (getPrev p) := up_node fun a i => .mk fun h q e => by
  split at e <;> cases e; exact Nat.le_refl _

theorem up_putNext (p n : Ptr) : Up (α := α) (putNext p n) := up_node fun a i => .mk fun h q e => by cases e; exact Nat.le_refl _
theorem up_putPrev (p n : Ptr) : Up (α := α) (putPrev p n) := up_node fun a i => .mk fun h q e => by cases e; exact Nat.le_refl _

theorem up_dataNull (p : Ptr) : Up (α := α) (dataNull p) := up_node fun a i => .mk fun h q e => by
  split at e <;> cases e <;> exact Nat.le_refl _

theorem up_load (p : Ptr) : Up (α := α) (load p) := up_node fun a i => .mk fun h q e => by
  split at e <;> cases e; exact Nat.le_refl _

theorem up_freeNode (o b : Nat) (p : Ptr) : Up (α := α) (freeNode o b p) := up_node fun a i => .mk fun h q e => by
  split at e <;> cases e; exact Nat.le_refl _

theorem up_destroyData (p : Ptr) : Up (α := α) (destroyData p) := up_node fun a i => .mk fun h q e => by
  split at e <;> cases e; exact Nat.le_refl _

theorem up_destroyNode (o : Nat) (p : Ptr) : Up (destroyNode cfg o p) :=
  (up_dataNull p).bind fun _ => .ite (up_freeNode ..) ((up_destroyData p).bind fun _ => up_freeNode ..)

theorem up_setNext (p n : Ptr) : Up (setNext cfg p n) := by
  refine (up_putNext p n).bind fun _ => .ite ?_ (.pure _)
  cases n
  · exact .pure _
  · exact up_putPrev ..

theorem up_allocNode (o b : Nat) (d : Data α) : Up (allocNode cfg o b d) := by
  refine ⟨fun h q e => ?_⟩
  unfold allocNode at e
  split at e <;> cases e
  exact Nat.le_refl _

theorem up_buildVirtual (o : Nat) : Up (buildVirtual cfg o) :=
  (up_allocNode ..).bind fun _ => (up_putNext ..).bind fun _ => by
    dsimp only
    split
    · exact (up_putPrev ..).bind fun _ => .pure _
    · exact .pure _

theorem up_initEmpty (o : Nat) : Up (initEmpty cfg o) :=
  (up_buildVirtual o).bind fun _ => (up_buildVirtual o).bind fun _ => (up_setNext ..).bind fun _ => .pure _

theorem up_newAlloc (o : Nat) : Up (newAlloc cfg o) := (up_initEmpty o).bind fun _ => .pure _

theorem up_dbg (b : Bool) : Up (dbgAssert cfg b) := by
  refine ⟨fun h q e => ?_⟩
  unfold dbgAssert at e
  split at e <;> cases e
  exact Nat.le_refl _

theorem up_deref (r : Ref α) : Up (deref r) := by
  cases r
  · exact .pure _
  · exact up_load _

theorem up_advance (n : Nat) (p : Ptr) : Up (α := α) (advance n p) := by
  induction n generalizing p with
  | zero => exact .pure _
  | succ n ih => exact (up_getNext p).bind fun _ => ih _

theorem up_retreat (n : Nat) (p : Ptr) : Up (α := α) (retreat n p) := by
  induction n generalizing p with
  | zero => exact .pure _
  | succ n ih => exact (up_getPrev p).bind fun _ => ih _

theorem up_iff {p : M α β} : Up p ↔ ∀ h q, p h = .ok q → h.ctors ≤ q.2.ctors := ⟨fun h => h.le, fun h => ⟨h⟩⟩

theorem folT_iff {g : β → γ} {p : M α β} {f : M α γ} : FolT thr g p f ↔ ∀ h q, p h = .ok q → h.ctors ≤ q.2.ctors ∧
    ((∀ k, h.ctors ≤ k → k < q.2.ctors → thr k = false) → f h = .ok (g q.1, q.2)) := ⟨fun h => h.run, fun h => ⟨h⟩⟩

theorem Up.adm : Lean.Order.admissible fun p : M α β => Up p := by
  rw [show (fun p : M α β => Up p) = fun p => ∀ h q, p h = .ok q → h.ctors ≤ q.2.ctors from funext fun p => propext up_iff]
  refine Lean.Order.admissible_pi_apply (β := fun _ : Heap α => Out (β × Heap α))
    (fun h (o : Out (β × Heap α)) => ∀ q, o = .ok q → h.ctors ≤ q.2.ctors) fun h => ?_
  exact Lean.Order.admissible_flatOrder (b := (Out.div : Out (β × Heap α))) (fun o => ∀ q, o = .ok q → h.ctors ≤ q.2.ctors)
    (fun q e => by cases e)

theorem FolT.adm (g : β → γ) (f : M α γ) : Lean.Order.admissible fun p : M α β => FolT thr g p f := by
  rw [show (fun p : M α β => FolT thr g p f) = fun p => ∀ h q, p h = .ok q → h.ctors ≤ q.2.ctors ∧
    ((∀ k, h.ctors ≤ k → k < q.2.ctors → thr k = false) → f h = .ok (g q.1, q.2)) from funext fun p => propext folT_iff]
  refine Lean.Order.admissible_pi_apply (β := fun _ : Heap α => Out (β × Heap α))
    (fun h (o : Out (β × Heap α)) => ∀ q, o = .ok q → h.ctors ≤ q.2.ctors ∧
      ((∀ k, h.ctors ≤ k → k < q.2.ctors → thr k = false) → f h = .ok (g q.1, q.2))) fun h => ?_
  exact Lean.Order.admissible_flatOrder (b := (Out.div : Out (β × Heap α))) (fun o => ∀ q, o = .ok q → h.ctors ≤ q.2.ctors ∧
      ((∀ k, h.ctors ≤ k → k < q.2.ctors → thr k = false) → f h = .ok (g q.1, q.2))) (fun q e => by cases e)

theorem up_destroyLoop (o : Nat) (stop cur : Ptr) : Up (destroyLoop cfg o stop cur) := by
  refine destroyLoop.fixpoint_induct cfg o stop (fun f => ∀ cur, Up (f cur)) ?_ ?_ cur
  · exact Lean.Order.admissible_pi_apply (fun _ (g : M α Unit) => Up g) fun _ => Up.adm
  · intro f ih cur
    exact .ite (.pure _) ((up_getNext cur).bind fun _ => (up_destroyNode ..).bind fun _ => ih _)

theorem up_clear (l : Lst) : Up (clear cfg l) :=
  (up_getNext _).bind fun _ => (up_destroyLoop ..).bind fun _ => (up_setNext ..).bind fun _ => .pure _

theorem up_destruct (l : Lst) : Up (destruct cfg l) :=
  .ite (.pure _) ((up_clear l).bind fun _ => (up_destroyNode ..).bind fun _ => up_destroyNode ..)

theorem up_shorten (l : Lst) (n : Nat) : Up (shorten cfg l n) := by
  have k : ∀ t, Up (do
      let p ← getNext t
      setNext cfg t l.tail
      destroyLoop cfg l.alloc l.tail p
      return { l with len := n }) := fun t =>
    (up_getNext _).bind fun _ => (up_setNext ..).bind fun _ => (up_destroyLoop ..).bind fun _ => .pure _
  unfold shorten
  dsimp only
  split
  · exact (up_getPrev _).bind fun _ => (up_retreat ..).bind k
  · exact (up_advance ..).bind k

/-! ## The members -/

theorem folT_node (o : Nat) (x : α) : FolT thr some (constructNode cfg o x) (constructNodeT cfg thr o x) := by
  refine ⟨fun h q e => ?_⟩
  rw [constructNode_eq] at e
  rw [constructNodeT_eq]
  split at e
  · cases e
  · cases e
    refine ⟨Nat.le_succ _, fun hk => ?_⟩
    rw [if_neg (by assumption), hk _ (Nat.le_refl _) (Nat.lt_succ_self _)]
    rfl

theorem folT_range (o : Nat) (xs : List α) (p : Ptr) (k : Nat) :
    FolT thr (fun q => (false, q, k + xs.length)) (rangeLoop cfg o xs p) (rangeLoopT cfg thr o xs p k) := by
  induction xs generalizing p k with
  | nil => exact FolT.pure p
  | cons x xs ih =>
    refine (folT_node o x).bind fun n => FolT.after (up_setNext ..) fun _ => ?_
    have := ih n (k + 1)
    rw [show k + 1 + xs.length = k + (x :: xs).length by simp only [List.length_cons]; omega] at this
    exact this

theorem folT_fill (o : Nat) (r : Ref α) (n : Nat) (p : Ptr) :
    FolT thr (fun q => (false, q)) (fillLoop cfg o r n p) (fillLoopT cfg thr o r n p) := by
  induction n generalizing p with
  | zero => exact FolT.pure p
  | succ n ih => exact FolT.after (up_deref r) fun _ => (folT_node o _).bind fun _ => FolT.after (up_setNext ..) fun _ => ih _

theorem folT_extend (o : Nat) (t : Ptr) (r : Ref α) (n : Nat) (p : Ptr) :
    FolT thr id (extendLoop cfg o t r n p) (extendLoopT cfg thr o t r n p) := by
  induction n generalizing p with
  | zero => exact FolT.pure ()
  | succ n ih =>
    exact FolT.after (up_deref r) fun _ => (folT_node o _).bind fun _ => FolT.after (up_setNext ..) fun _ => FolT.after (up_setNext ..) fun _ => ih _

theorem folT_copy (o : Nat) (stop rp p : Ptr) (n : Nat) :
    FolT thr (fun q => (false, q)) (copyLoop cfg o stop rp p n) (copyLoopT cfg thr o stop rp p n) := by
  refine copyLoop.fixpoint_induct cfg o stop (fun f => ∀ rp p n, FolT thr (fun q => (false, q)) (f rp p n) (copyLoopT cfg thr o stop rp p n))
    ?_ ?_ rp p n
  · exact Lean.Order.admissible_pi_apply
      (fun rp (g : Ptr → Nat → M α (Ptr × Nat)) => ∀ p n, FolT thr (fun q => (false, q)) (g p n) (copyLoopT cfg thr o stop rp p n))
      fun rp => Lean.Order.admissible_pi_apply
        (fun p (g : Nat → M α (Ptr × Nat)) => ∀ n, FolT thr (fun q => (false, q)) (g n) (copyLoopT cfg thr o stop rp p n))
      fun p => Lean.Order.admissible_pi_apply
        (fun n (g : M α (Ptr × Nat)) => FolT thr (fun q => (false, q)) g (copyLoopT cfg thr o stop rp p n)) fun n => FolT.adm _ _
  · intro f ih rp p n
    dsimp only
    rw [copyLoopT]
    split
    · exact FolT.pure (p, n)
    · exact FolT.after (up_load rp) fun _ => (folT_node o _).bind fun _ => FolT.after (up_getNext _) fun _ => FolT.after (up_setNext ..) fun _ => ih _ _ _

theorem folT_newRange (xs : List α) (a : Nat) : FolT thr some (newRange cfg xs a) (newRangeT cfg thr xs a) := by
  unfold newRange newRangeT
  split
  · refine ⟨fun h q e => ?_⟩
    exact ⟨(up_newAlloc a).le h q e, fun _ => by rw [Prog.bind_run, e]; rfl⟩
  · exact FolT.after (up_buildVirtual a) fun _ => FolT.after (up_buildVirtual a) fun _ => (folT_range ..).bind fun _ =>
      FolT.after (up_setNext ..) fun _ => FolT.after (up_setNext ..) fun _ => FolT.pure _

theorem folT_newFill (n : Nat) (r : Ref α) (a : Nat) : FolT thr some (newFill cfg n r a) (newFillT cfg thr n r a) := by
  unfold newFill newFillT
  split
  · refine ⟨fun h q e => ?_⟩
    exact ⟨(up_newAlloc a).le h q e, fun _ => by rw [Prog.bind_run, e]; rfl⟩
  · exact FolT.after (up_buildVirtual a) fun _ => FolT.after (up_buildVirtual a) fun _ => (folT_fill ..).bind fun _ =>
      FolT.after (up_setNext ..) fun _ => FolT.after (up_setNext ..) fun _ => FolT.pure _

theorem folT_fromIter (xs : List α) : FolT thr some (fromIter cfg xs) (fromIterT cfg thr xs) :=
  FolT.after (up_newAlloc _) fun _ => (folT_range ..).bind fun _ => FolT.after (up_setNext ..) fun _ => FolT.pure _

theorem folT_copyImpl (l o : Lst) : FolT thr (fun q => (false, q)) (copyImpl cfg o l.alloc) (copyImplT cfg thr l o) := by
  unfold copyImpl copyImplT
  refine FolT.after (up_dbg _) fun _ => ?_
  split
  · exact FolT.after (up_initEmpty _) fun q => FolT.pure _
  · exact FolT.after (up_getNext _) fun _ => FolT.after (up_buildVirtual _) fun _ => FolT.after (up_buildVirtual _) fun _ => (folT_copy ..).bind fun _ =>
      FolT.after (up_setNext ..) fun _ => FolT.after (up_setNext ..) fun _ => FolT.pure _

theorem FolT.map {g : β → γ} {p : M α β} {f : M α γ} (hp : FolT thr g p f) (k : γ → δ) : FolT thr (k ∘ g) p (f >>= fun c => Pure.pure (k c)) := by
  refine ⟨fun h q e => ?_⟩
  obtain ⟨l, hk⟩ := hp.run h q e
  exact ⟨l, fun hh => by rw [Prog.bind_run, hk hh]; rfl⟩

theorem folT_newCopy (o : Lst) (a : Nat) : FolT thr some (copyImpl cfg o a) (newCopyT cfg thr o a) := by
  have := (folT_copyImpl (cfg := cfg) (thr := thr) ⟨none, none, 0, a⟩ o).map fun q => if q.1 then none else some q.2
  exact this

theorem folT_copyAssign (l o : Lst) : FolT thr (fun q => (false, q)) (copyAssign cfg l o) (copyAssignT cfg thr l o) :=
  FolT.after (up_destruct l) fun _ => folT_copyImpl { l with alloc := o.alloc } o

theorem folT_listAssign (l : Lst) (xs : List α) : FolT thr (fun q => (false, q)) (listAssign cfg l xs) (listAssignT cfg thr l xs) :=
  FolT.after (up_clear l) fun _ => (folT_range ..).bind fun _ => FolT.after (up_setNext ..) fun _ => FolT.pure _

theorem folT_emplaceAfter (l : Lst) (p : Ptr) (r : Ref α) :
    FolT thr (fun q => (false, q.1)) (emplaceAfter cfg l p r) (emplaceAfterT cfg thr l p r) :=
  FolT.after (up_dbg _) fun _ => FolT.after (up_deref r) fun _ => (folT_node ..).bind fun n => FolT.after (up_getNext _) fun _ =>
    FolT.after (up_setNext ..) fun _ => FolT.after (up_setNext ..) fun _ => FolT.pure (g := fun q : Lst × Ptr => (false, q.1)) ({ l with len := l.len + 1 }, n)

theorem folT_emplace (l : Lst) (p : Ptr) (r : Ref α) : FolT thr (fun q => (false, q.1)) (emplace cfg l p r) (emplaceT cfg thr l p r) :=
  FolT.after (up_dbg _) fun _ => FolT.after (up_deref r) fun _ => (folT_node ..).bind fun n => FolT.after (up_getPrev _) fun _ =>
    FolT.after (up_setNext ..) fun _ => FolT.after (up_setNext ..) fun _ => FolT.pure (g := fun q : Lst × Ptr => (false, q.1)) ({ l with len := l.len + 1 }, n)

theorem folT_insertAfterRange (l : Lst) (p : Ptr) (xs : List α) :
    FolT thr (fun q => (false, q.1)) (insertAfterRange cfg l p xs) (insertAfterRangeT cfg thr l p xs) := by
  unfold insertAfterRange insertAfterRangeT
  refine FolT.after (up_dbg _) fun _ => ?_
  split
  · exact FolT.pure (g := fun q : Lst × Ptr => (false, q.1)) (l, p)
  · exact FolT.after (up_getNext _) fun _ => (folT_range ..).bind fun _ => FolT.after (up_setNext ..) fun _ => FolT.after (up_getNext _) fun q =>
      FolT.pure (g := fun q : Lst × Ptr => (false, q.1)) (_, q)

theorem folT_insertAfterFill (l : Lst) (p : Ptr) (n : Nat) (r : Ref α) :
    FolT thr (fun q => (false, q.1)) (insertAfterFill cfg l p n r) (insertAfterFillT cfg thr l p n r) := by
  unfold insertAfterFill insertAfterFillT
  refine FolT.after (up_dbg _) fun _ => ?_
  split
  · exact FolT.pure (g := fun q : Lst × Ptr => (false, q.1)) (l, p)
  · exact FolT.after (up_getNext _) fun _ => (folT_fill ..).bind fun _ => FolT.after (up_setNext ..) fun _ => FolT.after (up_getNext _) fun q =>
      FolT.pure (g := fun q : Lst × Ptr => (false, q.1)) (_, q)

theorem folT_insertRange (l : Lst) (p : Ptr) (xs : List α) :
    FolT thr (fun q => (false, q.1)) (insertRange cfg l p xs) (insertRangeT cfg thr l p xs) := by
  unfold insertRange insertRangeT
  split
  · exact FolT.pure (g := fun q : Lst × Ptr => (false, q.1)) (l, p)
  · exact FolT.after (up_getPrev _) fun _ => (folT_range ..).bind fun _ => FolT.after (up_setNext ..) fun _ => FolT.after (up_getNext _) fun q =>
      FolT.pure (g := fun q : Lst × Ptr => (false, q.1)) (_, q)

theorem folT_insertFill (l : Lst) (p : Ptr) (n : Nat) (r : Ref α) :
    FolT thr (fun q => (false, q.1)) (insertFill cfg l p n r) (insertFillT cfg thr l p n r) := by
  unfold insertFill insertFillT
  refine FolT.after (up_dbg _) fun _ => ?_
  split
  · exact FolT.pure (g := fun q : Lst × Ptr => (false, q.1)) (l, p)
  · exact FolT.after (up_getPrev _) fun _ => (folT_fill ..).bind fun _ => FolT.after (up_setNext ..) fun _ => FolT.after (up_getNext _) fun q =>
      FolT.pure (g := fun q : Lst × Ptr => (false, q.1)) (_, q)

theorem folT_pushFront (l : Lst) (r : Ref α) : FolT thr id (pushFront cfg l r) (pushFrontT cfg thr l r) :=
  FolT.after (up_deref r) fun _ => (folT_node ..).bind fun _ => FolT.after (up_getNext _) fun _ => FolT.after (up_setNext ..) fun _ =>
    FolT.after (up_setNext ..) fun _ => FolT.pure (g := id) _

theorem folT_pushBack (l : Lst) (r : Ref α) : FolT thr id (pushBack cfg l r) (pushBackT cfg thr l r) :=
  FolT.after (up_deref r) fun _ => (folT_node ..).bind fun _ => FolT.after (up_getPrev _) fun _ => FolT.after (up_setNext ..) fun _ =>
    FolT.after (up_setNext ..) fun _ => FolT.pure (g := id) _

theorem folT_resizeFill (l : Lst) (n : Nat) (r : Ref α) : FolT thr id (resizeFill cfg l n r) (resizeFillT cfg thr l n r) := by
  unfold resizeFill resizeFillT extend
  split
  · exact (up_clear l).fol
  · split
    · exact FolT.pure (g := id) _
    · split
      · have k : ∀ p, FolT thr id (do
            extendLoop cfg l.alloc l.tail r (n - l.len) p
            return { l with len := n }) (do
            extendLoopT cfg thr l.alloc l.tail r (n - l.len) p
            return { l with len := n }) := fun p => (folT_extend ..).bind fun _ => FolT.pure (g := id) _
        dsimp only
        split
        · exact FolT.after (up_getPrev _) k
        · exact FolT.after (up_advance ..) k
      · exact (up_shorten l n).fol

/-! ## The calls -/

variable {w : World α}

/-- If the call `p` ends and none of the constructions it made throws, `f` answers that nothing was thrown, in the same state. -/
structure FolW (thr : Nat → Bool) (p : Prog (World α) β) (f : Prog (World α) Bool) : Prop where
  run : ∀ w q, p w = .ok q → (∀ k, w.heap.ctors ≤ k → k < q.2.heap.ctors → thr k = false) → f w = .ok (false, q.2)

theorem inHeap_ended {f : M α β} {q : β × World α} (e : inHeap f w = .ok q) : ∃ h, f w.heap = .ok (q.1, h) ∧ q.2 = { w with heap := h } := by
  unfold inHeap at e
  cases e1 : f w.heap with
  | ok a => rw [e1] at e; cases e; exact ⟨a.2, rfl, rfl⟩
  | _ => rw [e1] at e; cases e

theorem folW_create {i : Nat} {f : M α Lst} {g : M α (Option Lst)} (hf : FolT thr some f g) : FolW thr (create i f) (createC i g) := by
  refine ⟨fun w q e hk => ?_⟩
  simp only [create, Prog.bind_run] at e
  cases e1 : inHeap f w with
  | ok a =>
    rw [e1, Out.bind_ok] at e
    cases e
    obtain ⟨h, e2, e3⟩ := inHeap_ended e1
    have e4 : a.2.heap = h := by rw [e3]
    have := (hf.run _ _ e2).2 (by rw [← e4]; exact hk)
    simp only [createC, inHeap, Prog.bind_run, this, Out.bind_ok, e3, setVar]
    rfl
  | _ => rw [e1] at e; cases e

theorem folW_change {i : Nat} {f : Lst → M α Lst} {g : Lst → M α (Bool × Lst)} (hf : ∀ l, FolT thr (fun q => (false, q)) (f l) (g l)) :
    FolW thr (change i f) (changeC i g) := by
  refine ⟨fun w q e hk => ?_⟩
  simp only [change, Prog.bind_run] at e
  cases e0 : var i w with
  | ok l =>
    rw [e0, Out.bind_ok] at e
    have hl : l.2 = w := by
      unfold var at e0
      split at e0 <;> cases e0
      rfl
    obtain ⟨l, _⟩ := l
    dsimp only at hl
    subst hl
    rename_i w
    cases e1 : inHeap (f l) w with
    | ok a =>
      rw [e1, Out.bind_ok] at e
      cases e
      obtain ⟨h, e2, e3⟩ := inHeap_ended e1
      have e4 : a.2.heap = h := by rw [e3]
      have := ((hf l).run _ _ e2).2 (by rw [← e4]; exact hk)
      simp only [changeC, inHeap, Prog.bind_run, e0, this, Out.bind_ok, e3, setVar]
      rfl
    | _ => rw [e1] at e; cases e
  | _ => rw [e0] at e; cases e

/-- `p` changes nothing -/
def Still (p : M α β) : Prop := ∀ h q, p h = .ok q → q.2 = h

theorem still_distFrom (it p : Ptr) (n : Nat) : Still (α := α) (distFrom it p n) := by
  refine distFrom.fixpoint_induct it (fun f => ∀ p n, Still (f p n)) ?_ ?_ p n
  · refine Lean.Order.admissible_pi_apply (fun p (g : Nat → M α Nat) => ∀ n, Still (g n)) fun p =>
      Lean.Order.admissible_pi_apply (fun n (g : M α Nat) => Still g) fun n => ?_
    refine Lean.Order.admissible_pi_apply (β := fun _ : Heap α => Out (Nat × Heap α))
      (fun h (o : Out (Nat × Heap α)) => ∀ q, o = .ok q → q.2 = h) fun h => ?_
    exact Lean.Order.admissible_flatOrder (b := (Out.div : Out (Nat × Heap α))) (fun o => ∀ q, o = .ok q → q.2 = h) (fun q e => by cases e)
  · intro f ih p n h q e
    dsimp only at e
    split at e
    · cases e; rfl
    · rw [Prog.bind_run] at e
      have : ∀ a, getNext p h = .ok a → a.2 = h := by
        intro a e1
        unfold getNext withNode at e1
        split at e1
        · cases e1
        · split at e1
          · cases e1
          · dsimp only at e1
            split at e1 <;> cases e1
            rfl
      cases e1 : getNext p h with
      | ok a => rw [e1, Out.bind_ok] at e; rw [ih _ _ _ _ e, this a e1]
      | _ => rw [e1] at e; cases e

theorem folW_changeP {i : Nat} {f : Lst → M α (Lst × Ptr)} {g : Lst → M α (Bool × Lst)}
    (hf : ∀ l, FolT thr (fun q => (false, q.1)) (f l) (g l)) : FolW thr (changeP i f) (changeC i g) := by
  refine ⟨fun w q e hk => ?_⟩
  simp only [changeP, Prog.bind_run] at e
  cases e0 : var i w with
  | ok l =>
    rw [e0, Out.bind_ok] at e
    have hl : l.2 = w := by
      unfold var at e0
      split at e0 <;> cases e0
      rfl
    obtain ⟨l, _⟩ := l
    dsimp only at hl
    subst hl
    rename_i w
    cases e1 : inHeap (f l) w with
    | ok a =>
      rw [e1, Out.bind_ok] at e
      simp only [setVar, Out.bind_ok] at e
      cases e5 : inHeap (distFrom a.1.2 a.1.1.head 0) { heap := a.2.heap, vars := upd a.2.vars i (some a.1.1) } with
      | ok b =>
        rw [e5, Out.bind_ok] at e
        cases e
        obtain ⟨h', e6, e7⟩ := inHeap_ended e5
        have e8 := still_distFrom _ _ _ _ _ e6
        dsimp only at e8
        rw [e8] at e7
        obtain ⟨h, e2, e3⟩ := inHeap_ended e1
        have e4 : a.2.heap = h := by rw [e3]
        have := ((hf l).run _ _ e2).2 (by
          intro k h1 h2
          refine hk k h1 ?_
          rw [e7]; dsimp only; rw [e4]; exact h2)
        simp only [changeC, inHeap, Prog.bind_run, e0, this, Out.bind_ok, e7, e3, setVar]
        rfl
      | _ => rw [e5] at e; cases e
    | _ => rw [e1] at e; cases e
  | _ => rw [e0] at e; cases e

theorem folW_changeQ {i : Nat} {f g : Lst → M α Lst} (hf : ∀ l, FolT thr id (f l) (g l)) : FolW thr (change i f) (changeQ i g) :=
  folW_change fun l => (hf l).map fun q => (false, q)

/-- The argument is found before the call, and changes nothing. -/
theorem FolW.arg {r : Arg α} {p : Ref α → Prog (World α) β} {f : Ref α → Prog (World α) Bool} (h : ∀ x, FolW thr (p x) (f x)) :
    FolW thr (argRef r >>= p) (argRef r >>= f) := by
  refine ⟨fun w q e hk => ?_⟩
  rw [Prog.bind_run] at e ⊢
  cases e1 : argRef r w with
  | ok a =>
    rw [e1, Out.bind_ok] at e
    have : w.heap.ctors ≤ a.2.heap.ctors := by
      cases r with
      | val x => cases e1; exact Nat.le_refl _
      | elem j k =>
        simp only [argRef, Prog.bind_run] at e1
        cases e2 : var j w with
        | ok l =>
          rw [e2, Out.bind_ok] at e1
          have hl : l.2 = w := by
            unfold var at e2
            split at e2 <;> cases e2
            rfl
          cases e3 : inHeap (iterAt l.1 (k + 1)) l.2 with
          | ok b =>
            rw [e3, Out.bind_ok] at e1
            cases e1
            obtain ⟨h', e4, e5⟩ := inHeap_ended e3
            have := (up_advance _ _).le _ _ e4
            rw [hl] at this
            dsimp only
            rw [e5]; exact this
          | _ => rw [e3] at e1; cases e1
        | _ => rw [e2] at e1; cases e1
    exact (h a.1).run a.2 q e fun k h1 h2 => hk k (by omega) h2
  | _ => rw [e1] at e; cases e

theorem FolW.var {j : Nat} {p : Lst → Prog (World α) β} {f : Lst → Prog (World α) Bool} (h : ∀ x, FolW thr (p x) (f x)) :
    FolW thr (Model.LL.var j >>= p) (Model.LL.var j >>= f) := by
  refine ⟨fun w q e hk => ?_⟩
  rw [Prog.bind_run] at e ⊢
  cases e1 : Model.LL.var j w with
  | ok a =>
    rw [e1, Out.bind_ok] at e
    have hl : a.2 = w := by
      unfold Model.LL.var at e1
      split at e1 <;> cases e1
      rfl
    exact (h a.1).run a.2 q e (by rw [hl]; exact hk)
  | _ => rw [e1] at e; cases e

theorem FolT.at {l : Lst} {n : Nat} {g : β → γ} {p : Ptr → M α β} {f : Ptr → M α γ} (h : ∀ x, FolT thr g (p x) (f x)) :
    FolT thr g (iterAt l n >>= p) (iterAt l n >>= f) := FolT.after (up_advance _ _) h

/-- A call that does not construct elements in nodes: `throwStep` says so, whatever the state. -/
theorem throwStep_other {op : Op α} {q : Res α × World α} (e : step cfg op w = .ok q)
    (hk : ∀ k, w.heap.ctors ≤ k → k < q.2.heap.ctors → thr k = false) : ∃ w', throwStep cfg thr op w = .ok (false, w') := by
  cases op
  case newFill i n r a => exact ⟨_, (FolW.arg fun r => folW_create (folT_newFill n r a)).run w q e hk⟩
  case newCount i n a => exact ⟨_, (folW_create (folT_newFill n _ a)).run w q e hk⟩
  case newRange i xs a => exact ⟨_, (folW_create (folT_newRange xs a)).run w q e hk⟩
  case newCopy i j => exact ⟨_, (FolW.var fun l => folW_create (folT_newCopy l l.alloc)).run w q e hk⟩
  case newCopyAlloc i j a => exact ⟨_, (FolW.var fun l => folW_create (folT_newCopy l a)).run w q e hk⟩
  case fromIter i xs => exact ⟨_, (folW_create (folT_fromIter xs)).run w q e hk⟩
  case copyAssign i j =>
    simp only [step, throwStep] at e ⊢
    split
    · exact ⟨_, rfl⟩
    · rename_i hij
      rw [if_neg hij] at e
      exact ⟨_, (FolW.var fun o => folW_change fun l => folT_copyAssign l o).run w q e hk⟩
  case listAssign i xs => exact ⟨_, (folW_change fun l => folT_listAssign l xs).run w q e hk⟩
  case insertAfter i p r => exact ⟨_, (FolW.arg fun r => folW_changeP fun l => FolT.at fun it => folT_emplaceAfter l it r).run w q e hk⟩
  case insertAfterFill i p n r => exact ⟨_, (FolW.arg fun r => folW_changeP fun l => FolT.at fun it => folT_insertAfterFill l it n r).run w q e hk⟩
  case insertAfterRange i p xs => exact ⟨_, (folW_changeP fun l => FolT.at fun it => folT_insertAfterRange l it xs).run w q e hk⟩
  case insert i p r => exact ⟨_, (FolW.arg fun r => folW_changeP fun l => FolT.at fun it => folT_emplace l it r).run w q e hk⟩
  case insertFill i p n r => exact ⟨_, (FolW.arg fun r => folW_changeP fun l => FolT.at fun it => folT_insertFill l it n r).run w q e hk⟩
  case insertRange i p xs => exact ⟨_, (folW_changeP fun l => FolT.at fun it => folT_insertRange l it xs).run w q e hk⟩
  case pushFront i r => exact ⟨_, (FolW.arg fun r => folW_changeQ fun l => folT_pushFront l r).run w q e hk⟩
  case pushBack i r => exact ⟨_, (FolW.arg fun r => folW_changeQ fun l => folT_pushBack l r).run w q e hk⟩
  case resize i n => exact ⟨_, (folW_changeQ fun l => folT_resizeFill l n _).run w q e hk⟩
  case resizeFill i n r => exact ⟨_, (FolW.arg fun r => folW_changeQ fun l => folT_resizeFill l n r).run w q e hk⟩
  all_goals exact ⟨_, rfl⟩

end Verif.Proof.LL
