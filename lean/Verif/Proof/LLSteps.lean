import Verif.Proof.LLWorld
import Verif.Spec.LinkedListWork
/-! # Linked lists: every call of a client, on a world in the invariant -/
namespace Verif.Proof.LL
open Verif Verif.Model.LL
open Verif.Spec.LL hiding sorted
open Verif.Spec (End takes take1)
open Verif.Proof.Mem (Cost)

variable {α β σ : Type} {cfg : Cfg α}

theorem Step.costs {h h' : Heap α} {l l' : List Nat} {k : Cost} (s : Step h l h' l' k) : Costs h h' k.c k.d k.a := ⟨s.ctors, s.dtors, s.allocs⟩

section
variable {L : LostNodes α} {C C' : Ghost α} {w w' : World α} {h h' : Heap α} {k : Cost} {i j p n hd tl hd2 tl2 own own2 : Nat} {cs cs' ds : Cells α} {x : α} {r : Arg α}

/-! ## Positions -/

theorem Rep.split (rp : Rep cfg h hd tl cs own) (p : Nat) : Rep cfg h hd tl (cs.take p ++ cs.drop p) own := by rwa [List.take_append_drop]

theorem at_ok (rp : Rep cfg h hd tl cs own) (hp : p ≤ cs.length) : iterAt (lst hd tl cs own) p h = .ok (some (lastOf hd (cs.take p)), h) := by
  have := iterAt_ok (rp.split p)
  rwa [List.take_append_drop, List.length_take, Nat.min_eq_left hp] at this

theorem at_next (rp : Rep cfg h hd tl cs own) (hp : 1 ≤ p ∧ p ≤ cs.length + 1) :
    iterAt (lst hd tl cs own) p h = .ok (some (headOf tl (cs.drop (p - 1))), h) := by
  have := iterAt_next (rp.split (p - 1))
  rwa [List.take_append_drop, List.length_take, Nat.min_eq_left (by omega), Nat.sub_add_cancel hp.1] at this

theorem dist_at {c1 c2 : Cells α} (rp : Rep cfg h hd tl cs own) (e : cs = c1 ++ c2) (hl : c1.length = n) :
    distFrom (some (lastOf hd c1)) (some hd) 0 h = .ok (n, h) := by
  subst e hl; exact dist_last rp

theorem dist_next {c1 c2 : Cells α} (rp : Rep cfg h hd tl cs own) (e : cs = c1 ++ c2) (hl : c1.length + 1 = n) :
    distFrom (some (headOf tl c2)) (some hd) 0 h = .ok (n, h) := by
  subst e hl; exact dist_head rp

theorem cell_at {k : Nat} (hx : (vals cs)[k]? = some x) : ∃ c1 a c2, cs = c1 ++ (a, x) :: c2 ∧ c1.length = k := by
  rw [List.getElem?_map] at hx
  cases hk : cs[k]? with
  | none => rw [hk] at hx; cases hx
  | some c =>
    rw [hk] at hx
    obtain ⟨a, y⟩ := c
    cases hx
    obtain ⟨hl, e⟩ := List.getElem?_eq_some_iff.1 hk
    refine ⟨cs.take k, a, cs.drop (k + 1), ?_, by rw [List.length_take]; omega⟩
    rw [← e, ← List.drop_eq_getElem_cons hl, List.take_append_drop]

/-! ## Reference arguments -/

/-- the reference denotes element `k` of list `j`, if the client passed one -/
def Designates (C : Ghost α) : Arg α → Ref α → Prop
  | .val x, ref => ref = .tmp x
  | .elem j k, ref => ∃ hd tl own c1 c c2, C j = some (full hd tl (c1 ++ c :: c2) own) ∧ c1.length = k ∧ ref = .node (some c.1)

theorem contents_ideal {xs : List α} (hc : contents (ideal C) j = some xs) : ∃ hd tl cs own, C j = some (full hd tl cs own) ∧ vals cs = xs := by
  rw [contents] at hc
  cases hj : ideal C j with
  | none => rw [hj] at hc; cases hc
  | some v =>
    rw [hj] at hc
    obtain ⟨hd, tl, cs, h1, h2⟩ := ideal_full hj hc
    exact ⟨hd, tl, cs, v.alloc, h1, h2⟩

theorem argRef_ok (I : InvL cfg L C w) (ha : argVal (ideal C) r = some x) :
    ∃ ref, argRef r w = .ok (ref, w) ∧ RefIs cfg ref x w.heap ∧ Designates C r ref := by
  cases r with
  | val y => cases ha; exact ⟨.tmp x, rfl, refIs_tmp, rfl⟩
  | elem j k =>
    simp only [argVal] at ha
    cases hc : contents (ideal C) j with
    | none => rw [hc] at ha; cases ha
    | some xs =>
      rw [hc] at ha
      obtain ⟨hd, tl, cs, own, hj, rfl⟩ := contents_ideal hc
      obtain ⟨c1, a, c2, rfl, hl⟩ := cell_at ha
      have rp := I.rep hj
      refine ⟨.node (some a), ?_, ⟨a, own, rfl, rp.elem_at⟩, hd, tl, own, c1, (a, x), c2, hj, hl, rfl⟩
      have := iterAt_next rp
      simp only [argRef, Prog.bind_run, var_run (I.var hj), Out.bind_ok]
      rw [← hl, inHeap_ok this]
      rfl

/-! ## Construction -/

theorem s_newAlloc (I : InvL cfg L C w) (hi : C i = none) (a : Nat) :
    (step cfg (.newAlloc i a) w).SafeIf (Refuses cfg) fun q => q.1 = .unit ∧ ∃ hd tl cs, InvL cfg L (cput C i (some (full hd tl cs a))) q.2 ∧
      vals cs = [] ∧ Costs w.heap q.2.heap 0 0 2 := by
  refine create_ok (P := fun cs h' => vals cs = [] ∧ Costs w.heap h' 0 0 2) I hi ((newAlloc_ok I.bal a).imp ?_)
  rintro ⟨l, h'⟩ ⟨hd, tl, e, f⟩
  exact ⟨hd, tl, [], _, e, f, rfl, f.step.costs⟩

theorem s_newFill (I : InvL cfg L C w) (hi : C i = none) (ha : argVal (ideal C) r = some x) (n a : Nat) :
    (step cfg (.newFill i n r a) w).SafeIf (Refuses cfg) fun q => q.1 = .unit ∧ ∃ hd tl cs, InvL cfg L (cput C i (some (full hd tl cs a))) q.2 ∧
      vals cs = List.replicate n x ∧ Costs w.heap q.2.heap n 0 (n + 2) := by
  obtain ⟨ref, e1, e2, -⟩ := argRef_ok I ha
  simp only [step, Prog.bind_run, e1, Out.bind_ok]
  refine create_ok (P := fun cs h' => vals cs = List.replicate n x ∧ Costs w.heap h' n 0 (n + 2)) I hi ((newFill_ok I.bal n a e2).imp ?_)
  rintro ⟨l, h'⟩ ⟨hd, tl, cs, hv, e, f⟩
  exact ⟨hd, tl, cs, _, e, f, hv, f.step.costs⟩

theorem s_newCount (I : InvL cfg L C w) (hi : C i = none) (n a : Nat) :
    (step cfg (.newCount i n a) w).SafeIf (Refuses cfg) fun q => q.1 = .unit ∧ ∃ hd tl cs, InvL cfg L (cput C i (some (full hd tl cs a))) q.2 ∧
      vals cs = List.replicate n cfg.dflt ∧ Costs w.heap q.2.heap n 0 (n + 2) := by
  refine create_ok (P := fun cs h' => vals cs = List.replicate n cfg.dflt ∧ Costs w.heap h' n 0 (n + 2)) I hi ((newFill_ok I.bal n a refIs_tmp).imp ?_)
  rintro ⟨l, h'⟩ ⟨hd, tl, cs, hv, e, f⟩
  exact ⟨hd, tl, cs, _, e, f, hv, f.step.costs⟩

theorem s_newRange (I : InvL cfg L C w) (hi : C i = none) (xs : List α) (a : Nat) :
    (step cfg (.newRange i xs a) w).SafeIf (Refuses cfg) fun q => q.1 = .unit ∧ ∃ hd tl cs, InvL cfg L (cput C i (some (full hd tl cs a))) q.2 ∧
      vals cs = xs ∧ Costs w.heap q.2.heap (xs.length) 0 (xs.length + 2) := by
  refine create_ok (P := fun cs h' => vals cs = xs ∧ Costs w.heap h' (xs.length) 0 (xs.length + 2)) I hi ((newRange_ok I.bal xs a).imp ?_)
  rintro ⟨l, h'⟩ ⟨hd, tl, cs, hv, e, f⟩
  exact ⟨hd, tl, cs, _, e, f, hv, f.step.costs⟩

theorem s_fromIter (I : InvL cfg L C w) (hi : C i = none) (xs : List α) :
    (step cfg (.fromIter i xs) w).SafeIf (Refuses cfg) fun q => q.1 = .unit ∧ ∃ hd tl cs, InvL cfg L (cput C i (some (full hd tl cs 0))) q.2 ∧
      vals cs = xs ∧ Costs w.heap q.2.heap (xs.length) 0 (xs.length + 2) := by
  refine create_ok (P := fun cs h' => vals cs = xs ∧ Costs w.heap h' (xs.length) 0 (xs.length + 2)) I hi ((fromIter_ok I.bal xs).imp ?_)
  rintro ⟨l, h'⟩ ⟨hd, tl, cs, hv, e, f⟩
  exact ⟨hd, tl, cs, _, e, f, hv, f.step.costs⟩

theorem s_newCopyAlloc (I : InvL cfg L C w) (hi : C i = none) (hj : C j = some (full hd tl cs own)) (a : Nat) :
    (step cfg (.newCopyAlloc i j a) w).SafeIf (Refuses cfg) fun q => q.1 = .unit ∧ ∃ hd' tl' cs', InvL cfg L (cput C i (some (full hd' tl' cs' a))) q.2 ∧
      vals cs' = vals cs ∧ Costs w.heap q.2.heap (cs.length) 0 (cs.length + 2) := by
  simp only [step, Prog.bind_run, var_run (I.var hj), Out.bind_ok]
  refine create_ok (P := fun cs' h' => vals cs' = vals cs ∧ Costs w.heap h' (cs.length) 0 (cs.length + 2)) I hi ((copyImpl_ok I.bal (I.rep hj) a).imp ?_)
  rintro ⟨l, h'⟩ ⟨hd, tl, cs, hv, e, f⟩
  exact ⟨hd, tl, cs, _, e, f, hv, f.step.costs⟩

theorem s_newCopy (I : InvL cfg L C w) (hi : C i = none) (hj : C j = some (full hd tl cs own)) :
    (step cfg (.newCopy i j) w).SafeIf (Refuses cfg) fun q => q.1 = .unit ∧ ∃ hd' tl' cs', InvL cfg L (cput C i (some (full hd' tl' cs' own))) q.2 ∧
      vals cs' = vals cs ∧ Costs w.heap q.2.heap (cs.length) 0 (cs.length + 2) := by
  simp only [step, Prog.bind_run, var_run (I.var hj), Out.bind_ok]
  refine create_ok (P := fun cs' h' => vals cs' = vals cs ∧ Costs w.heap h' (cs.length) 0 (cs.length + 2)) I hi ((copyImpl_ok I.bal (I.rep hj) own).imp ?_)
  rintro ⟨l, h'⟩ ⟨hd, tl, cs, hv, e, f⟩
  exact ⟨hd, tl, cs, _, e, f, hv, f.step.costs⟩

/-! ## Moves, destruction, assignment -/

theorem husk_fields (o : Obj α) : husk o.fields = (huskObj o.alloc : Obj α).fields := by
  obtain ⟨b, a⟩ := o
  cases b <;> rfl

theorem s_newMove (I : InvL cfg L C w) (hi : C i = none) {o : Obj α} (hj : C j = some o) :
    ∃ w', step cfg (.newMove i j) w = .ok (.unit, w') ∧ w'.heap = w.heap ∧ InvL cfg L (cput (cput C i (some o)) j (some (huskObj o.alloc))) w' := by
  have hij : i ≠ j := by rintro rfl; rw [hi] at hj; cases hj
  have hv : w.vars j = some o.fields := by rw [I.vars, hj]; rfl
  refine ⟨_, ?_, ?_, I.put2 hij (o := some o) (o' := some (huskObj o.alloc)) (h' := w.heap) (k := 0) ?_ ?_ ?_ ?_⟩
  · simp only [step, Prog.bind_run, var_run hv, Out.bind_ok, setVar_run, newMove, husk_fields]
    rfl
  · rfl
  · rw [hi, hj]
    refine (Step.refl I.bal (onodes (some o))).congr (by simp) (by simp)
  · rintro x hx; cases hx; exact I.ok j _ hj
  · rintro x hx; cases hx; trivial
  · intro a _ hm; cases hm

theorem s_newMoveAlloc (I : InvL cfg L C w) (hi : C i = none) (hj : C j = some (full hd tl cs own)) :
    ∃ w', step cfg (.newMoveAlloc i j own) w = .ok (.unit, w') ∧ w'.heap = w.heap ∧
      InvL cfg L (cput (cput C i (some (full hd tl cs own))) j (some (huskObj own))) w' := by
  obtain ⟨w', e1, e2, e3⟩ := s_newMove I hi hj
  refine ⟨w', ?_, e2, e3⟩
  have h1 : newMoveAlloc cfg (lst hd tl cs own) own w.heap = .ok ((lst hd tl cs own, husk (lst hd tl cs own)), w.heap) := by
    unfold newMoveAlloc
    rw [Prog.bind_run, dbgAssert_run (by simp [lst])]
    simp only [Out.bind_ok, show (lst hd tl cs own).alloc = own from rfl, if_true]
    rfl
  rw [← e1]
  simp only [step, Prog.bind_run, var_run (I.var hj), Out.bind_ok, inHeap_ok h1, setVar_run, newMove]

theorem s_swap (I : InvL cfg L C w) {o o' : Obj α} (hi : C i = some o) (hj : C j = some o') :
    ∃ w', step cfg (.swap i j) w = .ok (.unit, w') ∧ w'.heap = w.heap ∧ InvL cfg L (cput (cput C i (some o')) j (some o)) w' := by
  have hv : w.vars i = some o.fields := by rw [I.vars, hi]; rfl
  have hv' : w.vars j = some o'.fields := by rw [I.vars, hj]; rfl
  by_cases hij : i = j
  · subst hij
    rw [hi] at hj; cases hj
    refine ⟨⟨w.heap, upd w.vars i (some o.fields)⟩, ?_, ?_, ?_⟩
    rotate_left 2
    · have := I.put1 i (o := some o) (h' := w.heap) (k := 0) (by rw [hi]; exact Step.refl I.bal _) (by rintro x hx; cases hx; exact I.ok i _ hi)
      have e : cput (cput C i (some o)) i (some o) = cput C i (some o) := by funext l; simp only [cput]; split <;> rfl
      rw [e]; exact this
    · simp only [step, Prog.bind_run, var_run hv, Out.bind_ok, setVar_run]
      have e : upd (upd w.vars i (some o.fields)) i (some o.fields) = upd w.vars i (some o.fields) := by
        funext l; simp only [upd]; split <;> rfl
      rw [e]; rfl
    · rfl
  · refine ⟨_, ?_, ?_, I.put2 hij (o := some o') (o' := some o) (h' := w.heap) (k := 0) ?_ ?_ ?_ ?_⟩
    · simp only [step, Prog.bind_run, var_run hv, var_run hv', Out.bind_ok, setVar_run]
      rfl
    · rfl
    · rw [hi, hj]
      refine (Step.refl I.bal (onodes (some o) ++ onodes (some o'))).congr (by simp) (by simp [or_comm])
    · rintro x hx; cases hx; exact I.ok j _ hj
    · rintro x hx; cases hx; exact I.ok i _ hi
    · have := I.sep j i (Ne.symm hij)
      rw [hi, hj] at this
      exact this

/-- destroying a list object, moved from or not -/
theorem destruct_obj (I : InvL cfg L C w) {o : Obj α} (hi : C i = some o) :
    ∃ h' k, destruct cfg o.fields w.heap = .ok ((), h') ∧ Step w.heap o.nodes h' [] k ∧ k = ⟨0, o.value.elems.length, 0⟩ := by
  obtain ⟨b, a⟩ := o
  cases b with
  | none =>
    refine ⟨w.heap, 0, ?_, Step.refl I.bal _, rfl⟩
    have e : (⟨none, a⟩ : Obj α).fields.head = none := rfl
    simp only [destruct, e, if_true]
    rfl
  | some b =>
    obtain ⟨hd, tl, cs⟩ := b
    obtain ⟨h', e1, e2⟩ := destruct_ok I.bal (I.rep hi)
    exact ⟨h', _, e1, e2, by simp [Obj.value, Var.elems]⟩

theorem s_drop (I : InvL cfg L C w) {o : Obj α} (hi : C i = some o) :
    ∃ w', step cfg (.drop i) w = .ok (.unit, w') ∧ Costs w.heap w'.heap 0 o.value.elems.length 0 ∧ InvL cfg L (cput C i none) w' := by
  have hv : w.vars i = some o.fields := by rw [I.vars, hi]; rfl
  obtain ⟨h', k, e1, e2, hk⟩ := destruct_obj I hi
  refine ⟨_, ?_, by rw [hk] at e2; exact e2.costs, I.put1 i (o := none) (h' := h') (k := k) (by rw [hi]; exact e2) (by simp)⟩
  simp only [step, Prog.bind_run, var_run hv, Out.bind_ok, inHeap_ok e1, setVar_run]
  rfl

theorem s_moveAssign (I : InvL cfg L C w) (hij : i ≠ j) {o o' : Obj α} (hi : C i = some o) (hj : C j = some o') :
    ∃ w', step cfg (.moveAssign i j) w = .ok (.unit, w') ∧ Costs w.heap w'.heap 0 o.value.elems.length 0 ∧
      InvL cfg L (cput (cput C i (some o')) j (some (huskObj o'.alloc))) w' := by
  have hv : w.vars i = some o.fields := by rw [I.vars, hi]; rfl
  have hv' : w.vars j = some o'.fields := by rw [I.vars, hj]; rfl
  obtain ⟨h', k, e1, e2, hk⟩ := destruct_obj I hi
  refine ⟨_, ?_, by rw [hk] at e2; exact e2.costs, I.put2 hij (o := some o') (o' := some (huskObj o'.alloc)) (h' := h') (k := k) ?_ ?_ ?_ ?_⟩
  · simp only [step, hij, if_false, change2, Prog.bind_run, var_run hv, var_run hv', Out.bind_ok, moveAssign, inHeap_run, e1, setVar_run, husk_fields, Prog.pure_run]
    rfl
  · rw [hi, hj]
    refine (e2.more (onodes (some o'))).congr (by simp [onodes]) (by simp)
  · rintro x hx
    cases hx
    refine (I.ok j _ hj).step e2 ?_
    have := I.sep j i (Ne.symm hij)
    rw [hi, hj] at this
    exact this
  · rintro x hx; cases hx; trivial
  · intro a _ hm; cases hm

theorem s_copyAssign (I : InvL cfg L C w) (hij : i ≠ j) {o : Obj α} (hi : C i = some o) (hj : C j = some (full hd tl cs own)) :
    (step cfg (.copyAssign i j) w).SafeIf (Refuses cfg) fun q => q.1 = .unit ∧ ∃ hd' tl' cs',
      InvL cfg L (cput C i (some (full hd' tl' cs' own))) q.2 ∧ vals cs' = vals cs ∧
      Costs w.heap q.2.heap cs.length o.value.elems.length (cs.length + 2) := by
  have hv : w.vars i = some o.fields := by rw [I.vars, hi]; rfl
  obtain ⟨h', k, e1, e2, hk⟩ := destruct_obj I hi
  have rj : Rep cfg h' hd tl cs own := by
    refine (I.rep hj).step e2 ?_
    have := I.sep j i (Ne.symm hij)
    rw [hi, hj] at this
    exact this
  simp only [step, hij, if_false, Prog.bind_run, var_run (I.var hj), Out.bind_ok, change, var_run hv, copyAssign, inHeap_run, e1]
  refine Out.SafeIf.bind (P := fun q => ∃ hd' tl' cs', vals cs' = vals cs ∧ q.1 = lst hd' tl' cs' own ∧
    Fresh cfg h' q.2.heap hd' tl' cs' own ⟨cs.length, 0, cs.length + 2⟩ ∧ q.2.vars = w.vars) ?_ ?_
  · refine (copyImpl_ok e2.bal rj own).bind ?_
    rintro ⟨l, h2⟩ ⟨hd', tl', cs', h1, h2, h3⟩
    exact ⟨hd', tl', cs', h1, h2, h3, rfl⟩
  · rintro ⟨l, w'⟩ ⟨hd', tl', cs', h1, h2, h3, h4⟩
    simp only at h1 h2 h3 h4
    subst h2
    simp only [setVar_run, Out.bind_ok, Prog.pure_run, Out.safeIf_ok, h4]
    refine ⟨trivial, hd', tl', cs', ?_, h1, by rw [hk] at e2; simpa using (e2.trans h3.step).costs⟩
    refine I.put1 i (o := some (full hd' tl' cs' own)) (by rw [hi]; exact e2.trans h3.step) ?_
    rintro x hx; cases hx; exact h3.rep

theorem s_listAssign (I : InvL cfg L C w) (hi : C i = some (full hd tl cs own)) (xs : List α) :
    (step cfg (.listAssign i xs) w).SafeIf (Refuses cfg) fun q => q.1 = .unit ∧ ∃ cs', InvL cfg L (cput C i (some (full hd tl cs' own))) q.2 ∧
      vals cs' = xs ∧ Costs w.heap q.2.heap (xs.length) (cs.length) (xs.length) := by
  refine change_ok (P := fun cs' h' => vals cs' = xs ∧ Costs w.heap h' (xs.length) (cs.length) (xs.length)) I hi ((listAssign_ok I.bal (I.rep hi) xs).imp ?_)
  rintro ⟨l, h'⟩ ⟨ns, h1, h2, h3⟩
  exact ⟨ns, _, h2, h3, h1, h3.step.costs⟩

theorem s_clear (I : InvL cfg L C w) (hi : C i = some (full hd tl cs own)) :
    (step cfg (.clear i) w).SafeIf (Refuses cfg) fun q => q.1 = .unit ∧ ∃ cs', InvL cfg L (cput C i (some (full hd tl cs' own))) q.2 ∧
      cs' = [] ∧ Costs w.heap q.2.heap 0 (cs.length) 0 := by
  obtain ⟨h', e1, ed⟩ := clear_ok I.bal (I.rep hi)
  refine change_ok (P := fun cs' h' => cs' = [] ∧ Costs w.heap h' 0 (cs.length) 0) I hi ?_
  rw [e1]
  exact ⟨[], _, rfl, ed, rfl, ed.step.costs⟩

theorem s_set {c1 c2 : Cells α} {c : Nat × α} (I : InvL cfg L C w) (hi : C i = some (full hd tl (c1 ++ c :: c2) own)) (y : α) :
    ∃ w', step cfg (.set i (c1.length + 1) y) w = .ok (.unit, w') ∧ InvL cfg L (cput C i (some (full hd tl (c1 ++ (c.1, y) :: c2) own))) w' ∧
      Costs w.heap w'.heap 0 0 0 := by
  have ed := (I.rep hi).poke_edit I.bal y
  refine ⟨_, ?_, I.put1 i (o := some (full hd tl (c1 ++ (c.1, y) :: c2) own)) (by rw [hi]; exact ed.step) ?_, ed.step.costs⟩
  · have e : upd w.vars i (Option.map Obj.fields (some (full hd tl (c1 ++ (c.1, y) :: c2) own))) = w.vars := by
      funext l
      simp only [upd]
      split
      · subst_vars; rw [I.var hi]; simp [Obj.fields, lst]
      · rfl
    have := set_ok (I.rep hi) y
    simp only [Prog.bind_run] at this
    simp only [step, look, Prog.bind_run, var_run (I.var hi), Out.bind_ok, inHeap_run]
    rw [e]
    have hs := iterAt_next (I.rep hi)
    rw [hs] at this
    simp only [Out.bind_ok] at this
    rw [hs]
    simp only [Out.bind_ok, this]
    rfl
  · rintro x hx; cases hx; exact ed.rep

/-! ## Insertion -/

theorem s_insertAfter (I : InvL cfg L C w) (hi : C i = some (full hd tl cs own)) (ha : argVal (ideal C) r = some x) (hp : p ≤ cs.length) :
    (step cfg (.insertAfter i p r) w).SafeIf (Refuses cfg) fun q => q.1 = .pos (p + 1) ∧ ∃ cs', InvL cfg L (cput C i (some (full hd tl cs' own))) q.2 ∧
      (∃ a, cs' = cs.take p ++ (a, x) :: cs.drop p) ∧ Costs w.heap q.2.heap 1 0 1 := by
  obtain ⟨ref, e1, e2, -⟩ := argRef_ok I ha
  have rp := I.rep hi
  simp only [step, Prog.bind_run, e1, Out.bind_ok]
  refine changeP_ok (P := fun cs' h' => (∃ a, cs' = cs.take p ++ (a, x) :: cs.drop p) ∧ Costs w.heap h' 1 0 1) I hi ?_
  have key := emplaceAfter_ok I.bal (rp.split p) e2
  rw [List.take_append_drop] at key
  simp only [Prog.bind_run, at_ok rp hp, Out.bind_ok]
  refine key.imp ?_
  rintro ⟨⟨l, q⟩, h'⟩ ⟨e, ed⟩
  cases e
  refine ⟨?_, _, _, rfl, ed, ⟨_, rfl⟩, ed.step.costs⟩
  exact dist_next (c2 := (w.heap.next, x) :: cs.drop p) ed.rep rfl (by rw [List.length_take]; omega)

theorem s_insertAfterFill (I : InvL cfg L C w) (hi : C i = some (full hd tl cs own)) (ha : argVal (ideal C) r = some x) (hp : p ≤ cs.length) (n : Nat) :
    (step cfg (.insertAfterFill i p n r) w).SafeIf (Refuses cfg) fun q => q.1 = .pos (if n = 0 then p else p + 1) ∧
      ∃ cs', InvL cfg L (cput C i (some (full hd tl cs' own))) q.2 ∧
      (∃ ns, vals ns = List.replicate n x ∧ cs' = cs.take p ++ (ns ++ cs.drop p)) ∧ Costs w.heap q.2.heap n 0 n := by
  obtain ⟨ref, e1, e2, -⟩ := argRef_ok I ha
  have rp := I.rep hi
  simp only [step, Prog.bind_run, e1, Out.bind_ok]
  refine changeP_ok (P := fun cs' h' => (∃ ns, vals ns = List.replicate n x ∧ cs' = cs.take p ++ (ns ++ cs.drop p)) ∧ Costs w.heap h' n 0 n) I hi ?_
  have key := insertAfterFill_ok I.bal (rp.split p) n e2
  rw [List.take_append_drop] at key
  simp only [Prog.bind_run, at_ok rp hp, Out.bind_ok]
  refine key.imp ?_
  rintro ⟨⟨l, q⟩, h'⟩ ⟨ns, hv, e, ed⟩
  cases e
  refine ⟨?_, _, _, rfl, ed, ⟨_, hv, rfl⟩, ed.step.costs⟩
  simp only
  split
  · exact dist_at (c2 := ns ++ cs.drop p) ed.rep rfl (by rw [List.length_take]; omega)
  · exact dist_next (c2 := ns ++ cs.drop p) ed.rep rfl (by rw [List.length_take]; omega)

theorem s_insertAfterRange (I : InvL cfg L C w) (hi : C i = some (full hd tl cs own)) (hp : p ≤ cs.length) (xs : List α) :
    (step cfg (.insertAfterRange i p xs) w).SafeIf (Refuses cfg) fun q => q.1 = .pos (if xs.length = 0 then p else p + 1) ∧
      ∃ cs', InvL cfg L (cput C i (some (full hd tl cs' own))) q.2 ∧
      (∃ ns, vals ns = xs ∧ cs' = cs.take p ++ (ns ++ cs.drop p)) ∧ Costs w.heap q.2.heap (xs.length) 0 (xs.length) := by
  have rp := I.rep hi
  refine changeP_ok (P := fun cs' h' => (∃ ns, vals ns = xs ∧ cs' = cs.take p ++ (ns ++ cs.drop p)) ∧ Costs w.heap h' (xs.length) 0 (xs.length)) I hi ?_
  have key := insertAfterRange_ok I.bal (rp.split p) xs
  rw [List.take_append_drop] at key
  simp only [Prog.bind_run, at_ok rp hp, Out.bind_ok]
  refine key.imp ?_
  rintro ⟨⟨l, q⟩, h'⟩ ⟨ns, hv, e, ed⟩
  cases e
  refine ⟨?_, _, _, rfl, ed, ⟨_, hv, rfl⟩, ed.step.costs⟩
  simp only
  split
  · exact dist_at (c2 := ns ++ cs.drop p) ed.rep rfl (by rw [List.length_take]; omega)
  · exact dist_next (c2 := ns ++ cs.drop p) ed.rep rfl (by rw [List.length_take]; omega)

theorem s_insert (hd' : cfg.dbl = true) (I : InvL cfg L C w) (hi : C i = some (full hd tl cs own)) (ha : argVal (ideal C) r = some x)
    (hp : 1 ≤ p ∧ p ≤ cs.length + 1) :
    (step cfg (.insert i p r) w).SafeIf (Refuses cfg) fun q => q.1 = .pos p ∧ ∃ cs', InvL cfg L (cput C i (some (full hd tl cs' own))) q.2 ∧
      (∃ a, cs' = cs.take (p - 1) ++ (a, x) :: cs.drop (p - 1)) ∧ Costs w.heap q.2.heap 1 0 1 := by
  obtain ⟨ref, e1, e2, -⟩ := argRef_ok I ha
  have rp := I.rep hi
  simp only [step, Prog.bind_run, e1, Out.bind_ok]
  refine changeP_ok (P := fun cs' h' => (∃ a, cs' = cs.take (p - 1) ++ (a, x) :: cs.drop (p - 1)) ∧ Costs w.heap h' 1 0 1) I hi ?_
  have key := emplace_ok I.bal (rp.split (p - 1)) hd' e2
  rw [List.take_append_drop] at key
  simp only [Prog.bind_run, at_next rp hp, Out.bind_ok]
  refine key.imp ?_
  rintro ⟨⟨l, q⟩, h'⟩ ⟨e, ed⟩
  cases e
  refine ⟨?_, _, _, rfl, ed, ⟨_, rfl⟩, ed.step.costs⟩
  exact dist_next (c2 := (w.heap.next, x) :: cs.drop (p - 1)) ed.rep rfl (by rw [List.length_take]; omega)

theorem s_insertFill (hd' : cfg.dbl = true) (I : InvL cfg L C w) (hi : C i = some (full hd tl cs own)) (ha : argVal (ideal C) r = some x)
    (hp : 1 ≤ p ∧ p ≤ cs.length + 1) (n : Nat) :
    (step cfg (.insertFill i p n r) w).SafeIf (Refuses cfg) fun q => q.1 = .pos p ∧ ∃ cs', InvL cfg L (cput C i (some (full hd tl cs' own))) q.2 ∧
      (∃ ns, vals ns = List.replicate n x ∧ cs' = cs.take (p - 1) ++ (ns ++ cs.drop (p - 1))) ∧ Costs w.heap q.2.heap n 0 n := by
  obtain ⟨ref, e1, e2, -⟩ := argRef_ok I ha
  have rp := I.rep hi
  simp only [step, Prog.bind_run, e1, Out.bind_ok]
  refine changeP_ok (P := fun cs' h' => (∃ ns, vals ns = List.replicate n x ∧ cs' = cs.take (p - 1) ++ (ns ++ cs.drop (p - 1))) ∧
    Costs w.heap h' n 0 n) I hi ?_
  have key := insertFill_ok I.bal (rp.split (p - 1)) hd' n e2
  rw [List.take_append_drop] at key
  simp only [Prog.bind_run, at_next rp hp, Out.bind_ok]
  refine key.imp ?_
  rintro ⟨⟨l, q⟩, h'⟩ ⟨ns, hv, e, ed⟩
  cases e
  refine ⟨?_, _, _, rfl, ed, ⟨_, hv, rfl⟩, ed.step.costs⟩
  exact dist_next (c2 := ns ++ cs.drop (p - 1)) ed.rep rfl (by rw [List.length_take]; omega)

theorem s_insertRange (hd' : cfg.dbl = true) (I : InvL cfg L C w) (hi : C i = some (full hd tl cs own)) (hp : 1 ≤ p ∧ p ≤ cs.length + 1) (xs : List α) :
    (step cfg (.insertRange i p xs) w).SafeIf (Refuses cfg) fun q => q.1 = .pos p ∧ ∃ cs', InvL cfg L (cput C i (some (full hd tl cs' own))) q.2 ∧
      (∃ ns, vals ns = xs ∧ cs' = cs.take (p - 1) ++ (ns ++ cs.drop (p - 1))) ∧ Costs w.heap q.2.heap (xs.length) 0 (xs.length) := by
  have rp := I.rep hi
  refine changeP_ok (P := fun cs' h' => (∃ ns, vals ns = xs ∧ cs' = cs.take (p - 1) ++ (ns ++ cs.drop (p - 1))) ∧
    Costs w.heap h' (xs.length) 0 (xs.length)) I hi ?_
  have key := insertRange_ok I.bal (rp.split (p - 1)) hd' xs
  rw [List.take_append_drop] at key
  simp only [Prog.bind_run, at_next rp hp, Out.bind_ok]
  refine key.imp ?_
  rintro ⟨⟨l, q⟩, h'⟩ ⟨ns, hv, e, ed⟩
  cases e
  refine ⟨?_, _, _, rfl, ed, ⟨_, hv, rfl⟩, ed.step.costs⟩
  exact dist_next (c2 := ns ++ cs.drop (p - 1)) ed.rep rfl (by rw [List.length_take]; omega)

theorem s_pushFront (I : InvL cfg L C w) (hi : C i = some (full hd tl cs own)) (ha : argVal (ideal C) r = some x) :
    (step cfg (.pushFront i r) w).SafeIf (Refuses cfg) fun q => q.1 = .unit ∧ ∃ cs', InvL cfg L (cput C i (some (full hd tl cs' own))) q.2 ∧
      (∃ a, cs' = (a, x) :: cs) ∧ Costs w.heap q.2.heap 1 0 1 := by
  obtain ⟨ref, e1, e2, -⟩ := argRef_ok I ha
  simp only [step, Prog.bind_run, e1, Out.bind_ok]
  refine change_ok (P := fun cs' h' => (∃ a, cs' = (a, x) :: cs) ∧ Costs w.heap h' 1 0 1) I hi ((pushFront_ok I.bal (I.rep hi) e2).imp ?_)
  rintro ⟨l, h'⟩ ⟨e, ed⟩
  exact ⟨_, _, e, ed, ⟨_, rfl⟩, ed.step.costs⟩

theorem s_pushBack (hd' : cfg.dbl = true) (I : InvL cfg L C w) (hi : C i = some (full hd tl cs own)) (ha : argVal (ideal C) r = some x) :
    (step cfg (.pushBack i r) w).SafeIf (Refuses cfg) fun q => q.1 = .unit ∧ ∃ cs', InvL cfg L (cput C i (some (full hd tl cs' own))) q.2 ∧
      (∃ a, cs' = cs ++ [(a, x)]) ∧ Costs w.heap q.2.heap 1 0 1 := by
  obtain ⟨ref, e1, e2, -⟩ := argRef_ok I ha
  simp only [step, Prog.bind_run, e1, Out.bind_ok]
  refine change_ok (P := fun cs' h' => (∃ a, cs' = cs ++ [(a, x)]) ∧ Costs w.heap h' 1 0 1) I hi ((pushBack_ok I.bal (I.rep hi) hd' e2).imp ?_)
  rintro ⟨l, h'⟩ ⟨e, ed⟩
  exact ⟨_, _, e, ed, ⟨_, rfl⟩, ed.step.costs⟩

theorem s_resizeFill (I : InvL cfg L C w) (hi : C i = some (full hd tl cs own)) (ha : argVal (ideal C) r = some x) (n : Nat) :
    (step cfg (.resizeFill i n r) w).SafeIf (Refuses cfg) fun q => q.1 = .unit ∧ ∃ cs', InvL cfg L (cput C i (some (full hd tl cs' own))) q.2 ∧
      (∃ ns, vals ns = List.replicate (n - cs.length) x ∧ cs' = cs.take n ++ ns) ∧
      Costs w.heap q.2.heap (n - cs.length) (cs.length - n) (n - cs.length) := by
  obtain ⟨ref, e1, e2, -⟩ := argRef_ok I ha
  simp only [step, Prog.bind_run, e1, Out.bind_ok]
  refine change_ok (P := fun cs' h' => (∃ ns, vals ns = List.replicate (n - cs.length) x ∧ cs' = cs.take n ++ ns) ∧
    Costs w.heap h' (n - cs.length) (cs.length - n) (n - cs.length)) I hi ((resizeFill_ok I.bal (I.rep hi) n e2).imp ?_)
  rintro ⟨l, h'⟩ ⟨ns, hv, e, ed⟩
  exact ⟨_, _, e, ed, ⟨_, hv, rfl⟩, ed.step.costs⟩

theorem s_resize (I : InvL cfg L C w) (hi : C i = some (full hd tl cs own)) (n : Nat) :
    (step cfg (.resize i n) w).SafeIf (Refuses cfg) fun q => q.1 = .unit ∧ ∃ cs', InvL cfg L (cput C i (some (full hd tl cs' own))) q.2 ∧
      (∃ ns, vals ns = List.replicate (n - cs.length) cfg.dflt ∧ cs' = cs.take n ++ ns) ∧
      Costs w.heap q.2.heap (n - cs.length) (cs.length - n) (n - cs.length) := by
  refine change_ok (P := fun cs' h' => (∃ ns, vals ns = List.replicate (n - cs.length) cfg.dflt ∧ cs' = cs.take n ++ ns) ∧
    Costs w.heap h' (n - cs.length) (cs.length - n) (n - cs.length)) I hi ((resizeFill_ok I.bal (I.rep hi) n refIs_tmp).imp ?_)
  rintro ⟨l, h'⟩ ⟨ns, hv, e, ed⟩
  exact ⟨_, _, e, ed, ⟨_, hv, rfl⟩, ed.step.costs⟩

/-! ## Erasure -/

theorem s_eraseAfter (I : InvL cfg L C w) (hi : C i = some (full hd tl cs own)) (hp : p ≤ cs.length) :
    (step cfg (.eraseAfter i p) w).SafeIf (Refuses cfg) fun q => q.1 = .pos (p + 1) ∧ ∃ cs', InvL cfg L (cput C i (some (full hd tl cs' own))) q.2 ∧
      cs' = cs.take p ++ cs.drop (p + 1) ∧ Costs w.heap q.2.heap 0 (cs.length - cs'.length) 0 := by
  have rp := I.rep hi
  refine changeP_ok (P := fun cs' h' => cs' = cs.take p ++ cs.drop (p + 1) ∧ Costs w.heap h' 0 (cs.length - cs'.length) 0) I hi ?_
  simp only [Prog.bind_run, at_ok rp hp, Out.bind_ok]
  by_cases he : p = cs.length
  · subst he
    rw [List.take_length, eraseAfter_end rp]
    refine ⟨?_, cs, 0, rfl, Edit.refl I.bal rp, by simp, by simp [Costs]⟩
    exact dist_next (c1 := cs) (c2 := []) rp (by simp) rfl
  · have hlt : p < cs.length := by omega
    have e : cs.drop p = cs[p] :: cs.drop (p + 1) := List.drop_eq_getElem_cons hlt
    have rp' := rp.split p
    rw [e] at rp'
    obtain ⟨h', e1, ed⟩ := eraseAfter_ok I.bal rp'
    rw [← e, List.take_append_drop] at e1 ed
    rw [e1]
    refine ⟨?_, _, _, rfl, ed, rfl, ?_⟩
    · exact dist_next ed.rep rfl (by rw [List.length_take]; omega)
    · have := ed.step.costs
      rwa [show (1 : Nat) = cs.length - (cs.take p ++ cs.drop (p + 1)).length by rw [List.length_append, List.length_take, List.length_drop]; omega] at this

theorem split3 (cs : Cells α) {lo hi : Nat} (h1 : lo ≤ hi) : cs = cs.take lo ++ ((cs.drop lo).take (hi - lo) ++ cs.drop hi) := by
  have e1 : cs.drop hi = (cs.drop lo).drop (hi - lo) := by rw [List.drop_drop]; congr 1; omega
  rw [e1, List.take_append_drop, List.take_append_drop]

theorem s_eraseAfterRange (I : InvL cfg L C w) (hi : C i = some (full hd tl cs own)) {lo hi' : Nat} (h1 : lo ≤ hi') (h2 : hi' ≤ cs.length + 1) :
    (step cfg (.eraseAfterRange i lo hi') w).SafeIf (Refuses cfg) fun q => q.1 = .pos (if lo = hi' then lo else lo + 1) ∧
      ∃ cs', InvL cfg L (cput C i (some (full hd tl cs' own))) q.2 ∧
      cs' = (if lo = hi' then cs else cs.take lo ++ cs.drop (hi' - 1)) ∧ Costs w.heap q.2.heap 0 (cs.length - cs'.length) 0 := by
  have rp := I.rep hi
  refine changeP_ok (P := fun cs' h' => cs' = (if lo = hi' then cs else cs.take lo ++ cs.drop (hi' - 1)) ∧
    Costs w.heap h' 0 (cs.length - cs'.length) 0) I hi ?_
  by_cases he : lo = hi'
  · subst he
    simp only [if_true]
    by_cases hl : lo ≤ cs.length
    · simp only [Prog.bind_run, at_ok rp hl, Out.bind_ok]
      rw [eraseAfterRange, if_pos rfl]
      refine ⟨?_, cs, 0, rfl, Edit.refl I.bal rp, rfl, by simp [Costs]⟩
      exact dist_at (c2 := cs.drop lo) rp (by simp) (by rw [List.length_take]; omega)
    · simp only [Prog.bind_run, at_next rp (p := lo) ⟨by omega, by omega⟩, Out.bind_ok]
      rw [eraseAfterRange, if_pos rfl]
      refine ⟨?_, cs, 0, rfl, Edit.refl I.bal rp, rfl, by simp [Costs]⟩
      exact dist_next (c1 := cs.take (lo - 1)) rp (by simp) (by rw [List.length_take]; omega)
  · simp only [if_neg he]
    simp only [Prog.bind_run, at_ok rp (p := lo) (by omega), at_next rp (p := hi') ⟨by omega, h2⟩, Out.bind_ok]
    have e := split3 cs (lo := lo) (hi := hi' - 1) (by omega)
    have rp' := rp
    rw [e] at rp'
    obtain ⟨h', e1, ed⟩ := eraseAfterRange_ok I.bal rp'
    rw [← e] at e1 ed
    rw [e1]
    refine ⟨?_, _, _, rfl, ed, rfl, ?_⟩
    · exact dist_next ed.rep rfl (by rw [List.length_take]; omega)
    · have := ed.step.costs
      rwa [show (List.take (hi' - 1 - lo) (List.drop lo cs)).length = cs.length - (cs.take lo ++ cs.drop (hi' - 1)).length by
        rw [List.length_append, List.length_take, List.length_take, List.length_drop, List.length_drop]; omega] at this

theorem s_erase (hd' : cfg.dbl = true) (I : InvL cfg L C w) (hi : C i = some (full hd tl cs own)) (hp : p ≤ cs.length + 1) :
    (step cfg (.erase i p) w).SafeIf (Refuses cfg) fun q => q.1 = .pos p ∧ ∃ cs', InvL cfg L (cput C i (some (full hd tl cs' own))) q.2 ∧
      cs' = (if p = 0 ∨ p = cs.length + 1 then cs else cs.take (p - 1) ++ cs.drop p) ∧ Costs w.heap q.2.heap 0 (cs.length - cs'.length) 0 := by
  have rp := I.rep hi
  refine changeP_ok (P := fun cs' h' => cs' = (if p = 0 ∨ p = cs.length + 1 then cs else cs.take (p - 1) ++ cs.drop p) ∧
    Costs w.heap h' 0 (cs.length - cs'.length) 0) I hi ?_
  by_cases h0 : p = 0
  · subst h0
    simp only [Prog.bind_run, at_ok rp (p := 0) (by omega), Out.bind_ok, true_or, if_true]
    rw [erase, if_pos (by simp [lst])]
    refine ⟨?_, cs, 0, rfl, Edit.refl I.bal rp, rfl, by simp [Costs]⟩
    exact dist_at (c2 := cs) rp (by simp) (by simp)
  · by_cases he : p = cs.length + 1
    · subst he
      simp only [Prog.bind_run, at_next rp (p := cs.length + 1) ⟨by omega, hp⟩, Out.bind_ok, or_true, if_true]
      rw [show cs.length + 1 - 1 = cs.length by omega, List.drop_length, headOf_nil, erase, if_pos (by simp [lst])]
      refine ⟨?_, cs, 0, rfl, Edit.refl I.bal rp, rfl, by simp [Costs]⟩
      exact dist_next (c1 := cs) (c2 := []) rp (by simp) rfl
    · simp only [Prog.bind_run, at_next rp (p := p) ⟨by omega, hp⟩, Out.bind_ok]
      rw [if_neg (by simp [h0, he])]
      have hlt : p - 1 < cs.length := by omega
      have e : cs.drop (p - 1) = cs[p - 1] :: cs.drop p := by
        have := List.drop_eq_getElem_cons hlt
        rwa [Nat.sub_add_cancel (by omega)] at this
      have rp' := rp.split (p - 1)
      rw [e] at rp'
      obtain ⟨h', e1, ed⟩ := erase_ok I.bal rp' hd'
      rw [← e, List.take_append_drop] at e1 ed
      rw [e, headOf_cons, e1]
      refine ⟨?_, _, _, rfl, ed, rfl, ?_⟩
      · exact dist_next ed.rep rfl (by rw [List.length_take]; omega)
      · have := ed.step.costs
        rwa [show (1 : Nat) = cs.length - (cs.take (p - 1) ++ cs.drop p).length by rw [List.length_append, List.length_take, List.length_drop]; omega] at this

theorem s_eraseRange (hd' : cfg.dbl = true) (I : InvL cfg L C w) (hi : C i = some (full hd tl cs own)) {lo hi' : Nat} (h0 : 1 ≤ lo) (h1 : lo ≤ hi')
    (h2 : hi' ≤ cs.length + 1) :
    (step cfg (.eraseRange i lo hi') w).SafeIf (Refuses cfg) fun q => q.1 = .pos lo ∧
      ∃ cs', InvL cfg L (cput C i (some (full hd tl cs' own))) q.2 ∧
      cs' = cs.take (lo - 1) ++ cs.drop (hi' - 1) ∧ Costs w.heap q.2.heap 0 (cs.length - cs'.length) 0 := by
  have rp := I.rep hi
  refine changeP_ok (P := fun cs' h' => cs' = cs.take (lo - 1) ++ cs.drop (hi' - 1) ∧ Costs w.heap h' 0 (cs.length - cs'.length) 0) I hi ?_
  simp only [Prog.bind_run, at_next rp (p := lo) ⟨h0, by omega⟩, at_next rp (p := hi') ⟨by omega, h2⟩, Out.bind_ok]
  have e := split3 cs (lo := lo - 1) (hi := hi' - 1) (by omega)
  have e3 : cs.drop (lo - 1) = (cs.drop (lo - 1)).take (hi' - 1 - (lo - 1)) ++ cs.drop (hi' - 1) := by
    have e1 : cs.drop (hi' - 1) = (cs.drop (lo - 1)).drop (hi' - 1 - (lo - 1)) := by rw [List.drop_drop]; congr 1; omega
    rw [e1, List.take_append_drop]
  have rp' := rp
  rw [e] at rp'
  obtain ⟨h', e1, ed⟩ := eraseRange_ok I.bal rp' hd'
  rw [← e] at e1 ed
  rw [← e3] at e1
  rw [e1]
  refine ⟨?_, _, _, rfl, ed, rfl, ?_⟩
  · exact dist_next ed.rep rfl (by rw [List.length_take]; omega)
  · have := ed.step.costs
    rwa [show (List.take (hi' - 1 - (lo - 1)) (List.drop (lo - 1) cs)).length = cs.length - (cs.take (lo - 1) ++ cs.drop (hi' - 1)).length by
      rw [List.length_append, List.length_take, List.length_take, List.length_drop, List.length_drop]; omega] at this

theorem s_popFront {c : Nat × α} (I : InvL cfg L C w) (hi : C i = some (full hd tl (c :: cs) own)) :
    (step cfg (.popFront i) w).SafeIf (Refuses cfg) fun q => q.1 = .unit ∧ ∃ cs', InvL cfg L (cput C i (some (full hd tl cs' own))) q.2 ∧
      cs' = cs ∧ Costs w.heap q.2.heap 0 1 0 := by
  obtain ⟨h', e1, ed⟩ := popFront_ok I.bal (I.rep hi)
  refine change_ok (P := fun cs' h' => cs' = cs ∧ Costs w.heap h' 0 1 0) I hi ?_
  rw [e1]
  exact ⟨cs, _, rfl, ed, rfl, ed.step.costs⟩

theorem s_popBack {c : Nat × α} (hd' : cfg.dbl = true) (I : InvL cfg L C w) (hi : C i = some (full hd tl (cs ++ [c]) own)) :
    (step cfg (.popBack i) w).SafeIf (Refuses cfg) fun q => q.1 = .unit ∧ ∃ cs', InvL cfg L (cput C i (some (full hd tl cs' own))) q.2 ∧
      cs' = cs ∧ Costs w.heap q.2.heap 0 1 0 := by
  obtain ⟨h', e1, ed⟩ := popBack_ok I.bal (I.rep hi) hd'
  refine change_ok (P := fun cs' h' => cs' = cs ∧ Costs w.heap h' 0 1 0) I hi ?_
  rw [e1]
  exact ⟨cs, _, rfl, ed, rfl, ed.step.costs⟩

/-- node-level version of the specification's `outlives` -/
theorem outlives_ok (I : InvL cfg L C w) (hi : C i = some (full hd tl cs own)) (ha : argVal (ideal C) r = some x) {eq : α → α → Bool} {ref : Ref α}
    (hr : Designates C r ref) (ho : outlives i eq (vals cs) r = true) : Outlives eq x cs ref := by
  cases r with
  | val y => cases hr; trivial
  | elem j k =>
    obtain ⟨hd2, tl2, own2, c1, c, c2, hj, hk, rfl⟩ := hr
    intro u d v hu hp
    simp only [Option.some.injEq] at hp
    have hmem : d.1 ∈ nodes hd tl cs := by rw [hu, mem_nodes]; exact .inr (.inl (by simp))
    have hmem2 : c.1 ∈ nodes hd2 tl2 (c1 ++ c :: c2) := by rw [mem_nodes]; exact .inr (.inl (by simp))
    by_cases hij : j = i
    · subst hij
      rw [hi] at hj
      cases hj
      have hn := (I.rep hi).nodup_cells
      have hux : u = c1 ∧ v = c2 ∧ d = c := by
        have e1 : (addrs u ++ d.1 :: addrs v) = addrs c1 ++ c.1 :: addrs c2 := by
          have := congrArg addrs hu; simpa using this.symm
        have hl : (addrs u).length = (addrs c1).length := by
          have hn1 : (addrs u ++ d.1 :: addrs v).Nodup := by rw [e1]; simpa using hn
          have i1 : (addrs u ++ d.1 :: addrs v)[(addrs u).length]? = some d.1 := by simp
          have i2 : (addrs u ++ d.1 :: addrs v)[(addrs c1).length]? = some d.1 := by rw [e1, ← hp]; simp
          exact (List.getElem?_inj (by simp) hn1).1 (i1.trans i2.symm)
        simp only [List.length_map] at hl
        have := List.append_inj hu hl.symm
        obtain ⟨h1, h2⟩ := this
        simp only [List.cons.injEq] at h2
        exact ⟨h1.symm, h2.2.symm, h2.1.symm⟩
      obtain ⟨rfl, rfl, rfl⟩ := hux
      have hx : x = d.2 := by
        simp only [argVal, contents, ideal, hi, Option.map_some, value_full, Option.bind_some] at ha
        rw [← hk] at ha
        simpa using ha.symm
      subst hx
      simp only [outlives, Bool.or_eq_true, bne_iff_ne, ne_eq, not_true_eq_false, false_or, beq_iff_eq] at ho
      rcases ho with ho | ho
      · left
        simp only [List.length_map, List.length_append, List.length_cons] at ho
        exact List.eq_nil_of_length_eq_zero (by omega)
      · right
        rw [← hk] at ho
        simpa using ho
    · exact absurd hmem2 (by rw [hp]; exact I.disj (Ne.symm hij) hi hj _ hmem)

theorem s_remove (I : InvL cfg L C w) (hi : C i = some (full hd tl cs own)) (ha : argVal (ideal C) r = some x) (eq : α → α → Bool)
    (ho : outlives i eq (vals cs) r = true) :
    (step cfg (.remove i eq r) w).SafeIf (Refuses cfg) fun q => q.1 = .num (cs.filter fun c => eq x c.2).length ∧
      ∃ cs', InvL cfg L (cput C i (some (full hd tl cs' own))) q.2 ∧
      cs' = (cs.filter fun c => !eq x c.2) ∧ Costs w.heap q.2.heap 0 ((cs.filter fun c => eq x c.2).length) 0 := by
  obtain ⟨ref, e1, e2, e3⟩ := argRef_ok I ha
  simp only [step, Prog.bind_run, e1, Out.bind_ok]
  obtain ⟨h', f1, ed⟩ := remove_ok I.bal (I.rep hi) eq e2 (outlives_ok I hi ha e3 ho)
  refine changeN_ok (P := fun cs' h' => cs' = (cs.filter fun c => !eq x c.2) ∧ Costs w.heap h' 0 ((cs.filter fun c => eq x c.2).length) 0) I hi ?_
  rw [f1]
  exact ⟨rfl, _, _, rfl, ed, rfl, ed.step.costs⟩

theorem s_removeIf (I : InvL cfg L C w) (hi : C i = some (full hd tl cs own)) (p : α → Bool) :
    (step cfg (.removeIf i p) w).SafeIf (Refuses cfg) fun q => q.1 = .num (cs.filter fun c => p c.2).length ∧
      ∃ cs', InvL cfg L (cput C i (some (full hd tl cs' own))) q.2 ∧
      cs' = (cs.filter fun c => !p c.2) ∧ Costs w.heap q.2.heap 0 ((cs.filter fun c => p c.2).length) 0 := by
  obtain ⟨h', f1, ed⟩ := removeIf_pure I.bal (I.rep hi) p
  refine changeN_ok (P := fun cs' h' => cs' = (cs.filter fun c => !p c.2) ∧ Costs w.heap h' 0 ((cs.filter fun c => p c.2).length) 0) I hi ?_
  simp only [Prog.bind_run, f1, Out.bind_ok]
  exact ⟨rfl, _, _, rfl, ed, rfl, ed.step.costs⟩

theorem s_unique (I : InvL cfg L C w) (hi : C i = some (full hd tl cs own)) (p : α → α → Bool) :
    (step cfg (.unique i p) w).SafeIf (Refuses cfg) fun q => q.1 = .num (cs.length - (uniqAll p cs).length) ∧
      ∃ cs', InvL cfg L (cput C i (some (full hd tl cs' own))) q.2 ∧
      cs' = uniqAll p cs ∧ Costs w.heap q.2.heap 0 (cs.length - (uniqAll p cs).length) 0 := by
  obtain ⟨h', f1, ed⟩ := unique_ok I.bal (I.rep hi) p
  refine changeN_ok (P := fun cs' h' => cs' = uniqAll p cs ∧ Costs w.heap h' 0 (cs.length - (uniqAll p cs).length) 0) I hi ?_
  rw [f1]
  exact ⟨rfl, _, _, rfl, ed, rfl, ed.step.costs⟩

/-! ## Rearranging -/

theorem s_sort (I : InvL cfg L C w) (hi : C i = some (full hd tl cs own)) (less : α → α → Bool) (hl : cs.length ≠ 1) :
    (step cfg (.sort i less) w).SafeIf (Refuses cfg) fun q => q.1 = .unit ∧ ∃ cs', InvL cfg L (cput C i (some (full hd tl cs' own))) q.2 ∧
      cs' = msortBy (onVal less) cs ∧ Costs w.heap q.2.heap 0 0 0 := by
  obtain ⟨h', e1, ed⟩ := sort_ok (less := less) I.bal (I.rep hi) hl
  refine change_ok (P := fun cs' h' => cs' = msortBy (onVal less) cs ∧ Costs w.heap h' 0 0 0) I hi ?_
  rw [e1]
  exact ⟨_, _, rfl, ed, rfl, ed.step.costs⟩

theorem s_reverse (I : InvL cfg L C w) (hi : C i = some (full hd tl cs own)) :
    ∃ w', step cfg (.reverse i) w = .ok (.unit, w') ∧ Costs w.heap w'.heap 0 0 0 ∧
      InvL cfg L (cput C i (some (if cfg.dbl then full tl hd cs.reverse own else full hd tl cs.reverse own))) w' := by
  by_cases hd' : cfg.dbl = true
  · obtain ⟨h', e1, e2, e3⟩ := reverse_dbl I.bal (I.rep hi) hd'
    refine ⟨⟨h', upd w.vars i (some (lst tl hd cs.reverse own))⟩, ?_, e3.costs, ?_⟩
    · simp only [step, change, Prog.bind_run, var_run (I.var hi), Out.bind_ok, inHeap_ok e1, setVar_run]
      rfl
    · rw [if_pos hd']
      refine I.put1 i (o := some (full tl hd cs.reverse own)) (by rw [hi]; exact e3) ?_
      rintro x hx; cases hx; exact e2
  · obtain ⟨h', e1, ed⟩ := reverse_fwd I.bal (I.rep hi) (by simpa using hd')
    refine ⟨⟨h', upd w.vars i (some (lst hd tl cs.reverse own))⟩, ?_, ed.step.costs, ?_⟩
    · simp only [step, change, Prog.bind_run, var_run (I.var hi), Out.bind_ok, inHeap_ok e1, setVar_run]
      rfl
    · rw [if_neg hd']
      refine I.put1 i (o := some (full hd tl cs.reverse own)) (by rw [hi]; exact ed.step) ?_
      rintro x hx; cases hx; exact ed.rep

theorem disj_virt (rp : Rep cfg h hd tl cs own) (ro : Rep cfg h hd2 tl2 ds own2) (hj : Disj hd tl cs hd2 tl2 ds)
    (hm : ∀ a ∈ addrs cs', a ∈ addrs cs ∨ a ∈ addrs ds) : Disj hd tl cs' hd2 tl2 ([] : Cells α) := by
  intro a ha hb
  rw [mem_nodes] at ha
  have hb' : a = hd2 ∨ a = tl2 := by simpa [nodes] using hb
  have hb2 : a ∈ nodes hd2 tl2 ds := by rw [mem_nodes]; rcases hb' with h | h <;> simp [h]
  rcases ha with rfl | ha | rfl
  · exact hj _ (by simp [nodes]) hb2
  · rcases hm a ha with h1 | h1
    · exact hj a (by rw [mem_nodes]; exact .inr (.inl h1)) hb2
    · rcases hb' with rfl | rfl
      · exact ro.hd_not_cell h1
      · exact ro.tl_not_cell h1
  · exact hj _ (by simp [nodes]) hb2

theorem s_merge (I : InvL cfg L C w) (hij : i ≠ j) (hi : C i = some (full hd tl cs own)) (hj : C j = some (full hd2 tl2 ds own)) (less : α → α → Bool)
    (hc : cs ≠ [] ∨ ds = []) :
    ∃ w', step cfg (.merge i j less) w = .ok (.unit, w') ∧ Costs w.heap w'.heap 0 0 0 ∧
      InvL cfg L (cput (cput C i (some (full hd tl (mrgBy (onVal less) cs ds) own))) j (some (full hd2 tl2 [] own))) w' := by
  have rp := I.rep hi
  have ro := I.rep hj
  have dj := I.disj hij hi hj
  have main : ∃ h', merge cfg less (lst hd tl cs own) (lst hd2 tl2 ds own) w.heap =
        .ok ((lst hd tl (mrgBy (onVal less) cs ds) own, lst hd2 tl2 ([] : Cells α) own), h') ∧
      Moved cfg w.heap hd tl cs own hd2 tl2 ds h' (mrgBy (onVal less) cs ds) := by
    by_cases hds : ds = []
    · subst hds
      refine ⟨w.heap, ?_, ?_⟩
      · unfold merge
        rw [Prog.bind_run, dbgAssert_run (by simp [lst])]
        simp only [Out.bind_ok]
        rw [Prog.bind_run, dbgAssert_run (by simp [lst])]
        simp only [Out.bind_ok]
        rw [if_pos (by simp [lst])]
        simp [mrgBy_nil']
      · rw [mrgBy_nil']
        exact ⟨rp, ro, Step.refl I.bal _⟩
    · exact merge_ok I.bal rp ro dj (hc.resolve_right hds) hds
  obtain ⟨h', e1, mv⟩ := main
  have hm := mv.moves (l := (lst hd tl (mrgBy (onVal less) cs ds) own, lst hd2 tl2 ([] : Cells α) own)) (disj_virt rp ro dj (by
    intro a ha
    have hp := (mrgBy_perm (onVal less) cs ds).map Prod.fst
    have := hp.mem_iff.1 ha
    simpa using this)) rfl
  obtain ⟨w', f1, f2, f3⟩ := change2_ok I hij hi hj e1 hm
  refine ⟨w', ?_, by rw [f2]; exact mv.step.costs, f3⟩
  simp only [step, hij, if_false]
  exact f1

theorem s_mergeMove_nil (I : InvL cfg L C w) (hij : i ≠ j) (hi : C i = some (full hd tl cs own)) (hj : C j = some (full hd2 tl2 [] own2)) (less : α → α → Bool) :
    ∃ w', step cfg (.mergeMove i j less) w = .ok (.unit, w') ∧ Costs w.heap w'.heap 0 0 0 ∧
      InvL cfg L (cput (cput C i (some (full hd tl cs own))) j (some (full hd2 tl2 [] own2))) w' := by
  have e1 : mergeMove cfg less (lst hd tl cs own) (lst hd2 tl2 ([] : Cells α) own2) w.heap = .ok ((lst hd tl cs own, lst hd2 tl2 ([] : Cells α) own2), w.heap) := by
    unfold mergeMove
    rw [Prog.bind_run, dbgAssert_run (by simp [lst])]
    simp only [Out.bind_ok]
    rw [Prog.bind_run, dbgAssert_run (by simp [lst])]
    simp only [Out.bind_ok]
    rw [if_pos (by simp [lst])]
    rfl
  obtain ⟨w', f1, f2, f3⟩ := change2_ok (cs' := cs) (o := full hd2 tl2 [] own2) I hij hi hj e1 ⟨rfl, I.rep hi, I.rep hj, I.disj hij hi hj, Step.refl I.bal _⟩
  refine ⟨w', ?_, by rw [f2]; exact ⟨rfl, rfl, rfl⟩, f3⟩
  simp only [step, hij, if_false]
  exact f1

theorem nodes_spliced (p : Nat) : ∀ a ∈ addrs (cs.take p ++ (ds ++ cs.drop p)), a ∈ addrs cs ∨ a ∈ addrs ds := by
  intro a ha
  obtain ⟨c, hc, rfl⟩ := List.mem_map.1 ha
  simp only [List.mem_append] at hc
  rcases hc with hc | hc | hc
  · exact .inl (List.mem_map_of_mem (List.mem_of_mem_take hc))
  · exact .inr (List.mem_map_of_mem hc)
  · exact .inl (List.mem_map_of_mem (List.mem_of_mem_drop hc))

theorem s_spliceAfter (I : InvL cfg L C w) (hij : i ≠ j) (hi : C i = some (full hd tl cs own)) (hj : C j = some (full hd2 tl2 ds own)) (hp : p ≤ cs.length)
    (hds : ds ≠ []) :
    ∃ w', step cfg (.spliceAfter i p j) w = .ok (.unit, w') ∧ Costs w.heap w'.heap 0 0 0 ∧
      InvL cfg L (cput (cput C i (some (full hd tl (cs.take p ++ (ds ++ cs.drop p)) own))) j (some (full hd2 tl2 [] own))) w' := by
  have rp := I.rep hi
  have dj := I.disj hij hi hj
  obtain ⟨h', e1, mv⟩ := spliceAfter_ok I.bal (rp.split p) (I.rep hj) (by rw [List.take_append_drop]; exact dj) hds
  rw [List.take_append_drop] at e1 mv
  obtain ⟨w', f1, f2, f3⟩ := change2_ok I hij hi hj (f := fun l o => do let it ← iterAt l p; spliceAfter cfg l it o)
    (by simp only [Prog.bind_run, at_ok rp hp, Out.bind_ok]; exact e1) (mv.moves (disj_virt rp (I.rep hj) dj (nodes_spliced p)) rfl)
  exact ⟨w', f1, by rw [f2]; exact mv.step.costs, f3⟩

theorem s_spliceAfterMove (I : InvL cfg L C w) (hij : i ≠ j) (hi : C i = some (full hd tl cs own)) (hj : C j = some (full hd2 tl2 ds own)) (hp : p ≤ cs.length)
    (hds : ds ≠ []) :
    ∃ w', step cfg (.spliceAfterMove i p j) w = .ok (.unit, w') ∧ Costs w.heap w'.heap 0 0 0 ∧
      InvL cfg L (cput (cput C i (some (full hd tl (cs.take p ++ (ds ++ cs.drop p)) own))) j (some (huskObj own))) w' := by
  have rp := I.rep hi
  have dj := I.disj hij hi hj
  obtain ⟨h', e1, mv⟩ := spliceAfterMove_ok I.bal (rp.split p) (I.rep hj) (by rw [List.take_append_drop]; exact dj) hds
  rw [List.take_append_drop] at e1 mv
  obtain ⟨w', f1, f2, f3⟩ := change2_ok I hij hi hj (f := fun l o => do let it ← iterAt l p; spliceAfterMove cfg l it o)
    (by simp only [Prog.bind_run, at_ok rp hp, Out.bind_ok]; exact e1) (mv.moves rfl)
  exact ⟨w', f1, by rw [f2]; exact mv.step.costs, f3⟩

theorem s_splice (hd' : cfg.dbl = true) (I : InvL cfg L C w) (hij : i ≠ j) (hi : C i = some (full hd tl cs own)) (hj : C j = some (full hd2 tl2 ds own))
    (hp : 1 ≤ p ∧ p ≤ cs.length + 1) (hds : ds ≠ []) :
    ∃ w', step cfg (.splice i p j) w = .ok (.unit, w') ∧ Costs w.heap w'.heap 0 0 0 ∧
      InvL cfg L (cput (cput C i (some (full hd tl (cs.take (p - 1) ++ (ds ++ cs.drop (p - 1))) own))) j (some (full hd2 tl2 [] own))) w' := by
  have rp := I.rep hi
  have dj := I.disj hij hi hj
  obtain ⟨h', e1, mv⟩ := splice_ok I.bal (rp.split (p - 1)) (I.rep hj) (by rw [List.take_append_drop]; exact dj) hds hd'
  rw [List.take_append_drop] at e1 mv
  obtain ⟨w', f1, f2, f3⟩ := change2_ok I hij hi hj (f := fun l o => do let it ← iterAt l p; splice cfg l it o)
    (by simp only [Prog.bind_run, at_next rp hp, Out.bind_ok]; exact e1) (mv.moves (disj_virt rp (I.rep hj) dj (nodes_spliced (p - 1))) rfl)
  exact ⟨w', f1, by rw [f2]; exact mv.step.costs, f3⟩

theorem s_spliceMove (hd' : cfg.dbl = true) (I : InvL cfg L C w) (hij : i ≠ j) (hi : C i = some (full hd tl cs own)) (hj : C j = some (full hd2 tl2 ds own))
    (hp : 1 ≤ p ∧ p ≤ cs.length + 1) (hds : ds ≠ []) :
    ∃ w', step cfg (.spliceMove i p j) w = .ok (.unit, w') ∧ Costs w.heap w'.heap 0 0 0 ∧
      InvL cfg L (cput (cput C i (some (full hd tl (cs.take (p - 1) ++ (ds ++ cs.drop (p - 1))) own))) j (some (huskObj own))) w' := by
  have rp := I.rep hi
  have dj := I.disj hij hi hj
  obtain ⟨h', e1, mv⟩ := spliceMove_ok I.bal (rp.split (p - 1)) (I.rep hj) (by rw [List.take_append_drop]; exact dj) hds hd'
  rw [List.take_append_drop] at e1 mv
  obtain ⟨w', f1, f2, f3⟩ := change2_ok I hij hi hj (f := fun l o => do let it ← iterAt l p; spliceMove cfg l it o)
    (by simp only [Prog.bind_run, at_next rp hp, Out.bind_ok]; exact e1) (mv.moves rfl)
  exact ⟨w', f1, by rw [f2]; exact mv.step.costs, f3⟩

theorem s_drain (I : InvL cfg L C w) (hi : C i = some (full hd tl cs own)) (es : List End) (he : cfg.dbl = true ∨ ∀ e ∈ es, e = .front) :
    ∃ w', step cfg (.drain i es) w = .ok (.opts (takes es (vals cs)).1, w') ∧ Costs w.heap w'.heap 0 (cs.length) 0 ∧
      InvL cfg L (cput C i (some (huskObj own))) w' := by
  obtain ⟨h', e1, e2⟩ := drain_ok I.bal (I.rep hi) es he
  refine ⟨⟨h', upd w.vars i (some ⟨none, none, 0, own⟩)⟩, ?_, e2.costs, ?_⟩
  · simp only [step, Prog.bind_run, var_run (I.var hi), Out.bind_ok, setVar_run, newMove]
    have := inHeap_ok (w := { w with vars := upd w.vars i (some (husk (lst hd tl cs own))) }) e1
    rw [this]
    rfl
  · refine I.put1 i (o := some (huskObj own)) (by rw [hi]; exact e2) ?_
    rintro x hx; cases hx; trivial

end

end Verif.Proof.LL
