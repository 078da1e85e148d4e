import Verif.Proof.LLSteps
/-! # Linked lists: every history refines the specification -/
namespace Verif.Proof.LL
open Verif Verif.Model.LL
open Verif.Spec.LL hiding sorted
open Verif.Spec (End takes take1)
open Verif.Proof.Mem (Cost)

variable {α β : Type} {cfg : Cfg α}

theorem needs_inv {g : Prop} [Decidable g] {x : Option β} {y : β} (h : needs g x = some y) : g ∧ x = some y := by
  unfold needs at h
  split at h
  · exact ⟨by assumption, h⟩
  · cases h

theorem only_inv {g : Prop} [Decidable g] {x : Option β} {y : β} (h : only false g x = some y) : g ∧ x = some y := by
  unfold only at h
  split at h
  · rename_i hg
    exact ⟨hg.resolve_left (by simp), h⟩
  · cases h

section
variable {L : LostNodes α} {C : Ghost α} {w : World α} {i j : Nat} {r : Res α} {A' : Ideal α}

theorem born_inv {v : Var α} (h : born (ideal C) i v = some (r, A')) : C i = none ∧ r = .unit ∧ A' = put (ideal C) i (some v) := by
  obtain ⟨h1, h2⟩ := needs_inv h
  cases h2
  exact ⟨ideal_isNone h1, rfl, rfl⟩

theorem bind_inv {f : Var α → Option β} {y : β} (h : (ideal C i).bind f = some y) : ∃ o, C i = some o ∧ f o.value = some y := by
  cases hi : ideal C i with
  | none => rw [hi] at h; cases h
  | some v =>
    rw [hi] at h
    obtain ⟨o, h1, rfl⟩ := ideal_some hi
    exact ⟨o, h1, h⟩

theorem full_inv {f : Nat → List α → Option β} {y : β} (h : ((ideal C i).bind fun v => v.items.bind fun xs => f v.alloc xs) = some y) :
    ∃ hd tl cs own, C i = some (full hd tl cs own) ∧ f own (vals cs) = some y := by
  obtain ⟨o, h1, h2⟩ := bind_inv h
  obtain ⟨b, a⟩ := o
  cases b with
  | none => cases h2
  | some b => exact ⟨b.1, b.2.1, b.2.2, a, h1, h2⟩

theorem edit_inv {f : List α → Option (Res α × List α)} (h : edit (ideal C) i f = some (r, A')) :
    ∃ hd tl cs own xs', C i = some (full hd tl cs own) ∧ f (vals cs) = some (r, xs') ∧ A' = put (ideal C) i (some ⟨some xs', own⟩) := by
  unfold edit at h
  obtain ⟨hd, tl, cs, own, h1, h2⟩ := full_inv (f := fun own xs => (f xs).map fun p => (p.1, put (ideal C) i (some ⟨some p.2, own⟩))) h
  obtain ⟨⟨r', xs'⟩, h3, h4⟩ := Option.map_eq_some_iff.1 h2
  simp only [Prod.mk.injEq] at h4
  obtain ⟨rfl, rfl⟩ := h4
  exact ⟨hd, tl, cs, own, xs', h1, h3, rfl⟩

theorem ask_inv {f : List α → Option (Res α)} (h : ask (ideal C) i f = some (r, A')) :
    ∃ hd tl cs own, C i = some (full hd tl cs own) ∧ f (vals cs) = some r ∧ A' = ideal C := by
  obtain ⟨hd, tl, cs, own, h1, h2⟩ := full_inv (C := C) (i := _) (β := Res α × Ideal α) (y := (r, A')) (f := fun _ xs => (f xs).map fun r => (r, ideal C)) h
  obtain ⟨r', h3, h4⟩ := Option.map_eq_some_iff.1 h2
  cases h4
  exact ⟨hd, tl, cs, own, h1, h3, rfl⟩

theorem edit2_inv {f : List α → List α → Option (List α × Option (List α))} (h : edit2 (ideal C) i j f = some (r, A')) :
    i ≠ j ∧ r = .unit ∧ ∃ hd tl cs own hd2 tl2 ds p, C i = some (full hd tl cs own) ∧ C j = some (full hd2 tl2 ds own) ∧ f (vals cs) (vals ds) = some p ∧
      A' = put (put (ideal C) i (some ⟨some p.1, own⟩)) j (some ⟨p.2, own⟩) := by
  unfold edit2 at h
  obtain ⟨hd, tl, cs, own, h1, h2⟩ := full_inv (f := fun own xs => (ideal C j).bind fun w => w.items.bind fun ys =>
    needs (i ≠ j ∧ own = w.alloc) <| (f xs ys).map fun p => ((.unit : Res α), put (put (ideal C) i (some ⟨some p.1, own⟩)) j (some ⟨p.2, w.alloc⟩))) h
  obtain ⟨hd2, tl2, ds, own2, h3, h4⟩ := full_inv (C := C) (i := _) (β := Res α × Ideal α) (y := (r, A')) (f := fun own2 ys =>
    needs (i ≠ j ∧ own = own2) <| (f (vals cs) ys).map fun p => (.unit, put (put (ideal C) i (some ⟨some p.1, own⟩)) j (some ⟨p.2, own2⟩))) h2
  obtain ⟨⟨hij, rfl⟩, h5⟩ := needs_inv h4
  obtain ⟨p, h6, h7⟩ := Option.map_eq_some_iff.1 h5
  simp only [Prod.mk.injEq] at h7
  obtain ⟨rfl, rfl⟩ := h7
  exact ⟨hij, rfl, hd, tl, cs, own, hd2, tl2, ds, p, h1, h3, h6, rfl⟩

/-- the run ends as the specification says, and the variables outside `ws` keep their nodes -/
def Meets (cfg : Cfg α) (L : LostNodes α) (C : Ghost α) (ws : List Nat) (r : Res α) (A' : Ideal α) (q : Res α × World α) : Prop :=
  q.1 = r ∧ ∃ C', InvL cfg L C' q.2 ∧ ideal C' = A' ∧ ∀ l, l ∉ ws → C' l = C l

/-- the call does this much work -/
def Did (h h' : Heap α) (k : Spec.LL.Work) : Prop := Costs h h' k.made k.ended k.nodes

/-- the run ends as the specification says and does the work it says -/
def Done (cfg : Cfg α) (L : LostNodes α) (C : Ghost α) (w : World α) (op : Op α) (r : Res α) (A' : Ideal α) (q : Res α × World α) : Prop :=
  Meets cfg L C (writes op) r A' q ∧ Did w.heap q.2.heap (work (ideal C) op)

theorem meets_same (I : InvL cfg L C w) (e : step cfg op w = .ok (r, w)) (hk : work (ideal C) op = nothing := by rfl) :
    (step cfg op w).SafeIf (Refuses cfg) (Done cfg L C w op r (ideal C)) := by
  rw [e]; exact ⟨⟨rfl, C, I, rfl, fun _ _ => rfl⟩, by rw [hk]; exact ⟨rfl, rfl, rfl⟩⟩

theorem meets_ok1 {w' : World α} {o : Option (Obj α)} (e : step cfg op w = .ok (r, w')) (I : InvL cfg L (cput C i o) w')
    (hi : ideal (cput C i o) = A') (hw : i ∈ writes op) (hk : Did w.heap w'.heap (work (ideal C) op)) :
    (step cfg op w).SafeIf (Refuses cfg) (Done cfg L C w op r A') := by
  rw [e]; exact ⟨⟨rfl, _, I, hi, fun l hl => cput_ne _ _ (by rintro rfl; exact hl hw)⟩, hk⟩

theorem meets_ok {w' : World α} {o o' : Option (Obj α)} (e : step cfg op w = .ok (r, w')) (I : InvL cfg L (cput (cput C i o) j o') w')
    (hi : ideal (cput (cput C i o) j o') = A') (hw : i ∈ writes op) (hw' : j ∈ writes op) (hk : Did w.heap w'.heap (work (ideal C) op)) :
    (step cfg op w).SafeIf (Refuses cfg) (Done cfg L C w op r A') := by
  rw [e]
  refine ⟨⟨rfl, _, I, hi, fun l hl => ?_⟩, hk⟩
  rw [cput_ne _ _ (by rintro rfl; exact hl hw'), cput_ne _ _ (by rintro rfl; exact hl hw)]

theorem meets_new {own a b c : Nat} {xs : List α}
    (hx : (step cfg op w).SafeIf (Refuses cfg) fun q => q.1 = r ∧ ∃ hd tl cs, InvL cfg L (cput C i (some (full hd tl cs own))) q.2 ∧ vals cs = xs ∧
      Costs w.heap q.2.heap a b c)
    (hw : i ∈ writes op) (hk : work (ideal C) op = ⟨a, b, c⟩) :
    (step cfg op w).SafeIf (Refuses cfg) (Done cfg L C w op r (put (ideal C) i (some ⟨some xs, own⟩))) := by
  refine hx.imp ?_
  rintro q ⟨h1, hd, tl, cs, I, rfl, h2⟩
  exact ⟨⟨h1, _, I, by rw [ideal_put]; rfl, fun l hl => cput_ne _ _ (by rintro rfl; exact hl hw)⟩, by rw [hk]; exact h2⟩

theorem meets_edit {hd tl own : Nat} {xs : List α} {P : Cells α → Res α × World α → Prop}
    (hx : (step cfg op w).SafeIf (Refuses cfg) fun q => q.1 = r ∧ ∃ cs', InvL cfg L (cput C i (some (full hd tl cs' own))) q.2 ∧ P cs' q)
    (hw : i ∈ writes op) (hp : ∀ cs' q, P cs' q → vals cs' = xs ∧ Did w.heap q.2.heap (work (ideal C) op)) :
    (step cfg op w).SafeIf (Refuses cfg) (Done cfg L C w op r (put (ideal C) i (some ⟨some xs, own⟩))) := by
  refine hx.imp ?_
  rintro q ⟨h1, cs, I, hP⟩
  exact ⟨⟨h1, _, I, by rw [ideal_put, ← (hp _ _ hP).1]; rfl, fun l hl => cput_ne _ _ (by rintro rfl; exact hl hw)⟩, (hp _ _ hP).2⟩

theorem did_of {h h' : Heap α} {a b c : Nat} {k : Spec.LL.Work} (hk : Costs h h' a b c) (e : k = ⟨a, b, c⟩) : Did h h' k := by subst e; exact hk

theorem work_add (a b c a' b' c' : Nat) : (⟨a, b, c⟩ + ⟨a', b', c'⟩ : Spec.LL.Work) = ⟨a + a', b + b', c + c'⟩ := rfl

theorem did_same {h h' : Heap α} (e : h' = h) : Did h h' nothing := by subst e; exact ⟨rfl, rfl, rfl⟩

theorem lenOf_full {hd tl own : Nat} {cs : Cells α} (h : C i = some (full hd tl cs own)) : lenOf (ideal C) i = cs.length := by
  simp [lenOf, ideal, h, Var.elems, value_full]

theorem elems_full {hd tl own : Nat} {cs : Cells α} (h : C i = some (full hd tl cs own)) :
    (ideal C i).elim [] Var.elems = vals cs := by
  simp [ideal, h, Var.elems, value_full]

theorem lenOf_obj {o : Obj α} (h : C i = some o) : lenOf (ideal C) i = o.value.elems.length := by
  simp [lenOf, ideal, h]

theorem vals_take (cs : Cells α) (n : Nat) : vals (cs.take n) = (vals cs).take n := List.map_take ..
theorem vals_drop (cs : Cells α) (n : Nat) : vals (cs.drop n) = (vals cs).drop n := List.map_drop ..
theorem vals_append (cs ds : Cells α) : vals (cs ++ ds) = vals cs ++ vals ds := List.map_append
theorem vals_cons (a : Nat) (x : α) (ds : Cells α) : vals ((a, x) :: ds) = x :: vals ds := rfl
theorem vals_len (cs : Cells α) : (vals cs).length = cs.length := List.length_map ..
theorem vals_ne (cs : Cells α) : vals cs ≠ [] ↔ cs ≠ [] := by cases cs <;> simp
theorem vals_nil_iff (cs : Cells α) : vals cs = [] ↔ cs = [] := by cases cs <;> simp

theorem all_front {es : List End} {d : Bool} (h : d = true ∨ es.all (· == .front) = true) : d = true ∨ ∀ e ∈ es, e = .front := by
  rcases h with h | h
  · exact .inl h
  · right; simpa using h

/-- Every call the specification allows runs without undefined behaviour, answers as specified and leaves a world with the
specified contents; it fails only if the allocator refuses memory. -/
theorem step_done (op : Op α) (I : InvL cfg L C w) (hs : specStep false cfg.dbl cfg.dflt op (ideal C) = some (r, A')) :
    (step cfg op w).SafeIf (Refuses cfg) (Done cfg L C w op r A') := by
  cases op with
  | newAlloc i a => obtain ⟨h1, rfl, rfl⟩ := born_inv hs; exact meets_new (s_newAlloc I h1 a) (by simp [writes]) (by simp [work, build, lenOf_full, *])
  | newFill i n r a =>
    obtain ⟨x, h0, hs⟩ := Option.bind_eq_some_iff.1 hs
    obtain ⟨h1, rfl, rfl⟩ := born_inv hs; exact meets_new (s_newFill I h1 h0 n a) (by simp [writes]) (by simp [work, build, lenOf_full, *])
  | newCount i n a => obtain ⟨h1, rfl, rfl⟩ := born_inv hs; exact meets_new (s_newCount I h1 n a) (by simp [writes]) (by simp [work, build, lenOf_full, *])
  | newRange i xs a => obtain ⟨h1, rfl, rfl⟩ := born_inv hs; exact meets_new (s_newRange I h1 xs a) (by simp [writes]) (by simp [work, build, lenOf_full, *])
  | fromIter i xs => obtain ⟨h1, rfl, rfl⟩ := born_inv hs; exact meets_new (s_fromIter I h1 xs) (by simp [writes]) (by simp [work, build, lenOf_full, *])
  | newMove i j =>
    obtain ⟨o, h1, hs⟩ := bind_inv hs
    obtain ⟨h2, hs⟩ := needs_inv hs
    cases hs
    obtain ⟨w', e1, hk, I'⟩ := s_newMove I (ideal_isNone h2) h1
    exact meets_ok e1 I' (by rw [ideal_put, ideal_put]; rfl) (by simp [writes]) (by simp [writes]) (did_same hk)
  | newMoveAlloc i j a =>
    obtain ⟨hd, tl, cs, own, h1, hs⟩ := full_inv (C := C) (i := _) (β := Res α × Ideal α) (y := (r, A')) (f := fun own ys => needs ((ideal C i).isNone) <| only false (a = own) <|
      some (.unit, put (put (ideal C) i (some ⟨some ys, a⟩)) j (some ⟨none, own⟩))) hs
    obtain ⟨h2, hs⟩ := needs_inv hs
    obtain ⟨rfl, hs⟩ := only_inv hs
    cases hs
    obtain ⟨w', e1, hk, I'⟩ := s_newMoveAlloc I (ideal_isNone h2) h1
    exact meets_ok e1 I' (by rw [ideal_put, ideal_put]; rfl) (by simp [writes]) (by simp [writes]) (did_same hk)
  | newCopy i j =>
    obtain ⟨hd, tl, cs, own, h1, hs⟩ := full_inv (C := C) (i := _) (β := Res α × Ideal α) (y := (r, A')) (f := fun own ys => born (ideal C) i ⟨some ys, own⟩) hs
    obtain ⟨h2, rfl, rfl⟩ := born_inv hs
    exact meets_new (s_newCopy I h2 h1) (by simp [writes]) (by rw [work, lenOf_full h1]; rfl)
  | newCopyAlloc i j a =>
    obtain ⟨hd, tl, cs, own, h1, hs⟩ := full_inv (C := C) (i := _) (β := Res α × Ideal α) (y := (r, A')) (f := fun _ ys => born (ideal C) i ⟨some ys, a⟩) hs
    obtain ⟨h2, rfl, rfl⟩ := born_inv hs
    exact meets_new (s_newCopyAlloc I h2 h1 a) (by simp [writes]) (by rw [work, lenOf_full h1]; rfl)
  | copyAssign i j =>
    obtain ⟨o, h1, hs⟩ := bind_inv hs
    obtain ⟨hd, tl, cs, own, h2, hs⟩ := full_inv (C := C) (i := _) (β := Res α × Ideal α) (y := (r, A')) (f := fun own ys =>
      if i = j then some (.unit, ideal C) else some (.unit, put (ideal C) i (some ⟨some ys, own⟩))) hs
    by_cases hij : i = j
    · rw [if_pos hij] at hs; cases hs
      refine meets_same I ?_ (by rw [work, if_pos hij])
      simp only [step, hij, if_true]
      exact look_ok (I.var h2) rfl
    · rw [if_neg hij] at hs; cases hs
      refine (s_copyAssign I hij h1 h2).imp ?_
      rintro q ⟨h3, hd', tl', cs', I', hv, hk⟩
      exact ⟨⟨h3, _, I', by rw [ideal_put, ← hv]; rfl, fun l hl => cput_ne _ _ (by simpa [writes] using hl)⟩,
        did_of hk (by rw [work, if_neg hij, lenOf_obj h1, lenOf_full h2, lose, build, work_add]; simp)⟩
  | moveAssign i j =>
    obtain ⟨o, h1, hs⟩ := bind_inv hs
    obtain ⟨o', h2, hs⟩ := bind_inv hs
    by_cases hij : i = j
    · rw [if_pos hij] at hs; cases hs
      refine meets_same I ?_ (by rw [work, if_pos hij])
      simp only [step, hij, if_true]
      exact look_ok (l := o'.fields) (by rw [I.vars, h2]; rfl) rfl
    · rw [if_neg hij] at hs; cases hs
      obtain ⟨w', e1, hk, I'⟩ := s_moveAssign I hij h1 h2
      exact meets_ok e1 I' (by rw [ideal_put, ideal_put]; rfl) (by simp [writes]) (by simp [writes])
        (did_of hk (by rw [work, if_neg hij, lenOf_obj h1]; rfl))
  | listAssign i xs =>
    obtain ⟨hd, tl, cs, own, xs', h1, h2, rfl⟩ := edit_inv hs
    cases h2
    exact meets_edit (s_listAssign I h1 xs) (by simp [writes]) fun _ _ h => ⟨h.1, did_of h.2 (by rw [work, lenOf_full h1, lose, add, work_add]; simp)⟩
  | swap i j =>
    obtain ⟨o, h1, hs⟩ := bind_inv hs
    obtain ⟨o', h2, hs⟩ := bind_inv hs
    cases hs
    obtain ⟨w', e1, hk, I'⟩ := s_swap I h1 h2
    exact meets_ok e1 I' (by rw [ideal_put, ideal_put]; rfl) (by simp [writes]) (by simp [writes]) (did_same hk)
  | drop i =>
    obtain ⟨o, h1, hs⟩ := bind_inv hs
    cases hs
    obtain ⟨w', e1, hk, I'⟩ := s_drop I h1
    exact meets_ok1 e1 I' (by rw [ideal_put]; rfl) (by simp [writes]) (did_of hk (by rw [work, lenOf_obj h1]; rfl))
  | moved i =>
    obtain ⟨o, h1, hs⟩ := bind_inv hs
    cases hs
    refine meets_same I ?_
    refine look_ok (l := o.fields) (by rw [I.vars, h1]; rfl) ?_
    obtain ⟨b, a⟩ := o
    cases b <;> rfl
  | clear i =>
    obtain ⟨hd, tl, cs, own, xs', h1, h2, rfl⟩ := edit_inv hs
    cases h2
    exact meets_edit (s_clear I h1) (by simp [writes]) fun _ _ h => ⟨by rw [h.1]; rfl, did_of h.2 (by rw [work, lenOf_full h1]; rfl)⟩
  | front i =>
    obtain ⟨hd, tl, cs, own, h1, h2, rfl⟩ := ask_inv hs
    cases h2
    exact meets_same I (look_ok (I.var h1) (by simp only [Prog.bind_run, front_ok (I.rep h1), Out.bind_ok]; rfl))
  | frontUnchecked i =>
    obtain ⟨hd, tl, cs, own, h1, h2, rfl⟩ := ask_inv hs
    cases cs with
    | nil => cases h2
    | cons c cs =>
      cases h2
      exact meets_same I (look_ok (I.var h1) (by simp only [Prog.bind_run, frontUnchecked_ok (I.rep h1), Out.bind_ok]; rfl))
  | frontUncheckedConst i =>
    obtain ⟨hd, tl, cs, own, h1, h2, rfl⟩ := ask_inv hs
    obtain ⟨h3, h2⟩ := only_inv h2
    cases cs with
    | nil => cases h2
    | cons c cs =>
      cases h2
      refine meets_same I (look_ok (I.var h1) ?_)
      by_cases hd' : cfg.dbl = true
      · have : cs = [] := by
          rw [hd', vals_len, List.length_cons] at h3
          exact List.eq_nil_of_length_eq_zero (by simpa using h3)
        subst this
        have := frontUncheckedConst_dbl (cs := []) (c := c) (I.rep h1) hd'
        rw [List.nil_append] at this
        simp only [Prog.bind_run, this, Out.bind_ok]; rfl
      · simp only [Prog.bind_run, frontUncheckedConst_fwd (I.rep h1) (by simpa using hd'), Out.bind_ok]; rfl
  | back i =>
    obtain ⟨hd', hs⟩ := needs_inv hs
    obtain ⟨hd, tl, cs, own, h1, h2, rfl⟩ := ask_inv hs
    cases h2
    exact meets_same I (look_ok (I.var h1) (by simp only [Prog.bind_run, back_ok (I.rep h1) hd', Out.bind_ok]; rfl))
  | backUnchecked i =>
    obtain ⟨hd', hs⟩ := needs_inv hs
    obtain ⟨hd, tl, cs, own, h1, h2, rfl⟩ := ask_inv hs
    rcases List.eq_nil_or_concat cs with rfl | ⟨cs, c, rfl⟩
    · cases h2
    · rw [List.concat_eq_append] at h1 h2
      rw [vals_append, show vals [c] = [c.2] from rfl, List.getLast?_append_of_ne_nil _ (by simp)] at h2
      cases h2
      exact meets_same I (look_ok (I.var h1) (by simp only [Prog.bind_run, backUnchecked_ok (I.rep h1) hd', Out.bind_ok]; rfl))
  | size i =>
    obtain ⟨hd, tl, cs, own, h1, h2, rfl⟩ := ask_inv hs
    cases h2
    exact meets_same I (look_ok (I.var h1) (by rw [vals_len]; rfl))
  | empty i =>
    obtain ⟨hd, tl, cs, own, h1, h2, rfl⟩ := ask_inv hs
    cases h2
    exact meets_same I (look_ok (I.var h1) (by cases cs <;> rfl))
  | set i p x =>
    obtain ⟨hd, tl, cs, own, xs', h1, h2, rfl⟩ := edit_inv hs
    obtain ⟨⟨h3, h4⟩, h2⟩ := needs_inv h2
    cases h2
    rw [vals_len] at h4
    obtain ⟨x', hx'⟩ : ∃ x', (vals cs)[p - 1]? = some x' := ⟨_, List.getElem?_eq_getElem (by rw [vals_len]; omega)⟩
    obtain ⟨c1, a, c2, rfl, h5⟩ := cell_at hx'
    obtain ⟨w', e1, I', hk⟩ := s_set I h1 x
    rw [show c1.length + 1 = p by omega] at e1
    refine meets_ok1 e1 I' ?_ (by simp [writes]) hk
    rw [ideal_put, ← h5]
    congr 2
    simp [full, Obj.value]
  | get i p =>
    obtain ⟨hd, tl, cs, own, h1, h2, rfl⟩ := ask_inv hs
    obtain ⟨h3, h2⟩ := needs_inv h2
    obtain ⟨x, h4, h5⟩ := Option.map_eq_some_iff.1 h2
    subst h5
    obtain ⟨c1, a, c2, rfl, h6⟩ := cell_at h4
    refine meets_same I (look_ok (I.var h1) ?_)
    have := get_ok (I.rep h1)
    rw [show c1.length + 1 = p by omega] at this
    simp only [Prog.bind_run] at this ⊢
    have hn := at_next (p := p) (I.rep h1) ⟨by omega, by simp; omega⟩
    rw [hn] at this ⊢
    simp only [Out.bind_ok] at this ⊢
    rw [this]
    rfl
  | insertAfter i p r =>
    obtain ⟨x, h0, hs⟩ := Option.bind_eq_some_iff.1 hs
    obtain ⟨hd, tl, cs, own, xs', h1, h2, rfl⟩ := edit_inv hs
    obtain ⟨h3, h2⟩ := needs_inv h2
    cases h2
    rw [vals_len] at h3
    refine meets_edit (s_insertAfter I h1 h0 h3) (by simp [writes]) ?_
    rintro _ _ ⟨⟨a, rfl⟩, hk⟩
    refine ⟨?_, by simpa [Did, work, lose, add, lenOf_full h1] using hk⟩
    rw [vals_append, vals_cons, vals_take, vals_drop]
  | insertAfterFill i p n r =>
    obtain ⟨x, h0, hs⟩ := Option.bind_eq_some_iff.1 hs
    obtain ⟨hd, tl, cs, own, xs', h1, h2, rfl⟩ := edit_inv hs
    obtain ⟨h3, h2⟩ := needs_inv h2
    cases h2
    rw [vals_len] at h3
    refine meets_edit (s_insertAfterFill I h1 h0 h3 n) (by simp [writes]) ?_
    rintro _ _ ⟨⟨ns, hv, rfl⟩, hk⟩
    refine ⟨?_, by simpa [Did, work, lose, add, lenOf_full h1] using hk⟩
    rw [vals_append, vals_append, hv, vals_take, vals_drop]
  | insertAfterRange i p ys =>
    obtain ⟨hd, tl, cs, own, xs', h1, h2, rfl⟩ := edit_inv hs
    obtain ⟨h3, h2⟩ := needs_inv h2
    cases h2
    rw [vals_len] at h3
    refine meets_edit (s_insertAfterRange I h1 h3 ys) (by simp [writes]) ?_
    rintro _ _ ⟨⟨ns, hv, rfl⟩, hk⟩
    refine ⟨?_, by simpa [Did, work, lose, add, lenOf_full h1] using hk⟩
    rw [vals_append, vals_append, hv, vals_take, vals_drop]
  | eraseAfter i p =>
    obtain ⟨hd, tl, cs, own, xs', h1, h2, rfl⟩ := edit_inv hs
    obtain ⟨h3, h2⟩ := needs_inv h2
    cases h2
    rw [vals_len] at h3
    refine meets_edit (s_eraseAfter I h1 h3) (by simp [writes]) ?_
    rintro _ _ ⟨rfl, hk⟩
    refine ⟨?_, did_of hk (by rw [work, lenOf_full h1, lose]; congr 1; split <;> simp <;> omega)⟩
    rw [vals_append, vals_take, vals_drop]
  | eraseAfterRange i lo hi =>
    obtain ⟨hd, tl, cs, own, xs', h1, h2, rfl⟩ := edit_inv hs
    obtain ⟨⟨h3, h4⟩, h2⟩ := needs_inv h2
    rw [vals_len] at h4
    have key := s_eraseAfterRange I h1 h3 h4
    by_cases he : lo = hi
    · rw [if_pos he] at h2 key; cases h2
      refine meets_edit key (by simp [writes]) ?_
      rintro _ _ ⟨h5, hk⟩
      refine ⟨?_, did_of hk (by rw [work, lose, h5, if_pos he]; congr 1; omega)⟩
      rw [h5, if_pos he]
    · rw [if_neg he] at h2 key; cases h2
      refine meets_edit key (by simp [writes]) ?_
      rintro _ _ ⟨h5, hk⟩
      refine ⟨?_, did_of hk (by rw [work, lose, h5, if_neg he]; congr 1; simp; omega)⟩
      rw [h5, if_neg he, vals_append, vals_take, vals_drop]
  | insert i p r =>
    obtain ⟨hd', hs⟩ := needs_inv hs
    obtain ⟨x, h0, hs⟩ := Option.bind_eq_some_iff.1 hs
    obtain ⟨hd, tl, cs, own, xs', h1, h2, rfl⟩ := edit_inv hs
    obtain ⟨h3, h2⟩ := needs_inv h2
    cases h2
    rw [vals_len] at h3
    refine meets_edit (s_insert hd' I h1 h0 h3) (by simp [writes]) ?_
    rintro _ _ ⟨⟨a, rfl⟩, hk⟩
    refine ⟨?_, by simpa [Did, work, lose, add, lenOf_full h1] using hk⟩
    rw [vals_append, vals_cons, vals_take, vals_drop]
  | insertFill i p n r =>
    obtain ⟨hd', hs⟩ := needs_inv hs
    obtain ⟨x, h0, hs⟩ := Option.bind_eq_some_iff.1 hs
    obtain ⟨hd, tl, cs, own, xs', h1, h2, rfl⟩ := edit_inv hs
    obtain ⟨h3, h2⟩ := needs_inv h2
    cases h2
    rw [vals_len] at h3
    refine meets_edit (s_insertFill hd' I h1 h0 h3 n) (by simp [writes]) ?_
    rintro _ _ ⟨⟨ns, hv, rfl⟩, hk⟩
    refine ⟨?_, by simpa [Did, work, lose, add, lenOf_full h1] using hk⟩
    rw [vals_append, vals_append, hv, vals_take, vals_drop]
  | insertRange i p ys =>
    obtain ⟨hd', hs⟩ := needs_inv hs
    obtain ⟨hd, tl, cs, own, xs', h1, h2, rfl⟩ := edit_inv hs
    obtain ⟨h3, h2⟩ := needs_inv h2
    cases h2
    rw [vals_len] at h3
    refine meets_edit (s_insertRange hd' I h1 h3 ys) (by simp [writes]) ?_
    rintro _ _ ⟨⟨ns, hv, rfl⟩, hk⟩
    refine ⟨?_, by simpa [Did, work, lose, add, lenOf_full h1] using hk⟩
    rw [vals_append, vals_append, hv, vals_take, vals_drop]
  | erase i p =>
    obtain ⟨hd', hs⟩ := needs_inv hs
    obtain ⟨hd, tl, cs, own, xs', h1, h2, rfl⟩ := edit_inv hs
    obtain ⟨h3, h2⟩ := needs_inv h2
    rw [vals_len] at h3 h2
    have key := s_erase hd' I h1 h3
    by_cases he : p = 0 ∨ p = cs.length + 1
    · rw [if_pos he] at h2; cases h2
      refine meets_edit key (by simp [writes]) ?_
      rintro _ _ ⟨h5, hk⟩
      refine ⟨?_, did_of hk (by rw [work, lenOf_full h1, lose, h5, if_pos he, if_pos he]; simp)⟩
      rw [h5, if_pos he]
    · rw [if_neg he] at h2; cases h2
      refine meets_edit key (by simp [writes]) ?_
      rintro _ _ ⟨h5, hk⟩
      refine ⟨?_, did_of hk (by rw [work, lenOf_full h1, lose, h5, if_neg he, if_neg he]; congr 1; simp; omega)⟩
      rw [h5, if_neg he, vals_append, vals_take, vals_drop]
  | eraseRange i lo hi =>
    obtain ⟨hd', hs⟩ := needs_inv hs
    obtain ⟨hd, tl, cs, own, xs', h1, h2, rfl⟩ := edit_inv hs
    obtain ⟨⟨h3, h4, h5⟩, h2⟩ := needs_inv h2
    rw [vals_len] at h5
    cases h2
    refine meets_edit (s_eraseRange hd' I h1 h3 h4 h5) (by simp [writes]) ?_
    rintro _ _ ⟨rfl, hk⟩
    refine ⟨?_, did_of hk (by rw [work, lose]; congr 1; simp; omega)⟩
    rw [vals_append, vals_take, vals_drop]
  | pushFront i r =>
    obtain ⟨x, h0, hs⟩ := Option.bind_eq_some_iff.1 hs
    obtain ⟨hd, tl, cs, own, xs', h1, h2, rfl⟩ := edit_inv hs
    cases h2
    refine meets_edit (s_pushFront I h1 h0) (by simp [writes]) ?_
    rintro _ _ ⟨⟨a, rfl⟩, hk⟩
    refine ⟨?_, by simpa [Did, work, lose, add, lenOf_full h1] using hk⟩
    rfl
  | popFront i =>
    obtain ⟨hd, tl, cs, own, xs', h1, h2, rfl⟩ := edit_inv hs
    obtain ⟨h3, h2⟩ := needs_inv h2
    cases h2
    cases cs with
    | nil => exact absurd rfl h3
    | cons c cs =>
      refine meets_edit (s_popFront I h1) (by simp [writes]) ?_
      rintro _ _ ⟨rfl, hk⟩
      refine ⟨?_, by simpa [Did, work, lose, add, lenOf_full h1] using hk⟩
      rfl
  | pushBack i r =>
    obtain ⟨hd', hs⟩ := needs_inv hs
    obtain ⟨x, h0, hs⟩ := Option.bind_eq_some_iff.1 hs
    obtain ⟨hd, tl, cs, own, xs', h1, h2, rfl⟩ := edit_inv hs
    cases h2
    refine meets_edit (s_pushBack hd' I h1 h0) (by simp [writes]) ?_
    rintro _ _ ⟨⟨a, rfl⟩, hk⟩
    refine ⟨?_, by simpa [Did, work, lose, add, lenOf_full h1] using hk⟩
    rw [vals_append]; rfl
  | popBack i =>
    obtain ⟨hd', hs⟩ := needs_inv hs
    obtain ⟨hd, tl, cs, own, xs', h1, h2, rfl⟩ := edit_inv hs
    obtain ⟨h3, h2⟩ := needs_inv h2
    cases h2
    rcases List.eq_nil_or_concat cs with rfl | ⟨cs, c, rfl⟩
    · exact absurd rfl h3
    · rw [List.concat_eq_append] at h1 ⊢
      refine meets_edit (s_popBack hd' I h1) (by simp [writes]) ?_
      rintro _ _ ⟨rfl, hk⟩
      refine ⟨?_, by simpa [Did, work, lose, add, lenOf_full h1] using hk⟩
      rw [vals_append]
      simp
  | resize i n =>
    obtain ⟨hd, tl, cs, own, xs', h1, h2, rfl⟩ := edit_inv hs
    cases h2
    refine meets_edit (s_resize I h1 n) (by simp [writes]) ?_
    rintro _ _ ⟨⟨ns, hv, rfl⟩, hk⟩
    refine ⟨?_, did_of hk (by rw [work, lenOf_full h1]; split <;> simp [lose, add] <;> omega)⟩
    rw [vals_append, hv, vals_take, vals_len]
  | resizeFill i n r =>
    obtain ⟨x, h0, hs⟩ := Option.bind_eq_some_iff.1 hs
    obtain ⟨hd, tl, cs, own, xs', h1, h2, rfl⟩ := edit_inv hs
    cases h2
    refine meets_edit (s_resizeFill I h1 h0 n) (by simp [writes]) ?_
    rintro _ _ ⟨⟨ns, hv, rfl⟩, hk⟩
    refine ⟨?_, did_of hk (by rw [work, lenOf_full h1]; split <;> simp [lose, add] <;> omega)⟩
    rw [vals_append, hv, vals_take, vals_len]
  | merge i j less =>
    simp only [specStep] at hs
    by_cases hij : i = j
    · rw [if_pos hij] at hs
      obtain ⟨hd, tl, cs, own, h1, h2, rfl⟩ := ask_inv hs
      cases h2
      refine meets_same I ?_
      simp only [step, if_pos hij]
      refine look_ok (I.var h1) ?_
      rw [Prog.bind_run, dbgAssert_run (by simp [lst])]
      rfl
    · rw [if_neg hij] at hs
      obtain ⟨-, rfl, hd, tl, cs, own, hd2, tl2, ds, p, h1, h2, h3, rfl⟩ := edit2_inv hs
      obtain ⟨⟨h4, h5, h6⟩, h3⟩ := needs_inv h3
      obtain ⟨h7, h3⟩ := only_inv h3
      cases h3
      rw [vals_ne, vals_nil_iff] at h7
      obtain ⟨w', e1, hk, I'⟩ := s_merge I hij h1 h2 less h7
      refine meets_ok e1 I' ?_ (by simp [writes]) (by simp [writes]) hk
      rw [ideal_put, ideal_put]
      have sw := swoOn_iff.1 h4
      have : vals (mrgBy (onVal less) cs ds) = sortBy less (vals ds ++ vals cs) := by
        rw [vals_mrg]
        exact mrgBy_sorted sw (fun x hx => List.mem_append_left _ hx) (fun x hx => List.mem_append_right _ hx) h5 h6
      simp only [Option.map_some, value_full, this]
      rfl
  | mergeMove i j less =>
    simp only [specStep] at hs
    by_cases hij : i = j
    · rw [if_pos hij] at hs
      obtain ⟨hd, tl, cs, own, h1, h2, rfl⟩ := ask_inv hs
      cases h2
      refine meets_same I ?_
      simp only [step, if_pos hij]
      refine look_ok (I.var h1) ?_
      rw [Prog.bind_run, dbgAssert_run (by simp [lst])]
      rfl
    · rw [if_neg hij] at hs
      obtain ⟨-, rfl, hd, tl, cs, own, hd2, tl2, ds, p, h1, h2, h3, rfl⟩ := edit2_inv hs
      obtain ⟨-, h3⟩ := needs_inv h3
      obtain ⟨h7, h3⟩ := only_inv h3
      rw [if_pos h7] at h3
      cases h3
      rw [vals_nil_iff] at h7
      subst h7
      obtain ⟨w', e1, hk, I'⟩ := s_mergeMove_nil I hij h1 h2 less
      exact meets_ok e1 I' (by rw [ideal_put, ideal_put]; rfl) (by simp [writes]) (by simp [writes]) hk
  | spliceAfter i p j =>
    obtain ⟨hij, rfl, hd, tl, cs, own, hd2, tl2, ds, q, h1, h2, h3, rfl⟩ := edit2_inv hs
    obtain ⟨h4, h3⟩ := needs_inv h3
    obtain ⟨h5, h3⟩ := only_inv h3
    cases h3
    rw [vals_len] at h4
    rw [vals_ne] at h5
    obtain ⟨w', e1, hk, I'⟩ := s_spliceAfter I hij h1 h2 h4 h5
    exact meets_ok e1 I' (by rw [ideal_put, ideal_put, ← vals_take, ← vals_drop, ← vals_append, ← vals_append]; rfl) (by simp [writes]) (by simp [writes]) hk
  | splice i p j =>
    obtain ⟨hd', hs⟩ := needs_inv hs
    obtain ⟨hij, rfl, hd, tl, cs, own, hd2, tl2, ds, q, h1, h2, h3, rfl⟩ := edit2_inv hs
    obtain ⟨h4, h3⟩ := needs_inv h3
    obtain ⟨h5, h3⟩ := only_inv h3
    cases h3
    rw [vals_len] at h4
    rw [vals_ne] at h5
    obtain ⟨w', e1, hk, I'⟩ := s_splice hd' I hij h1 h2 h4 h5
    exact meets_ok e1 I' (by rw [ideal_put, ideal_put, ← vals_take, ← vals_drop, ← vals_append, ← vals_append]; rfl) (by simp [writes]) (by simp [writes]) hk
  | spliceAfterMove i p j =>
    obtain ⟨hij, rfl, hd, tl, cs, own, hd2, tl2, ds, q, h1, h2, h3, rfl⟩ := edit2_inv hs
    obtain ⟨h4, h3⟩ := needs_inv h3
    obtain ⟨h5, h3⟩ := only_inv h3
    cases h3
    rw [vals_len] at h4
    rw [vals_ne] at h5
    obtain ⟨w', e1, hk, I'⟩ := s_spliceAfterMove I hij h1 h2 h4 h5
    exact meets_ok e1 I' (by rw [ideal_put, ideal_put, ← vals_take, ← vals_drop, ← vals_append, ← vals_append]; rfl) (by simp [writes]) (by simp [writes]) hk
  | spliceMove i p j =>
    obtain ⟨hd', hs⟩ := needs_inv hs
    obtain ⟨hij, rfl, hd, tl, cs, own, hd2, tl2, ds, q, h1, h2, h3, rfl⟩ := edit2_inv hs
    obtain ⟨h4, h3⟩ := needs_inv h3
    obtain ⟨h5, h3⟩ := only_inv h3
    cases h3
    rw [vals_len] at h4
    rw [vals_ne] at h5
    obtain ⟨w', e1, hk, I'⟩ := s_spliceMove hd' I hij h1 h2 h4 h5
    exact meets_ok e1 I' (by rw [ideal_put, ideal_put, ← vals_take, ← vals_drop, ← vals_append, ← vals_append]; rfl) (by simp [writes]) (by simp [writes]) hk
  | remove i eq r =>
    obtain ⟨x, h0, hs⟩ := Option.bind_eq_some_iff.1 hs
    obtain ⟨hd, tl, cs, own, xs', h1, h2, rfl⟩ := edit_inv hs
    obtain ⟨h3, h2⟩ := only_inv h2
    cases h2
    have key := s_remove I h1 h0 eq h3
    rw [show (cs.filter fun c => eq x c.2).length = ((vals cs).filter fun y => eq x y).length by rw [← vals_filter, vals_len]] at key
    refine meets_edit key (by simp [writes]) ?_
    rintro _ _ ⟨rfl, hk⟩
    refine ⟨?_, did_of hk (by rw [work, elems_full h1, h0, List.countP_eq_length_filter]; rfl)⟩
    exact vals_filter (fun y => !eq x y) cs
  | removeIf i p =>
    obtain ⟨hd, tl, cs, own, xs', h1, h2, rfl⟩ := edit_inv hs
    cases h2
    have key := s_removeIf I h1 p
    rw [show (cs.filter fun c => p c.2).length = ((vals cs).filter p).length by rw [← vals_filter, vals_len]] at key
    refine meets_edit key (by simp [writes]) ?_
    rintro _ _ ⟨rfl, hk⟩
    refine ⟨?_, did_of hk (by rw [work, elems_full h1, List.countP_eq_length_filter]; rfl)⟩
    exact vals_filter (fun y => !p y) cs
  | reverse i =>
    obtain ⟨hd, tl, cs, own, xs', h1, h2, rfl⟩ := edit_inv hs
    cases h2
    obtain ⟨w', e1, hk, I'⟩ := s_reverse I h1
    refine meets_ok1 e1 I' ?_ (by simp [writes]) hk
    rw [ideal_put]
    split <;> simp [full, Obj.value]
  | unique i p =>
    obtain ⟨hd, tl, cs, own, xs', h1, h2, rfl⟩ := edit_inv hs
    cases h2
    have key := s_unique I h1 p
    rw [← vals_uniqAll, vals_len, vals_len]
    refine meets_edit key (by simp [writes]) ?_
    rintro _ _ ⟨rfl, hk⟩
    refine ⟨?_, did_of hk (by rw [work, lenOf_full h1, elems_full h1, ← vals_uniqAll, vals_len]; rfl)⟩
    rfl
  | sort i less =>
    obtain ⟨hd, tl, cs, own, xs', h1, h2, rfl⟩ := edit_inv hs
    obtain ⟨h3, h2⟩ := needs_inv h2
    obtain ⟨h4, h2⟩ := only_inv h2
    cases h2
    rw [vals_len] at h4
    refine meets_edit (s_sort I h1 less h4) (by simp [writes]) ?_
    rintro _ _ ⟨rfl, hk⟩
    refine ⟨?_, hk⟩
    rw [vals_msort, msortBy_eq (swoOn_iff.1 h3) fun _ h => h]
    rfl
  | traverse i =>
    obtain ⟨hd, tl, cs, own, h1, h2, rfl⟩ := ask_inv hs
    cases h2
    exact meets_same I (look_ok (I.var h1) (by simp only [Prog.bind_run, traverse_ok (I.rep h1), Out.bind_ok]; rfl))
  | traverseBack i =>
    obtain ⟨hd', hs⟩ := needs_inv hs
    obtain ⟨hd, tl, cs, own, h1, h2, rfl⟩ := ask_inv hs
    cases h2
    exact meets_same I (look_ok (I.var h1) (by simp only [Prog.bind_run, traverseBack_ok (I.rep h1) hd', Out.bind_ok]; rfl))
  | traverseRev i =>
    obtain ⟨hd', hs⟩ := needs_inv hs
    obtain ⟨hd, tl, cs, own, h1, h2, rfl⟩ := ask_inv hs
    obtain ⟨h3, h2⟩ := only_inv h2
    rw [vals_nil_iff] at h3
    subst h3
    cases h2
    exact meets_same I (look_ok (I.var h1) (by simp only [Prog.bind_run, traverseRev_nil (I.rep h1) hd', Out.bind_ok]; rfl))
  | iter i es =>
    obtain ⟨hd, tl, cs, own, h1, h2, rfl⟩ := ask_inv hs
    obtain ⟨h3, h2⟩ := needs_inv h2
    cases h2
    refine meets_same I (look_ok (I.var h1) ?_)
    have e1 := iter_ok (I.rep h1) es (all_front h3)
    simp only [Prog.bind_run] at e1 ⊢
    cases e2 : iter (lst hd tl cs own) w.heap with
    | ok q =>
      rw [e2] at e1
      simp only [Out.bind_ok] at e1 ⊢
      rw [e1]
      rfl
    | _ => rw [e2] at e1; cases e1
  | drain i es =>
    obtain ⟨hd, tl, cs, own, h1, hs⟩ := full_inv (C := C) (i := _) (β := Res α × Ideal α) (y := (r, A')) (f := fun own xs => needs (cfg.dbl = true ∨ es.all (· == .front) = true) <|
      some (.opts (takes es xs).1, put (ideal C) i (some ⟨none, own⟩))) hs
    obtain ⟨h3, hs⟩ := needs_inv hs
    cases hs
    obtain ⟨w', e1, hk, I'⟩ := s_drain I h1 es (all_front h3)
    exact meets_ok1 e1 I' (by rw [ideal_put]; rfl) (by simp [writes]) (did_of hk (by rw [work, lenOf_full h1]; rfl))
  | print i shw =>
    obtain ⟨hd, tl, cs, own, h1, h2, rfl⟩ := ask_inv hs
    cases h2
    exact meets_same I (look_ok (I.var h1) (by simp only [Prog.bind_run, print_ok shw (I.rep h1), Out.bind_ok]; rfl))

theorem step_ok (op : Op α) (I : InvL cfg L C w) (hs : specStep false cfg.dbl cfg.dflt op (ideal C) = some (r, A')) :
    (step cfg op w).SafeIf (Refuses cfg) (Meets cfg L C (writes op) r A') := (step_done op I hs).imp fun _ h => h.1

/-- Every history the specification allows. -/
theorem run_ok (ops : List (Op α)) {rs : List (Res α)} (I : InvL cfg L C w)
    (hs : specRun false cfg.dbl cfg.dflt ops (ideal C) = some (rs, A')) :
    (run cfg ops w).SafeIf (Refuses cfg) fun q => q.1 = rs ∧ ∃ C', InvL cfg L C' q.2 ∧ ideal C' = A' := by
  induction ops generalizing C w rs A' with
  | nil => cases hs; exact ⟨rfl, C, I, rfl⟩
  | cons op ops ih =>
    simp only [specRun] at hs
    cases h1 : specStep false cfg.dbl cfg.dflt op (ideal C) with
    | none => rw [h1] at hs; cases hs
    | some q =>
      obtain ⟨r, A1⟩ := q
      rw [h1] at hs
      simp only at hs
      cases h2 : specRun false cfg.dbl cfg.dflt ops A1 with
      | none => rw [h2] at hs; cases hs
      | some q2 =>
        obtain ⟨rs', A2⟩ := q2
        rw [h2] at hs
        cases hs
        simp only [run, Prog.bind_run]
        refine (step_ok op I h1).bind ?_
        rintro ⟨r', w'⟩ ⟨e, C', I', e', -⟩
        simp only at e I'
        subst e e'
        refine (ih I' h2).bind ?_
        rintro ⟨rs2, w2⟩ ⟨e, C2, I2, e'⟩
        simp only at e
        subst e
        exact ⟨rfl, C2, I2, e'⟩

end

end Verif.Proof.LL
