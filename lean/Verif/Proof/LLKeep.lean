import Verif.Proof.LLProps
/-! # Linked lists: calls that keep all elements where they are -/
namespace Verif.Proof.LL
open Verif Verif.Model.LL
open Verif.Spec.LL hiding sorted
open Verif.Spec (End takes)

variable {α β : Type} {cfg : Cfg α}

/-- some list has node `a` with element `x` -/
def Holds (C : Ghost α) (a : Nat) (x : α) : Prop := ∃ i hd tl cs own, C i = some (full hd tl cs own) ∧ (a, x) ∈ cs

section
variable {C C' : Ghost α} {w w' : World α} {i j hd tl hd2 tl2 own own2 : Nat} {cs cs' ds : Cells α} {x : α} {op : Op α} {r : Res α} {A' : Ideal α}

theorem Inv.holds (I : Inv cfg C w) {a : Nat} {x : α} : Holds C a x ↔ Spec.LL.elemAt w.heap a = some x := by
  rw [I.elemAt_iff]
  constructor
  · rintro ⟨i, hd, tl, cs, own, h1, h2⟩; exact ⟨i, cs, I.cells h1, h2⟩
  · rintro ⟨i, cs, h1, h2⟩
    obtain ⟨hd, tl, a, h⟩ := cells_inv I h1
    exact ⟨i, hd, tl, cs, a, h, h2⟩

def Kept (cfg : Cfg α) (C : Ghost α) (q : Res α × World α) : Prop := ∃ C', Inv cfg C' q.2 ∧ ∀ a x, Holds C a x → Holds C' a x

theorem holds_new {o : Option (Obj α)} (hi : C i = none) {a : Nat} (h : Holds C a x) : Holds (cput C i o) a x := by
  obtain ⟨j, hd, tl, cs, own, h1, h2⟩ := h
  exact ⟨j, hd, tl, cs, own, by rw [cput_ne _ _ (by rintro rfl; rw [hi] at h1; cases h1)]; exact h1, h2⟩

theorem holds_edit (hi : C i = some (full hd tl cs own)) (hs : ∀ c ∈ cs, c ∈ cs') {a : Nat} (h : Holds C a x) :
    Holds (cput C i (some (full hd2 tl2 cs' own2))) a x := by
  obtain ⟨j, hd', tl', cs1, own', h1, h2⟩ := h
  by_cases hj : j = i
  · subst hj
    rw [hi] at h1; cases h1
    exact ⟨j, hd2, tl2, cs', own2, cput_same .., hs _ h2⟩
  · exact ⟨j, hd', tl', cs1, own', by rw [cput_ne _ _ hj]; exact h1, h2⟩

/-- all nodes of lists `i` and `j` are in the new lists -/
theorem holds_two {o o' : Option (Obj α)} (hs : ∀ k, k = i ∨ k = j → ∀ hd tl cs own, C k = some (full hd tl cs own) → ∀ c ∈ cs,
      Holds (cput (cput C i o) j o') c.1 c.2) {a : Nat} (h : Holds C a x) :
    Holds (cput (cput C i o) j o') a x := by
  obtain ⟨k, hd', tl', cs1, own', h1, h2⟩ := h
  by_cases hk : k = i ∨ k = j
  · exact hs k hk _ _ _ _ h1 _ h2
  · rw [not_or] at hk
    exact ⟨k, hd', tl', cs1, own', by rw [cput_ne _ _ hk.2, cput_ne _ _ hk.1]; exact h1, h2⟩

theorem kept_same (I : Inv cfg C w) (e : step cfg op w = .ok (r, w)) : (step cfg op w).SafeIf (Refuses cfg) (Kept cfg C) := by
  rw [e]; exact ⟨C, I, fun _ _ h => h⟩

theorem kept_new {y : Out (Res α × World α)} {Q : Nat → Nat → Cells α → Res α × World α → Prop} (hi : C i = none)
    (hx : y.SafeIf (Refuses cfg) fun q => q.1 = r ∧ ∃ hd tl cs, Inv cfg (cput C i (some (full hd tl cs own))) q.2 ∧ Q hd tl cs q) :
    y.SafeIf (Refuses cfg) (Kept cfg C) := by
  refine hx.imp ?_
  rintro q ⟨h1, hd, tl, cs, I, -⟩
  exact ⟨_, I, fun a x h => holds_new hi h⟩

theorem kept_edit {y : Out (Res α × World α)} {P : Cells α → Res α × World α → Prop} (hi : C i = some (full hd tl cs own))
    (hx : y.SafeIf (Refuses cfg) fun q => q.1 = r ∧ ∃ cs', Inv cfg (cput C i (some (full hd tl cs' own))) q.2 ∧ P cs' q)
    (hp : ∀ cs' q, P cs' q → ∀ c ∈ cs, c ∈ cs') : y.SafeIf (Refuses cfg) (Kept cfg C) := by
  refine hx.imp ?_
  rintro q ⟨h1, cs', I, hP⟩
  exact ⟨_, I, fun a x h => holds_edit hi (hp _ _ hP) h⟩

theorem kept_two {o o' : Option (Obj α)} (e : step cfg op w = .ok (r, w')) (I : Inv cfg (cput (cput C i o) j o') w')
    (hs : ∀ k, k = i ∨ k = j → ∀ hd tl cs own, C k = some (full hd tl cs own) → ∀ c ∈ cs, Holds (cput (cput C i o) j o') c.1 c.2) :
    (step cfg op w).SafeIf (Refuses cfg) (Kept cfg C) := by
  rw [e]; exact ⟨_, I, fun a x h => holds_two hs h⟩

theorem mem_around {c : Nat × α} {p : Nat} {ns : Cells α} (h : c ∈ cs) : c ∈ cs.take p ++ (ns ++ cs.drop p) := by
  rw [← List.take_append_drop p cs, List.mem_append] at h
  rcases h with h | h <;> simp [h]

/-- joining list `j` to list `i` -/
theorem kept_join {o' : Obj α} (hij : i ≠ j) (hi : C i = some (full hd tl cs own)) (hj : C j = some (full hd2 tl2 ds own2))
    (e : step cfg op w = .ok (r, w')) (I : Inv cfg (cput (cput C i (some (full hd tl cs' own))) j (some o')) w')
    (h1 : ∀ c ∈ cs, c ∈ cs') (h2 : ∀ c ∈ ds, c ∈ cs') : (step cfg op w).SafeIf (Refuses cfg) (Kept cfg C) := by
  refine kept_two e I ?_
  have key : ∀ c ∈ cs', Holds (cput (cput C i (some (full hd tl cs' own))) j (some o')) c.1 c.2 := fun c hc =>
    ⟨i, hd, tl, cs', own, by rw [cput_ne _ _ hij, cput_same], hc⟩
  rintro k (rfl | rfl) _ _ _ _ hk c hc
  · rw [hi] at hk; cases hk; exact key c (h1 c hc)
  · rw [hj] at hk; cases hk; exact key c (h2 c hc)

theorem step_keeps (op : Op α) (hop : destructive op = false) (I : Inv cfg C w)
    (hs : specStep false cfg.dbl cfg.dflt op (ideal C) = some (r, A')) : (step cfg op w).SafeIf (Refuses cfg) (Kept cfg C) := by
  have hs0 := hs
  cases op with
  | newAlloc i a => obtain ⟨h1, rfl, rfl⟩ := born_inv hs; exact kept_new h1 (s_newAlloc I h1 a)
  | newFill i n r a =>
    obtain ⟨x, h0, hs⟩ := Option.bind_eq_some_iff.1 hs
    obtain ⟨h1, rfl, rfl⟩ := born_inv hs; exact kept_new h1 (s_newFill I h1 h0 n a)
  | newCount i n a => obtain ⟨h1, rfl, rfl⟩ := born_inv hs; exact kept_new h1 (s_newCount I h1 n a)
  | newRange i xs a => obtain ⟨h1, rfl, rfl⟩ := born_inv hs; exact kept_new h1 (s_newRange I h1 xs a)
  | fromIter i xs => obtain ⟨h1, rfl, rfl⟩ := born_inv hs; exact kept_new h1 (s_fromIter I h1 xs)
  | newMove i j =>
    obtain ⟨o, h1, hs⟩ := bind_inv hs
    obtain ⟨h2, hs⟩ := needs_inv hs
    have h2 := ideal_isNone h2
    obtain ⟨w', e1, -, I'⟩ := s_newMove I h2 h1
    have hij : i ≠ j := by rintro rfl; rw [h1] at h2; cases h2
    refine kept_two e1 I' ?_
    rintro k (rfl | rfl) _ _ _ _ hk c hc
    · rw [h2] at hk; cases hk
    · rw [h1] at hk; cases hk
      exact ⟨i, _, _, _, _, by rw [cput_ne _ _ hij, cput_same], hc⟩
  | newMoveAlloc i j a =>
    obtain ⟨hd, tl, cs, own, h1, hs⟩ := full_inv (C := C) (i := _) (β := Res α × Ideal α) (y := (r, A')) (f := fun own ys => needs ((ideal C i).isNone) <| only false (a = own) <|
      some (.unit, put (put (ideal C) i (some ⟨some ys, a⟩)) j (some ⟨none, own⟩))) hs
    obtain ⟨h2, hs⟩ := needs_inv hs
    have h2 := ideal_isNone h2
    obtain ⟨rfl, hs⟩ := only_inv hs
    obtain ⟨w', e1, -, I'⟩ := s_newMoveAlloc I h2 h1
    have hij : i ≠ j := by rintro rfl; rw [h1] at h2; cases h2
    refine kept_two e1 I' ?_
    rintro k (rfl | rfl) _ _ _ _ hk c hc
    · rw [h2] at hk; cases hk
    · rw [h1] at hk; cases hk
      exact ⟨i, _, _, _, _, by rw [cput_ne _ _ hij, cput_same], hc⟩
  | newCopy i j =>
    obtain ⟨hd, tl, cs, own, h1, hs⟩ := full_inv (C := C) (i := _) (β := Res α × Ideal α) (y := (r, A')) (f := fun own ys => born (ideal C) i ⟨some ys, own⟩) hs
    obtain ⟨h2, rfl, rfl⟩ := born_inv hs
    exact kept_new h2 (s_newCopy I h2 h1)
  | newCopyAlloc i j a =>
    obtain ⟨hd, tl, cs, own, h1, hs⟩ := full_inv (C := C) (i := _) (β := Res α × Ideal α) (y := (r, A')) (f := fun _ ys => born (ideal C) i ⟨some ys, a⟩) hs
    obtain ⟨h2, rfl, rfl⟩ := born_inv hs
    exact kept_new h2 (s_newCopyAlloc I h2 h1 a)
  | swap i j =>
    obtain ⟨o, h1, hs⟩ := bind_inv hs
    obtain ⟨o', h2, hs⟩ := bind_inv hs
    obtain ⟨w', e1, -, I'⟩ := s_swap I h1 h2
    refine kept_two e1 I' ?_
    rintro k (rfl | rfl) _ _ _ _ hk c hc
    · rw [h1] at hk; cases hk
      exact ⟨j, _, _, _, _, cput_same .., hc⟩
    · rw [h2] at hk; cases hk
      by_cases hij : i = k
      · subst hij; rw [h1] at h2; cases h2; exact ⟨i, _, _, _, _, cput_same .., hc⟩
      · exact ⟨i, _, _, _, _, by rw [cput_ne _ _ hij, cput_same], hc⟩
  | insertAfter i p a =>
    obtain ⟨x, h0, hs⟩ := Option.bind_eq_some_iff.1 hs
    obtain ⟨hd, tl, cs, own, xs', h1, h2, rfl⟩ := edit_inv hs
    obtain ⟨hp, h2⟩ := needs_inv h2
    rw [vals_len] at hp
    refine kept_edit h1 (s_insertAfter I h1 h0 hp) ?_
    rintro cs' q ⟨⟨a, rfl⟩, -⟩ c hc
    exact mem_around (ns := [_]) hc
  | insertAfterFill i p n a =>
    obtain ⟨x, h0, hs⟩ := Option.bind_eq_some_iff.1 hs
    obtain ⟨hd, tl, cs, own, xs', h1, h2, rfl⟩ := edit_inv hs
    obtain ⟨hp, h2⟩ := needs_inv h2
    rw [vals_len] at hp
    refine kept_edit h1 (s_insertAfterFill I h1 h0 hp n) ?_
    rintro cs' q ⟨⟨ns, -, rfl⟩, -⟩ c hc
    exact mem_around hc
  | insertAfterRange i p xs =>
    obtain ⟨hd, tl, cs, own, xs', h1, h2, rfl⟩ := edit_inv hs
    obtain ⟨hp, h2⟩ := needs_inv h2
    rw [vals_len] at hp
    refine kept_edit h1 (s_insertAfterRange I h1 hp xs) ?_
    rintro cs' q ⟨⟨ns, -, rfl⟩, -⟩ c hc
    exact mem_around hc
  | insert i p a =>
    obtain ⟨hd', hs⟩ := needs_inv hs
    obtain ⟨x, h0, hs⟩ := Option.bind_eq_some_iff.1 hs
    obtain ⟨hd, tl, cs, own, xs', h1, h2, rfl⟩ := edit_inv hs
    obtain ⟨hp, h2⟩ := needs_inv h2
    rw [vals_len] at hp
    refine kept_edit h1 (s_insert hd' I h1 h0 hp) ?_
    rintro cs' q ⟨⟨a, rfl⟩, -⟩ c hc
    exact mem_around (ns := [_]) hc
  | insertFill i p n a =>
    obtain ⟨hd', hs⟩ := needs_inv hs
    obtain ⟨x, h0, hs⟩ := Option.bind_eq_some_iff.1 hs
    obtain ⟨hd, tl, cs, own, xs', h1, h2, rfl⟩ := edit_inv hs
    obtain ⟨hp, h2⟩ := needs_inv h2
    rw [vals_len] at hp
    refine kept_edit h1 (s_insertFill hd' I h1 h0 hp n) ?_
    rintro cs' q ⟨⟨ns, -, rfl⟩, -⟩ c hc
    exact mem_around hc
  | insertRange i p xs =>
    obtain ⟨hd', hs⟩ := needs_inv hs
    obtain ⟨hd, tl, cs, own, xs', h1, h2, rfl⟩ := edit_inv hs
    obtain ⟨hp, h2⟩ := needs_inv h2
    rw [vals_len] at hp
    refine kept_edit h1 (s_insertRange hd' I h1 hp xs) ?_
    rintro cs' q ⟨⟨ns, -, rfl⟩, -⟩ c hc
    exact mem_around hc
  | pushFront i a =>
    obtain ⟨x, h0, hs⟩ := Option.bind_eq_some_iff.1 hs
    obtain ⟨hd, tl, cs, own, xs', h1, h2, rfl⟩ := edit_inv hs
    refine kept_edit h1 (s_pushFront I h1 h0) ?_
    rintro cs' q ⟨⟨a, rfl⟩, -⟩ c hc
    simp [hc]
  | pushBack i a =>
    obtain ⟨hd', hs⟩ := needs_inv hs
    obtain ⟨x, h0, hs⟩ := Option.bind_eq_some_iff.1 hs
    obtain ⟨hd, tl, cs, own, xs', h1, h2, rfl⟩ := edit_inv hs
    refine kept_edit h1 (s_pushBack hd' I h1 h0) ?_
    rintro cs' q ⟨⟨a, rfl⟩, -⟩ c hc
    simp [hc]
  | merge i j less =>
    simp only [specStep] at hs
    by_cases hij : i = j
    · rw [if_pos hij] at hs
      obtain ⟨hd, tl, cs, own, h1, h2, rfl⟩ := ask_inv hs
      refine kept_same (r := .unit) I ?_
      simp only [step, hij, if_true]
      subst hij
      refine look_ok (I.var h1) ?_
      simp only [Prog.bind_run]
      rw [dbgAssert_run (by simp [lst])]
      rfl
    · rw [if_neg hij] at hs
      obtain ⟨-, rfl, hd, tl, cs, own, hd2, tl2, ds, p, h1, h2, h3, rfl⟩ := edit2_inv hs
      obtain ⟨hg, h3⟩ := needs_inv h3
      obtain ⟨hc, h3⟩ := only_inv h3
      rw [vals_ne, vals_nil_iff] at hc
      obtain ⟨w', e1, -, I'⟩ := s_merge I hij h1 h2 less hc
      exact kept_join hij h1 h2 e1 I' (fun c hc => (mrgBy_perm ..).mem_iff.2 (by simp [hc])) (fun c hc => (mrgBy_perm ..).mem_iff.2 (by simp [hc]))
  | mergeMove i j less =>
    simp only [specStep] at hs
    by_cases hij : i = j
    · rw [if_pos hij] at hs
      obtain ⟨hd, tl, cs, own, h1, h2, rfl⟩ := ask_inv hs
      refine kept_same (r := .unit) I ?_
      simp only [step, hij, if_true]
      subst hij
      refine look_ok (I.var h1) ?_
      simp only [Prog.bind_run]
      rw [dbgAssert_run (by simp [lst])]
      rfl
    · rw [if_neg hij] at hs
      obtain ⟨-, rfl, hd, tl, cs, own, hd2, tl2, ds, p, h1, h2, h3, rfl⟩ := edit2_inv hs
      obtain ⟨hg, h3⟩ := needs_inv h3
      obtain ⟨hc, h3⟩ := only_inv h3
      rw [vals_nil_iff] at hc
      subst hc
      obtain ⟨w', e1, -, I'⟩ := s_mergeMove_nil I hij h1 h2 less
      exact kept_join hij h1 h2 e1 I' (fun c hc => hc) (fun c hc => by cases hc)
  | spliceAfter i p j =>
    obtain ⟨hij, rfl, hd, tl, cs, own, hd2, tl2, ds, p, h1, h2, h3, rfl⟩ := edit2_inv hs
    obtain ⟨hp, h3⟩ := needs_inv h3
    obtain ⟨hc, h3⟩ := only_inv h3
    rw [vals_ne] at hc
    rw [vals_len] at hp
    obtain ⟨w', e1, -, I'⟩ := s_spliceAfter I hij h1 h2 hp hc
    exact kept_join hij h1 h2 e1 I' (fun c hc => mem_around hc) (fun c hc => by simp [hc])
  | spliceAfterMove i p j =>
    obtain ⟨hij, rfl, hd, tl, cs, own, hd2, tl2, ds, p, h1, h2, h3, rfl⟩ := edit2_inv hs
    obtain ⟨hp, h3⟩ := needs_inv h3
    obtain ⟨hc, h3⟩ := only_inv h3
    rw [vals_ne] at hc
    rw [vals_len] at hp
    obtain ⟨w', e1, -, I'⟩ := s_spliceAfterMove I hij h1 h2 hp hc
    exact kept_join hij h1 h2 e1 I' (fun c hc => mem_around hc) (fun c hc => by simp [hc])
  | splice i p j =>
    obtain ⟨hd', hs⟩ := needs_inv hs
    obtain ⟨hij, rfl, hd, tl, cs, own, hd2, tl2, ds, p, h1, h2, h3, rfl⟩ := edit2_inv hs
    obtain ⟨hp, h3⟩ := needs_inv h3
    obtain ⟨hc, h3⟩ := only_inv h3
    rw [vals_ne] at hc
    rw [vals_len] at hp
    obtain ⟨w', e1, -, I'⟩ := s_splice hd' I hij h1 h2 hp hc
    exact kept_join hij h1 h2 e1 I' (fun c hc => mem_around hc) (fun c hc => by simp [hc])
  | spliceMove i p j =>
    obtain ⟨hd', hs⟩ := needs_inv hs
    obtain ⟨hij, rfl, hd, tl, cs, own, hd2, tl2, ds, p, h1, h2, h3, rfl⟩ := edit2_inv hs
    obtain ⟨hp, h3⟩ := needs_inv h3
    obtain ⟨hc, h3⟩ := only_inv h3
    rw [vals_ne] at hc
    rw [vals_len] at hp
    obtain ⟨w', e1, -, I'⟩ := s_spliceMove hd' I hij h1 h2 hp hc
    exact kept_join hij h1 h2 e1 I' (fun c hc => mem_around hc) (fun c hc => by simp [hc])
  | reverse i =>
    obtain ⟨hd, tl, cs, own, xs', h1, h2, rfl⟩ := edit_inv hs
    obtain ⟨w', e1, -, I'⟩ := s_reverse I h1
    rw [e1]
    refine ⟨_, I', fun a x h => ?_⟩
    split <;> exact holds_edit h1 (fun c hc => List.mem_reverse.2 hc) h
  | sort i less =>
    obtain ⟨hd, tl, cs, own, xs', h1, h2, rfl⟩ := edit_inv hs
    obtain ⟨hg, h2⟩ := needs_inv h2
    obtain ⟨hc, h2⟩ := only_inv h2
    rw [vals_len] at hc
    refine kept_edit h1 (s_sort I h1 less hc) ?_
    rintro cs' q ⟨rfl, -⟩ c hc
    exact (msortBy_perm ..).mem_iff.2 hc
  | _ =>
    first
    | (cases hop; done)
    | (refine (step_ok _ I hs0).imp ?_
       rintro q ⟨-, C', I', -, hf⟩
       refine ⟨C', I', fun a x h => ?_⟩
       have : C' = C := funext fun l => hf l (by simp [writes])
       rw [this]; exact h)

/-- from a reachable state, calls that are not destructive leave all elements where they are -/
theorem reach_keeps (hr : Reach cfg w) {op : Op α} (hop : destructive op = false) {r : Res α} {A' : Ideal α}
    (hs : specStep false cfg.dbl cfg.dflt op (Spec.LL.view w) = some (r, A')) :
    (step cfg op w).SafeIf (Refuses cfg) fun q => ∀ a x, Spec.LL.elemAt w.heap a = some x → Spec.LL.elemAt q.2.heap a = some x := by
  obtain ⟨C, I⟩ := reach_inv hr
  refine (step_keeps op hop I (by rw [← I.view]; exact hs)).imp ?_
  rintro q ⟨C', I', h⟩ a x ha
  exact I'.holds.1 (h a x (I.holds.2 ha))

end
end Verif.Proof.LL
