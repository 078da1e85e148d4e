import Verif.Proof.LLFail2
/-! # Linked lists: helpers for the property theorems -/
namespace Verif.Proof.LL
open Verif Verif.Model.LL
open Verif.Spec.LL hiding sorted
open Verif.Spec (End takes)
open Verif.Proof.Mem (Cost)

variable {α β : Type} {cfg : Cfg α}

section
variable {C C' : Ghost α} {w w' : World α} {i j hd tl hd2 tl2 own own2 : Nat} {cs cs' ds : Cells α} {x : α} {op : Op α} {r : Res α}

theorem changes_of {P : Cells α → Prop} {c d n : Nat} (I : Inv cfg C w) (hi : C i = some (full hd tl cs own))
    (h : (step cfg op w).SafeIf (Refuses cfg) fun q => q.1 = r ∧ ∃ cs', Inv cfg (cput C i (some (full hd tl cs' own))) q.2 ∧ P cs' ∧
      Costs w.heap q.2.heap c d n) : Changes cfg op w i r P c d n := by
  unfold Changes
  refine h.imp ?_
  rintro ⟨r', w'⟩ ⟨h1, cs', I', hP, hc⟩
  obtain ⟨s1, s2, s3⟩ := I.seen I'
  refine ⟨h1, ⟨cs', s1, hP, ?_⟩, ?_, fun j hj => ⟨s2 j hj, ?_⟩, hc⟩
  · rw [s3]; simp [put, vals]
  · rw [s3]; simp [put, I.view, ideal, hi, Obj.value]
  · rw [s3]; simp [put, hj]

/-- the elements in memory are exactly those of the lists -/
theorem Inv.elemAt_iff (I : Inv cfg C w) {a : Nat} {x : α} :
    Spec.LL.elemAt w.heap a = some x ↔ ∃ i cs, Spec.LL.cells w i = some cs ∧ (a, x) ∈ cs := by
  constructor
  · intro h
    have hl : Live w.heap a := by
      intro hn; simp [Spec.LL.elemAt, hn] at h
    obtain ⟨i, hm⟩ := I.cover a hl
    cases hc : C i with
    | none => rw [hc] at hm; cases hm
    | some o =>
      obtain ⟨b, own⟩ := o
      cases b with
      | none => rw [hc] at hm; cases hm
      | some b =>
        obtain ⟨hd, tl, cs⟩ := b
        rw [hc] at hm
        have r := I.rep hc
        refine ⟨i, cs, I.cells hc, ?_⟩
        simp only [onodes, Obj.nodes, nodes, List.mem_cons, List.mem_append, List.not_mem_nil, or_false] at hm
        rcases hm with rfl | hm | rfl
        · rw [IsVirt.elemAt r.vhd] at h; cases h
        · obtain ⟨c, hc', rfl⟩ := List.mem_map.1 hm
          rw [(r.cells c hc').elemAt] at h
          cases h
          exact hc'
        · rw [IsVirt.elemAt r.vtl] at h; cases h
  · rintro ⟨i, cs, hc, hm⟩
    cases hC : C i with
    | none => rw [I.cells_none hC] at hc; cases hc
    | some o =>
      obtain ⟨b, own⟩ := o
      cases b with
      | none => rw [I.cells_husk hC] at hc; cases hc
      | some b =>
        obtain ⟨hd, tl, ds⟩ := b
        rw [I.cells hC] at hc
        cases hc
        exact ((I.rep hC).cells _ hm).elemAt

theorem cells_inv (I : Inv cfg C w) (hc : Spec.LL.cells w i = some cs) : ∃ hd tl a, C i = some (full hd tl cs a) := by
  cases hC : C i with
  | none => rw [I.cells_none hC] at hc; cases hc
  | some o =>
    obtain ⟨b, own⟩ := o
    cases b with
    | none => rw [I.cells_husk hC] at hc; cases hc
    | some b =>
      obtain ⟨hd, tl, ds⟩ := b
      rw [I.cells hC] at hc
      cases hc
      exact ⟨hd, tl, own, rfl⟩

theorem Inv.seen2 {o o' : Option (Obj α)} (I : Inv cfg C w) (I' : Inv cfg (cput (cput C i o) j o') w') :
    Spec.LL.view w' = put (put (Spec.LL.view w) i (o.map Obj.value)) j (o'.map Obj.value) ∧
    ∀ l, l ≠ i → l ≠ j → Spec.LL.cells w' l = Spec.LL.cells w l := by
  refine ⟨by rw [I'.view, I.view, ideal_put, ideal_put], fun l h1 h2 => I.cells_congr I' ?_⟩
  rw [cput_ne _ _ h2, cput_ne _ _ h1]

theorem full_of_view (I : Inv cfg C w) {xs : List α} {a : Nat} (hi : Spec.LL.view w i = some ⟨some xs, a⟩) :
    ∃ hd tl cs, C i = some (full hd tl cs a) ∧ vals cs = xs ∧ Spec.LL.cells w i = some cs := by
  rw [I.view] at hi
  obtain ⟨hd, tl, cs, h1, h2⟩ := ideal_full hi rfl
  exact ⟨hd, tl, cs, h1, h2, I.cells h1⟩

theorem none_of_view (I : Inv cfg C w) (hi : Spec.LL.view w i = none) : C i = none := by
  rw [I.view, ideal] at hi
  cases h : C i with
  | none => rfl
  | some o => rw [h] at hi; cases hi

/-- the nodes of a list made from nothing are new -/
theorem Inv.fresh_nodes (I : Inv cfg C w) (hi : C i = none) (I' : Inv cfg (cput C i (some (full hd tl cs own))) w') {c : Nat × α} (hc : c ∈ cs) :
    w.heap.info c.1 = none := by
  by_contra hn
  obtain ⟨l, hl⟩ := I.cover c.1 hn
  have hne : i ≠ l := by rintro rfl; rw [hi] at hl; cases hl
  refine I'.sep i l hne c.1 ?_ (by rw [cput_ne _ _ (Ne.symm hne)]; exact hl)
  rw [cput_same, onodes_full, nodes]
  exact List.mem_cons_of_mem _ (List.mem_append_left _ (List.mem_map.2 ⟨c, hc, rfl⟩))

/-! ## Sorting -/

theorem sorted_iff {less : α → α → Bool} {xs : List α} : Spec.LL.sorted less xs = true ↔ xs.Pairwise fun x y => less y x = false := by
  induction xs with
  | nil => simp [Spec.LL.sorted]
  | cons x xs ih => simp [Spec.LL.sorted, ih]

/-- equivalent elements stay in order -/
theorem insertBy_filter {less : α → α → Bool} {q : α → Bool} {x : α} {xs : List α}
    (hq : ∀ y ∈ xs, q x = true → q y = true → less y x = false) :
    (insertBy less x xs).filter q = (x :: xs).filter q := by
  induction xs with
  | nil => rfl
  | cons y ys ih =>
    simp only [insertBy]
    split
    · rename_i hl
      have := ih fun z hz => hq z (by simp [hz])
      cases hx : q x <;> cases hy : q y
      · simp_all [List.filter_cons]
      · simp_all [List.filter_cons]
      · simp_all [List.filter_cons]
      · rw [hq y (by simp) hx hy] at hl; cases hl
    · rfl

theorem sortBy_filter {less : α → α → Bool} {q : α → Bool} {xs : List α}
    (hq : ∀ x ∈ xs, ∀ y ∈ xs, q x = true → q y = true → less y x = false) : (sortBy less xs).filter q = xs.filter q := by
  induction xs with
  | nil => rfl
  | cons x xs ih =>
    rw [sortBy, insertBy_filter, List.filter_cons, List.filter_cons, ih fun a ha b hb => hq a (by simp [ha]) b (by simp [hb])]
    intro y hy
    exact hq x (by simp) y (by simp [mem_sortBy.1 hy])

theorem sortBy_total {less : α → α → Bool} (ht : ∀ x y, less x y = false → less y x = false → x = y) {xs ys : List α}
    (hs : Swo less xs) (hp : ys.Perm xs) : sortBy less ys = sortBy less xs := by
  refine List.Perm.eq_of_pairwise (le := fun x y => less y x = false) (fun a b _ _ h1 h2 => ht a b h2 h1)
    (sorted_iff.1 (sorted_sortBy hs fun x hx => hp.mem_iff.1 hx)) (sorted_iff.1 (sorted_sortBy hs fun x hx => hx)) ?_
  exact sortBy_perm.trans (hp.trans sortBy_perm.symm)

theorem uniqCells_sub (p : α → α → Bool) (x : α) (cs : Cells α) : (uniqCells p x cs).Sublist cs := by
  induction cs generalizing x with
  | nil => exact .refl _
  | cons c cs ih => simp only [uniqCells]; split <;> [exact .cons _ (ih _); exact .cons_cons _ (ih _)]

theorem uniqAll_sub (p : α → α → Bool) (cs : Cells α) : (uniqAll p cs).Sublist cs := by
  cases cs with
  | nil => exact .refl _
  | cons c cs => exact .cons_cons _ (uniqCells_sub ..)

/-! ## The restricted and the documented specification -/

theorem only_true {g : Prop} [Decidable g] {x : Option β} : only true g x = x := by simp [only]

theorem only_some {f : Bool} {g : Prop} [Decidable g] {x : Option β} {y : β} (h : only f g x = some y) : x = some y := by
  unfold only at h; split at h
  · exact h
  · cases h

theorem needs_some {g : Prop} [Decidable g] {x : Option β} {y : β} (h : needs g x = some y) : g ∧ x = some y := by
  unfold needs at h; split at h
  · exact ⟨‹_›, h⟩
  · cases h

theorem edit_mono {A : Ideal α} {f g : List α → Option (Res α × List α)} {p : Res α × Ideal α}
    (hfg : ∀ xs q, f xs = some q → g xs = some q) (h : edit A i f = some p) : edit A i g = some p := by
  unfold edit at h ⊢
  simp only [Option.bind_eq_some_iff, Option.map_eq_some_iff] at h ⊢
  obtain ⟨v, hv, xs, hx, q, hq, e⟩ := h
  exact ⟨v, hv, xs, hx, q, hfg _ _ hq, e⟩

theorem ask_mono {A : Ideal α} {f g : List α → Option (Res α)} {p : Res α × Ideal α}
    (hfg : ∀ xs q, f xs = some q → g xs = some q) (h : ask A i f = some p) : ask A i g = some p := by
  unfold ask at h ⊢
  simp only [Option.bind_eq_some_iff, Option.map_eq_some_iff] at h ⊢
  obtain ⟨v, hv, xs, hx, q, hq, e⟩ := h
  exact ⟨v, hv, xs, hx, q, hfg _ _ hq, e⟩

theorem edit2_mono {A : Ideal α} {f g : List α → List α → Option (List α × Option (List α))} {p : Res α × Ideal α}
    (hfg : ∀ xs ys q, f xs ys = some q → g xs ys = some q) (h : edit2 A i j f = some p) : edit2 A i j g = some p := by
  unfold edit2 at h ⊢
  simp only [Option.bind_eq_some_iff] at h ⊢
  obtain ⟨v, hv, xs, hx, v', hv', ys, hy, h⟩ := h
  refine ⟨v, hv, xs, hx, v', hv', ys, hy, ?_⟩
  obtain ⟨hn, h⟩ := needs_some h
  rw [Option.map_eq_some_iff] at h
  obtain ⟨q, hq, e⟩ := h
  rw [needs, if_pos hn, hfg _ _ _ hq, Option.map_some, e]

theorem needs_mono {g : Prop} [Decidable g] {x y : Option β} {b : β} (hxy : g → x = some b → y = some b) (h : needs g x = some b) :
    needs g y = some b := by
  obtain ⟨hg, h⟩ := needs_some h
  rw [needs, if_pos hg]; exact hxy hg h

theorem spec_documented {dbl : Bool} {dflt : α} {op : Op α} {A : Ideal α} {p : Res α × Ideal α} (ht : Strict op)
    (h : specStep false dbl dflt op A = some p) : specStep true dbl dflt op A = some p := by
  cases op
  case newMoveAlloc i j a =>
    simp only [specStep, Option.bind_eq_some_iff] at h ⊢
    obtain ⟨v, hv, ys, hy, h⟩ := h
    exact ⟨v, hv, ys, hy, needs_mono (fun _ h => by rw [only_true]; exact only_some h) h⟩
  case frontUncheckedConst i =>
    exact ask_mono (fun _ _ h => by rw [only_true]; exact only_some h) h
  case merge i j less =>
    simp only [specStep] at h ⊢
    split
    · rw [if_pos ‹_›] at h; exact h
    · rw [if_neg ‹_›] at h
      refine edit2_mono (fun xs ys q h => needs_mono (fun hg h => ?_) h) h
      rw [only_true]
      have := only_some h
      simp only [Bool.false_eq_true, if_false, if_true] at this ⊢
      rw [← this]
      have hs := swoOn_iff.1 hg.1
      rw [sortBy_total ht hs List.perm_append_comm]
  case mergeMove i j less =>
    simp only [specStep] at h ⊢
    split
    · rw [if_pos ‹_›] at h; exact h
    · rw [if_neg ‹_›] at h
      refine edit2_mono (fun xs ys q h => needs_mono (fun hg h => ?_) h) h
      rw [only_true]; exact only_some h
  case spliceAfter i p j => exact edit2_mono (fun _ _ _ h => needs_mono (fun _ h => by rw [only_true]; exact only_some h) h) h
  case spliceAfterMove i p j => exact edit2_mono (fun _ _ _ h => needs_mono (fun _ h => by rw [only_true]; exact only_some h) h) h
  case splice i p j =>
    exact needs_mono (fun _ h => edit2_mono (fun _ _ _ h => needs_mono (fun _ h => by rw [only_true]; exact only_some h) h) h) h
  case spliceMove i p j =>
    exact needs_mono (fun _ h => edit2_mono (fun _ _ _ h => needs_mono (fun _ h => by rw [only_true]; exact only_some h) h) h) h
  case remove i eq r =>
    simp only [specStep, Option.bind_eq_some_iff] at h ⊢
    obtain ⟨x, hx, h⟩ := h
    exact ⟨x, hx, edit_mono (fun _ _ h => by rw [only_true]; exact only_some h) h⟩
  case sort i less =>
    refine edit_mono (fun xs q h => needs_mono (fun hg h => ?_) h) h
    rw [only_true]
    have := only_some h
    simp only [Bool.false_eq_true, if_false, if_true] at this ⊢
    rw [← this, sortBy_total ht (swoOn_iff.1 hg) (List.reverse_perm xs)]
  case traverseRev i => exact needs_mono (fun _ h => ask_mono (fun _ _ h => by rw [only_true]; exact only_some h) h) h
  all_goals exact h

theorem specRun_documented {dbl : Bool} {dflt : α} {ops : List (Op α)} {A : Ideal α} {p : List (Res α) × Ideal α}
    (ht : ∀ op ∈ ops, Strict op) (h : specRun false dbl dflt ops A = some p) : specRun true dbl dflt ops A = some p := by
  induction ops generalizing A p with
  | nil => exact h
  | cons op ops ih =>
    simp only [specRun] at h ⊢
    cases h1 : specStep false dbl dflt op A with
    | none => rw [h1] at h; cases h
    | some q =>
      rw [spec_documented (ht op (by simp)) h1]
      rw [h1] at h
      simp only at h ⊢
      cases h2 : specRun false dbl dflt ops q.2 with
      | none => rw [h2] at h; cases h
      | some q' =>
        rw [ih (fun o ho => ht o (by simp [ho])) h2]
        rw [h2] at h
        exact h

/-! ## Histories that go wrong -/

theorem run_append_ub (ops ops' : List (Op α)) {rs : List (Res α)} (h : run cfg ops w = .ok (rs, w')) (h' : run cfg ops' w' = .ub) :
    run cfg (ops ++ ops') w = .ub := by
  induction ops generalizing w rs with
  | nil => cases h; exact h'
  | cons o ops ih =>
    simp only [run, List.cons_append, Prog.bind_run] at h ⊢
    cases hs : step cfg o w with
    | ok p =>
      rw [hs] at h
      simp only [Out.bind_ok] at h ⊢
      cases hr : run cfg ops p.2 with
      | ok q =>
        rw [hr] at h
        cases h
        rw [ih hr]
        rfl
      | _ => rw [hr] at h; cases h
    | _ => rw [hs] at h; cases h

/-- a history after which a further one is undefined -/
theorem fails_of (hc : ¬ Refuses cfg) (ops ops' : List (Op α)) {rs : List (Res α)} {A : Ideal α}
    (hs : specRun false cfg.dbl cfg.dflt ops (fun _ => none) = some (rs, A))
    (h : ∀ w, Reach cfg w → Spec.LL.view w = A → run cfg ops' w = .ub) : run cfg (ops ++ ops') {} = .ub := by
  obtain ⟨q, e, h1, C, I, hA⟩ := (run_ok (C := fun _ => none) ops inv_init hs).ok_of hc
  exact run_append_ub ops ops' (rs := q.1) (w' := q.2) e (h q.2 ⟨ops, rs, A, q.1, hs, e⟩ (by rw [I.view, hA]))

end
end Verif.Proof.LL
