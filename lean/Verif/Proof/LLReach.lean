import Verif.Proof.LLHist
/-! # Linked lists: reachable states and their views -/
namespace Verif.Proof.LL
open Verif Verif.Model.LL
open Verif.Spec.LL hiding sorted
open Verif.Proof.Mem (Cost sumTo)

variable {α β : Type} {cfg : Cfg α}

section
variable {L : LostNodes α} {C C' : Ghost α} {w w' : World α} {h h' : Heap α} {i j hd tl hd2 tl2 own own2 : Nat} {cs cs' ds c1 c2 : Cells α} {x : α}

theorem IsElem.elemAt {a : Nat} (e : IsElem cfg own h a x) : elemAt h a = some x := by
  rw [IsElem] at e; simp [Spec.LL.elemAt, e]

theorem Rep.nodesFrom (r : Rep cfg h hd tl (c1 ++ c2) own) : nodesFrom h (lastOf hd c1) c2.length = some c2 := by
  induction c2 generalizing c1 with
  | nil => rfl
  | cons c c2 ih =>
    have r2 : Rep cfg h hd tl ((c1 ++ [c]) ++ c2) own := by simpa using r
    have hn := r.nxt_at
    have := ih r2
    rw [lastOf_append, lastOf_cons, lastOf_nil] at this
    simp only [List.length_cons, Spec.LL.nodesFrom, hn, headOf_cons, (r.cells c (by simp)).elemAt, Option.bind_some, this, Option.map_some]

theorem InvL.cells (I : InvL cfg L C w) (hi : C i = some (full hd tl cs own)) : cells w i = some cs := by
  have := (Rep.nodesFrom (c1 := []) (I.rep hi))
  simp only [Spec.LL.cells, I.var hi, Option.bind_some, lst]
  exact this

theorem InvL.cells_husk (I : InvL cfg L C w) (hi : C i = some (huskObj own)) : Spec.LL.cells w i = none := by
  simp [Spec.LL.cells, I.vars, hi, Obj.fields]

theorem InvL.cells_none (I : InvL cfg L C w) (hi : C i = none) : Spec.LL.cells w i = none := by
  simp [Spec.LL.cells, I.vars, hi]

theorem InvL.view (I : InvL cfg L C w) : view w = ideal C := by
  funext i
  cases hi : C i with
  | none => simp [Spec.LL.view, I.vars, hi, ideal]
  | some o =>
    obtain ⟨b, a⟩ := o
    cases b with
    | none => simp [Spec.LL.view, I.vars, hi, ideal, Obj.fields, Obj.value]
    | some b =>
      obtain ⟨hd, tl, cs⟩ := b
      have := (Rep.nodesFrom (c1 := []) (I.rep hi))
      rw [lastOf_nil] at this
      simp [Spec.LL.view, I.var hi, lst, this, ideal, hi, Obj.value]

/-- equal ghosts give equal cells -/
theorem InvL.cells_congr {L' : LostNodes α} (I : InvL cfg L C w) (I' : InvL cfg L' C' w') (e : C' i = C i) : Spec.LL.cells w' i = Spec.LL.cells w i := by
  cases hi : C i with
  | none => rw [I.cells_none hi, I'.cells_none (by rw [e, hi])]
  | some o =>
    obtain ⟨b, a⟩ := o
    cases b with
    | none => rw [I.cells_husk hi, I'.cells_husk (by rw [e, hi])]
    | some b => rw [I.cells hi, I'.cells (by rw [e, hi])]

theorem reach_inv (hr : Reach cfg w) : ∃ C, Inv cfg C w := by
  obtain ⟨ops, rs, A, rs', hs, he⟩ := hr
  have := run_ok (C := fun _ => none) ops inv_init hs
  rw [he] at this
  obtain ⟨-, C, I, -⟩ := this
  exact ⟨C, I⟩

theorem specRun_snoc {full dbl : Bool} {dflt : α} (ops : List (Op α)) (op : Op α) {A A' A'' : Ideal α} {rs : List (Res α)}
    {r : Res α} (h1 : specRun full dbl dflt ops A = some (rs, A')) (h2 : specStep full dbl dflt op A' = some (r, A'')) :
    specRun full dbl dflt (ops ++ [op]) A = some (rs ++ [r], A'') := by
  induction ops generalizing A rs with
  | nil => cases h1; simp [specRun, h2]
  | cons o ops ih =>
    simp only [specRun, List.cons_append] at h1 ⊢
    cases hs : specStep full dbl dflt o A with
    | none => rw [hs] at h1; cases h1
    | some p =>
      rw [hs] at h1
      simp only at h1 ⊢
      cases hr : specRun full dbl dflt ops p.2 with
      | none => rw [hr] at h1; cases h1
      | some q =>
        rw [hr] at h1
        cases h1
        rw [ih hr]
        rfl

theorem run_snoc (ops : List (Op α)) (op : Op α) {w w' w'' : World α} {rs : List (Res α)} {r : Res α}
    (h1 : run cfg ops w = .ok (rs, w')) (h2 : step cfg op w' = .ok (r, w'')) : run cfg (ops ++ [op]) w = .ok (rs ++ [r], w'') := by
  induction ops generalizing w rs with
  | nil => cases h1; simp [run, Prog.bind_run, h2]
  | cons o ops ih =>
    simp only [run, List.cons_append, Prog.bind_run] at h1 ⊢
    cases hs : step cfg o w with
    | ok p =>
      rw [hs] at h1
      simp only [Out.bind_ok] at h1 ⊢
      cases hr : run cfg ops p.2 with
      | ok q =>
        rw [hr] at h1
        cases h1
        rw [ih hr]
        rfl
      | _ => rw [hr] at h1; cases h1
    | _ => rw [hs] at h1; cases h1

theorem reach_snoc (hr : Reach cfg w) {op : Op α} {r r' : Res α} {A' : Ideal α}
    (hs : specStep false cfg.dbl cfg.dflt op (Spec.LL.view w) = some (r, A')) (he : step cfg op w = .ok (r', w')) : Reach cfg w' := by
  obtain ⟨ops, rs, A, rs', h1, h2⟩ := hr
  have hA : Spec.LL.view w = A := by
    have := run_ok (C := fun _ => none) ops inv_init h1
    rw [h2] at this
    obtain ⟨-, C, I, e⟩ := this
    rw [I.view, e]
  rw [hA] at hs
  exact ⟨ops ++ [op], _, _, _, specRun_snoc ops op h1 hs, run_snoc ops op h2 he⟩

theorem Out.SafeIf.with {may : Prop} {x : Out β} {P Q : β → Prop} (h : x.SafeIf may P) (hq : ∀ b, x = .ok b → P b → Q b) : x.SafeIf may Q := by
  cases x with
  | ok b => exact hq b rfl h
  | _ => exact h

/-- one allowed call from a reachable state -/
theorem reach_step (hr : Reach cfg w) {op : Op α} {r : Res α} {A' : Ideal α}
    (hs : specStep false cfg.dbl cfg.dflt op (Spec.LL.view w) = some (r, A')) :
    (Model.LL.step cfg op w).SafeIf (Refuses cfg) fun q => q.1 = r ∧ Spec.LL.view q.2 = A' ∧ Reach cfg q.2 ∧
      ∀ l, l ∉ writes op → Spec.LL.cells q.2 l = Spec.LL.cells w l := by
  obtain ⟨C, I⟩ := reach_inv hr
  have hok := step_ok op I (by rw [← I.view]; exact hs)
  refine Out.SafeIf.with hok ?_
  rintro ⟨r', w'⟩ he ⟨h1, C', I', e, hf⟩
  exact ⟨h1, by rw [I'.view, e], reach_snoc hr hs he, fun l hl => I.cells_congr I' (hf l hl)⟩

theorem reach_run (hr : Reach cfg w) (ops : List (Op α)) {rs : List (Res α)} {A' : Ideal α}
    (hs : specRun false cfg.dbl cfg.dflt ops (Spec.LL.view w) = some (rs, A')) :
    (Model.LL.run cfg ops w).SafeIf (Refuses cfg) fun q => q.1 = rs ∧ Spec.LL.view q.2 = A' ∧ Reach cfg q.2 := by
  induction ops generalizing w rs with
  | nil => cases hs; exact ⟨rfl, rfl, hr⟩
  | cons op ops ih =>
    simp only [specRun] at hs
    cases h1 : specStep false cfg.dbl cfg.dflt op (Spec.LL.view w) with
    | none => rw [h1] at hs; cases hs
    | some p =>
      obtain ⟨r, A1⟩ := p
      rw [h1] at hs
      simp only at hs
      cases h2 : specRun false cfg.dbl cfg.dflt ops A1 with
      | none => rw [h2] at hs; cases hs
      | some q =>
        obtain ⟨rs', A2⟩ := q
        rw [h2] at hs
        cases hs
        simp only [Model.LL.run, Prog.bind_run]
        refine (reach_step hr h1).bind ?_
        rintro ⟨r', w1⟩ ⟨e1, e2, r1, -⟩
        simp only at e1 e2 r1 ⊢
        subst e1 e2
        refine (ih r1 h2).bind ?_
        rintro ⟨rs'', w2⟩ ⟨e1, e2, r2⟩
        simp only at e1 e2 r2 ⊢
        subst e1 e2
        exact ⟨rfl, rfl, r2⟩

/-- the list behind a view -/
theorem reach_get (hr : Reach cfg w) {xs : List α} {a : Nat} (hi : Spec.LL.view w i = some ⟨some xs, a⟩) :
    ∃ C hd tl cs, Inv cfg C w ∧ C i = some (full hd tl cs a) ∧ vals cs = xs ∧ Spec.LL.cells w i = some cs := by
  obtain ⟨C, I⟩ := reach_inv hr
  rw [I.view] at hi
  obtain ⟨hd, tl, cs, h1, h2⟩ := ideal_full hi rfl
  exact ⟨C, hd, tl, cs, I, h1, h2, I.cells h1⟩

theorem reach_cells (hr : Reach cfg w) (hi : Spec.LL.cells w i = some cs) :
    ∃ C hd tl a, Inv cfg C w ∧ C i = some (full hd tl cs a) ∧ Spec.LL.view w i = some ⟨some (vals cs), a⟩ := by
  obtain ⟨C, I⟩ := reach_inv hr
  cases hc : C i with
  | none => rw [I.cells_none hc] at hi; cases hi
  | some o =>
    obtain ⟨b, a⟩ := o
    cases b with
    | none => rw [I.cells_husk hc] at hi; cases hi
    | some b =>
      obtain ⟨hd, tl, ds⟩ := b
      rw [I.cells hc] at hi
      cases hi
      refine ⟨C, hd, tl, a, I, hc, ?_⟩
      rw [I.view, ideal, hc]; rfl

/-- what the client sees after list `i` got new nodes -/
theorem Inv.seen (I : Inv cfg C w) (I' : Inv cfg (cput C i (some (full hd tl cs' own))) w') :
    Spec.LL.cells w' i = some cs' ∧ (∀ j, j ≠ i → Spec.LL.cells w' j = Spec.LL.cells w j) ∧
    Spec.LL.view w' = put (Spec.LL.view w) i (some ⟨some (vals cs'), own⟩) := by
  refine ⟨I'.cells (cput_same ..), fun j hj => I.cells_congr I' (cput_ne _ _ hj), ?_⟩
  rw [I'.view, I.view, ideal_put]; rfl

theorem liveIn_eq (o : Option (Info α)) : liveIn o = liveOf o := by
  rcases o with _ | ⟨a, b, _ | _ | _⟩ <;> rfl

theorem bytesIn_eq (o : Option (Info α)) : bytesIn o = bytesOf o := by cases o <;> rfl

theorem sum_range (n : Nat) (f : Nat → Nat) : ((List.range n).map f).sum = sumTo n f := by
  induction n with
  | zero => rfl
  | succ n ih => rw [List.range_succ, List.map_append, List.sum_append, ih]; simp [sumTo]

/-- concrete histories reach states when the allocator never refuses -/
theorem reach_of (hc : ¬ Refuses cfg) (ops : List (Op α)) (P : Ideal α → Bool)
    (h1 : (specRun false cfg.dbl cfg.dflt ops (fun _ => none)).any (fun p => P p.2) = true) : ∃ w, Reach cfg w ∧ P (Spec.LL.view w) = true := by
  cases hs : specRun false cfg.dbl cfg.dflt ops (fun _ => none) with
  | none => rw [hs] at h1; cases h1
  | some p =>
    obtain ⟨rs, A⟩ := p
    rw [hs] at h1
    have hk := run_ok (C := fun _ => none) ops inv_init hs
    cases he : Model.LL.run cfg ops {} with
    | ok q =>
      rw [he] at hk
      obtain ⟨-, C, I, e⟩ := hk
      refine ⟨q.2, ⟨ops, rs, A, q.1, hs, he⟩, ?_⟩
      rw [I.view, e]
      simpa using h1
    | oom => rw [he] at hk; exact absurd hk hc
    | _ => rw [he] at hk; exact hk.elim

end

end Verif.Proof.LL
