import Verif.Spec.VectorConsume
import Verif.Proof.VectorOwn
import Verif.Proof.IterOpt
/-! # Terminals over the owning iterators of a vector -/
namespace Verif.Proof.VectorConsume
open Verif Verif.Model.VectorOwn Verif.Spec.VectorOwn Verif.Spec.VectorConsume Verif.Model.VectorConsume
open Verif.Model.Vector (Op Res)
open Verif.Model.Mem (ElemTy)
open Verif.Spec.Vector (Var put specStep)
open Verif.Model.Collect (World onClient onMem)

variable {κ α ρ : Type} {ty : ElemTy α} {s s' : State α} {w : OWorld α} {i j t : Nat}

/-! ## Histories -/

theorem orun_append (a b : List (OOp α)) (w : OWorld α) :
    orun ty (a ++ b) w = (orun ty a w >>= fun p => orun ty b p.2 >>= fun q => .ok (p.1 ++ q.1, q.2)) := by
  induction a generalizing w with
  | nil =>
    simp only [List.nil_append, orun, Prog.pure_run, Out.bind_ok]
    cases orun ty b w <;> rfl
  | cons op ops ih =>
    simp only [List.cons_append, orun, Prog.bind_run]
    cases ostep ty op w with
    | ok p =>
      simp only [Out.bind_ok, ih]
      cases orun ty ops p.2 with
      | ok q =>
        rw [Out.bind_ok, Out.bind_ok, Prog.pure_run, Out.bind_ok]
        cases orun ty b q.2 <;> rfl
      | _ => rfl
    | _ => rfl

theorem ownRun_append {full : Bool} {size : Nat} {dflt : α} (a b : List (OOp α)) (s : State α) :
    ownRun full size dflt (a ++ b) s = (ownRun full size dflt a s).bind fun p =>
      (ownRun full size dflt b p.2).map fun q => (p.1 ++ q.1, q.2) := by
  induction a generalizing s with
  | nil => simp [ownRun]
  | cons op ops ih =>
    simp only [List.cons_append, ownRun]
    cases ownStep full size dflt op s with
    | none => rfl
    | some p =>
      simp only [Option.bind_some, ih]
      cases ownRun full size dflt ops p.2 with
      | none => rfl
      | some q =>
        simp only [Option.bind_some, Option.map_some]
        cases ownRun full size dflt b q.2 <;> rfl

/-- more calls from a state that has been reached -/
theorem reached_run (hr : Reached ty s w) (ops : List (OOp α)) {rs : List (Res α)}
    (hs : ownRun false ty.size ty.dflt ops s = some (rs, s')) :
    orun ty ops w = .oom ∨ ∃ w', orun ty ops w = .ok (rs, w') ∧ Reached ty s' w' := by
  obtain ⟨ops0, rs0, rs0', h0, hw⟩ := hr
  have I := Proof.VectorOwn.orun_ok (ty := ty) ops0 Proof.VectorOwn.oinv_init h0
  rw [hw] at I
  obtain ⟨-, H, I⟩ := I
  have key := Proof.VectorOwn.orun_ok ops I hs
  cases he : orun ty ops w with
  | ok q =>
    rw [he] at key
    obtain ⟨r, w'⟩ := q
    obtain ⟨e, -⟩ := key
    simp only at e
    subst e
    refine .inr ⟨w', rfl, ops0 ++ ops, rs0 ++ r, rs0' ++ r, ?_, ?_⟩
    · rw [ownRun_append, h0]
      simp [hs]
    · rw [orun_append, hw]
      simp [he]
  | oom => exact .inl rfl
  | _ => rw [he] at key; exact key.elim

theorem reached_step (hr : Reached ty s w) (op : OOp α) {r : Res α}
    (hs : ownStep false ty.size ty.dflt op s = some (r, s')) :
    ostep ty op w = .oom ∨ ∃ w', ostep ty op w = .ok (r, w') ∧ Reached ty s' w' := by
  have := reached_run hr [op] (rs := [r]) (s' := s') (by simp [ownRun, hs])
  simp only [orun, Prog.bind_run] at this
  cases he : ostep ty op w with
  | ok p =>
    rw [he] at this
    rcases this with h | ⟨w', h, h'⟩
    · cases h
    · cases h
      exact .inr ⟨_, rfl, h'⟩
  | oom => exact .inl rfl
  | _ =>
    rw [he] at this
    rcases this with h | ⟨w', h, h'⟩ <;> cases h

/-- calls on vectors leave the iterators alone -/
theorem vecs_its (ops : List (Op α)) {rs : List (Res α)}
    (h : ownRun false ty.size ty.dflt (ops.map .vec) s = some (rs, s')) : s'.its = s.its := by
  induction ops generalizing s rs with
  | nil => cases h; rfl
  | cons op ops ih =>
    simp only [List.map_cons, ownRun, Option.bind_eq_some_iff, Option.map_eq_some_iff] at h
    obtain ⟨⟨r, s1⟩, h1, ⟨rs', s2⟩, h2, e⟩ := h
    cases e
    rw [ih h2]
    simp only [ownStep] at h1
    split at h1
    · cases hsp : specStep false ty.size ty.dflt op s.vecs with
      | none => rw [hsp] at h1; cases h1
      | some p => rw [hsp] at h1; cases h1; rfl
    · cases h1

/-! ## One `next()` -/

/-- the iterator has yet to give `xs` -/
def Has (s : State α) (i : Nat) (xs : List α) : Prop := s.its i = some (.fwd xs) ∨ s.its i = some (.rev xs)

theorem next_step {xs : List α} (hx : Has s i xs) :
    ∃ s1, ownStep false ty.size ty.dflt (.next i) s = some (.opt xs.head?, s1) ∧ Has s1 i xs.tail ∧ s1.vecs = s.vecs ∧
      ∀ l, l ≠ i → s1.its l = s.its l := by
  rcases hx with h | h
  · refine ⟨s.setIt i (some (.fwd xs.tail)), by simp only [ownStep, h, Option.bind_some], .inl (by simp [State.setIt]), rfl, ?_⟩
    intro l hl
    simp [State.setIt, hl]
  · refine ⟨s.setIt i (some (.rev xs.tail)), by simp only [ownStep, h, Option.bind_some], .inr (by simp [State.setIt]), rfl, ?_⟩
    intro l hl
    simp [State.setIt, hl]

theorem take_eq (c : κ) (w : OWorld α) (i : Nat) : take ty i () (⟨c, w⟩ : W κ α) = (ostep ty (.next i) w >>= fun p =>
    match p.1 with
    | .opt o => .ok ((o, ()), ⟨c, p.2⟩)
    | _ => .ub) := by
  simp only [take, Prog.bind_run, onMem, ostep]
  cases Model.VectorOwn.next ty i w with
  | ok p =>
    obtain ⟨r, w'⟩ := p
    cases r <;> rfl
  | _ => rfl

/-! ## `fold` -/

theorem bind_oom {β γ : Type} (f : β → Out γ) : ((.oom : Out β) >>= f) = .oom := rfl

theorem fold_loop {f : ρ → α → Prog κ (ρ × List (Op α))} (xs : List α) : ∀ (acc : ρ) (s : State α) (w : OWorld α) (c : κ)
    {r : ρ} {tr : List (OOp α)} {c' : κ} {rs : List (Res α)} {s' : State α}, Reached ty s w → Has s i xs →
    visit i f acc xs c = .ok ((r, tr), c') → ownRun false ty.size ty.dflt tr s = some (rs, s') →
    Model.Iter.fold (take ty i) (body ty f) acc () ⟨c, w⟩ = (orun ty tr w >>= fun p => .ok (r, ⟨c', p.2⟩)) := by
  induction xs with
  | nil =>
    intro acc s w c r tr c' rs s' hr hx hv hs
    cases hv
    obtain ⟨s1, h1, -⟩ := next_step (ty := ty) hx
    rw [Proof.Pipe.fold_unfold, Prog.bind_run, take_eq]
    simp only [orun, Prog.bind_run]
    rcases reached_step hr _ h1 with h | ⟨w', h, hr'⟩
    · rw [h]; rfl
    · rw [h]; rfl
  | cons x xs ih =>
    intro acc s w c r tr c' rs s' hr hx hv hs
    obtain ⟨s1, h1, hx1, hv1, hi1⟩ := next_step (ty := ty) hx
    simp only [visit, Prog.bind_run] at hv
    cases hf : f acc x c with
    | ok p =>
      rw [hf] at hv
      simp only [Out.bind_ok] at hv
      cases hg : visit i f p.1.1 xs p.2 with
      | ok q =>
        rw [hg] at hv
        simp only [Out.bind_ok] at hv
        cases hv
        simp only [List.cons_append, ownRun, h1, Option.bind_some, Option.map_eq_some_iff] at hs
        obtain ⟨q1, hs, e⟩ := hs
        cases e
        rw [ownRun_append] at hs
        simp only [Option.bind_eq_some_iff, Option.map_eq_some_iff] at hs
        obtain ⟨⟨rs1, s2⟩, h2, ⟨rs2, s3⟩, h3, e⟩ := hs
        cases e
        have hits := vecs_its _ h2
        rw [Proof.Pipe.fold_unfold, Prog.bind_run, take_eq]
        simp only [List.cons_append, orun, Prog.bind_run]
        rcases reached_step hr _ h1 with h | ⟨w1, h, hr1⟩
        · rw [h]; rfl
        · rw [h]
          simp only [List.head?_cons, Out.bind_ok, Prog.bind_run, body, onClient, hf, onMem, orun_append]
          rcases reached_run hr1 _ h2 with h | ⟨w2, h, hr2⟩
          · rw [h]; rfl
          · rw [h]
            simp only [Out.bind_ok, Prog.pure_run]
            rw [ih p.1.1 s2 w2 p.2 hr2 (by unfold Has at *; rw [hits]; exact hx1) hg h3]
            cases orun ty q.1.2 w2 <;> rfl
      | _ => rw [hg] at hv; cases hv
    | _ => rw [hf] at hv; cases hv

theorem move_step {xs : List α} {r : Res α} (hx : s.its j = some (.fwd xs))
    (h : ownStep false ty.size ty.dflt (.move i j) s = some (r, s')) : s' = (s.setIt i (some (.fwd xs))).setIt j (some .moved) := by
  simp only [ownStep, hx, Option.bind_some] at h
  split at h <;> cases h
  rfl

theorem make_step {v : Var α} {r : Res α} (hj : s.vecs j = some v)
    (h : ownStep false ty.size ty.dflt (.make i j) s = some (r, s')) :
    s' = (s.setVec j (some ⟨[], 0, v.alloc⟩)).setIt i (some (.fwd v.xs)) := by
  simp only [ownStep, hj, Option.bind_some] at h
  split at h <;> cases h
  rfl

/-- after `enter` the parameter has the elements to give -/
theorem enter_has (form : Form) {v : Var α} (hj : s.vecs j = some v) {rs : List (Res α)}
    (h : ownRun false ty.size ty.dflt (form.enter j t) s = some (rs, s')) : Has s' (form.param t) (order v.xs form) := by
  cases form with
  | direct =>
    simp only [Form.enter, ownRun, ownStep, hj, Option.bind_some] at h
    split at h <;> cases h
    exact .inl (by simp [Form.param, State.setIt, order])
  | directRev =>
    simp only [Form.enter, ownRun, ownStep, hj, Option.bind_some] at h
    split at h <;> cases h
    exact .inr (by simp [Form.param, State.setIt, order])
  | piped =>
    simp only [Form.enter, ownRun, Option.bind_eq_some_iff, Option.map_eq_some_iff] at h
    obtain ⟨⟨r1, s1⟩, h1, ⟨rs1, s2⟩, ⟨⟨r3, s3⟩, h3, ⟨rs4, s4⟩, h4, e4⟩, e⟩ := h
    cases h4
    cases e4
    cases e
    have e1 := make_step hj h1
    have e3 := move_step (xs := v.xs) (by rw [e1]; simp [State.setIt]) h3
    rw [e3]
    exact .inl (by simp [Form.param, State.setIt, order])

theorem fold_eq (hr : Reached ty s w) {v : Var α} (hj : s.vecs j = some v) (form : Form) {f : ρ → α → Prog κ (ρ × List (Op α))} {init r : ρ}
    {tr : List (OOp α)} {c c' : κ} {rs : List (Res α)} (hv : visit (form.param t) f init (order v.xs form) c = .ok ((r, tr), c'))
    (hs : ownRun false ty.size ty.dflt (form.enter j t ++ tr ++ form.leave t) s = some (rs, s')) :
    fold ty form j t f init ⟨c, w⟩ =
      (orun ty (form.enter j t ++ tr ++ form.leave t) w >>= fun p => .ok (r, ⟨c', p.2⟩)) := by
  have hs' := hs
  rw [List.append_assoc, ownRun_append] at hs
  simp only [Option.bind_eq_some_iff, Option.map_eq_some_iff] at hs
  obtain ⟨⟨rs1, s1⟩, h1, ⟨rs2, s2⟩, h2, -⟩ := hs
  rw [ownRun_append] at h2
  simp only [Option.bind_eq_some_iff, Option.map_eq_some_iff] at h2
  obtain ⟨⟨rs3, s3⟩, h3, ⟨rs4, s4⟩, h4, -⟩ := h2
  rw [List.append_assoc, orun_append]
  simp only [fold, Prog.bind_run, onMem]
  rcases reached_run hr _ h1 with h | ⟨w1, h, hr1⟩
  · rw [h]; rfl
  · rw [h]
    simp only [Out.bind_ok]
    rw [fold_loop _ init s1 w1 c hr1 (enter_has form hj h1) hv h3, orun_append]
    cases orun ty tr w1 with
    | ok p =>
      simp only [Out.bind_ok]
      cases orun ty (form.leave t) p.2 <;> rfl
    | _ => rfl

/-! ## `for_each` and `collect` -/

theorem forEach_eq (form : Form) (f : α → Prog κ (List (Op α))) :
    forEach ty form j t f = fold ty form j t (fun _ a => do let ops ← f a; return ((), ops)) () := by
  rw [forEach, fold]
  funext w
  simp only [Prog.bind_run]
  congr 1
  funext q
  rw [Proof.IterOpt.forEach_fold]

/-- appending to variable `i` -/
def pushes (i : Nat) (_ : Unit) (a : α) : Prog κ (Unit × List (Op α)) := return ((), [.push i (.val a)])

theorem collect_eq (c : κ) (w : OWorld α) : collect ty j t i ⟨c, w⟩ =
    ((do let _ ← onMem (orun ty [.make t j, .move (t + 1) t, .vec (.newDefault i)])
         let r ← Model.Iter.fold (take ty (t + 1)) (body ty (pushes i)) () ()
         let _ ← onMem (orun ty [.drop (t + 1), .drop t])
         return r : Prog (W κ α) Unit) ⟨c, w⟩) := by
  rw [collect]
  simp only [Prog.bind_run]
  congr 1
  funext q
  rw [Proof.IterOpt.forEach_fold]
  have : (fun (_ : Unit) (a : α) => (do let _ ← onMem (orun ty [.vec (.push i (.val a))]) : Prog (W κ α) Unit)) = body (κ := κ) ty (pushes i) := by
    funext u a w
    simp only [body, pushes, Prog.bind_run, onClient, Prog.pure_run, Out.bind_ok, List.map_cons, List.map_nil]
  rw [this]

/-! ## Functions that make no calls -/

/-- the function makes no calls -/
def plain (f : ρ → α → Prog κ ρ) (acc : ρ) (a : α) : Prog κ (ρ × List (Op α)) := do
  let r ← f acc a
  return (r, [])

theorem visit_plain (f : ρ → α → Prog κ ρ) (xs : List α) (acc : ρ) (c : κ) :
    visit i (plain f) acc xs c = (xs.foldlM f acc c >>= fun q => .ok ((q.1, List.replicate (xs.length + 1) (.next i)), q.2)) := by
  induction xs generalizing acc c with
  | nil => rfl
  | cons x xs ih =>
    simp only [visit, plain, List.foldlM_cons, Prog.bind_run]
    cases f acc x c with
    | ok q =>
      simp only [Out.bind_ok, Prog.pure_run, ih]
      cases xs.foldlM f q.1 q.2 with
      | ok q' => rfl
      | _ => rfl
    | _ => rfl

theorem nexts_run (n : Nat) {xs : List α} (hx : Has s i xs) :
    ∃ rs s1, ownRun false ty.size ty.dflt (List.replicate n (.next i)) s = some (rs, s1) ∧ Has s1 i (xs.drop n) ∧ s1.vecs = s.vecs ∧
      ∀ l, l ≠ i → s1.its l = s.its l := by
  induction n generalizing s xs with
  | zero => exact ⟨_, _, rfl, by simpa using hx, rfl, fun _ _ => rfl⟩
  | succ n ih =>
    obtain ⟨s1, h1, hx1, hv1, hi1⟩ := next_step (ty := ty) hx
    obtain ⟨rs, s2, h2, hx2, hv2, hi2⟩ := ih hx1
    refine ⟨.opt xs.head? :: rs, s2, ?_, ?_, by rw [hv2, hv1], fun l hl => by rw [hi2 l hl, hi1 l hl]⟩
    · simp only [List.replicate_succ, ownRun, h1, h2, Option.bind_some, Option.map_some]
    · rw [List.drop_tail] at hx2
      exact hx2

theorem state_ext {s s' : State α} (h1 : s.vecs = s'.vecs) (h2 : ∀ l, s.its l = s'.its l) : s = s' := by
  cases s
  cases s'
  simp only at h1 h2
  subst h1
  congr
  funext l
  exact h2 l

theorem has_some {xs : List α} (h : Has s i xs) : ∃ x, s.its i = some x := by
  rcases h with h | h <;> exact ⟨_, h⟩

/-- the iterator objects of the expression come and go -/
theorem whole_run (form : Form) {v : Var α} (hj : s.vecs j = some v) (ht : s.free t = true) (ht' : s.free (t + 1) = true) (n : Nat) :
    ∃ rs, ownRun false ty.size ty.dflt (form.enter j t ++ List.replicate n (.next (form.param t)) ++ form.leave t) s =
      some (rs, s.setVec j (some ⟨[], 0, v.alloc⟩)) := by
  obtain ⟨ht1, ht2⟩ := Proof.VectorOwn.free_of ht
  obtain ⟨ht3, ht4⟩ := Proof.VectorOwn.free_of ht'
  have e1 : ∃ rs s1, ownRun false ty.size ty.dflt (form.enter j t) s = some (rs, s1) ∧ s1.vecs = (s.setVec j (some ⟨[], 0, v.alloc⟩)).vecs ∧
      (∀ l, l ≠ t → l ≠ t + 1 → s1.its l = s.its l) ∧
      match form with
      | .piped => ∃ x, s1.its t = some x
      | _ => s1.its (t + 1) = none := by
    cases form with
    | direct =>
      refine ⟨[.unit], (s.setVec j (some ⟨[], 0, v.alloc⟩)).setIt t (some (It.fwd v.xs)),
        by simp only [Form.enter, ownRun, ownStep, hj, Option.bind_some, ht, if_true, Option.map_some], rfl, ?_, ?_⟩
      · intro l h1 h2
        simp [State.setIt, State.setVec, h1]
      · simp [State.setIt, State.setVec, ht4]
    | directRev =>
      refine ⟨[.unit], (s.setVec j (some ⟨[], 0, v.alloc⟩)).setIt t (some (It.rev v.xs.reverse)),
        by simp only [Form.enter, ownRun, ownStep, hj, Option.bind_some, ht, if_true, Option.map_some], rfl, ?_, ?_⟩
      · intro l h1 h2
        simp [State.setIt, State.setVec, h1]
      · simp [State.setIt, State.setVec, ht4]
    | piped =>
      have hjt : t + 1 ≠ j := by rintro rfl; rw [ht3] at hj; cases hj
      refine ⟨[.unit, .unit], (((s.setVec j (some ⟨[], 0, v.alloc⟩)).setIt t (some (.fwd v.xs))).setIt (t + 1) (some (.fwd v.xs))).setIt t (some .moved),
        ?_, rfl, ?_, ?_⟩
      · have h1 : ownStep false ty.size ty.dflt (.make t j) s =
            some (.unit, (s.setVec j (some ⟨[], 0, v.alloc⟩)).setIt t (some (.fwd v.xs))) := by
          simp only [ownStep, hj, Option.bind_some, ht, if_true]
        have h2 : ((s.setVec j (some ⟨[], 0, v.alloc⟩)).setIt t (some (.fwd v.xs))).free (t + 1) = true := by
          simp [State.free, State.setIt, State.setVec, put, hjt, ht3, ht4]
        have h3 : ownStep false ty.size ty.dflt (.move (t + 1) t) ((s.setVec j (some ⟨[], 0, v.alloc⟩)).setIt t (some (.fwd v.xs))) =
            some (.unit, (((s.setVec j (some ⟨[], 0, v.alloc⟩)).setIt t (some (.fwd v.xs))).setIt (t + 1) (some (.fwd v.xs))).setIt t (some .moved)) := by
          have : ((s.setVec j (some ⟨[], 0, v.alloc⟩)).setIt t (some (.fwd v.xs))).its t = some (.fwd v.xs) := by simp [State.setIt]
          simp only [ownStep, this, Option.bind_some, h2, if_true]
        simp only [Form.enter, ownRun, h1, h3, Option.bind_some, Option.map_some]
      · intro l h1 h2
        simp [State.setIt, State.setVec, h1, h2]
      · exact ⟨.moved, by simp [State.setIt]⟩
  obtain ⟨rs1, s1, h1, hv1, hi1, hf1⟩ := e1
  obtain ⟨rs2, s2, h2, hx2, hv2, hi2⟩ := nexts_run (ty := ty) n (enter_has form hj h1)
  have e3 : ∃ rs, ownRun false ty.size ty.dflt (form.leave t) s2 = some (rs, s.setVec j (some ⟨[], 0, v.alloc⟩)) := by
    obtain ⟨x, hx⟩ := has_some hx2
    cases form with
    | direct =>
      refine ⟨[.unit], ?_⟩
      simp only [Form.param] at hx hi2
      simp only [Form.leave, ownRun, ownStep, hx, Option.bind_some, Option.map_some]
      congr 2
      refine state_ext (by rw [← hv1, ← hv2]; rfl) fun l => ?_
      by_cases l1 : l = t
      · subst l1; simp [State.setIt, State.setVec, ht2]
      · by_cases l2 : l = t + 1
        · subst l2; simp [State.setIt, State.setVec, ht4, hi2, hf1]
        · simp [State.setIt, State.setVec, l1, hi2 l l1, hi1 l l1 l2]
    | directRev =>
      refine ⟨[.unit], ?_⟩
      simp only [Form.param] at hx hi2
      simp only [Form.leave, ownRun, ownStep, hx, Option.bind_some, Option.map_some]
      congr 2
      refine state_ext (by rw [← hv1, ← hv2]; rfl) fun l => ?_
      by_cases l1 : l = t
      · subst l1; simp [State.setIt, State.setVec, ht2]
      · by_cases l2 : l = t + 1
        · subst l2; simp [State.setIt, State.setVec, ht4, hi2, hf1]
        · simp [State.setIt, State.setVec, l1, hi2 l l1, hi1 l l1 l2]
    | piped =>
      refine ⟨[.unit, .unit], ?_⟩
      simp only [Form.param] at hx hi2
      obtain ⟨y, hy⟩ := hf1
      have hy' : (s2.setIt (t + 1) none).its t = some y := by simp [State.setIt, hi2 t (by omega), hy]
      simp only [Form.leave, ownRun, ownStep, hx, Option.bind_some, Option.map_some, hy']
      congr 2
      refine state_ext (by rw [← hv1, ← hv2]; rfl) fun l => ?_
      by_cases l1 : l = t
      · subst l1; simp [State.setIt, State.setVec, ht2]
      · by_cases l2 : l = t + 1
        · subst l2; simp [State.setIt, State.setVec, ht4]
        · simp [State.setIt, State.setVec, l1, l2, hi2 l l2, hi1 l l1 l2]
  obtain ⟨rs3, h3⟩ := e3
  refine ⟨rs1 ++ (rs2 ++ rs3), ?_⟩
  rw [List.append_assoc, ownRun_append, h1]
  simp only [Option.bind_some, ownRun_append, h2, h3, Option.map_some]

/-! ## `collect` -/

/-- the calls of `from_iter` -/
def filling (p i : Nat) (xs : List α) : List (OOp α) := xs.flatMap (fun x => [.next p, .vec (.push i (.val x))]) ++ [.next p]

theorem visit_pushes (p : Nat) (xs : List α) (c : κ) : visit p (pushes i) () xs c = .ok (((), filling p i xs), c) := by
  induction xs with
  | nil => rfl
  | cons x xs ih =>
    simp only [visit, pushes, Prog.bind_run, Prog.pure_run, Out.bind_ok] at ih ⊢
    rw [ih]
    rfl

theorem filling_run {p : Nat} (xs : List α) : ∀ {s : State α} {ys : List α} {cap a : Nat}, Has s p xs → s.vecs i = some ⟨ys, cap, a⟩ →
    s.its i = none →
    ∃ rs s1, ownRun false ty.size ty.dflt (filling p i xs) s = some (rs, s1) ∧ Has s1 p [] ∧
      s1.vecs = put s.vecs i (some ⟨ys ++ xs, Spec.Vector.afterPushes xs.length ys.length cap, a⟩) ∧ ∀ l, l ≠ p → s1.its l = s.its l := by
  induction xs with
  | nil =>
    intro s ys cap a hx hv hi
    obtain ⟨s1, h1, hx1, hv1, hi1⟩ := next_step (ty := ty) hx
    refine ⟨[.opt none], s1, ?_, hx1, ?_, hi1⟩
    · simp only [filling, List.flatMap_nil, List.nil_append, ownRun, h1, Option.bind_some, Option.map_some]
      rfl
    · rw [hv1]
      funext l
      by_cases hl : l = i
      · subst hl; simp [put, hv, Spec.Vector.afterPushes]
      · simp [put, hl]
  | cons x xs ih =>
    intro s ys cap a hx hv hi
    obtain ⟨s1, h1, hx1, hv1, hi1⟩ := next_step (ty := ty) hx
    have hip : i ≠ p := by
      rintro rfl
      rcases hx with h | h <;> rw [hi] at h <;> cases h
    have h2 : ownStep false ty.size ty.dflt (.vec (.push i (.val x))) s1 =
        some (.unit, { s1 with vecs := put s1.vecs i (some ⟨ys ++ [x], Spec.Vector.afterPush ys.length cap, a⟩) }) := by
      simp [ownStep, specStep, Spec.Vector.argVal, Spec.Vector.upd, hv1, hv, Spec.Vector.inside, Spec.Vector.only, Spec.Vector.writes, hi1 i hip, hi]
    obtain ⟨rs, s2, h3, hx2, hv2, hi2⟩ := ih (s := { s1 with vecs := put s1.vecs i (some ⟨ys ++ [x], Spec.Vector.afterPush ys.length cap, a⟩) })
      (ys := ys ++ [x]) (cap := Spec.Vector.afterPush ys.length cap) (a := a)
      (by unfold Has at *; exact hx1) (by simp [put]) (by simpa [hi1 i hip] using hi)
    refine ⟨.opt (some x) :: .unit :: rs, s2, ?_, hx2, ?_, fun l hl => by rw [hi2 l hl, ← hi1 l hl]⟩
    · have : filling p i (x :: xs) = .next p :: .vec (.push i (.val x)) :: filling p i xs := by simp [filling]
      rw [this]
      simp only [ownRun, h1, h2, h3, Option.bind_some, Option.map_some]
      rfl
    · rw [hv2]
      funext l
      by_cases hl : l = i
      · subst hl; simp [put, Spec.Vector.afterPushes]
      · simp [put, hl, hv1]

theorem collect_run {v : Var α} (hj : s.vecs j = some v) (ht : s.free t = true) (ht' : s.free (t + 1) = true) (hi : s.free i = true)
    (hit : i ≠ t) (hit' : i ≠ t + 1) :
    ∃ rs, ownRun false ty.size ty.dflt (([.make t j, .move (t + 1) t, .vec (.newDefault i)] ++ filling (t + 1) i v.xs) ++ [.drop (t + 1), .drop t]) s =
      some (rs, (s.setVec j (some ⟨[], 0, v.alloc⟩)).setVec i (some ⟨v.xs, Spec.Vector.afterPushes v.xs.length 0 2, 0⟩)) := by
  obtain ⟨ht1, ht2⟩ := Proof.VectorOwn.free_of ht
  obtain ⟨ht3, ht4⟩ := Proof.VectorOwn.free_of ht'
  obtain ⟨hi1, hi2⟩ := Proof.VectorOwn.free_of hi
  have hjt : t + 1 ≠ j := by rintro rfl; rw [ht3] at hj; cases hj
  have hji : i ≠ j := by rintro rfl; rw [hi1] at hj; cases hj
  let s1 := (s.setVec j (some ⟨[], 0, v.alloc⟩)).setIt t (some (.fwd v.xs))
  let s2 := (s1.setIt (t + 1) (some (.fwd v.xs))).setIt t (some .moved)
  let s3 := s2.setVec i (some ⟨[], 2, 0⟩)
  have h1 : ownStep false ty.size ty.dflt (.make t j) s = some (.unit, s1) := by
    simp only [ownStep, hj, Option.bind_some, ht, if_true, s1]
  have h2 : s1.free (t + 1) = true := by
    simp [State.free, State.setIt, State.setVec, put, hjt, ht3, ht4, s1]
  have h3 : ownStep false ty.size ty.dflt (.move (t + 1) t) s1 = some (.unit, s2) := by
    have : s1.its t = some (.fwd v.xs) := by simp [State.setIt, s1]
    simp only [ownStep, this, Option.bind_some, h2, if_true, s2]
  have h4 : ownStep false ty.size ty.dflt (.vec (.newDefault i)) s2 = some (.unit, s3) := by
    simp [ownStep, specStep, Spec.Vector.born, Spec.Vector.writes, s3, s2, s1, State.setIt, State.setVec, hit, hit', hi1, hi2, put, hji]
  obtain ⟨rs, s4, h5, hx5, hv5, hi5⟩ := filling_run (ty := ty) (i := i) (p := t + 1) v.xs (s := s3) (ys := []) (cap := 2) (a := 0)
    (.inl (by simp [s3, s2, State.setIt, State.setVec])) (by simp [s3, State.setVec, put])
    (by simp [s3, s2, s1, State.setIt, State.setVec, hit, hit', hi2])
  obtain ⟨x, hx⟩ := has_some hx5
  have hy : (s4.setIt (t + 1) none).its t = some .moved := by
    simp [State.setIt, hi5 t (by omega), s3, s2, State.setVec]
  refine ⟨.unit :: .unit :: .unit :: (rs ++ [.unit, .unit]), ?_⟩
  rw [List.append_assoc, ownRun_append]
  simp only [ownRun, h1, h3, h4, Option.bind_some, Option.map_some]
  rw [ownRun_append, h5]
  simp only [ownRun, ownStep, hx, hy, Option.bind_some, Option.map_some]
  congr 2
  refine state_ext ?_ fun l => ?_
  · change s4.vecs = _
    rw [hv5]
    funext l
    by_cases l1 : l = i
    · subst l1; simp [put, State.setVec]
    · simp [put, State.setVec, l1, s3, s2, s1, State.setIt]
  · by_cases l1 : l = t
    · subst l1; simp [State.setIt, State.setVec, ht2]
    · by_cases l2 : l = t + 1
      · subst l2; simp [State.setIt, State.setVec, ht4]
      · simp [State.setIt, State.setVec, l1, l2, hi5 l l2, s3, s2, s1]

/-! ## `find` and `last` -/

/-- the two kinds of iterators that give elements -/
def Kind (mk : List α → It α) : Prop := mk = .fwd ∨ mk = .rev

theorem next_kind {mk : List α → It α} (hk : Kind mk) {xs : List α} (hx : s.its i = some (mk xs)) :
    ownStep false ty.size ty.dflt (.next i) s = some (.opt xs.head?, s.setIt i (some (mk xs.tail))) := by
  rcases hk with rfl | rfl <;> simp only [ownStep, hx, Option.bind_some]

theorem setIt_setIt (x y : Option (It α)) : (s.setIt i x).setIt i y = s.setIt i y := by
  refine state_ext rfl fun l => ?_
  by_cases h : l = i <;> simp [State.setIt, h]

theorem setIt_self {x : Option (It α)} (h : s.its i = x) : s.setIt i x = s := by
  refine state_ext rfl fun l => ?_
  by_cases hl : l = i
  · subst hl; simp [State.setIt, h]
  · simp [State.setIt, hl]

theorem take_run {mk : List α → It α} (hk : Kind mk) {xs : List α} (hr : Reached ty s w) (hx : s.its i = some (mk xs)) (c : κ) :
    take ty i () (⟨c, w⟩ : W κ α) = .oom ∨
      ∃ w', take ty i () (⟨c, w⟩ : W κ α) = .ok ((xs.head?, ()), ⟨c, w'⟩) ∧ Reached ty (s.setIt i (some (mk xs.tail))) w' := by
  rw [take_eq]
  rcases reached_step hr _ (next_kind hk hx) with h | ⟨w', h, hr'⟩
  · exact .inl (by rw [h]; rfl)
  · exact .inr ⟨w', by rw [h]; rfl, hr'⟩

theorem find_ok {mk : List α → It α} (hk : Kind mk) (p : α → Prog κ (Bool × α)) (xs : List α) : ∀ {s : State α} {w : OWorld α} {c c' : κ}
    {o : Option α} {rest : List α}, Reached ty s w → s.its i = some (mk xs) → seek p xs c = .ok ((o, rest), c') →
    (Model.Iter.find (take ty i) (fun a => onClient (p a)) () (⟨c, w⟩ : W κ α)).Safe fun q =>
      q.1.1 = o ∧ q.2.client = c' ∧ Reached ty (s.setIt i (some (mk rest))) q.2.mem := by
  induction xs with
  | nil =>
    intro s w c c' o rest hr hx hs
    cases hs
    rw [Model.Iter.find, Prog.bind_run]
    rcases take_run hk hr hx c with h | ⟨w', h, hr'⟩
    · rw [h]; trivial
    · rw [h]
      exact ⟨rfl, rfl, hr'⟩
  | cons x xs ih =>
    intro s w c c' o rest hr hx hs
    rw [Model.Iter.find, Prog.bind_run]
    rcases take_run hk hr hx c with h | ⟨w', h, hr'⟩
    · rw [h]; trivial
    · rw [h]
      simp only [List.head?_cons, Out.bind_ok, Prog.bind_run, onClient]
      simp only [seek, Prog.bind_run] at hs
      cases hp : p x c with
      | ok q =>
        rw [hp] at hs
        simp only [Out.bind_ok] at hs ⊢
        split at hs
        · cases hs
          rw [if_pos (by assumption)]
          exact ⟨rfl, rfl, hr'⟩
        · rw [if_neg (by assumption)]
          refine (ih hr' (by simp [State.setIt]) hs).mono ?_
          rintro q' ⟨h1, h2, h3⟩
          rw [setIt_setIt] at h3
          exact ⟨h1, h2, h3⟩
      | _ => rw [hp] at hs; cases hs

theorem lastLoop_ok {mk : List α → It α} (hk : Kind mk) (xs : List α) : ∀ {s : State α} {w : OWorld α} {c : κ} (prev : Option α) (a : α),
    Reached ty s w → s.its i = some (mk xs) →
    (Model.Iter.lastLoop (take ty i) prev (some a) () (⟨c, w⟩ : W κ α)).Safe fun q =>
      q.1.1 = (a :: xs).getLast? ∧ q.2.client = c ∧ Reached ty (s.setIt i (some (mk []))) q.2.mem := by
  induction xs with
  | nil =>
    intro s w c prev a hr hx
    rw [Model.Iter.lastLoop.eq_def]
    simp only [Prog.bind_run]
    rcases take_run hk hr hx c with h | ⟨w', h, hr'⟩
    · rw [h]; trivial
    · rw [h]
      simp only [Out.bind_ok, List.head?_nil]
      rw [Model.Iter.lastLoop.eq_def]
      exact ⟨rfl, rfl, hr'⟩
  | cons x xs ih =>
    intro s w c prev a hr hx
    rw [Model.Iter.lastLoop.eq_def]
    simp only [Prog.bind_run]
    rcases take_run hk hr hx c with h | ⟨w', h, hr'⟩
    · rw [h]; trivial
    · rw [h]
      simp only [Out.bind_ok, List.head?_cons]
      refine (ih (some a) x hr' (by simp [State.setIt])).mono ?_
      rintro q' ⟨h1, h2, h3⟩
      rw [setIt_setIt] at h3
      exact ⟨by rw [h1, List.getLast?_cons_cons], h2, h3⟩

theorem last_ok {mk : List α → It α} (hk : Kind mk) {xs : List α} {c : κ} (hr : Reached ty s w) (hx : s.its i = some (mk xs)) :
    (Model.Iter.last (take ty i) () (⟨c, w⟩ : W κ α)).Safe fun q =>
      q.1.1 = xs.getLast? ∧ q.2.client = c ∧ Reached ty (s.setIt i (some (mk []))) q.2.mem := by
  simp only [Model.Iter.last, Prog.bind_run]
  rcases take_run hk hr hx c with h | ⟨w', h, hr'⟩
  · rw [h]; trivial
  · rw [h]
    simp only [Out.bind_ok]
    rcases take_run (i := i) hk hr' (xs := xs.tail) (by simp [State.setIt]) c with h | ⟨w2, h, hr2⟩
    · rw [h]; trivial
    · rw [h]
      simp only [Out.bind_ok]
      rw [setIt_setIt] at hr2
      cases xs with
      | nil =>
        simp only [List.tail_nil, List.head?_nil]
        rw [Model.Iter.lastLoop.eq_def]
        exact ⟨rfl, rfl, hr2⟩
      | cons x xs =>
        cases xs with
        | nil =>
          simp only [List.tail_cons, List.head?_nil, List.head?_cons]
          rw [Model.Iter.lastLoop.eq_def]
          exact ⟨rfl, rfl, hr2⟩
        | cons y xs =>
          simp only [List.tail_cons, List.head?_cons]
          refine (lastLoop_ok hk xs (some x) y hr2 (by simp [State.setIt])).mono ?_
          rintro q' ⟨h1, h2, h3⟩
          rw [setIt_setIt] at h3
          exact ⟨by rw [h1, List.getLast?_cons_cons], h2, h3⟩

/-! ## A function that fails -/

theorem fold_loop_fails {f : ρ → α → Prog κ ρ} (xs : List α) : ∀ (acc : ρ) (s : State α) (w : OWorld α) (c : κ), Reached ty s w → Has s i xs →
    (∀ q, xs.foldlM f acc c ≠ .ok q) →
    Model.Iter.fold (take ty i) (body ty (plain f)) acc () ⟨c, w⟩ = .oom ∨
      Model.Iter.fold (take ty i) (body ty (plain f)) acc () ⟨c, w⟩ = (xs.foldlM f acc c >>= fun _ => .oom) := by
  induction xs with
  | nil => intro acc s w c _ _ h; exact (h _ rfl).elim
  | cons x xs ih =>
    intro acc s w c hr hx hf
    obtain ⟨s1, h1, hx1, hv1, hi1⟩ := next_step (ty := ty) hx
    rw [Proof.Pipe.fold_unfold, Prog.bind_run, take_eq]
    rcases reached_step hr _ h1 with h | ⟨w1, h, hr1⟩
    · rw [h]; exact .inl rfl
    · rw [h]
      simp only [List.head?_cons, Out.bind_ok, Prog.bind_run, body, onClient, plain, List.foldlM_cons]
      simp only [List.foldlM_cons, Prog.bind_run] at hf
      cases hx : f acc x c with
      | ok q =>
        rw [hx] at hf
        simp only [Out.bind_ok, Prog.pure_run, List.map_nil, orun, onMem] at hf ⊢
        exact ih q.1 s1 w1 q.2 hr1 hx1 hf
      | _ => exact .inr rfl

end Verif.Proof.VectorConsume
