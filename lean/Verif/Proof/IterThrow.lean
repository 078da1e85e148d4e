import Verif.Spec.IterThrow
import Verif.Proof.Pipe
open Lean.Order
namespace Verif.Proof.IterThrow
open Verif Verif.Model.IterThrow Verif.Spec.IterThrow

variable {ω σ α β γ ρ : Type}

theorem ext {x y : Exc ω β} (h : x.run = y.run) : x = y := h

theorem run_bind (x : Exc ω α) (f : α → Exc ω β) :
    (x >>= f).run = (x.run >>= fun o => match o with | some a => (f a).run | none => return none) := by
  show OptionT.bind x f = _
  unfold OptionT.bind OptionT.mk
  rfl

theorem run_pure (a : α) : (pure a : Exc ω α).run = (return some a) := rfl

theorem run_calm (x : Prog ω β) : (calm x).run = (x >>= fun b => return some b) := rfl

theorem noexcept_bind (x : Exc ω α) (f : α → Exc ω β) :
    noexcept (x >>= f) = (noexcept x >>= fun a => noexcept (f a)) := by
  unfold noexcept
  rw [run_bind, Pipe.bind_assoc', Pipe.bind_assoc']
  apply Pipe.bind_congr'
  intro o
  cases o <;> rfl

theorem noexcept_pure (a : α) : noexcept (pure a : Exc ω α) = (return a) := rfl

theorem noexcept_calm (x : Prog ω β) : noexcept (calm x) = x := by
  unfold noexcept
  rw [run_calm, Pipe.bind_assoc']
  funext w
  simp only [Prog.bind_run]
  cases x w <;> rfl

theorem bind_assocE (x : Exc ω α) (f : α → Exc ω β) (g : β → Exc ω γ) :
    ((x >>= f) >>= g) = (x >>= fun a => f a >>= g) := by
  apply ext
  simp only [run_bind, Pipe.bind_assoc']
  apply Pipe.bind_congr'
  intro o
  cases o <;> simp only [run_bind, Pipe.pure_bind']

theorem pure_bindE (a : α) (f : α → Exc ω β) : ((pure a : Exc ω α) >>= f) = f a := by
  apply ext; rw [run_bind, run_pure, Pipe.pure_bind']

theorem calm_bind (x : Prog ω α) (f : α → Exc ω β) : (calm x >>= f).run = (x >>= fun a => (f a).run) := by
  rw [run_bind, run_calm, Pipe.bind_assoc']
  rfl

def orPanic : Option ρ → Prog ω ρ
  | some b => return b
  | none => Prog.panic

theorem noexcept_mono_adm (T : σ → Prog ω ρ) :
    admissible (fun P : σ → Exc ω ρ => ∀ s, noexcept (P s) ⊑ T s) := by
  apply admissible_pi_apply (P := fun s (x : Exc ω ρ) => noexcept x ⊑ T s)
  intro s
  have key : ∀ w, admissible (fun x : Out (Option ρ × ω) => (x >>= fun q => orPanic q.1 q.2) ⊑ T s w) :=
    fun w => admissible_flatOrder _ FlatOrder.rel.bot
  exact admissible_pi_apply (P := fun (w : ω) (x : Out (Option ρ × ω)) => (x >>= fun q => orPanic q.1 q.2) ⊑ T s w) key

/-! ## `noexcept` bodies are the programs in which throwing terminates -/

theorem find_le (next : NextT ω σ α) (p : α → Exc ω (Bool × α)) :
    ∀ s, noexcept (findBody next p s) ⊑ Model.Iter.find (fun s => noexcept (next s)) (fun a => noexcept (p a)) s := by
  apply findBody.fixpoint_induct next p
    (motive := fun P => ∀ s, noexcept (P s) ⊑ Model.Iter.find (fun s => noexcept (next s)) (fun a => noexcept (p a)) s)
  · exact noexcept_mono_adm _
  · intro P ih s
    rw [Pipe.find_unfold, noexcept_bind]
    apply Pipe.bind_mono
    intro r
    obtain ⟨o, s'⟩ := r
    cases o with
    | none => exact PartialOrder.rel_refl
    | some a =>
      simp only [Pipe.afterPull, noexcept_bind]
      apply Pipe.bind_mono
      intro c
      cases c.1
      · exact ih s'
      · exact PartialOrder.rel_refl

theorem find_ge (next : NextT ω σ α) (p : α → Exc ω (Bool × α)) :
    ∀ s, Model.Iter.find (fun s => noexcept (next s)) (fun a => noexcept (p a)) s ⊑ noexcept (findBody next p s) := by
  apply Model.Iter.find.fixpoint_induct (fun s => noexcept (next s)) (fun a => noexcept (p a))
    (motive := fun P => ∀ s, P s ⊑ noexcept (findBody next p s))
  · exact Pipe.adm' _
  · intro P ih s
    rw [findBody, noexcept_bind]
    apply Pipe.bind_mono
    intro r
    obtain ⟨o, s'⟩ := r
    cases o with
    | none => exact PartialOrder.rel_refl
    | some a =>
      simp only [noexcept_bind]
      apply Pipe.bind_mono
      intro c
      cases c.1
      · exact ih s'
      · exact PartialOrder.rel_refl

theorem find_eq (next : NextT ω σ α) (p : α → Exc ω (Bool × α)) (s : σ) :
    noexcept (findBody next p s) = Model.Iter.find (fun s => noexcept (next s)) (fun a => noexcept (p a)) s :=
  Pipe.le_antisymm' (find_le next p s) (find_ge next p s)

theorem forEach_eq (next : NextT ω σ α) (f : α → Exc ω Unit) (s : σ) :
    noexcept (forEachBody next f s) = Model.Iter.forEach (fun s => noexcept (next s)) (fun a => noexcept (f a)) s := by
  refine Pipe.le_antisymm' ?_ ?_
  · revert s
    apply forEachBody.fixpoint_induct next f
      (motive := fun P => ∀ s, noexcept (P s) ⊑ Model.Iter.forEach (fun s => noexcept (next s)) (fun a => noexcept (f a)) s)
    · exact noexcept_mono_adm _
    · intro P ih s
      rw [Pipe.forEach_unfold, noexcept_bind]
      apply Pipe.bind_mono
      intro r
      obtain ⟨o, s'⟩ := r
      cases o with
      | none => exact PartialOrder.rel_refl
      | some a =>
        simp only [noexcept_bind]
        exact Pipe.bind_mono fun _ => ih s'
  · revert s
    apply Model.Iter.forEach.fixpoint_induct (fun s => noexcept (next s)) (fun a => noexcept (f a))
      (motive := fun P => ∀ s, P s ⊑ noexcept (forEachBody next f s))
    · exact Pipe.adm' _
    · intro P ih s
      rw [forEachBody, noexcept_bind]
      apply Pipe.bind_mono
      intro r
      obtain ⟨o, s'⟩ := r
      cases o with
      | none => exact PartialOrder.rel_refl
      | some a =>
        simp only [noexcept_bind]
        exact Pipe.bind_mono fun _ => ih s'

theorem fromIter_eq (next : NextT ω σ α) (acc : List α) (s : σ) :
    noexcept (fromIter next acc s) = Model.Iter.collect (fun s => noexcept (next s)) acc s := by
  have adm2 : ∀ T : List α → σ → Prog ω (List α),
      admissible (fun P : List α → σ → Exc ω (List α) => ∀ acc s, noexcept (P acc s) ⊑ T acc s) := by
    intro T
    apply admissible_pi_apply (P := fun acc (x : σ → Exc ω (List α)) => ∀ s, noexcept (x s) ⊑ T acc s)
    exact fun acc => noexcept_mono_adm _
  have adm3 : ∀ T : List α → σ → Prog ω (List α),
      admissible (fun P : List α → σ → Prog ω (List α) => ∀ acc s, P acc s ⊑ T acc s) := by
    intro T
    apply admissible_pi_apply (P := fun acc (x : σ → Prog ω (List α)) => ∀ s, x s ⊑ T acc s)
    exact fun acc => Pipe.adm' _
  refine Pipe.le_antisymm' ?_ ?_
  · revert acc s
    apply fromIter.fixpoint_induct next
      (motive := fun P => ∀ acc s, noexcept (P acc s) ⊑ Model.Iter.collect (fun s => noexcept (next s)) acc s)
    · exact adm2 _
    · intro P ih acc s
      rw [Pipe.collect_unfold, noexcept_bind]
      apply Pipe.bind_mono
      intro r
      obtain ⟨o, s'⟩ := r
      cases o with
      | none => exact PartialOrder.rel_refl
      | some a => exact ih _ s'
  · revert acc s
    apply Model.Iter.collect.fixpoint_induct (fun s => noexcept (next s)) 
      (motive := fun P => ∀ acc s, P acc s ⊑ noexcept (fromIter next acc s))
    · exact adm3 _
    · intro P ih acc s
      rw [fromIter, noexcept_bind]
      apply Pipe.bind_mono
      intro r
      obtain ⟨o, s'⟩ := r
      cases o with
      | none => exact PartialOrder.rel_refl
      | some a => exact ih _ s'

/-! ## Pipelines -/

/-- The pipeline whose functions terminate the program where the given ones throw. -/
def hard : {α β : Type} → Pipe ω α β → Model.Iter.Pipe ω α β
  | _, _, .source => .source
  | _, _, .map pipe f => .map (hard pipe) fun b => noexcept (f b)
  | _, _, .filter pipe p => .filter (hard pipe) fun b => noexcept (p b)

theorem mapNext_eq (next : NextT ω σ α) (f : α → Exc ω β) (s : σ) :
    mapNext next f s = calm (Model.Iter.mapNext (fun s => noexcept (next s)) (fun a => noexcept (f a)) s) := by
  unfold mapNext Model.Iter.mapNext
  congr 1
  rw [noexcept_bind]
  apply Pipe.bind_congr'
  intro r
  obtain ⟨o, s'⟩ := r
  cases o with
  | none => rfl
  | some a => simp only [noexcept_bind]; rfl

theorem filterNext_eq (next : NextT ω σ α) (p : α → Exc ω (Bool × α)) (s : σ) :
    filterNext next p s = calm (Model.Iter.filterNext (fun s => noexcept (next s)) (fun a => noexcept (p a)) s) := by
  rw [filterNext, find, noexcept_calm, find_eq, Model.Iter.filterNext]

theorem pipe_hard {α β : Type} (pipe : Pipe ω α β) (src : Model.Iter.Next ω σ α) :
    pipe.next (fun s => calm (src s)) = fun s => calm ((hard pipe).next src s) := by
  induction pipe with
  | source => funext s; simp only [Pipe.next, hard, Model.Iter.Pipe.next]
  | map pipe f ih => funext s; simp only [Pipe.next, hard, Model.Iter.Pipe.next, ih, mapNext_eq, noexcept_calm]
  | filter pipe p ih => funext s; simp only [Pipe.next, hard, Model.Iter.Pipe.next, ih, filterNext_eq, noexcept_calm]

theorem one_hard {α β : Type} (pipe : Pipe ω α β) (a : α) : Spec.Pipe.one (hard pipe) a = noexcept (one pipe a) := by
  induction pipe with
  | source => simp only [hard, Spec.Pipe.one, one, noexcept_pure]
  | map pipe f ih =>
    simp only [hard, Spec.Pipe.one, one, noexcept_bind, ih]
    apply Pipe.bind_congr'
    intro o
    cases o with
    | none => rfl
    | some b => simp only [noexcept_bind]; rfl
  | filter pipe p ih =>
    simp only [hard, Spec.Pipe.one, one, noexcept_bind, ih]
    apply Pipe.bind_congr'
    intro o
    cases o with
    | none => rfl
    | some b =>
      simp only [noexcept_bind]
      apply Pipe.bind_congr'
      intro c
      cases c.1 <;> rfl

theorem quiet_eq (next : σ → Out (Option α × σ)) :
    (quiet next : NextT ω σ α) = fun s => calm (Spec.Pipe.quiet next s) := by
  funext s
  apply ext
  rw [run_calm]
  funext w
  simp only [Prog.bind_run, Spec.Pipe.quiet, quiet, OptionT.run, OptionT.mk]
  cases next s <;> rfl

/-- Every pipeline works element by element; an exception of a stage terminates the program. -/
theorem next_eq {α β : Type} (pipe : Pipe ω α β) (next : σ → Out (Option α × σ)) :
    pipe.next (quiet next) = fun s => calm (Spec.Pipe.pull (Spec.Pipe.quiet next) (fun a => noexcept (one pipe a)) s) := by
  rw [quiet_eq, pipe_hard, Pipe.pipe_next]
  have : Spec.Pipe.one (hard pipe) = fun a => noexcept (one pipe a) := funext (one_hard pipe)
  rw [this]

theorem noexcept_all (g : α → Exc ω (Option β)) (xs : List α) :
    noexcept (all g xs) = Spec.Pipe.all (fun a => noexcept (g a)) xs := by
  induction xs with
  | nil => rfl
  | cons a as ih =>
    simp only [all, Spec.Pipe.all, noexcept_bind, ih]
    apply Pipe.bind_congr'
    intro r
    apply Pipe.bind_congr'
    intro rs
    cases r <;> rfl

theorem noexcept_foldOver (g : α → Exc ω (Option β)) (f : ρ → β → Exc ω ρ) (acc : ρ) (xs : List α) :
    noexcept (foldOver g f acc xs) =
      Spec.Pipe.foldOver (fun a => noexcept (g a)) (fun r b => noexcept (f r b)) acc xs := by
  induction xs generalizing acc with
  | nil => rfl
  | cons a as ih =>
    simp only [foldOver, Spec.Pipe.foldOver, noexcept_bind]
    apply Pipe.bind_congr'
    intro r
    cases r with
    | none => exact ih acc
    | some b =>
      simp only [noexcept_bind]
      exact Pipe.bind_congr' fun acc => ih acc

theorem noexcept_findOver (g : α → Exc ω (Option β)) (p : β → Exc ω (Bool × β)) (xs : List α) :
    noexcept (findOver g p xs) =
      (Spec.Pipe.findOver (fun a => noexcept (g a)) (fun b => noexcept (p b)) xs >>= fun r => return r.map Prod.fst) := by
  induction xs with
  | nil => rfl
  | cons a as ih =>
    simp only [findOver, Spec.Pipe.findOver, noexcept_bind, Pipe.bind_assoc']
    apply Pipe.bind_congr'
    intro r
    cases r with
    | none => exact ih
    | some b =>
      simp only [noexcept_bind, Pipe.bind_assoc']
      apply Pipe.bind_congr'
      intro c
      cases c.1
      · exact ih
      · rfl

/-! ## Terminals -/

theorem collect_eq {α β : Type} (pipe : Pipe ω α β) {next : σ → Out (Option α × σ)} {s s' : σ} {xs : List α}
    (h : Spec.Produces next s xs s') :
    collect (pipe.next (quiet next)) s = calm (noexcept (all (one pipe) xs)) := by
  rw [collect, fromIter_eq, next_eq]
  simp only [noexcept_calm]
  rw [Pipe.collect_pull h, noexcept_all]
  congr 1
  funext w
  simp only [Prog.bind_run]
  cases Spec.Pipe.all (fun a => noexcept (one pipe a)) xs w <;> simp

theorem forEach_over {α β : Type} (pipe : Pipe ω α β) {next : σ → Out (Option α × σ)} {s s' : σ} {xs : List α}
    (h : Spec.Produces next s xs s') (f : β → Exc ω Unit) :
    forEach (pipe.next (quiet next)) f s = calm (noexcept (foldOver (one pipe) (fun _ b => f b) () xs)) := by
  rw [forEach, forEach_eq, next_eq]
  simp only [noexcept_calm]
  rw [Pipe.forEach_pull h, noexcept_foldOver]

theorem find_over {α β : Type} (pipe : Pipe ω α β) {next : σ → Out (Option α × σ)} {s s' : σ} {xs : List α}
    (h : Spec.Produces next s xs s') (p : β → Exc ω (Bool × β)) :
    (find (pipe.next (quiet next)) p s >>= fun r => return r.1) = calm (noexcept (findOver (one pipe) p xs)) := by
  rw [find, find_eq, next_eq]
  simp only [noexcept_calm]
  obtain ⟨after, _, h2⟩ := Pipe.find_over (ω := ω) h (fun a => noexcept (one pipe a)) (fun b => noexcept (p b))
  rw [h2, noexcept_findOver]
  apply ext
  rw [calm_bind, run_calm, Pipe.bind_assoc', Pipe.bind_assoc']
  apply Pipe.bind_congr'
  intro r
  cases r <;> rfl

theorem fold_unfold (next : NextT ω σ α) (f : β → α → Exc ω β) (acc : β) (s : σ) :
    fold next f acc s = (next s >>= fun r => match r.1 with
      | none => return acc
      | some a => f acc a >>= fun acc => fold next f acc r.2) := by rw [fold]; rfl

theorem fold_pull {next : σ → Out (Option α × σ)} {s s' : σ} {xs : List α} (h : Spec.Produces next s xs s')
    (g : α → Prog ω (Option β)) (f : ρ → β → Exc ω ρ) (acc : ρ) :
    fold (fun s => calm (Spec.Pipe.pull (Spec.Pipe.quiet next) g s)) f acc s = foldOver (fun a => calm (g a)) f acc xs := by
  induction h generalizing acc with
  | nil h =>
    apply ext
    rw [fold_unfold, calm_bind, Pipe.pull_nil h]; rfl
  | cons h _ ih =>
    apply ext
    rw [fold_unfold, calm_bind, Pipe.pull_cons h, foldOver, calm_bind]
    apply Pipe.bind_congr'
    intro o
    cases o with
    | none =>
      simp only
      rw [← ih acc, fold_unfold, calm_bind]
    | some b =>
      simp only
      rw [run_bind, run_bind]
      apply Pipe.bind_congr'
      intro acc
      cases acc with
      | none => rfl
      | some acc => simp only [ih acc]

theorem fold_over {α β : Type} (pipe : Pipe ω α β) {next : σ → Out (Option α × σ)} {s s' : σ} {xs : List α}
    (h : Spec.Produces next s xs s') (f : ρ → β → Exc ω ρ) (acc : ρ) :
    fold (pipe.next (quiet next)) f acc s = foldOver (fun a => calm (noexcept (one pipe a))) f acc xs := by
  rw [next_eq, fold_pull h]

theorem reduce_pull {next : σ → Out (Option α × σ)} {s s' : σ} {xs : List α} (h : Spec.Produces next s xs s')
    (g : α → Prog ω (Option β)) (f : β → β → Exc ω β) :
    reduce (fun s => calm (Spec.Pipe.pull (Spec.Pipe.quiet next) g s)) f s = reduceOver (fun a => calm (g a)) f xs := by
  induction h with
  | nil h =>
    apply ext
    rw [reduce, calm_bind, Pipe.pull_nil h]; rfl
  | cons h h2 ih =>
    apply ext
    rw [reduce, calm_bind, Pipe.pull_cons h, reduceOver, calm_bind]
    apply Pipe.bind_congr'
    intro o
    cases o with
    | none =>
      simp only
      rw [← ih, reduce, calm_bind]
    | some b => simp only; rw [fold_pull h2]

theorem reduce_over {α β : Type} (pipe : Pipe ω α β) {next : σ → Out (Option α × σ)} {s s' : σ} {xs : List α}
    (h : Spec.Produces next s xs s') (f : β → β → Exc ω β) :
    reduce (pipe.next (quiet next)) f s = reduceOver (fun a => calm (noexcept (one pipe a))) f xs := by
  rw [next_eq, reduce_pull h]

/-! ## Calls that do not throw -/

theorem calm_noexcept {x : Exc ω β} (h : NoThrow x) : calm (noexcept x) = x := by
  apply ext
  rw [run_calm, noexcept, Pipe.bind_assoc']
  funext w
  have h' := h w
  simp only [Prog.bind_run]
  cases hx : x.run w with
  | ok q =>
    obtain ⟨o, w'⟩ := q
    cases o with
    | none => exact absurd hx (h' w')
    | some b => simp
  | _ => rfl

theorem noThrow_calm (x : Prog ω β) : NoThrow (calm x) := by
  intro w w' h
  rw [run_calm, Prog.bind_run] at h
  cases hx : x w <;> simp [hx] at h

theorem noexcept_throw {x : Exc ω β} {w w' : ω} (h : x.run w = .ok (none, w')) : noexcept x w = .panic := by
  rw [noexcept, Prog.bind_run, h]; rfl

theorem calm_panic {x : Prog ω β} {w : ω} (h : x w = .panic) : (calm x).run w = .panic := by
  rw [run_calm, Prog.bind_run, h]; rfl

theorem foldOver_congr {g g' : α → Exc ω (Option β)} {xs : List α} (h : ∀ a ∈ xs, g a = g' a) (f : ρ → β → Exc ω ρ)
    (acc : ρ) : foldOver g f acc xs = foldOver g' f acc xs := by
  induction xs generalizing acc with
  | nil => rfl
  | cons a as ih =>
    have ih := fun acc => ih (fun b hb => h b (List.mem_cons_of_mem _ hb)) acc
    simp only [foldOver, h a List.mem_cons_self, ih]

theorem reduceOver_congr {g g' : α → Exc ω (Option β)} {xs : List α} (h : ∀ a ∈ xs, g a = g' a) (f : β → β → Exc ω β) :
    reduceOver g f xs = reduceOver g' f xs := by
  induction xs with
  | nil => rfl
  | cons a as ih =>
    have hm := fun b hb => h b (List.mem_cons_of_mem _ hb)
    simp only [reduceOver, h a List.mem_cons_self, ih hm, foldOver_congr hm]

/-! ## combine -/

theorem combine_eq {α β γ : Type} (pipe : Pipe ω α β) (args : Args ω β γ) (t : NextT ω σ γ → σ → Exc ω ρ)
    (src : NextT ω σ α) (s : σ) :
    combine args t (pipe.next src) s = calm (noexcept (t ((after pipe args).next src) s)) := by
  induction args with
  | done => simp only [combine, after]
  | map f rest ih =>
    have := ih (pipe.map f) t
    simp only [Pipe.next] at this
    simp only [combine, after, this, noexcept_calm]
  | filter p rest ih =>
    have := ih (pipe.filter p) t
    simp only [Pipe.next] at this
    simp only [combine, after, this, noexcept_calm]

end Verif.Proof.IterThrow
