import Verif.Spec.Pipe
import Verif.Spec.Iter
open Lean.Order
namespace Verif.Proof.Pipe
open Verif Verif.Model.Iter Verif.Spec.Pipe

variable {ω σ α β γ ρ : Type}

theorem le_refl (x : Out β) : x ⊑ x := PartialOrder.rel_refl
theorem prog_le {x y : Prog ω β} : x ⊑ y ↔ ∀ w, x w ⊑ y w := Iff.rfl

theorem bind_assoc' (x : Prog ω α) (f : α → Prog ω β) (g : β → Prog ω γ) :
    ((x >>= f) >>= g) = (x >>= fun a => f a >>= g) := by
  funext w
  simp only [Prog.bind_run]
  cases x w <;> rfl

theorem pure_bind' (a : α) (f : α → Prog ω β) : ((pure a : Prog ω α) >>= f) = f a := by funext w; rfl

theorem bind_mono {x : Prog ω α} {f g : α → Prog ω β} (h : ∀ a, f a ⊑ g a) : (x >>= f) ⊑ (x >>= g) :=
  MonoBind.bind_mono_right (m := Prog ω) h

theorem le_antisymm' {x y : Prog ω β} (h1 : x ⊑ y) (h2 : y ⊑ x) : x = y := PartialOrder.rel_antisymm h1 h2

/-- What `find` does with the element it receives. -/
def afterPull (p : β → Prog ω (Bool × β)) (K : σ → Prog ω (Option β × σ))
    (r : Option β × σ) : Prog ω (Option β × σ) :=
  match r.1 with
  | none => return (none, r.2)
  | some a => do
    let c ← p a
    if c.1 then return (some c.2, r.2) else K r.2

/-- Filtering an element-wise iterator is element-wise. -/
def addFilter (g : α → Prog ω (Option β)) (p : β → Prog ω (Bool × β)) : α → Prog ω (Option β) := fun a => do
  let r ← g a
  match r with
  | none => return none
  | some b => do
    let c ← p b
    if c.1 then return some c.2 else return none

def addMap (g : α → Prog ω (Option β)) (f : β → Prog ω γ) : α → Prog ω (Option γ) := fun a => do
  let r ← g a
  match r with
  | none => return none
  | some b => do
    let c ← f b
    return some c

theorem find_unfold (next : Next ω σ β) (p : β → Prog ω (Bool × β)) (s : σ) :
    find next p s = (next s >>= afterPull p (find next p)) := by
  rw [find]; rfl

theorem pull_unfold (src : Next ω σ α) (g : α → Prog ω (Option β)) (s : σ) :
    pull src g s = (src s >>= fun r => match r.1 with
      | none => return (none, r.2)
      | some a => g a >>= fun o => match o with
        | some b => return (some b, r.2)
        | none => pull src g r.2) := by
  rw [pull]; rfl

/-- A pointwise upper bound on `f s >>= K s` may be proved by fixpoint induction. -/
theorem adm (K : σ → (Option β × σ) → Prog ω ρ) (T : σ → Prog ω ρ) :
    admissible (fun P : σ → Prog ω (Option β × σ) => ∀ s, (P s >>= K s) ⊑ T s) := by
  apply admissible_pi_apply (P := fun s (x : Prog ω (Option β × σ)) => (x >>= K s) ⊑ T s)
  intro s
  apply admissible_pi_apply (P := fun w (x : Out ((Option β × σ) × ω)) => (x >>= fun q => K s q.1 q.2) ⊑ T s w)
  intro w
  exact admissible_flatOrder _ FlatOrder.rel.bot

theorem adm' (T : σ → Prog ω ρ) : admissible (fun P : σ → Prog ω ρ => ∀ s, P s ⊑ T s) := by
  apply admissible_pi_apply (P := fun s (x : Prog ω ρ) => x ⊑ T s)
  intro s
  apply admissible_pi_apply (P := fun w (x : Out (ρ × ω)) => x ⊑ T s w)
  intro w
  exact admissible_flatOrder _ FlatOrder.rel.bot

/-- pulling, then continuing as `find` does, is below pulling with the filter added -/
theorem pull_after_le (src : Next ω σ α) (g : α → Prog ω (Option β)) (p : β → Prog ω (Bool × β)) :
    ∀ s, (pull src g s >>= afterPull p (pull src (addFilter g p))) ⊑ pull src (addFilter g p) s := by
  apply pull.fixpoint_induct src g
    (motive := fun P => ∀ s, (P s >>= afterPull p (pull src (addFilter g p))) ⊑ pull src (addFilter g p) s)
  · exact adm (fun _ => afterPull p (pull src (addFilter g p))) _
  · intro P ih s
    rw [pull_unfold, bind_assoc']
    apply bind_mono
    intro r
    obtain ⟨o, s'⟩ := r
    cases o with
    | none => exact PartialOrder.rel_refl
    | some a =>
      simp only [addFilter, bind_assoc']
      apply bind_mono
      intro o
      cases o with
      | none => simp only [pure_bind']; exact ih s'
      | some b =>
        simp only [pure_bind', afterPull, bind_assoc']
        apply bind_mono
        intro c
        cases c.1 <;> simp [pure_bind'] <;> exact PartialOrder.rel_refl

theorem find_pull_le (src : Next ω σ α) (g : α → Prog ω (Option β)) (p : β → Prog ω (Bool × β)) :
    ∀ s, find (pull src g) p s ⊑ pull src (addFilter g p) s := by
  apply find.fixpoint_induct (pull src g) p
    (motive := fun P => ∀ s, P s ⊑ pull src (addFilter g p) s)
  · exact adm' _
  · intro P ih s
    refine PartialOrder.rel_trans ?_ (pull_after_le src g p s)
    apply bind_mono
    intro r
    obtain ⟨o, s'⟩ := r
    cases o with
    | none => exact PartialOrder.rel_refl
    | some b =>
      simp only [afterPull]
      apply bind_mono
      intro c
      cases c.1
      · exact ih s'
      · exact PartialOrder.rel_refl

theorem pull_find_le (src : Next ω σ α) (g : α → Prog ω (Option β)) (p : β → Prog ω (Bool × β)) :
    ∀ s, pull src (addFilter g p) s ⊑ find (pull src g) p s := by
  apply pull.fixpoint_induct src (addFilter g p)
    (motive := fun P => ∀ s, P s ⊑ find (pull src g) p s)
  · exact adm' _
  · intro P ih s
    rw [find_unfold, pull_unfold, bind_assoc']
    apply bind_mono
    intro r
    obtain ⟨o, s'⟩ := r
    cases o with
    | none => exact PartialOrder.rel_refl
    | some a =>
      simp only [addFilter, bind_assoc']
      apply bind_mono
      intro o
      cases o with
      | none =>
        simp only [pure_bind']
        rw [← find_unfold]; exact ih s'
      | some b =>
        simp only [pure_bind', afterPull, bind_assoc']
        apply bind_mono
        intro c
        cases c.1
        · simp [pure_bind']; exact ih s'
        · simp [pure_bind']; exact PartialOrder.rel_refl

theorem find_pull (src : Next ω σ α) (g : α → Prog ω (Option β)) (p : β → Prog ω (Bool × β)) (s : σ) :
    find (pull src g) p s = pull src (addFilter g p) s :=
  le_antisymm' (find_pull_le src g p s) (pull_find_le src g p s)

theorem map_pull_le (src : Next ω σ α) (g : α → Prog ω (Option β)) (f : β → Prog ω γ) :
    ∀ s, mapNext (pull src g) f s ⊑ pull src (addMap g f) s := by
  apply pull.fixpoint_induct src g
    (motive := fun P => ∀ s, mapNext P f s ⊑ pull src (addMap g f) s)
  · exact adm (fun _ r => match r.1 with
      | some a => f a >>= fun item => pure (some item, r.2)
      | none => pure (none, r.2)) _
  · intro P ih s
    rw [pull_unfold, mapNext, bind_assoc']
    apply bind_mono
    intro r
    obtain ⟨o, s'⟩ := r
    cases o with
    | none => exact PartialOrder.rel_refl
    | some a =>
      simp only [addMap, bind_assoc']
      apply bind_mono
      intro o
      cases o with
      | none => simp only [pure_bind']; exact ih s'
      | some b => simp only [pure_bind', bind_assoc']; exact PartialOrder.rel_refl

theorem pull_map_le (src : Next ω σ α) (g : α → Prog ω (Option β)) (f : β → Prog ω γ) :
    ∀ s, pull src (addMap g f) s ⊑ mapNext (pull src g) f s := by
  apply pull.fixpoint_induct src (addMap g f)
    (motive := fun P => ∀ s, P s ⊑ mapNext (pull src g) f s)
  · exact adm' _
  · intro P ih s
    rw [mapNext, pull_unfold, bind_assoc']
    apply bind_mono
    intro r
    obtain ⟨o, s'⟩ := r
    cases o with
    | none => exact PartialOrder.rel_refl
    | some a =>
      simp only [addMap, bind_assoc']
      apply bind_mono
      intro o
      cases o with
      | none => simp only [pure_bind']; exact ih s'
      | some b => simp only [pure_bind', bind_assoc']; exact PartialOrder.rel_refl

theorem map_pull (src : Next ω σ α) (g : α → Prog ω (Option β)) (f : β → Prog ω γ) (s : σ) :
    mapNext (pull src g) f s = pull src (addMap g f) s :=
  le_antisymm' (map_pull_le src g f s) (pull_map_le src g f s)

theorem pull_source (src : Next ω σ α) (s : σ) : pull src (one (.source : Pipe ω α α)) s = src s := by
  rw [pull_unfold]
  funext w
  simp only [Prog.bind_run]
  cases h : src s w with
  | ok q => obtain ⟨⟨o, s'⟩, w'⟩ := q; cases o <;> simp [one]
  | _ => rfl

theorem one_map {α β γ : Type} (pipe : Pipe ω α β) (f : β → Prog ω γ) : one (pipe.map f) = addMap (one pipe) f := by
  funext a; simp only [one, addMap]; rfl

theorem one_filter {α β : Type} (pipe : Pipe ω α β) (p : β → Prog ω (Bool × β)) :
    one (pipe.filter p) = addFilter (one pipe) p := by
  funext a; simp only [one, addFilter]; rfl

/-- Every pipeline works element by element. -/
theorem pipe_next {α β : Type} (pipe : Pipe ω α β) (src : Next ω σ α) : pipe.next src = pull src (one pipe) := by
  induction pipe with
  | source => funext s; rw [pull_source, Pipe.next]
  | map pipe f ih => funext s; simp only [Pipe.next, ih, map_pull, one_map]
  | filter pipe p ih => funext s; simp only [Pipe.next, filterNext, ih, find_pull, one_filter]

/-! ## Sources that hand out a known list, without effects on `ω` -/

theorem pull_nil {next : σ → Out (Option α × σ)} {s s' : σ} (h : next s = .ok (none, s')) (g : α → Prog ω (Option β))
    (K : Option β × σ → Prog ω ρ) : (pull (quiet next) g s >>= K) = K (none, s') := by
  rw [pull_unfold]; funext w; simp [quiet, h]

theorem pull_cons {next : σ → Out (Option α × σ)} {s s1 : σ} {a : α} (h : next s = .ok (some a, s1))
    (g : α → Prog ω (Option β)) (K : Option β × σ → Prog ω ρ) :
    (pull (quiet next) g s >>= K) = (g a >>= fun o => match o with
      | some b => K (some b, s1)
      | none => pull (quiet next) g s1 >>= K) := by
  rw [pull_unfold]; funext w; simp only [quiet, h, Prog.bind_run, Out.bind_ok]
  cases g a w with
  | ok q => obtain ⟨o, w'⟩ := q; cases o <;> simp
  | _ => rfl

theorem bind_congr' {x : Prog ω α} {f g : α → Prog ω β} (h : ∀ a, f a = g a) : (x >>= f) = (x >>= g) := by
  have : f = g := funext h
  rw [this]

theorem fold_unfold (next : Next ω σ α) (f : β → α → Prog ω β) (acc : β) (s : σ) :
    fold next f acc s = (next s >>= fun r => match r.1 with
      | none => return acc
      | some a => f acc a >>= fun acc => fold next f acc r.2) := by rw [fold]; rfl

theorem fold_pull {next : σ → Out (Option α × σ)} {s s' : σ} {xs : List α} (h : Spec.Produces next s xs s')
    (g : α → Prog ω (Option β)) (f : ρ → β → Prog ω ρ) (acc : ρ) :
    fold (pull (quiet next) g) f acc s = foldOver g f acc xs := by
  induction h generalizing acc with
  | nil h => rw [fold_unfold, pull_nil h]; rfl
  | cons h _ ih =>
    rw [fold_unfold, pull_cons h, foldOver]
    apply bind_congr'
    intro o
    cases o with
    | none => simp only; rw [← fold_unfold]; exact ih acc
    | some b => exact bind_congr' fun acc => ih acc

theorem reduce_pull {next : σ → Out (Option α × σ)} {s s' : σ} {xs : List α} (h : Spec.Produces next s xs s')
    (g : α → Prog ω (Option β)) (f : β → β → Prog ω β) :
    reduce (pull (quiet next) g) f s = reduceOver g f xs := by
  induction h with
  | nil h => rw [reduce, pull_nil h]; rfl
  | cons h h2 ih =>
    rw [reduce, pull_cons h, reduceOver]
    apply bind_congr'
    intro o
    cases o with
    | none => simp only; rw [← ih, reduce]
    | some b => simp only; rw [fold_pull h2]

theorem forEach_unfold (next : Next ω σ α) (f : α → Prog ω Unit) (s : σ) :
    forEach next f s = (next s >>= fun r => match r.1 with
      | none => return ()
      | some a => f a >>= fun _ => forEach next f r.2) := by rw [forEach]; rfl

theorem forEach_pull {next : σ → Out (Option α × σ)} {s s' : σ} {xs : List α} (h : Spec.Produces next s xs s')
    (g : α → Prog ω (Option β)) (f : β → Prog ω Unit) :
    forEach (pull (quiet next) g) f s = foldOver g (fun _ b => f b) () xs := by
  induction h with
  | nil h => rw [forEach_unfold, pull_nil h]; rfl
  | cons h _ ih =>
    rw [forEach_unfold, pull_cons h, foldOver]
    apply bind_congr'
    intro o
    cases o with
    | none => simp only; rw [← forEach_unfold]; exact ih
    | some b => exact bind_congr' fun _ => ih

theorem collect_unfold (next : Next ω σ α) (acc : List α) (s : σ) :
    collect next acc s = (next s >>= fun r => match r.1 with
      | none => return acc
      | some a => collect next (acc ++ [a]) r.2) := by rw [collect]; rfl

theorem collect_pull {next : σ → Out (Option α × σ)} {s s' : σ} {xs : List α} (h : Spec.Produces next s xs s')
    (g : α → Prog ω (Option β)) (acc : List β) :
    collect (pull (quiet next) g) acc s = (all g xs >>= fun ys => return acc ++ ys) := by
  induction h generalizing acc with
  | nil h => rw [collect_unfold, pull_nil h, all, pure_bind']; simp
  | cons h _ ih =>
    rw [collect_unfold, pull_cons h, all, bind_assoc']
    apply bind_congr'
    intro o
    cases o with
    | none => simp only [bind_assoc', pure_bind']; rw [← collect_unfold]; exact ih acc
    | some b => simp only [ih, bind_assoc', pure_bind']; simp

theorem lastLoop_none (next : Next ω σ α) (prev : Option α) (s : σ) :
    lastLoop next prev none s = return (prev, s) := by rw [lastLoop]
theorem lastLoop_some (next : Next ω σ α) (prev : Option α) (a : α) (s : σ) :
    lastLoop next prev (some a) s = (next s >>= fun r => lastLoop next (some a) r.1 r.2) := by rw [lastLoop]

theorem lastLoop_pull {next : σ → Out (Option α × σ)} {s s' : σ} {xs : List α} (h : Spec.Produces next s xs s')
    (g : α → Prog ω (Option β)) (prev : Option β) (b : β) :
    lastLoop (pull (quiet next) g) prev (some b) s =
      (foldOver g (fun _ b => return some b) (some b) xs >>= fun r => return (r, s')) := by
  induction h generalizing prev b with
  | nil h => rw [lastLoop_some, pull_nil h, lastLoop_none]; rfl
  | cons h _ ih =>
    rw [lastLoop_some, pull_cons h, foldOver, bind_assoc']
    apply bind_congr'
    intro o
    cases o with
    | none => simp only; rw [← ih prev b, lastLoop_some]
    | some b => simp only [pure_bind']; exact ih _ b

theorem last_pull {next : σ → Out (Option α × σ)} {s s' : σ} {xs : List α} (h : Spec.Produces next s xs s')
    (g : α → Prog ω (Option β)) (hend : next s' = .ok (none, s')) :
    last (pull (quiet next) g) s =
      (foldOver g (fun _ b => return some b) none xs >>= fun r => return (r, s')) := by
  induction h with
  | nil h => rw [last, pull_nil h, pull_nil hend, lastLoop_none]; rfl
  | cons h h2 ih =>
    rw [last, pull_cons h, foldOver, bind_assoc']
    apply bind_congr'
    intro o
    cases o with
    | none => simp only; rw [← ih hend, last]
    | some b =>
      simp only [pure_bind']
      rw [← lastLoop_pull h2 g none b, lastLoop_some]

theorem findOver_rest {g : α → Prog ω (Option β)} {p : β → Prog ω (Bool × β)} {xs : List α} {w w' : ω} {m : β × List α}
    (h : findOver g p xs w = .ok (some m, w')) : m.2.length < xs.length := by
  induction xs generalizing w with
  | nil => simp [findOver] at h
  | cons a as ih =>
    simp only [findOver, Prog.bind_run] at h
    cases hg : g a w with
    | ok q =>
      obtain ⟨o, w1⟩ := q
      rw [hg] at h
      cases o with
      | none => have := ih h; simp; omega
      | some b =>
        simp only [Out.bind_ok, Prog.bind_run] at h
        cases hp : p b w1 with
        | ok q =>
          obtain ⟨c, w2⟩ := q
          rw [hp] at h
          cases hc : c.1 with
          | true => simp [hc] at h; simp [← h.1]
          | false => simp only [hc, Out.bind_ok] at h; have := ih h; simp; omega
        | _ => simp [hp] at h
    | _ => simp [hg] at h

theorem find_over {next : σ → Out (Option α × σ)} {s s' : σ} {xs : List α} (h : Spec.Produces next s xs s')
    (g : α → Prog ω (Option β)) (p : β → Prog ω (Bool × β)) :
    ∃ after : List α → σ, (∀ done rest, xs = done ++ rest → done ≠ [] → Spec.Produces next (after rest) rest s') ∧
      find (pull (quiet next) g) p s = (findOver g p xs >>= fun r => match r with
        | none => return (none, s')
        | some m => return (some m.1, after m.2)) := by
  induction h with
  | nil h =>
    refine ⟨fun _ => ‹σ›, ?_, ?_⟩
    · intro done rest h; simp_all
    · rw [find_unfold, pull_nil h]; rfl
  | @cons s s1 s' a as h h2 ih =>
    obtain ⟨after, h3, h4⟩ := ih
    refine ⟨fun rest => if rest.length = as.length then s1 else after rest, ?_, ?_⟩
    · intro done rest he hne
      cases done with
      | nil => simp at hne
      | cons d done =>
        simp only [List.cons_append, List.cons.injEq] at he
        obtain ⟨rfl, rfl⟩ := he
        by_cases hl : done = []
        · subst hl; simpa using h2
        · have hd := List.length_pos_iff.2 hl
          have hn : ¬ rest.length = (done ++ rest).length := by simp; omega
          simp only [hn, if_false]
          exact h3 done rest rfl hl
    · rw [find_unfold, pull_cons h, findOver, bind_assoc']
      apply bind_congr'
      intro o
      have key : find (pull (quiet next) g) p s1 = (findOver g p as >>= fun r => match r with
        | none => return (none, s')
        | some m => return (some m.1, (fun rest => if rest.length = as.length then s1 else after rest) m.2)) := by
        rw [h4]
        funext w
        simp only [Prog.bind_run]
        cases hf : findOver g p as w with
        | ok q =>
          obtain ⟨r, w'⟩ := q
          cases r with
          | none => rfl
          | some m =>
            have : m.2.length ≠ as.length := by
              have := findOver_rest hf
              omega
            simp [this]
        | _ => rfl
      cases o with
      | none => simp only; rw [← find_unfold]; exact key
      | some b =>
        simp only [afterPull, bind_assoc']
        apply bind_congr'
        intro c
        cases c.1
        · simpa using key
        · simp [pure_bind']

/-! ## Pure pipelines -/

def elem : {α β : Type} → PurePipe α β → α → Option β
  | _, _, .source, a => some a
  | _, _, .map pipe f, a => (elem pipe a).map f
  | _, _, .filter pipe p, a => (elem pipe a).filter p

theorem onList_eq {α β : Type} (pp : PurePipe α β) (xs : List α) : pp.onList xs = xs.filterMap (elem pp) := by
  induction pp with
  | source =>
    have : elem (.source : PurePipe α α) = some := by funext a; simp only [elem]
    simp [PurePipe.onList, this]
  | map pipe f ih =>
    simp only [PurePipe.onList, ih, List.map_filterMap]
    congr 1; funext a; simp only [elem]
  | filter pipe p ih =>
    simp only [PurePipe.onList, ih, List.filter_filterMap]
    congr 1; funext a; simp only [elem]

theorem one_pure {α β : Type} (pp : PurePipe α β) (a : α) :
    one (pp.toPipe ω) a = (return elem pp a : Prog ω (Option β)) := by
  induction pp with
  | source => simp [PurePipe.toPipe, one, elem]
  | map pipe f ih =>
    simp only [PurePipe.toPipe, one, ih, pure_bind', elem]
    cases elem pipe a <;> rfl
  | filter pipe p ih =>
    simp only [PurePipe.toPipe, one, ih, pure_bind', elem]
    cases h : elem pipe a with
    | none => rfl
    | some b => cases hp : p b <;> simp [Option.filter, hp]

theorem foldOver_pure {α β : Type} (pp : PurePipe α β) (f : ρ → β → Prog ω ρ) (acc : ρ) (xs : List α) :
    foldOver (one (pp.toPipe ω)) f acc xs = (pp.onList xs).foldlM f acc := by
  rw [onList_eq]
  induction xs generalizing acc with
  | nil => rfl
  | cons a as ih =>
    simp only [foldOver, one_pure, pure_bind', List.filterMap_cons]
    cases elem pp a with
    | none => exact ih acc
    | some b => simp only [List.foldlM_cons]; exact bind_congr' fun acc => ih acc

theorem all_pure {α β : Type} (pp : PurePipe α β) (xs : List α) :
    all (one (pp.toPipe ω)) xs = (return pp.onList xs : Prog ω (List β)) := by
  rw [onList_eq]
  induction xs with
  | nil => rfl
  | cons a as ih =>
    simp only [all, one_pure, pure_bind', List.filterMap_cons, ih]
    cases elem pp a <;> rfl

end Verif.Proof.Pipe
