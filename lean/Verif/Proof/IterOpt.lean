import Verif.Spec.IterOpt
import Verif.Proof.Opt
import Verif.Proof.Pipe
/-! # Pipelines and terminals over option objects do what they do over values -/
open Lean.Order
namespace Verif.Proof.IterOpt
open Verif
open Verif.Model.Iter (Next)
open Verif.Model.Collect (World onClient onMem)
open Verif.Model.IterOpt
open Verif.Spec.IterOpt
open Verif.Spec.Opt (Ideal put)
open Verif.Proof.Opt (R R_put R_put2 objOk_none objOk_some_none objOk_some_some objOk_of_none objOk_of_some_none objOk_of_some_some upd_same upd_ne)

variable {κ σ α β γ ρ : Type}

/-! ## Runs that end in the same way -/

theorem same_bind {x : Out β} {y : Out γ} {P : β → γ → Prop} {δ ε : Type} {f : β → Out δ} {g : γ → Out ε} {Q : δ → ε → Prop}
    (h : Same x y P) (hf : ∀ b c, P b c → Same (f b) (g c) Q) : Same (x >>= f) (y >>= g) Q := by
  cases x <;> cases y <;> first | exact h.elim | exact hf _ _ h | trivial

theorem same_then {x : Out β} {y : Out γ} {P : β → γ → Prop} {δ : Type} {f : β → Out δ} {Q : δ → γ → Prop}
    (h : Same x y P) (hf : ∀ b c, P b c → Same (f b) (.ok c) Q) : Same (x >>= f) y Q := by
  cases x <;> cases y <;> first | exact h.elim | exact hf _ _ h | trivial

theorem same_mono {x : Out β} {y : Out γ} {P Q : β → γ → Prop} (h : Same x y P) (hf : ∀ b c, P b c → Q b c) : Same x y Q := by
  cases x <;> cases y <;> first | exact h.elim | exact hf _ _ h | trivial

/-- a way to compare two runs that allows them to be the same and to be taken apart after runs that are -/
structure Good (T : ∀ {β γ : Type}, Out β → Out γ → (β → γ → Prop) → Prop) : Prop where
  same : ∀ {β γ : Type} {x : Out β} {y : Out γ} {P : β → γ → Prop}, Same x y P → T x y P
  bind : ∀ {β γ δ ε : Type} {x : Out β} {y : Out γ} {P : β → γ → Prop} {f : β → Out δ} {g : γ → Out ε} {Q : δ → ε → Prop},
    Same x y P → (∀ b c, P b c → T (f b) (g c) Q) → T (x >>= f) (y >>= g) Q

/-- the left run does not return, or they end in the same way -/
def Lower {β γ : Type} (x : Out β) (y : Out γ) (P : β → γ → Prop) : Prop := x = .div ∨ Same x y P
/-- the right run does not return, or they end in the same way -/
def Upper {β γ : Type} (x : Out β) (y : Out γ) (P : β → γ → Prop) : Prop := y = .div ∨ Same x y P

theorem same_of {x : Out β} {y : Out γ} {P : β → γ → Prop} (h1 : Lower x y P) (h2 : Upper x y P) : Same x y P := by
  rcases h1 with h1 | h1
  · rcases h2 with h2 | h2
    · rw [h1, h2]; trivial
    · exact h2
  · exact h1

theorem good_same : Good Same := ⟨id, same_bind⟩

theorem good_lower : Good Lower where
  same := .inr
  bind {_ _ _ _ x y _ _ _ _} h hf := by
    cases x <;> cases y <;> first | exact h.elim | exact hf _ _ h | exact .inr trivial

theorem good_upper : Good Upper where
  same := .inr
  bind {_ _ _ _ x y _ _ _ _} h hf := by
    cases x <;> cases y <;> first | exact h.elim | exact hf _ _ h | exact .inr trivial

/-! ## Calls on option objects -/

variable {A : Ideal α} {m : Model.Opt.World α} {mv : α → α} {i j k : Nat}

theorem run_mkSome (h : R A m) (hi : A i = none) (v : α) :
    ∃ m', Model.Opt.mkSome i v m = .ok ((), m') ∧ R (put A i (some (some v))) m' := by
  obtain ⟨h1, h2, h3⟩ := objOk_none (hi ▸ h i)
  refine ⟨_, by simp [Model.Opt.mkSome, Model.Opt.born, h1, Model.Opt.constructVal, Model.Opt.modObj, Model.Opt.setHold]; rfl, ?_⟩
  exact R_put h (objOk_of_some_some (by simp) (by simp) (by simp) (by simp [h3])) fun k hk => by simp [upd_ne, hk]

theorem run_mkNone (h : R A m) (hi : A i = none) :
    ∃ m', Model.Opt.mkNone i m = .ok ((), m') ∧ R (put A i (some none)) m' := by
  obtain ⟨h1, h2, h3⟩ := objOk_none (hi ▸ h i)
  refine ⟨_, by simp [Model.Opt.mkNone, Model.Opt.born, h1, Model.Opt.modObj, Model.Opt.setHold]; rfl, ?_⟩
  exact R_put h (objOk_of_some_none (by simp) (by simp) (by simp) (by simp [h3])) fun k hk => by simp [upd_ne, hk]

theorem run_isSome {o : Option α} (h : R A m) (hi : A i = some o) : Model.Opt.isSome i m = .ok (o.isSome, m) := by
  cases o with
  | none => have := objOk_some_none (hi ▸ h i); simp [Model.Opt.isSome, Model.Opt.obj, this]
  | some v => have := objOk_some_some (hi ▸ h i); simp [Model.Opt.isSome, Model.Opt.obj, this]

theorem run_unwrap {v : α} (h : R A m) (hi : A i = some (some v)) :
    ∃ m', Model.Opt.unwrapUnchecked mv i m = .ok (v, m') ∧ R (put A i (some none)) m' := by
  obtain ⟨h1, h2, h3, h4⟩ := objOk_some_some (hi ▸ h i)
  refine ⟨_, by simp [Model.Opt.unwrapUnchecked, Model.Opt.obj, h1, Model.Opt.moveVal, h3, Model.Opt.reset, Model.Opt.destroyVal,
    Model.Opt.setHold, Model.Opt.modObj]; rfl, ?_⟩
  exact R_put h (objOk_of_some_none (by simp [h1]) (by simp) (by simp) (by simp [h4])) fun k hk => by simp [upd_ne, hk]

theorem run_read {v : α} (h : R A m) (hi : A i = some (some v)) : Model.Opt.readVal i m = .ok (v, m) := by
  obtain ⟨h1, h2, h3, h4⟩ := objOk_some_some (hi ▸ h i)
  simp [Model.Opt.readVal, h3]

theorem run_assign {v : α} (h : R A m) (hi : A i = some (some v)) (x : α) :
    ∃ m', Model.Opt.assignVal i x m = .ok ((), m') ∧ R (put A i (some (some x))) m' := by
  obtain ⟨h1, h2, h3, h4⟩ := objOk_some_some (hi ▸ h i)
  refine ⟨_, by simp [Model.Opt.assignVal, h3]; rfl, ?_⟩
  exact R_put h (objOk_of_some_some (by simp [h1]) (by simp [h2]) (by simp) (by simp [h4])) fun k hk => by simp [upd_ne, hk]

theorem of_step {op : Model.Opt.Op α} {p : Prog (Model.Opt.World α) Unit} {B : Ideal α} (h : R A m)
    (he : Model.Opt.step mv op = (p >>= fun _ => return .unit)) (hs : Spec.Opt.specStep mv op A = some (.ok (.unit, B))) :
    ∃ m', p m = .ok ((), m') ∧ R B m' := by
  obtain ⟨m', e, h'⟩ := Proof.Opt.step_ok mv op A m h _ hs
  rw [he, Prog.bind_run] at e
  cases hp : p m with
  | ok q => rw [hp] at e; cases e; exact ⟨_, rfl, h'⟩
  | _ => rw [hp] at e; cases e

theorem run_destroy {o : Option α} (h : R A m) (hi : A i = some o) :
    ∃ m', Model.Opt.destroy i m = .ok ((), m') ∧ R (put A i none) m' :=
  of_step (mv := id) (op := .destroy i) h rfl (by simp [Spec.Opt.specStep, hi])

theorem run_moveAssign {o o' : Option α} (h : R A m) (hi : A i = some o) (hj : A j = some o') (hn : i ≠ j) :
    ∃ m', Model.Opt.moveAssign mv i j m = .ok ((), m') ∧ R (put (put A j (some (if o.isSome then o'.map mv else none))) i (some o')) m' :=
  of_step (mv := mv) (op := .moveAssign i j) h rfl (by simp [Spec.Opt.specStep, hi, hj, hn])

theorem run_moveCtor {o : Option α} (h : R A m) (hi : A i = none) (hj : A j = some o) :
    ∃ m', Model.Opt.moveCtor mv i j m = .ok ((), m') ∧ R (put (put A j (some none)) i (some o)) m' :=
  of_step (mv := mv) (op := .moveCtor i j) h rfl (by simp [Spec.Opt.specStep, hi, hj])

/-- a call on the objects, then the rest -/
theorem mem_bind {δ : Type} {p : Prog (Model.Opt.World α) γ} {f : γ → Prog (W κ α) δ} {c : κ} {v : γ} {m' : Model.Opt.World α}
    (e : p m = .ok (v, m')) : (onMem p >>= f) ⟨c, m⟩ = f v ⟨c, m'⟩ := by
  simp only [Prog.bind_run, onMem, e, Out.bind_ok]

theorem client_same (p : Prog κ γ) (c : κ) (m : Model.Opt.World α) :
    Same (onClient p ⟨c, m⟩) (p c) fun q q' => q.1 = q'.1 ∧ q.2.client = q'.2 ∧ q.2.mem = m := by
  simp only [onClient]
  cases p c <;> first | exact ⟨rfl, rfl, rfl⟩ | trivial

/-! ## Iterators -/

/-- the iterator with option objects gives in an object what the other one gives as a value -/
def Gives (on : ONext κ σ α) (n : Next κ σ α) : Prop := ∀ (s : σ) (k : Nat) (c : κ) (m : Model.Opt.World α) (A : Ideal α),
  R A m → Free A k → Same (on s k ⟨c, m⟩) (n s c) fun q q' =>
    q.1 = q'.1.2 ∧ q.2.client = q'.2 ∧ R (put A k (some q'.1.1)) q.2.mem

theorem free_put (h : Free A k) (o : Option (Option α)) : Free (put A k o) (k + 1) := by
  intro i hi
  simp only [put, if_neg (show i ≠ k by omega)]
  exact h i (by omega)

theorem free_up (h : Free A k) (hk : k ≤ i) : Free A i := fun l hl => h l (by omega)

theorem put_self (o : Option (Option α)) : put A k o k = o := by simp [put]
theorem put_ne {o : Option (Option α)} (h : i ≠ k) : put A k o i = A i := by simp [put, h]
theorem put_put (x y : Option (Option α)) : put (put A k x) k y = put A k y := by
  funext l; simp only [put]; split <;> rfl
theorem put_same (h : A k = o) : put A k o = A := by
  funext l; simp only [put]; split
  · rename_i e; rw [e, h]
  · rfl
theorem put_comm {x y : Option (Option α)} (h : i ≠ k) : put (put A i x) k y = put (put A k y) i x := by
  funext l; simp only [put]; split
  · rename_i e; rw [if_neg (by omega)]
  · rfl

theorem put_temp {x y : Option (Option α)} (h : i ≠ k) (hi : A i = none) : put (put (put A i x) k y) i none = put A k y := by
  funext l; simp only [put]; split
  · rename_i e; rw [if_neg (by omega), e, hi]
  · rfl

theorem source_gives (n : Next κ σ α) : Gives (source n) n := by
  intro s k c m A h hf
  have hk := hf k (by omega)
  simp only [source, Prog.bind_run]
  have := client_same (n s) c m
  cases hx : onClient (n s) (⟨c, m⟩ : W κ α) with
  | ok q =>
    cases hy : n s c with
    | ok q' =>
      rw [hx, hy] at this
      obtain ⟨⟨o, s1⟩, c1, m1⟩ := q
      obtain ⟨⟨o', s'⟩, c'⟩ := q'
      obtain ⟨e1, e2, e3⟩ := this
      cases e1
      simp only at e2 e3
      subst e2 e3
      simp only [Out.bind_ok]
      cases o with
      | some a =>
        obtain ⟨m', e, h'⟩ := run_mkSome h hk a
        dsimp only
        rw [mem_bind e]
        exact ⟨rfl, rfl, h'⟩
      | none =>
        obtain ⟨m', e, h'⟩ := run_mkNone h hk
        dsimp only
        rw [mem_bind e]
        exact ⟨rfl, rfl, h'⟩
    | _ => rw [hx, hy] at this; exact this.elim
  | _ => cases hy : n s c <;> rw [hx, hy] at this <;> first | exact this.elim | trivial

variable {on : ONext κ σ α} {n : Next κ σ α}

theorem map_gives (hg : Gives on n) (f : α → Prog κ α) : Gives (mapNext mv on f) (Model.Iter.mapNext n f) := by
  intro s k c m A h hf
  rw [mapNext, Model.Iter.mapNext]
  simp only [Prog.bind_run]
  refine same_bind (hg s (k + 1) c m A h (free_up hf (by omega))) ?_
  rintro ⟨s1, c1, m1⟩ ⟨⟨o, s'⟩, c'⟩ ⟨e1, e2, h1⟩
  simp only at e1 e2 h1
  subst e1 e2
  simp only [onMem, run_isSome h1 (put_self _), Out.bind_ok]
  cases o with
  | none =>
    simp only [Option.isSome_none, Bool.false_eq_true, if_false]
    obtain ⟨m2, e2, h2⟩ := run_mkNone (i := k) h1 (by rw [put_ne (by omega)]; exact hf k (by omega))
    obtain ⟨m3, e3, h3⟩ := run_destroy (i := k + 1) h2 (by rw [put_ne (by omega), put_self])
    rw [mem_bind e2, mem_bind e3]
    refine ⟨rfl, rfl, ?_⟩
    rw [put_temp (by omega) (hf (k + 1) (by omega))] at h3
    exact h3
  | some a =>
    simp only [Option.isSome_some, if_true]
    obtain ⟨m2, e2, h2⟩ := run_unwrap (mv := mv) (i := k + 1) h1 (put_self _)
    rw [put_put] at h2
    rw [mem_bind e2]
    simp only [Prog.bind_run]
    refine same_bind (client_same (f a) c1 m2) ?_
    rintro ⟨b, c3, m3⟩ ⟨b', c'⟩ ⟨e1, e2, e3⟩
    simp only at e1 e2 e3
    subst e1 e2 e3
    obtain ⟨m4, e4, h4⟩ := run_mkSome (i := k) h2 (by rw [put_ne (by omega)]; exact hf k (by omega)) b
    obtain ⟨m5, e5, h5⟩ := run_destroy (i := k + 1) h4 (by rw [put_ne (by omega), put_self])
    simp only [onMem, e4, Out.bind_ok, e5]
    refine ⟨rfl, rfl, ?_⟩
    rw [put_temp (by omega) (hf (k + 1) (by omega))] at h5
    exact h5

/-- `o = iter.next();` -/
theorem refill_same (hg : Gives on n) (s : σ) (c : κ) {o : Option α} (h : R A m) (hf : Free A (j + 1)) (hj : A j = some o) :
    Same (refill mv on s j ⟨c, m⟩) (n s c) fun q q' => q.1 = q'.1.2 ∧ q.2.client = q'.2 ∧ R (put A j (some q'.1.1)) q.2.mem := by
  rw [refill]
  have key := hg s (j + 1) c m A h hf
  simp only [Prog.bind_run]
  cases hx : on s (j + 1) ⟨c, m⟩ with
  | ok q =>
    cases hy : n s c with
    | ok q' =>
      rw [hx, hy] at key
      obtain ⟨s1, c1, m1⟩ := q
      obtain ⟨⟨o', s'⟩, c'⟩ := q'
      obtain ⟨e1, e2, h1⟩ := key
      simp only at e1 e2 h1
      subst e1 e2
      obtain ⟨m2, e2, h2⟩ := run_moveAssign (mv := mv) (i := j) (j := j + 1) h1 (by rw [put_ne (by omega)]; exact hj) (put_self _) (by omega)
      obtain ⟨m3, e3, h3⟩ := run_destroy (i := j + 1) h2 (by rw [put_ne (by omega), put_self])
      simp only [Out.bind_ok, onMem, e2, e3]
      refine ⟨rfl, rfl, ?_⟩
      rw [put_put, put_comm (i := j) (k := j + 1) (by omega), put_put, put_comm (i := j + 1) (k := j) (by omega), put_comm (i := j) (k := j + 1) (by omega), put_same (k := j + 1) (hf (j + 1) (by omega))] at h3
      exact h3
    | _ => rw [hx, hy] at key; exact key.elim
  | _ => cases hy : n s c <;> rw [hx, hy] at key <;> first | exact key.elim | trivial

/-! ## `find` -/

/-- what the value loop does with a result of `next` -/
def findV (p : α → Prog κ (Bool × α)) (K : σ → Prog κ (Option α × σ)) (o : Option α) (s : σ) : Prog κ (Option α × σ) :=
  match o with
  | none => return (none, s)
  | some a => do
    let c ← p a
    if c.1 then return (some c.2, s) else K s

theorem find_eq (p : α → Prog κ (Bool × α)) (s : σ) :
    Model.Iter.find n p s = (n s >>= fun r => findV p (Model.Iter.find n p) r.1 r.2) := by
  rw [Model.Iter.find]
  rfl

/-- what the object loop does -/
def findB (mv : α → α) (on : ONext κ σ α) (p : α → Prog κ (Bool × α)) (j : Nat) (K : σ → Prog (W κ α) σ) (s : σ) : Prog (W κ α) σ := do
  let b ← onMem (Model.Opt.isSome j)
  if b then
    let a ← onMem (Model.Opt.readVal j)
    let c ← onClient (p a)
    onMem (Model.Opt.assignVal j c.2)
    if c.1 then return s
    else
      let s ← refill mv on s j
      K s
  else return s

/-- the object that is left holds the result -/
def FindR (A : Ideal α) (j : Nat) (q : σ × W κ α) (q' : (Option α × σ) × κ) : Prop :=
  q.1 = q'.1.2 ∧ q.2.client = q'.2 ∧ R (put A j (some q'.1.1)) q.2.mem

theorem findR_put (o : Option (Option α)) : FindR (κ := κ) (σ := σ) (put A j o) j = FindR A j := by
  funext q q'
  simp only [FindR, put_put]

theorem free_same (hf : Free A (j + 1)) (o : Option (Option α)) : Free (put A j o) (j + 1) :=
  fun i hi => by rw [put_ne (by omega)]; exact hf i hi

theorem find_body {T : ∀ {β γ : Type}, Out β → Out γ → (β → γ → Prop) → Prop} (hT : Good T) {p : α → Prog κ (Bool × α)}
    {K : σ → Prog (W κ α) σ} {V : σ → Prog κ (Option α × σ)}
    (ih : ∀ s c A m o, R A m → Free A (j + 1) → A j = some o → T ((refill mv on s j >>= K) ⟨c, m⟩) (V s c) (FindR A j))
    (s : σ) (c : κ) (A : Ideal α) (m : Model.Opt.World α) (o : Option α) (h : R A m) (hf : Free A (j + 1)) (hj : A j = some o) :
    T (findB mv on p j K s ⟨c, m⟩) (findV p V o s c) (FindR A j) := by
  rw [findB, mem_bind (run_isSome h hj)]
  cases o with
  | none => exact hT.same ⟨rfl, rfl, by rw [put_same hj]; exact h⟩
  | some a =>
    simp only [Option.isSome_some, if_true]
    rw [mem_bind (run_read h hj)]
    simp only [findV, Prog.bind_run]
    refine hT.bind (client_same (p a) c m) ?_
    rintro ⟨b, c3, m3⟩ ⟨b', c'⟩ ⟨e1, e2, e3⟩
    simp only at e1 e2 e3
    subst e1 e2 e3
    obtain ⟨m4, e4, h4⟩ := run_assign h hj b.2
    simp only [onMem, e4, Out.bind_ok]
    cases hb : b.1 with
    | true => exact hT.same ⟨rfl, rfl, h4⟩
    | false =>
      have := ih s c3 _ m4 _ h4 (free_same hf _) (put_self _)
      rw [findR_put] at this
      exact this

theorem find_lower (hg : Gives on n) (p : α → Prog κ (Bool × α)) :
    ∀ s w A o, R A w.mem → Free A (j + 1) → A j = some o →
      Lower (findLoop mv on p j s w) (findV p (Model.Iter.find n p) o s w.client) (FindR A j) := by
  apply findLoop.fixpoint_induct mv on p j
    (motive := fun P => ∀ s (w : W κ α) A o, R A w.mem → Free A (j + 1) → A j = some o →
      Lower (P s w) (findV p (Model.Iter.find n p) o s w.client) (FindR A j))
  · refine admissible_pi_apply (fun s (x : Prog (W κ α) σ) => ∀ w A o, R A w.mem → Free A (j + 1) → A j = some o →
      Lower (x w) (findV p (Model.Iter.find n p) o s w.client) (FindR A j)) fun s => ?_
    refine admissible_pi_apply (fun (w : W κ α) (x : Out (σ × W κ α)) => ∀ A o, R A w.mem → Free A (j + 1) → A j = some o →
      Lower x (findV p (Model.Iter.find n p) o s w.client) (FindR A j)) fun w => ?_
    exact admissible_flatOrder (b := (Out.div : Out (σ × W κ α))) _ fun _ _ _ _ _ => .inl rfl
  · rintro K ih s ⟨c, m⟩ A o h hf hj
    refine find_body good_lower ?_ s c A m o h hf hj
    intro s c A m o h hf hj
    rw [find_eq]
    simp only [Prog.bind_run]
    refine good_lower.bind (refill_same hg s c h hf hj) ?_
    rintro ⟨s1, c1, m1⟩ ⟨⟨o1, s'⟩, c'⟩ ⟨e1, e2, h1⟩
    simp only at e1 e2 h1
    subst e1 e2
    have := ih s1 ⟨c1, m1⟩ _ _ h1 (free_same hf _) (put_self _)
    rw [findR_put] at this
    exact this

theorem find_upper (hg : Gives on n) (p : α → Prog κ (Bool × α)) :
    ∀ s c A m o, R A m → Free A (j + 1) → A j = some o →
      Upper ((refill mv on s j >>= findLoop mv on p j) ⟨c, m⟩) (Model.Iter.find n p s c) (FindR A j) := by
  apply Model.Iter.find.fixpoint_induct n p
    (motive := fun V => ∀ s c A m o, R A m → Free A (j + 1) → A j = some o →
      Upper ((refill mv on s j >>= findLoop mv on p j) ⟨c, m⟩) (V s c) (FindR A j))
  · refine admissible_pi_apply (fun s (x : Prog κ (Option α × σ)) => ∀ c A m o, R A m → Free A (j + 1) → A j = some o →
      Upper ((refill mv on s j >>= findLoop mv on p j) ⟨c, m⟩) (x c) (FindR A j)) fun s => ?_
    refine admissible_pi_apply (fun c (x : Out ((Option α × σ) × κ)) => ∀ A m o, R A m → Free A (j + 1) → A j = some o →
      Upper ((refill mv on s j >>= findLoop mv on p j) ⟨c, m⟩) x (FindR A j)) fun w => ?_
    exact admissible_flatOrder (b := (Out.div : Out ((Option α × σ) × κ))) _ fun _ _ _ _ _ _ => .inl rfl
  · intro V ih s c A m o h hf hj
    simp only [Prog.bind_run]
    refine good_upper.bind (refill_same hg s c h hf hj) ?_
    rintro ⟨s1, c1, m1⟩ ⟨⟨o1, s'⟩, c'⟩ ⟨e1, e2, h1⟩
    simp only at e1 e2 h1
    subst e1 e2
    rw [findLoop]
    have := find_body (mv := mv) (on := on) (p := p) good_upper ih s1 c1 _ m1 o1 h1 (free_same hf _) (put_self _)
    rw [findR_put] at this
    exact this

theorem find_rest (hg : Gives on n) (p : α → Prog κ (Bool × α)) (s : σ) (c : κ) (A : Ideal α) (m : Model.Opt.World α) (o : Option α)
    (h : R A m) (hf : Free A (j + 1)) (hj : A j = some o) :
    Same ((refill mv on s j >>= findLoop mv on p j) ⟨c, m⟩) (Model.Iter.find n p s c) (FindR A j) := by
  refine same_of ?_ (find_upper hg p s c A m o h hf hj)
  rw [find_eq]
  simp only [Prog.bind_run]
  refine good_lower.bind (refill_same hg s c h hf hj) ?_
  rintro ⟨s1, c1, m1⟩ ⟨⟨o1, s'⟩, c'⟩ ⟨e1, e2, h1⟩
  simp only at e1 e2 h1
  subst e1 e2
  have := find_lower (mv := mv) hg p s1 ⟨c1, m1⟩ _ _ h1 (free_same hf _) (put_self _)
  rw [findR_put] at this
  exact this

theorem find_gives (hg : Gives on n) (p : α → Prog κ (Bool × α)) : Gives (find mv on p) (Model.Iter.find n p) := by
  intro s k c m A h hf
  rw [find, find_eq]
  have key : Same ((on s (k + 1) >>= findLoop mv on p (k + 1)) ⟨c, m⟩)
      ((n s >>= fun r => findV p (Model.Iter.find n p) r.1 r.2) c) (FindR A (k + 1)) := by
    simp only [Prog.bind_run]
    refine same_bind (hg s (k + 1) c m A h (free_up hf (by omega))) ?_
    rintro ⟨s1, c1, m1⟩ ⟨⟨o1, s'⟩, c'⟩ ⟨e1, e2, h1⟩
    simp only at e1 e2 h1
    subst e1 e2
    rw [findLoop]
    have := find_body (mv := mv) (on := on) (p := p) good_same (find_rest hg p) s1 c1 _ m1 o1 h1 (free_same (free_up hf (by omega)) _) (put_self _)
    rw [findR_put] at this
    exact this
  have e : (do let s ← on s (k + 1)
               let s ← findLoop mv on p (k + 1) s
               onMem (Model.Opt.moveCtor mv k (k + 1))
               onMem (Model.Opt.destroy (k + 1))
               return s : Prog (W κ α) σ) =
      ((on s (k + 1) >>= findLoop mv on p (k + 1)) >>= fun s => do
               onMem (Model.Opt.moveCtor mv k (k + 1))
               onMem (Model.Opt.destroy (k + 1))
               return s) := by
    rw [Proof.Pipe.bind_assoc']
  rw [e, Prog.bind_run]
  refine same_then key ?_
  rintro ⟨s1, c1, m1⟩ ⟨⟨o1, s'⟩, c'⟩ ⟨e1, e2, h1⟩
  simp only at e1 e2 h1
  subst e1 e2
  obtain ⟨m2, e2, h2⟩ := run_moveCtor (mv := mv) (i := k) (j := k + 1) h1 (by rw [put_ne (by omega)]; exact hf k (by omega)) (put_self _)
  obtain ⟨m3, e3, h3⟩ := run_destroy (i := k + 1) h2 (by rw [put_ne (by omega), put_self])
  dsimp only
  rw [mem_bind e2, mem_bind e3]
  refine ⟨rfl, rfl, ?_⟩
  rw [put_put, put_temp (by omega) (hf (k + 1) (by omega))] at h3
  exact h3

/-! ## `fold` -/

def eachV (f : ρ → α → Prog κ ρ) (K : ρ → σ → Prog κ ρ) (acc : ρ) (o : Option α) (s : σ) : Prog κ ρ :=
  match o with
  | none => return acc
  | some a => do
    let acc ← f acc a
    K acc s

theorem fold_eq (f : ρ → α → Prog κ ρ) (acc : ρ) (s : σ) :
    Model.Iter.fold n f acc s = (n s >>= fun r => eachV f (Model.Iter.fold n f) acc r.1 r.2) := by
  rw [Model.Iter.fold]
  rfl

def eachB (mv : α → α) (on : ONext κ σ α) (f : ρ → α → Prog κ ρ) (j : Nat) (K : ρ → σ → Prog (W κ α) ρ) (acc : ρ) (s : σ) :
    Prog (W κ α) ρ := do
  let b ← onMem (Model.Opt.isSome j)
  if b then
    let a ← onMem (Model.Opt.unwrapUnchecked mv j)
    let acc ← onClient (f acc a)
    let s ← refill mv on s j
    K acc s
  else return acc

/-- the object that is left is empty -/
def EachR (A : Ideal α) (j : Nat) (q : ρ × W κ α) (q' : ρ × κ) : Prop :=
  q.1 = q'.1 ∧ q.2.client = q'.2 ∧ R (put A j (some none)) q.2.mem

theorem eachR_put (o : Option (Option α)) : EachR (κ := κ) (ρ := ρ) (put A j o) j = EachR A j := by
  funext q q'
  simp only [EachR, put_put]

theorem each_body {T : ∀ {β γ : Type}, Out β → Out γ → (β → γ → Prop) → Prop} (hT : Good T) {f : ρ → α → Prog κ ρ}
    {K : ρ → σ → Prog (W κ α) ρ} {V : ρ → σ → Prog κ ρ}
    (ih : ∀ acc s c A m o, R A m → Free A (j + 1) → A j = some o → T ((refill mv on s j >>= K acc) ⟨c, m⟩) (V acc s c) (EachR A j))
    (acc : ρ) (s : σ) (c : κ) (A : Ideal α) (m : Model.Opt.World α) (o : Option α) (h : R A m) (hf : Free A (j + 1)) (hj : A j = some o) :
    T (eachB mv on f j K acc s ⟨c, m⟩) (eachV f V acc o s c) (EachR A j) := by
  rw [eachB, mem_bind (run_isSome h hj)]
  cases o with
  | none => exact hT.same ⟨rfl, rfl, by rw [put_same hj]; exact h⟩
  | some a =>
    simp only [Option.isSome_some, if_true]
    obtain ⟨m2, e2, h2⟩ := run_unwrap (mv := mv) h hj
    rw [mem_bind e2]
    simp only [eachV]
    rw [Prog.bind_run, Prog.bind_run]
    refine hT.bind (client_same (f acc a) c m2) ?_
    rintro ⟨b, c3, m3⟩ ⟨b', c'⟩ ⟨e1, e2, e3⟩
    simp only at e1 e2 e3
    subst e1 e2 e3
    have := ih b s c3 _ _ _ h2 (free_same hf _) (put_self _)
    rw [eachR_put] at this
    exact this

theorem each_lower (hg : Gives on n) (f : ρ → α → Prog κ ρ) :
    ∀ acc s w A o, R A w.mem → Free A (j + 1) → A j = some o →
      Lower (eachLoop mv on f j acc s w) (eachV f (Model.Iter.fold n f) acc o s w.client) (EachR A j) := by
  apply eachLoop.fixpoint_induct mv on f j
    (motive := fun P => ∀ acc s (w : W κ α) A o, R A w.mem → Free A (j + 1) → A j = some o →
      Lower (P acc s w) (eachV f (Model.Iter.fold n f) acc o s w.client) (EachR A j))
  · refine admissible_pi_apply (fun acc (x : σ → Prog (W κ α) ρ) => ∀ s (w : W κ α) A o, R A w.mem → Free A (j + 1) → A j = some o →
      Lower (x s w) (eachV f (Model.Iter.fold n f) acc o s w.client) (EachR A j)) fun acc => ?_
    refine admissible_pi_apply (fun s (x : Prog (W κ α) ρ) => ∀ (w : W κ α) A o, R A w.mem → Free A (j + 1) → A j = some o →
      Lower (x w) (eachV f (Model.Iter.fold n f) acc o s w.client) (EachR A j)) fun s => ?_
    refine admissible_pi_apply (fun (w : W κ α) (x : Out (ρ × W κ α)) => ∀ A o, R A w.mem → Free A (j + 1) → A j = some o →
      Lower x (eachV f (Model.Iter.fold n f) acc o s w.client) (EachR A j)) fun w => ?_
    exact admissible_flatOrder (b := (Out.div : Out (ρ × W κ α))) _ fun _ _ _ _ _ => .inl rfl
  · rintro K ih acc s ⟨c, m⟩ A o h hf hj
    refine each_body good_lower ?_ acc s c A m o h hf hj
    intro acc s c A m o h hf hj
    rw [fold_eq]
    simp only [Prog.bind_run]
    refine good_lower.bind (refill_same hg s c h hf hj) ?_
    rintro ⟨s1, c1, m1⟩ ⟨⟨o1, s'⟩, c'⟩ ⟨e1, e2, h1⟩
    simp only at e1 e2 h1
    subst e1 e2
    have := ih acc s1 ⟨c1, m1⟩ _ _ h1 (free_same hf _) (put_self _)
    rw [eachR_put] at this
    exact this

theorem each_upper (hg : Gives on n) (f : ρ → α → Prog κ ρ) :
    ∀ acc s c A m o, R A m → Free A (j + 1) → A j = some o →
      Upper ((refill mv on s j >>= eachLoop mv on f j acc) ⟨c, m⟩) (Model.Iter.fold n f acc s c) (EachR A j) := by
  apply Model.Iter.fold.fixpoint_induct n f
    (motive := fun V => ∀ acc s c A m o, R A m → Free A (j + 1) → A j = some o →
      Upper ((refill mv on s j >>= eachLoop mv on f j acc) ⟨c, m⟩) (V acc s c) (EachR A j))
  · refine admissible_pi_apply (fun acc (x : σ → Prog κ ρ) => ∀ s c A m o, R A m → Free A (j + 1) → A j = some o →
      Upper ((refill mv on s j >>= eachLoop mv on f j acc) ⟨c, m⟩) (x s c) (EachR A j)) fun acc => ?_
    refine admissible_pi_apply (fun s (x : Prog κ ρ) => ∀ c A m o, R A m → Free A (j + 1) → A j = some o →
      Upper ((refill mv on s j >>= eachLoop mv on f j acc) ⟨c, m⟩) (x c) (EachR A j)) fun s => ?_
    refine admissible_pi_apply (fun c (x : Out (ρ × κ)) => ∀ A m o, R A m → Free A (j + 1) → A j = some o →
      Upper ((refill mv on s j >>= eachLoop mv on f j acc) ⟨c, m⟩) x (EachR A j)) fun w => ?_
    exact admissible_flatOrder (b := (Out.div : Out (ρ × κ))) _ fun _ _ _ _ _ _ => .inl rfl
  · intro V ih acc s c A m o h hf hj
    simp only [Prog.bind_run]
    refine good_upper.bind (refill_same hg s c h hf hj) ?_
    rintro ⟨s1, c1, m1⟩ ⟨⟨o1, s'⟩, c'⟩ ⟨e1, e2, h1⟩
    simp only at e1 e2 h1
    subst e1 e2
    rw [eachLoop]
    have := each_body (mv := mv) (on := on) (f := f) good_upper ih acc s1 c1 _ m1 o1 h1 (free_same hf _) (put_self _)
    rw [eachR_put] at this
    exact this

theorem each_rest (hg : Gives on n) (f : ρ → α → Prog κ ρ) (acc : ρ) (s : σ) (c : κ) (A : Ideal α) (m : Model.Opt.World α) (o : Option α)
    (h : R A m) (hf : Free A (j + 1)) (hj : A j = some o) :
    Same ((refill mv on s j >>= eachLoop mv on f j acc) ⟨c, m⟩) (Model.Iter.fold n f acc s c) (EachR A j) := by
  refine same_of ?_ (each_upper hg f acc s c A m o h hf hj)
  rw [fold_eq]
  simp only [Prog.bind_run]
  refine good_lower.bind (refill_same hg s c h hf hj) ?_
  rintro ⟨s1, c1, m1⟩ ⟨⟨o1, s'⟩, c'⟩ ⟨e1, e2, h1⟩
  simp only at e1 e2 h1
  subst e1 e2
  have := each_lower (mv := mv) hg f acc s1 ⟨c1, m1⟩ _ _ h1 (free_same hf _) (put_self _)
  rw [eachR_put] at this
  exact this

/-- result and client as without objects, and no object is left -/
def ValR (A : Ideal α) (q : ρ × W κ α) (q' : ρ × κ) : Prop := q.1 = q'.1 ∧ q.2.client = q'.2 ∧ R A q.2.mem

theorem fold_same (hg : Gives on n) (f : ρ → α → Prog κ ρ) (acc : ρ) (s : σ) (k : Nat) (c : κ) (m : Model.Opt.World α) (A : Ideal α)
    (h : R A m) (hf : Free A k) : Same (fold mv on f acc s k ⟨c, m⟩) (Model.Iter.fold n f acc s c) (ValR A) := by
  rw [fold, fold_eq]
  have key : Same ((on s k >>= eachLoop mv on f k acc) ⟨c, m⟩)
      ((n s >>= fun r => eachV f (Model.Iter.fold n f) acc r.1 r.2) c) (EachR A k) := by
    simp only [Prog.bind_run]
    refine same_bind (hg s k c m A h hf) ?_
    rintro ⟨s1, c1, m1⟩ ⟨⟨o1, s'⟩, c'⟩ ⟨e1, e2, h1⟩
    simp only at e1 e2 h1
    subst e1 e2
    rw [eachLoop]
    have := each_body (mv := mv) (on := on) (f := f) good_same (each_rest hg f) acc s1 c1 _ m1 o1 h1
      (free_same (free_up hf (by omega)) _) (put_self _)
    rw [eachR_put] at this
    exact this
  have e : (do let s ← on s k
               let r ← eachLoop mv on f k acc s
               onMem (Model.Opt.destroy k)
               return r : Prog (W κ α) ρ) =
      ((on s k >>= eachLoop mv on f k acc) >>= fun r => do
               onMem (Model.Opt.destroy k)
               return r) := by
    rw [Proof.Pipe.bind_assoc']
  rw [e, Prog.bind_run]
  refine same_then key ?_
  rintro ⟨r, c1, m1⟩ ⟨r', c'⟩ ⟨e1, e2, h1⟩
  simp only at e1 e2 h1
  subst e1 e2
  obtain ⟨m3, e3, h3⟩ := run_destroy (i := k) h1 (put_self _)
  dsimp only
  rw [mem_bind e3]
  refine ⟨rfl, rfl, ?_⟩
  rw [put_put, put_same (hf k (by omega))] at h3
  exact h3

theorem forEach_fold (f : α → Prog κ Unit) (s : σ) :
    Model.Iter.forEach n f s = Model.Iter.fold n (fun _ => f) () s := by
  apply Proof.Pipe.le_antisymm'
  · revert s
    apply Model.Iter.forEach.fixpoint_induct (motive := fun P => ∀ s, P s ⊑ Model.Iter.fold n (fun _ => f) () s)
    · exact Proof.Pipe.adm' _
    · intro K ih s
      rw [Proof.Pipe.fold_unfold]
      refine Proof.Pipe.bind_mono fun r => ?_
      obtain ⟨o, s1⟩ := r
      cases o with
      | none => exact PartialOrder.rel_refl
      | some b => exact Proof.Pipe.bind_mono fun _ => ih _
  · have : ∀ (u : Unit) s, Model.Iter.fold n (fun _ => f) u s ⊑ Model.Iter.forEach n f s := by
      apply Model.Iter.fold.fixpoint_induct (motive := fun P => ∀ (u : Unit) s, P u s ⊑ Model.Iter.forEach n f s)
      · apply admissible_pi_apply (P := fun (_ : Unit) (x : σ → Prog κ Unit) => ∀ s, x s ⊑ Model.Iter.forEach n f s)
        intro u
        exact Proof.Pipe.adm' _
      · intro K ih u s
        rw [Proof.Pipe.forEach_unfold]
        refine Proof.Pipe.bind_mono fun r => ?_
        obtain ⟨o, s1⟩ := r
        cases o with
        | none => exact PartialOrder.rel_refl
        | some b => exact Proof.Pipe.bind_mono fun _ => ih _ _
    exact this () s

/-- appending an element -/
def app (acc : List α) (a : α) : Prog κ (List α) := return acc ++ [a]

theorem collect_fold (acc : List α) (s : σ) : Model.Iter.collect n acc s = Model.Iter.fold n (app (κ := κ)) acc s := by
  apply Proof.Pipe.le_antisymm'
  · revert acc s
    apply Model.Iter.collect.fixpoint_induct (motive := fun P => ∀ acc s, P acc s ⊑ Model.Iter.fold n app acc s)
    · apply admissible_pi_apply (P := fun (acc : List α) (x : σ → Prog κ (List α)) => ∀ s, x s ⊑ Model.Iter.fold n app acc s)
      intro u
      exact Proof.Pipe.adm' _
    · intro K ih acc s
      rw [Proof.Pipe.fold_unfold]
      refine Proof.Pipe.bind_mono fun r => ?_
      obtain ⟨o, s1⟩ := r
      cases o with
      | none => exact PartialOrder.rel_refl
      | some b => exact ih _ _
  · revert acc s
    apply Model.Iter.fold.fixpoint_induct (motive := fun P => ∀ acc s, P acc s ⊑ Model.Iter.collect n acc s)
    · apply admissible_pi_apply (P := fun (acc : List α) (x : σ → Prog κ (List α)) => ∀ s, x s ⊑ Model.Iter.collect n acc s)
      intro u
      exact Proof.Pipe.adm' _
    · intro K ih acc s
      rw [Proof.Pipe.collect_unfold]
      refine Proof.Pipe.bind_mono fun r => ?_
      obtain ⟨o, s1⟩ := r
      cases o with
      | none => exact PartialOrder.rel_refl
      | some b => exact ih _ _

theorem forEach_same (hg : Gives on n) (f : α → Prog κ Unit) (s : σ) (k : Nat) (c : κ) (m : Model.Opt.World α) (A : Ideal α)
    (h : R A m) (hf : Free A k) : Same (forEach mv on f s k ⟨c, m⟩) (Model.Iter.forEach n f s c) (ValR A) := by
  rw [forEach_fold]
  have e : forEach mv on f s k = fold mv on (fun _ => f) () s k := by
    rw [forEach, fold]
    funext w
    simp only [Prog.bind_run]
    congr 1
    funext q
    congr 1
    funext q'
    cases onMem (Model.Opt.destroy k) q'.2 <;> rfl
  rw [e]
  exact fold_same hg _ _ _ _ _ _ _ h hf

theorem collect_same (hg : Gives on n) (s : σ) (k : Nat) (c : κ) (m : Model.Opt.World α) (A : Ideal α)
    (h : R A m) (hf : Free A k) : Same (collect mv on s k ⟨c, m⟩) (Model.Iter.collect n [] s c) (ValR A) := by
  rw [collect_fold]
  exact fold_same hg app [] _ _ _ _ _ h hf

/-- the result is in an object -/
def ObjR (A : Ideal α) (k : Nat) (q : Unit × W κ α) (q' : Option α × κ) : Prop :=
  q.2.client = q'.2 ∧ R (put A k (some q'.1)) q.2.mem

theorem reduce_same (hg : Gives on n) (f : α → α → Prog κ α) (s : σ) (k : Nat) (c : κ) (m : Model.Opt.World α) (A : Ideal α)
    (h : R A m) (hf : Free A k) : Same (reduce mv on f s k ⟨c, m⟩) (Model.Iter.reduce n f s c) (ObjR A k) := by
  rw [reduce, Model.Iter.reduce, Prog.bind_run, Prog.bind_run]
  refine same_bind (hg s (k + 1) c m A h (free_up hf (by omega))) ?_
  rintro ⟨s1, c1, m1⟩ ⟨⟨o, s'⟩, c'⟩ ⟨e1, e2, h1⟩
  simp only at e1 e2 h1
  subst e1 e2
  dsimp only
  rw [mem_bind (run_isSome h1 (put_self _))]
  cases o with
  | none =>
    simp only [Option.isSome_none, Bool.false_eq_true, if_false]
    obtain ⟨m2, e2, h2⟩ := run_mkNone (i := k) h1 (by rw [put_ne (by omega)]; exact hf k (by omega))
    obtain ⟨m3, e3, h3⟩ := run_destroy (i := k + 1) h2 (by rw [put_ne (by omega), put_self])
    rw [mem_bind e2]
    simp only [onMem, e3, Out.bind_ok]
    refine ⟨rfl, ?_⟩
    rw [put_temp (by omega) (hf (k + 1) (by omega))] at h3
    exact h3
  | some a =>
    simp only [Option.isSome_some, if_true]
    obtain ⟨m2, e2, h2⟩ := run_unwrap (mv := mv) (i := k + 1) h1 (put_self _)
    rw [put_put] at h2
    rw [mem_bind e2, Prog.bind_run, Prog.bind_run]
    refine same_bind (fold_same hg f a s1 (k + 2) c1 m2 _ h2 (free_same (free_up hf (by omega)) _)) ?_
    rintro ⟨v, c3, m3⟩ ⟨v', c'⟩ ⟨e1, e2, h3⟩
    simp only at e1 e2 h3
    subst e1 e2
    obtain ⟨m4, e4, h4⟩ := run_mkSome (i := k) h3 (by rw [put_ne (by omega)]; exact hf k (by omega)) v
    obtain ⟨m5, e5, h5⟩ := run_destroy (i := k + 1) h4 (by rw [put_ne (by omega), put_self])
    dsimp only
    rw [mem_bind e4]
    simp only [onMem, e5, Out.bind_ok]
    refine ⟨rfl, ?_⟩
    rw [put_temp (by omega) (hf (k + 1) (by omega))] at h5
    exact h5

/-! ## `last` -/

def LastR (A : Ideal α) (k : Nat) (q : σ × W κ α) (q' : (Option α × σ) × κ) : Prop :=
  q.1 = q'.1.2 ∧ q.2.client = q'.2 ∧ R (put (put A k (some q'.1.1)) (k + 1) (some none)) q.2.mem

theorem lastR_put (x y : Option (Option α)) : LastR (κ := κ) (σ := σ) (put (put A k x) (k + 1) y) k = LastR A k := by
  funext q q'
  simp only [LastR]
  rw [put_comm (A := put A k x) (by omega), put_put, put_put]

def lastV (n : Next κ σ α) (V : Option α → Option α → σ → Prog κ (Option α × σ)) (prev cur : Option α) (s : σ) : Prog κ (Option α × σ) :=
  match cur with
  | none => return (prev, s)
  | some a => do
    let r ← n s
    V (some a) r.1 r.2

def lastB (mv : α → α) (on : ONext κ σ α) (k : Nat) (K : σ → Prog (W κ α) σ) (s : σ) : Prog (W κ α) σ := do
  let b ← onMem (Model.Opt.isSome (k + 1))
  if b then
    onMem (Model.Opt.moveAssign mv k (k + 1))
    let s ← refill mv on s (k + 1)
    K s
  else return s

theorem last_body {T : ∀ {β γ : Type}, Out β → Out γ → (β → γ → Prop) → Prop} (hT : Good T) (hg : Gives on n)
    {K : σ → Prog (W κ α) σ} {V : Option α → Option α → σ → Prog κ (Option α × σ)}
    (ih : ∀ prev cur s c A m, R A m → Free A (k + 2) → A k = some prev → A (k + 1) = some cur →
      T (K s ⟨c, m⟩) (V prev cur s c) (LastR A k))
    (prev cur : Option α) (s : σ) (c : κ) (A : Ideal α) (m : Model.Opt.World α) (h : R A m) (hf : Free A (k + 2))
    (hk : A k = some prev) (hk' : A (k + 1) = some cur) :
    T (lastB mv on k K s ⟨c, m⟩) (lastV n V prev cur s c) (LastR A k) := by
  rw [lastB, mem_bind (run_isSome h hk')]
  cases cur with
  | none =>
    refine hT.same ⟨rfl, rfl, ?_⟩
    dsimp only
    rw [put_same hk, put_same hk']
    exact h
  | some a =>
    simp only [Option.isSome_some, if_true]
    obtain ⟨m2, e2, h2⟩ := run_moveAssign (mv := mv) (i := k) (j := k + 1) h hk hk' (by omega)
    rw [mem_bind e2, lastV, Prog.bind_run, Prog.bind_run]
    refine hT.bind (refill_same (j := k + 1) hg s c h2 (by
      intro i hi
      rw [put_ne (by omega), put_ne (by omega)]
      exact hf i (by omega)) (by rw [put_ne (by omega), put_self])) ?_
    rintro ⟨s1, c1, m1⟩ ⟨⟨o1, s'⟩, c'⟩ ⟨e1, e2, h1⟩
    simp only at e1 e2 h1
    subst e1 e2
    rw [put_comm (i := k) (k := k + 1) (by omega), put_put, put_comm (i := k + 1) (k := k) (by omega)] at h1
    have := ih (some a) o1 s1 c1 _ m1 h1 (by
      intro i hi
      rw [put_ne (by omega), put_ne (by omega)]
      exact hf i (by omega)) (by rw [put_ne (by omega), put_self]) (put_self _)
    rw [lastR_put] at this
    exact this

theorem last_lower (hg : Gives on n) :
    ∀ s w prev cur A, R A w.mem → Free A (k + 2) → A k = some prev → A (k + 1) = some cur →
      Lower (lastLoop mv on k s w) (Model.Iter.lastLoop n prev cur s w.client) (LastR A k) := by
  apply lastLoop.fixpoint_induct mv on k
    (motive := fun P => ∀ s (w : W κ α) prev cur A, R A w.mem → Free A (k + 2) → A k = some prev → A (k + 1) = some cur →
      Lower (P s w) (Model.Iter.lastLoop n prev cur s w.client) (LastR A k))
  · refine admissible_pi_apply (fun s (x : Prog (W κ α) σ) => ∀ (w : W κ α) prev cur A, R A w.mem → Free A (k + 2) → A k = some prev →
      A (k + 1) = some cur → Lower (x w) (Model.Iter.lastLoop n prev cur s w.client) (LastR A k)) fun s => ?_
    refine admissible_pi_apply (fun (w : W κ α) (x : Out (σ × W κ α)) => ∀ prev cur A, R A w.mem → Free A (k + 2) → A k = some prev →
      A (k + 1) = some cur → Lower x (Model.Iter.lastLoop n prev cur s w.client) (LastR A k)) fun w => ?_
    exact admissible_flatOrder (b := (Out.div : Out (σ × W κ α))) _ fun _ _ _ _ _ _ _ => .inl rfl
  · rintro K ih s ⟨c, m⟩ prev cur A h hf hk hk'
    have := last_body (mv := mv) (K := K) good_lower hg (fun prev cur s c A m h hf hk hk' => ih s ⟨c, m⟩ prev cur A h hf hk hk')
      prev cur s c A m h hf hk hk'
    rw [Model.Iter.lastLoop.eq_def]
    exact this

theorem last_upper (hg : Gives on n) :
    ∀ prev cur s c A m, R A m → Free A (k + 2) → A k = some prev → A (k + 1) = some cur →
      Upper (lastLoop mv on k s ⟨c, m⟩) (Model.Iter.lastLoop n prev cur s c) (LastR A k) := by
  apply Model.Iter.lastLoop.fixpoint_induct n
    (motive := fun V => ∀ prev cur s c A m, R A m → Free A (k + 2) → A k = some prev → A (k + 1) = some cur →
      Upper (lastLoop mv on k s ⟨c, m⟩) (V prev cur s c) (LastR A k))
  · refine admissible_pi_apply (fun prev (x : Option α → σ → Prog κ (Option α × σ)) => ∀ cur s c A m, R A m → Free A (k + 2) →
      A k = some prev → A (k + 1) = some cur → Upper (lastLoop mv on k s ⟨c, m⟩) (x cur s c) (LastR A k)) fun prev => ?_
    refine admissible_pi_apply (fun cur (x : σ → Prog κ (Option α × σ)) => ∀ s c A m, R A m → Free A (k + 2) →
      A k = some prev → A (k + 1) = some cur → Upper (lastLoop mv on k s ⟨c, m⟩) (x s c) (LastR A k)) fun cur => ?_
    refine admissible_pi_apply (fun s (x : Prog κ (Option α × σ)) => ∀ c A m, R A m → Free A (k + 2) →
      A k = some prev → A (k + 1) = some cur → Upper (lastLoop mv on k s ⟨c, m⟩) (x c) (LastR A k)) fun s => ?_
    refine admissible_pi_apply (fun c (x : Out ((Option α × σ) × κ)) => ∀ A m, R A m → Free A (k + 2) →
      A k = some prev → A (k + 1) = some cur → Upper (lastLoop mv on k s ⟨c, m⟩) x (LastR A k)) fun c => ?_
    exact admissible_flatOrder (b := (Out.div : Out ((Option α × σ) × κ))) _ fun _ _ _ _ _ _ => .inl rfl
  · intro V ih prev cur s c A m h hf hk hk'
    rw [lastLoop]
    exact last_body (mv := mv) (on := on) good_upper hg ih prev cur s c A m h hf hk hk'

theorem last_gives (hg : Gives on n) : Gives (last mv on) (Model.Iter.last n) := by
  intro s k c m A h hf
  rw [last, Model.Iter.last]
  simp only [Prog.bind_run]
  refine same_bind (hg s (k + 1) c m A h (free_up hf (by omega))) ?_
  rintro ⟨s1, c1, m1⟩ ⟨⟨o1, s'⟩, c'⟩ ⟨e1, e2, h1⟩
  simp only at e1 e2 h1
  subst e1 e2
  dsimp only
  refine same_bind (hg s1 (k + 2) c1 m1 _ h1 (free_same (free_up hf (by omega)) _)) ?_
  rintro ⟨s2, c2, m2⟩ ⟨⟨o2, s'⟩, c'⟩ ⟨e1, e2, h2⟩
  simp only at e1 e2 h2
  subst e1 e2
  dsimp only
  have hfr : Free (put (put A (k + 1) (some o1)) (k + 2) (some o2)) (k + 1 + 2) := by
    intro i hi
    rw [put_ne (by omega), put_ne (by omega)]
    exact hf i (by omega)
  have hk : put (put A (k + 1) (some o1)) (k + 2) (some o2) (k + 1) = some o1 := by rw [put_ne (by omega), put_self]
  have hk' : put (put A (k + 1) (some o1)) (k + 2) (some o2) (k + 1 + 1) = some o2 := put_self _
  refine same_then (same_of (last_lower (mv := mv) hg s2 ⟨c2, m2⟩ o1 o2 _ h2 hfr hk hk') (last_upper hg o1 o2 s2 c2 _ m2 h2 hfr hk hk')) ?_
  rintro ⟨s3, c3, m3⟩ ⟨⟨o3, s'⟩, c'⟩ ⟨e1, e2, h3⟩
  simp only at e1 e2 h3
  subst e1 e2
  rw [put_comm (A := put A (k + 1) (some o1)) (i := k + 2) (k := k + 1) (by omega), put_put, put_put] at h3
  obtain ⟨m4, e4, h4⟩ := run_moveCtor (mv := mv) (i := k) (j := k + 1) h3
    (by rw [put_ne (by omega), put_ne (by omega)]; exact hf k (by omega)) (by rw [put_ne (by omega), put_self])
  obtain ⟨m5, e5, h5⟩ := run_destroy (i := k + 2) h4 (by rw [put_ne (by omega), put_ne (by omega), put_self])
  obtain ⟨m6, e6, h6⟩ := run_destroy (i := k + 1) h5 (by rw [put_ne (by omega), put_ne (by omega), put_self])
  simp only [onMem, e4, e5, e6, Out.bind_ok]
  refine ⟨rfl, rfl, ?_⟩
  have e : put (put (put (put (put (put A (k + 1) (some o3)) (k + 2) (some none)) (k + 1) (some none)) k (some o3)) (k + 2) none) (k + 1) none
      = put A k (some o3) := by
    have h1 := hf (k + 1) (by omega)
    have h2 := hf (k + 2) (by omega)
    funext l
    simp only [put]
    by_cases l1 : l = k + 1
    · subst l1; simp [h1]
    · by_cases l2 : l = k + 2
      · subst l2; simp [h2]
      · simp [l1, l2]
  rw [← e]
  exact h6

/-! ## Pipelines -/

theorem next_gives (src : Next κ σ α) : ∀ st : List (Stage κ α), Gives (next mv src st) ((pipe st).next src)
  | [] => by
    rw [next, pipe, Model.Iter.Pipe.next]
    exact source_gives src
  | .map f :: st => by
    rw [next, pipe, Model.Iter.Pipe.next]
    exact map_gives (next_gives src st) f
  | .filter p :: st => by
    rw [next, pipe, Model.Iter.Pipe.next]
    exact find_gives (next_gives src st) p

end Verif.Proof.IterOpt
