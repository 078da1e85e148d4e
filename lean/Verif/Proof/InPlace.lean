import Verif.Spec.InPlace
import Verif.Proof.Collect
/-! # Functions that receive references into a container -/
open Lean.Order
namespace Verif.Proof.InPlace
open Verif Verif.Model.InPlace
open Verif.Model.Iter (Next Pipe)
open Verif.Model.Collect (World onClient onMem)
open Verif.Spec.Pipe
open Verif.Proof.Pipe

variable {κ S Loc α β γ ρ σ τ : Type}

/-- Both calls return and the results are related, or both fail in the same way. -/
def Sim (R : α → β → Prop) : Out α → Out β → Prop
  | .ok a, .ok b => R a b
  | .div, .div => True
  | .panic, .panic => True
  | .oom, .oom => True
  | .ub, .ub => True
  | _, _ => False

theorem Sim.bind {α' β' : Type} {R : α → β → Prop} {R' : α' → β' → Prop} {x : Out α} {y : Out β} {f : α → Out α'} {g : β → Out β'}
    (h : Sim R x y) (hf : ∀ a b, R a b → Sim R' (f a) (g b)) : Sim R' (x >>= f) (y >>= g) := by
  cases x <;> cases y <;> first | exact hf _ _ h | exact h.elim | exact trivial

theorem Sim.mono {R R' : α → β → Prop} {x : Out α} {y : Out β} (h : Sim R x y) (hf : ∀ a b, R a b → R' a b) : Sim R' x y := by
  cases x <;> cases y <;> first | exact hf _ _ h | exact h.elim | exact trivial

theorem Sim.left {R : α → β → Prop} {R' : γ → β → Prop} {x : Out α} {y : Out β} {f : α → γ} (h : Sim R x y)
    (hf : ∀ a b, R a b → R' (f a) b) : Sim R' (x >>= fun a => .ok (f a)) y := by
  cases x <;> cases y <;> first | exact hf _ _ h | exact h.elim | exact trivial

/-- `H ws m`: the container in `m` holds `ws`; `P s k`: the iterator `s` is at element `k`; `L l k`: `l` refers to element `k`. -/
structure Walks (A : Access S Loc α) (next : Next S σ Loc) (H : List α → S → Prop) (P : σ → Nat → Prop) (L : Loc → Nat → Prop) :
    Prop where
  stop : ∀ {s ws m}, H ws m → P s ws.length → ∃ s', next s m = .ok ((none, s'), m)
  more : ∀ {s pre x post m}, H (pre ++ x :: post) m → P s pre.length →
    ∃ l s', next s m = .ok ((some l, s'), m) ∧ P s' (pre.length + 1) ∧ L l pre.length
  load : ∀ {l pre x post m}, H (pre ++ x :: post) m → L l pre.length → A.load l m = .ok (x, m)
  store : ∀ {l pre x post m} (y : α), H (pre ++ x :: post) m → L l pre.length → ∃ m', A.store l y m = .ok ((), m') ∧ H (pre ++ y :: post) m'

variable {A : Access S Loc α} {next : Next S σ Loc} {H : List α → S → Prop} {P : σ → Nat → Prop} {L : Loc → Nat → Prop}

/-- results agree, and the container holds what the specification leaves in the element -/
abbrev Elem (H : List α → S → Prop) (pre post : List α) (R : β → γ → Prop) : (β × α) × κ → γ × World κ S → Prop :=
  fun p q => R p.1.1 q.1 ∧ q.2.client = p.2 ∧ H (pre ++ p.1.2 :: post) q.2.mem

abbrev Whole (H : List α → S → Prop) (pre : List α) : (ρ × List α) × κ → ρ × World κ S → Prop :=
  fun p q => q.1 = p.1.1 ∧ q.2.client = p.2 ∧ H (pre ++ p.1.2) q.2.mem

theorem onElem_sim (hw : Walks A next H P L) {pre post : List α} {x : α} {l : Loc} {k : κ} {m : S} (hH : H (pre ++ x :: post) m)
    (hL : L l pre.length) (f : α → Prog κ (γ × α)) : Sim (Elem H pre post fun a b => b = a) (f x k) (onElem A f l ⟨k, m⟩) := by
  simp only [onElem, Prog.bind_run, onMem, hw.load hH hL, Out.bind_ok, onClient]
  cases hf : f x k with
  | ok q =>
    obtain ⟨m', e, h'⟩ := hw.store q.1.2 hH hL
    simp only [Out.bind_ok, e, Prog.pure_run]
    exact ⟨rfl, rfl, h'⟩
  | _ => trivial

theorem refs_sim (hw : Walks A next H P L) (r : Refs κ α) {pre post : List α} {x : α} {l : Loc} {k : κ} {m : S} (hH : H (pre ++ x :: post) m)
    (hL : L l pre.length) :
    Sim (Elem H pre post fun b o => o = if b then some l else none) (Spec.InPlace.refs r x k) (one (r.pipe A) l ⟨k, m⟩) := by
  induction r with
  | source =>
    simp only [Spec.InPlace.refs, Refs.pipe, one, Prog.pure_run]
    exact ⟨rfl, rfl, hH⟩
  | filter r p ih =>
    simp only [Spec.InPlace.refs, Refs.pipe, one, Prog.bind_run]
    refine Sim.bind ih ?_
    rintro ⟨⟨b, y⟩, k1⟩ ⟨o, w1⟩ ⟨e1, e2, h1⟩
    obtain ⟨c1, m1⟩ := w1
    dsimp only at e1 e2 h1
    subst e1; subst e2
    cases b with
    | false => exact ⟨rfl, rfl, h1⟩
    | true =>
      simp only [if_true, Prog.bind_run]
      have := onElem_sim (k := c1) hw h1 hL p
      cases hp : p y c1 with
      | ok q =>
        rw [hp] at this
        cases he : onElem A p l ⟨c1, m1⟩ with
        | ok q' =>
          rw [he] at this
          obtain ⟨h2, h3, h4⟩ := this
          simp only [Out.bind_ok, Prog.pure_run, h2]
          cases hb : q.1.1 with
          | true => refine ⟨?_, h3, h4⟩; simp [hb]
          | false => refine ⟨?_, h3, h4⟩; simp [hb]
        | _ => rw [he] at this; exact this.elim
      | _ =>
        rw [hp] at this
        cases he : onElem A p l ⟨c1, m1⟩ <;> rw [he] at this <;> first | exact this.elim | trivial

theorem item_sim (hw : Walks A next H P L) {γ : Type} (s : Stages κ α γ) {pre post : List α} {x : α} {l : Loc} {k : κ} {m : S} (hH : H (pre ++ x :: post) m)
    (hL : L l pre.length) :
    Sim (Elem H pre post fun a b => b = a) (Spec.InPlace.item s x k) (one (s.pipe A) l ⟨k, m⟩) := by
  induction s with
  | first r f =>
    simp only [Spec.InPlace.item, Stages.pipe, one, Prog.bind_run]
    refine Sim.bind (refs_sim hw r hH hL) ?_
    rintro ⟨⟨b, y⟩, k1⟩ ⟨o, ⟨c1, m1⟩⟩ ⟨e1, e2, h1⟩
    dsimp only at e1 e2 h1
    subst e1; subst e2
    cases b with
    | false => exact ⟨rfl, rfl, h1⟩
    | true =>
      simp only [if_true, Prog.bind_run]
      refine Sim.bind (onElem_sim (k := c1) hw h1 hL f) ?_
      rintro ⟨⟨b, y⟩, k1⟩ ⟨o, ⟨c1, m1⟩⟩ ⟨e1, e2, h1⟩
      dsimp only at e1 e2 h1
      subst e1; subst e2
      exact ⟨rfl, rfl, h1⟩
  | map s f ih =>
    simp only [Spec.InPlace.item, Stages.pipe, one, Prog.bind_run]
    refine Sim.bind ih ?_
    rintro ⟨⟨b, y⟩, k1⟩ ⟨o, ⟨c1, m1⟩⟩ ⟨e1, e2, h1⟩
    dsimp only at e1 e2 h1
    subst e1; subst e2
    cases o with
    | none => exact ⟨rfl, rfl, h1⟩
    | some c =>
      simp only [Prog.bind_run, onClient]
      cases f c c1 <;> first | exact ⟨rfl, rfl, h1⟩ | trivial
  | filter s p ih =>
    simp only [Spec.InPlace.item, Stages.pipe, one, Prog.bind_run]
    refine Sim.bind ih ?_
    rintro ⟨⟨b, y⟩, k1⟩ ⟨o, ⟨c1, m1⟩⟩ ⟨e1, e2, h1⟩
    dsimp only at e1 e2 h1
    subst e1; subst e2
    cases o with
    | none => exact ⟨rfl, rfl, h1⟩
    | some c =>
      simp only [Prog.bind_run, onClient]
      cases p c c1 with
      | ok q =>
        obtain ⟨⟨b, d⟩, k2⟩ := q
        cases b <;> exact ⟨rfl, rfl, h1⟩
      | _ => trivial

/-- what a loop does with one element -/
def act (g : Loc → Prog (World κ S) (Option τ)) (F : ρ → τ → Prog (World κ S) ρ) (acc : ρ) (l : Loc) : Prog (World κ S) ρ := do
  let o ← g l
  match o with
  | none => return acc
  | some b => F acc b

theorem fold_sim (hw : Walks A next H P L) {g : Loc → Prog (World κ S) (Option τ)} {F : ρ → τ → Prog (World κ S) ρ}
    {G : ρ → α → Prog κ (ρ × α)}
    (hG : ∀ acc pre x post l k m, H (pre ++ x :: post) m → L l pre.length → Sim (Elem H pre post fun a b => b = a) (G acc x k) (act g F acc l ⟨k, m⟩))
    (xs : List α) : ∀ (acc : ρ) (s : σ) (pre : List α) (k : κ) (m : S), H (pre ++ xs) m → P s pre.length →
      Sim (Whole H pre) (Spec.InPlace.sweep G acc xs k) (Model.Iter.fold (pull (fun s => onMem (next s)) g) F acc s ⟨k, m⟩) := by
  induction xs with
  | nil =>
    intro acc s pre k m hH hP
    obtain ⟨s', e⟩ := hw.stop hH (by simpa using hP)
    rw [fold_unfold, pull_unfold]
    simp only [Prog.bind_run, onMem, e, Out.bind_ok]
    exact ⟨rfl, rfl, hH⟩
  | cons x xs ih =>
    intro acc s pre k m hH hP
    obtain ⟨l, s', e, hP', hL⟩ := hw.more hH hP
    rw [fold_unfold, pull_unfold]
    simp only [Prog.bind_run, onMem, e, Out.bind_ok, Spec.InPlace.sweep]
    have h1 := hG acc pre x xs l k m hH hL
    have key : Sim (Whole H pre) (G acc x k >>= fun q => Spec.InPlace.sweep G q.1.1 xs q.2 >>= fun t => .ok ((t.1.1, q.1.2 :: t.1.2), t.2))
        (act g F acc l ⟨k, m⟩ >>= fun q => Model.Iter.fold (pull (fun s => onMem (next s)) g) F q.1 s' q.2) := by
      refine Sim.bind h1 ?_
      rintro ⟨⟨a, y⟩, k1⟩ ⟨a', ⟨c1, m1⟩⟩ ⟨e1, e2, h1⟩
      dsimp only at e1 e2 h1
      subst e1; subst e2
      have := ih a' s' (pre ++ [y]) c1 m1 (by simpa using h1) (by simpa using hP')
      cases he : Spec.InPlace.sweep G a' xs c1 with
      | ok q =>
        rw [he] at this
        cases hf : Model.Iter.fold (pull (fun s => onMem (next s)) g) F a' s' ⟨c1, m1⟩ with
        | ok q' =>
          rw [hf] at this
          exact ⟨this.1, this.2.1, by simpa using this.2.2⟩
        | _ => rw [hf] at this; exact this.elim
      | _ =>
        rw [he] at this
        cases hf : Model.Iter.fold (pull (fun s => onMem (next s)) g) F a' s' ⟨c1, m1⟩ <;> rw [hf] at this <;> first | exact this.elim | trivial
    refine cast (congrArg _ ?_) key
    simp only [act, Prog.bind_run]
    cases g l ⟨k, m⟩ with
    | ok q =>
      obtain ⟨o, w⟩ := q
      cases o with
      | none => simp only [Out.bind_ok, Prog.pure_run]; rw [fold_unfold]; rfl
      | some b => simp only [Out.bind_ok, Prog.pure_run, Prog.bind_run]
    | _ => rfl

theorem forEach_sim (hw : Walks A next H P L) {g : Loc → Prog (World κ S) (Option τ)} {F : τ → Prog (World κ S) Unit}
    {G : Unit → α → Prog κ (Unit × α)}
    (hG : ∀ acc pre x post l k m, H (pre ++ x :: post) m → L l pre.length →
      Sim (Elem H pre post fun a b => b = a) (G acc x k) (act g (fun _ => F) acc l ⟨k, m⟩))
    (xs : List α) : ∀ (s : σ) (pre : List α) (k : κ) (m : S), H (pre ++ xs) m → P s pre.length →
      Sim (Whole H pre) (Spec.InPlace.sweep G () xs k) (Model.Iter.forEach (pull (fun s => onMem (next s)) g) F s ⟨k, m⟩) := by
  have e : ∀ s, Model.Iter.forEach (pull (fun s => onMem (next s)) g) F s = Model.Iter.fold (pull (fun s => onMem (next s)) g) (fun _ => F) () s := by
    intro s
    apply le_antisymm'
    · revert s
      apply Model.Iter.forEach.fixpoint_induct (motive := fun f => ∀ s, f s ⊑ Model.Iter.fold (pull (fun s => onMem (next s)) g) (fun _ => F) () s)
      · exact adm' _
      · intro f hf s
        rw [fold_unfold]
        refine bind_mono fun r => ?_
        obtain ⟨o, s1⟩ := r
        cases o with
        | none => exact PartialOrder.rel_refl
        | some b => exact bind_mono fun _ => hf _
    · have : ∀ (u : Unit) s, Model.Iter.fold (pull (fun s => onMem (next s)) g) (fun _ => F) u s ⊑ Model.Iter.forEach (pull (fun s => onMem (next s)) g) F s := by
        apply Model.Iter.fold.fixpoint_induct (motive := fun f => ∀ (u : Unit) s, f u s ⊑ Model.Iter.forEach (pull (fun s => onMem (next s)) g) F s)
        · apply admissible_pi_apply (P := fun (_ : Unit) (f : σ → Prog (World κ S) Unit) => ∀ s, f s ⊑ Model.Iter.forEach (pull (fun s => onMem (next s)) g) F s)
          intro u
          exact adm' _
        · intro f hf u s
          rw [forEach_unfold]
          refine bind_mono fun r => ?_
          obtain ⟨o, s1⟩ := r
          cases o with
          | none => exact PartialOrder.rel_refl
          | some b => exact bind_mono fun _ => hf _ _
      exact this () s
  intro s pre k m hH hP
  rw [e]
  exact fold_sim hw hG xs () s pre k m hH hP

theorem find_sim (hw : Walks A next H P L) (r : Refs κ α) (p : α → Prog κ (Bool × α)) (f : α → Prog κ (Unit × α)) (xs : List α) :
    ∀ (s : σ) (pre : List α) (k : κ) (m : S), H (pre ++ xs) m → P s pre.length →
      Sim (Whole H pre) (Spec.InPlace.search r p f xs k) ((Use.findRef r p f).run A (fun s => onMem (next s)) s ⟨k, m⟩) := by
  have e : ∀ s : σ, Model.Iter.find ((r.pipe A).next fun s => onMem (next s)) (fun l => do
      let b ← onElem A p l
      return (b, l)) s = pull (fun s => onMem (next s)) (one ((Refs.filter r p).pipe A)) s := by
    intro s
    rw [← pipe_next, Refs.pipe, Pipe.next, Model.Iter.filterNext]
  induction xs with
  | nil =>
    intro s pre k m hH hP
    obtain ⟨s', e1⟩ := hw.stop hH (by simpa using hP)
    simp only [Use.run, e]
    rw [pull_unfold]
    simp only [Prog.bind_run, onMem, e1, Out.bind_ok]
    exact ⟨rfl, rfl, hH⟩
  | cons x xs ih =>
    intro s pre k m hH hP
    obtain ⟨l, s', e1, hP', hL⟩ := hw.more hH hP
    simp only [Use.run, e, Spec.InPlace.search]
    rw [pull_unfold]
    simp only [Prog.bind_run, onMem, e1, Out.bind_ok]
    have h1 := refs_sim hw (.filter r p) (k := k) hH hL
    cases he : Spec.InPlace.refs (.filter r p) x k with
    | ok q =>
      obtain ⟨⟨b, y⟩, k1⟩ := q
      rw [he] at h1
      cases ho : one ((Refs.filter r p).pipe A) l ⟨k, m⟩ with
      | ok q' =>
        obtain ⟨o, c1, m1⟩ := q'
        rw [ho] at h1
        obtain ⟨e1, e2, h1⟩ := h1
        dsimp only at e1 e2 h1
        subst e1; subst e2
        cases b with
        | true =>
          simp only [Out.bind_ok, if_true, Prog.bind_run, Prog.pure_run]
          refine Sim.bind (onElem_sim (k := c1) hw h1 hL f) ?_
          rintro ⟨⟨a, y⟩, k1⟩ ⟨a', ⟨c1, m1⟩⟩ ⟨e1, e2, h1⟩
          exact ⟨rfl, e2, h1⟩
        | false =>
          have := ih s' (pre ++ [y]) c1 m1 (by simpa using h1) (by simpa using hP')
          simp only [Use.run, e, Prog.bind_run] at this
          simp only [Out.bind_ok, Prog.bind_run, Prog.pure_run, Bool.false_eq_true, if_false]
          refine Sim.left (f := fun q => ((q.1.1, y :: q.1.2), q.2)) this ?_
          rintro ⟨⟨a, z⟩, k1⟩ ⟨a', ⟨c1, m1⟩⟩ ⟨e1, e2, h1⟩
          exact ⟨e1, e2, by simpa using h1⟩
      | _ => rw [ho] at h1; exact h1.elim
    | _ =>
      rw [he] at h1
      cases ho : one ((Refs.filter r p).pipe A) l ⟨k, m⟩ <;> rw [ho] at h1 <;> first | exact h1.elim | trivial

/-- every use of an iterator does to the container what the specification says -/
theorem use_sim (hw : Walks A next H P L) (u : Use κ α ρ) {xs : List α} {s : σ} {k : κ} {m : S} (hH : H xs m) (hP : P s 0) :
    Sim (Whole H []) (Spec.InPlace.use u xs k) (u.run A (fun s => onMem (next s)) s ⟨k, m⟩) := by
  cases u with
  | forEachRef r f =>
    simp only [Spec.InPlace.use, Use.run, pipe_next]
    refine forEach_sim hw ?_ xs s [] k m hH hP
    intro acc pre x post l k m hH hL
    rw [act, Prog.bind_run, Prog.bind_run]
    refine Sim.bind (refs_sim hw r hH hL) ?_
    rintro ⟨⟨b, y⟩, k1⟩ ⟨o, ⟨c1, m1⟩⟩ ⟨e1, e2, h1⟩
    dsimp only at e1 e2 h1
    subst e1; subst e2
    cases b with
    | false => exact ⟨rfl, rfl, h1⟩
    | true => exact onElem_sim (k := c1) hw h1 hL f
  | foldRef r f init =>
    simp only [Spec.InPlace.use, Use.run, pipe_next]
    refine fold_sim hw ?_ xs init s [] k m hH hP
    intro acc pre x post l k m hH hL
    rw [act, Prog.bind_run, Prog.bind_run]
    refine Sim.bind (refs_sim hw r hH hL) ?_
    rintro ⟨⟨b, y⟩, k1⟩ ⟨o, ⟨c1, m1⟩⟩ ⟨e1, e2, h1⟩
    dsimp only at e1 e2 h1
    subst e1; subst e2
    cases b with
    | false => exact ⟨rfl, rfl, h1⟩
    | true => exact onElem_sim (k := c1) hw h1 hL (f acc)
  | forEach st f =>
    simp only [Spec.InPlace.use, Use.run, pipe_next]
    refine forEach_sim hw ?_ xs s [] k m hH hP
    intro acc pre x post l k m hH hL
    rw [act, Prog.bind_run, Prog.bind_run]
    refine Sim.bind (item_sim hw st hH hL) ?_
    rintro ⟨⟨b, y⟩, k1⟩ ⟨o, ⟨c1, m1⟩⟩ ⟨e1, e2, h1⟩
    dsimp only at e1 e2 h1
    subst e1; subst e2
    cases o with
    | none => exact ⟨rfl, rfl, h1⟩
    | some c =>
      simp only [Prog.bind_run, onClient]
      cases f c c1 <;> first | exact ⟨rfl, rfl, h1⟩ | trivial
  | fold st f init =>
    simp only [Spec.InPlace.use, Use.run, pipe_next]
    refine fold_sim hw ?_ xs init s [] k m hH hP
    intro acc pre x post l k m hH hL
    rw [act, Prog.bind_run, Prog.bind_run]
    refine Sim.bind (item_sim hw st hH hL) ?_
    rintro ⟨⟨b, y⟩, k1⟩ ⟨o, ⟨c1, m1⟩⟩ ⟨e1, e2, h1⟩
    dsimp only at e1 e2 h1
    subst e1; subst e2
    cases o with
    | none => exact ⟨rfl, rfl, h1⟩
    | some c =>
      simp only [Prog.bind_run, onClient]
      cases f acc c c1 <;> first | exact ⟨rfl, rfl, h1⟩ | trivial
  | findRef r p f => exact find_sim hw r p f xs s [] k m hH hP

/-! ## Vectors -/

section
open Verif.Model.Mem (ElemTy)
open Verif.Model.Vector (Vec)

/-- vector `j` holds `ws`, and the rest is as in `A` -/
structure VecH (ty : ElemTy α) (A : Spec.Vector.Ideal α) (j : Nat) (v : Vec) (ws : List α) (w : Model.Vector.World α) : Prop where
  reach : Spec.Vector.Reach ty w
  var : w.vars j = some v
  view : Spec.Vector.view w = Spec.Vector.put A j (some ⟨ws, v.cap, v.alloc⟩)

theorem VecH.rep {ty : ElemTy α} {A : Spec.Vector.Ideal α} {j : Nat} {v : Vec} {ws : List α} {w : Model.Vector.World α}
    (h : VecH ty A j v ws w) : Vector.Rep ty w.heap v ws := by
  have : Spec.Vector.view w j = some ⟨ws, v.cap, v.alloc⟩ := by rw [h.view]; simp [Spec.Vector.put]
  obtain ⟨v', hv, rp, -⟩ := Vector.reach_get h.reach this
  rw [h.var] at hv
  cases hv
  exact rp

theorem walks_vec (ty : ElemTy α) (A : Spec.Vector.Ideal α) (j : Nat) (v : Vec) :
    Walks slots (nextSlot (α := α)) (VecH ty A j v) (fun it k => it = ⟨v.ptr, k, v.len⟩) fun l k => l = (v.ptr, k) := by
  refine ⟨?_, ?_, ?_, ?_⟩
  · rintro _ ws w h rfl
    refine ⟨⟨v.ptr, ws.length, v.len⟩, ?_⟩
    rw [nextSlot, if_neg (by simp [h.rep.len])]
    rfl
  · rintro _ pre x post w h rfl
    refine ⟨(v.ptr, pre.length), ⟨v.ptr, pre.length + 1, v.len⟩, ?_, rfl, rfl⟩
    rw [nextSlot, if_pos (by have := h.rep.len; simp at this; dsimp only; omega)]
    rfl
  · rintro _ pre x post w h rfl
    simp only [slots, Model.Vector.inHeap, h.rep.slot (i := pre.length) (x := x) (by simp), Out.bind_ok]
  · rintro _ pre x post w y h rfl
    have hv : Spec.Vector.view w j = some ⟨pre ++ x :: post, v.cap, v.alloc⟩ := by rw [h.view]; simp [Spec.Vector.put]
    have hs : Spec.Vector.specStep false ty.size ty.dflt (.set j pre.length y) (Spec.Vector.view w) =
        some (.unit, Spec.Vector.put (Spec.Vector.view w) j (some ⟨pre ++ y :: post, v.cap, v.alloc⟩)) := by
      simp only [Spec.Vector.specStep, Spec.Vector.upd, hv, Option.bind_some]
      rw [if_pos (by simp)]
      simp
    have hr := Vector.reach_step h.reach hs
    obtain ⟨h1, e1, t1⟩ := Vector.indexSet_ok (x := y) (i := pre.length) h.rep (Vector.reach_bal h.reach) (by simp)
    have e2 : Model.Vector.step ty (.set j pre.length y) w = .ok (.unit, { w with heap := h1 }) := by
      simp only [Model.Vector.step, Model.Vector.look, Prog.bind_run, Model.Vector.var, h.var, Out.bind_ok, Model.Vector.inHeap, e1, Prog.pure_run]
    rw [e2] at hr
    refine ⟨{ w with heap := h1 }, ?_, hr.2.2, h.var, ?_⟩
    · have : Model.Mem.store v.ptr pre.length y w.heap = .ok ((), h1) := e1
      simp only [slots, Model.Vector.inHeap, this, Out.bind_ok]
    · rw [hr.2.1, h.view]
      funext i
      simp only [Spec.Vector.put]
      split <;> rfl

end

/-! ## Lists -/

section
open Verif.Model.LL (Cfg Lst)

/-- list `j` has the nodes `ids` with elements `ws`, and the rest is as in `A` -/
structure ListH (cfg : Cfg α) (A : Spec.LL.Ideal α) (j hd tl a : Nat) (ids : List Nat) (ws : List α) (w : Model.LL.World α) : Prop where
  reach : Spec.LL.Reach cfg w
  var : w.vars j = some ⟨some hd, some tl, ids.length, a⟩
  view : Spec.LL.view w = Spec.LL.put A j (some ⟨some ws, a⟩)
  cells : ∃ cs, Spec.LL.cells w j = some cs ∧ cs.map Prod.fst = ids

theorem ListH.rep {cfg : Cfg α} {A : Spec.LL.Ideal α} {j hd tl a : Nat} {ids : List Nat} {ws : List α} {w : Model.LL.World α}
    (h : ListH cfg A j hd tl a ids ws w) : ∃ cs, LL.Rep cfg w.heap hd tl cs a ∧ LL.vals cs = ws ∧ cs.map Prod.fst = ids := by
  have : Spec.LL.view w j = some ⟨some ws, a⟩ := by rw [h.view]; simp [Spec.LL.put]
  obtain ⟨C, hd', tl', cs, I, hC, hv, hcs⟩ := LL.reach_get h.reach this
  have e := I.var hC
  rw [h.var] at e
  obtain ⟨cs', h1, h2⟩ := h.cells
  rw [hcs] at h1
  cases h1
  simp only [LL.lst, Option.some.injEq, Model.LL.Lst.mk.injEq] at e
  obtain ⟨rfl, rfl, -⟩ := e
  exact ⟨cs, I.rep hC, hv, h2⟩

theorem nodesFrom_ids {h h' : Model.LL.Heap α} (e : h'.nxt = h.nxt) (n : Nat) : ∀ (p : Nat) {cs cs' : List (Nat × α)},
    Spec.LL.nodesFrom h p n = some cs → Spec.LL.nodesFrom h' p n = some cs' → cs'.map Prod.fst = cs.map Prod.fst := by
  induction n with
  | zero => intro p cs cs' h1 h2; cases h1; cases h2; rfl
  | succ n ih =>
    intro p cs cs' h1 h2
    simp only [Spec.LL.nodesFrom, e] at h1 h2
    split at h1
    · rename_i q hq
      simp only [hq, Option.bind_eq_some_iff, Option.map_eq_some_iff] at h1 h2
      obtain ⟨x, -, ds, h3, rfl⟩ := h1
      obtain ⟨x', -, ds', h4, rfl⟩ := h2
      simp [ih q h3 h4]
    · cases h1

theorem walks_list (cfg : Cfg α) (A : Spec.LL.Ideal α) (j hd tl a : Nat) (ids : List Nat) :
    Walks nodes (nextNode (α := α)) (ListH cfg A j hd tl a ids) (fun it k => it = ⟨some ((ids.drop k).headD tl), some tl⟩) fun l k => l = ids[k]? := by
  have hsplit : ∀ {pre post : List α} {x : α} {w : Model.LL.World α}, ListH cfg A j hd tl a ids (pre ++ x :: post) w →
      ∃ c1 b c2, LL.Rep cfg w.heap hd tl (c1 ++ (b, x) :: c2) a ∧ c1.length = pre.length ∧ ids[pre.length]? = some b ∧
        (ids.drop (pre.length + 1)).headD tl = LL.headOf tl c2 ∧ (ids.drop pre.length).headD tl = b ∧ LL.vals c1 = pre ∧ LL.vals c2 = post := by
    intro pre post x w h
    obtain ⟨cs, rp, hv, hi⟩ := h.rep
    have hv' : cs.map Prod.snd = pre ++ x :: post := hv
    obtain ⟨c1, d, rfl, h1, h2⟩ := List.map_eq_append_iff.1 hv'
    obtain ⟨⟨b, y⟩, c2, rfl, h3, h4⟩ := List.map_eq_cons_iff.1 h2
    dsimp only at h3
    subst h3
    have hl : c1.length = pre.length := by rw [← h1]; simp
    refine ⟨c1, b, c2, rp, hl, ?_, ?_, ?_, h1, h4⟩
    · rw [← hi, ← hl]; simp
    · rw [← hi, ← hl]
      cases c2 <;> simp [LL.headOf]
    · rw [← hi, ← hl]; simp
  refine ⟨?_, ?_, ?_, ?_⟩
  · rintro _ ws w h rfl
    obtain ⟨cs, rp, hv, hi⟩ := h.rep
    have hl : ids.drop ws.length = [] := by rw [← hi, ← hv]; simp
    refine ⟨⟨some tl, some tl⟩, ?_⟩
    rw [hl, nextNode, if_neg (by simp)]
    rfl
  · rintro _ pre x post w h rfl
    obtain ⟨c1, b, c2, rp, h1, h2, h3, h4, -⟩ := hsplit h
    refine ⟨some b, ⟨some (LL.headOf tl c2), some tl⟩, ?_, by rw [h3], h2.symm⟩
    have hne : b ≠ tl := by have := rp.head_ne_tl; simpa using this
    rw [nextNode, h4, if_pos (by simpa using hne)]
    simp only [Prog.bind_run, Model.LL.inHeap, rp.getNext_cell, Out.bind_ok, Prog.pure_run]
  · rintro _ pre x post w h rfl
    obtain ⟨c1, b, c2, rp, h1, h2, h3, h4, -⟩ := hsplit h
    simp only [nodes, Model.LL.inHeap, h2, rp.load_cell (c := (b, x)) (by simp), Out.bind_ok]
  · rintro _ pre x post w y h rfl
    obtain ⟨c1, b, c2, rp, h1, h2, h3, h4, hp, hq⟩ := hsplit h
    have hv : Spec.LL.view w j = some ⟨some (pre ++ x :: post), a⟩ := by rw [h.view]; simp [Spec.LL.put]
    have hs : Spec.LL.specStep false cfg.dbl cfg.dflt (.set j (pre.length + 1) y) (Spec.LL.view w) =
        some (.unit, Spec.LL.put (Spec.LL.view w) j (some ⟨some (pre ++ y :: post), a⟩)) := by
      simp only [Spec.LL.specStep, Spec.LL.edit, hv, Option.bind_some, Spec.LL.needs]
      rw [if_pos (by simp)]
      simp
    have hr := LL.reach_step h.reach hs
    have hst := LL.store_run (y := y) (rp.elem_at (a := b) (x := x))
    have hat : Model.LL.iterAt ⟨some hd, some tl, ids.length, a⟩ (pre.length + 1) w.heap = .ok (some b, w.heap) := by
      have := LL.iterAt_next rp
      rw [h1] at this
      exact this
    have e2 : Model.LL.step cfg (.set j (pre.length + 1) y) w = .ok (.unit, { w with heap := LL.poke cfg a w.heap b y }) := by
      simp only [Model.LL.step, Model.LL.look, Prog.bind_run, Model.LL.var, h.var, Out.bind_ok, Model.LL.inHeap, hat, hst, Prog.pure_run]
    rw [e2] at hr
    obtain ⟨-, h5, h6, -⟩ := hr
    have hview : Spec.LL.view { w with heap := LL.poke cfg a w.heap b y } = Spec.LL.put A j (some ⟨some (pre ++ y :: post), a⟩) := by
      rw [h5, h.view]
      funext i
      simp only [Spec.LL.put]
      split <;> rfl
    refine ⟨{ w with heap := LL.poke cfg a w.heap b y }, ?_, h6, h.var, hview, ?_⟩
    · simp only [nodes, Model.LL.inHeap, h2, hst, Out.bind_ok]
    · obtain ⟨cs, hcs, hids⟩ := h.cells
      obtain ⟨C, hd', tl', cs', I, hC, hv', hcs'⟩ := LL.reach_get (i := j) (xs := pre ++ y :: post) (a := a) h6 (by rw [hview]; simp [Spec.LL.put])
      refine ⟨cs', hcs', ?_⟩
      rw [← hids]
      simp only [Spec.LL.cells, h.var, Option.bind_some] at hcs hcs'
      exact nodesFrom_ids (h := w.heap) (h' := LL.poke cfg a w.heap b y) rfl _ _ hcs hcs'

end

end Verif.Proof.InPlace
