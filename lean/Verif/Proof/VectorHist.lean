import Verif.Proof.VectorOps
/-! # Vector: histories -/
namespace Verif.Proof.Vector
open Verif Verif.Model.Mem Verif.Model.Vector Verif.Proof.Mem
open Verif.Spec.Vector hiding upd

variable {α : Type} {ty : ElemTy α}

def VarOk (ty : ElemTy α) (h : Heap α) : Option (Var α) → Option Vec → Prop
  | none, none => True
  | some a, some v => Rep ty h v a.xs ∧ v.cap = a.cap ∧ v.alloc = a.alloc
  | _, _ => False

structure Inv (ty : ElemTy α) (A : Ideal α) (w : World α) : Prop where
  ok : ∀ i, VarOk ty w.heap (A i) (w.vars i)
  sep : ∀ i j v v' b, i ≠ j → w.vars i = some v → w.vars j = some v' → v.ptr = some b → v'.ptr ≠ some b
  cover : ∀ b blk, w.heap.blocks b = some blk → ∃ i v, w.vars i = some v ∧ v.ptr = some b
  bal : Bal w.heap

theorem Inv.get {A : Ideal α} {w : World α} (I : Inv ty A w) {i : Nat} {a : Var α} (hi : A i = some a) :
    ∃ v, w.vars i = some v ∧ Rep ty w.heap v a.xs ∧ v.cap = a.cap ∧ v.alloc = a.alloc := by
  have := I.ok i
  rw [hi] at this
  cases hv : w.vars i with
  | none => rw [hv] at this; exact this.elim
  | some v => rw [hv] at this; exact ⟨v, rfl, this⟩

theorem Inv.get_none {A : Ideal α} {w : World α} (I : Inv ty A w) {i : Nat} (hi : A i = none) : w.vars i = none := by
  have := I.ok i
  rw [hi] at this
  cases hv : w.vars i with
  | none => rfl
  | some v => rw [hv] at this; exact this.elim

def ptrs : Option Vec → List Nat
  | none => []
  | some v => v.ptr.toList

theorem Rep.block {h : Heap α} {v : Vec} {xs : List α} (r : Rep ty h v xs) {b : Nat} (hb : v.ptr = some b) :
    ∃ blk, h.blocks b = some blk := by
  have := r.own
  rw [hb] at this
  simp only [Own] at this
  exact ⟨_, this.1⟩

theorem mem_ptrs {o : Option Vec} {b : Nat} : b ∈ ptrs o ↔ ∃ v, o = some v ∧ v.ptr = some b := by
  cases o <;> simp [ptrs]

theorem Inv.rep_of {A : Ideal α} {w : World α} (I : Inv ty A w) {i : Nat} {v : Vec} (hv : w.vars i = some v) :
    ∃ a, A i = some a ∧ Rep ty w.heap v a.xs ∧ v.cap = a.cap ∧ v.alloc = a.alloc := by
  have := I.ok i
  rw [hv] at this
  cases ha : A i with
  | none => rw [ha] at this; exact this.elim
  | some a => rw [ha] at this; exact ⟨a, rfl, this⟩

theorem bindVar_same (f : Nat → Option Vec) (i : Nat) (o : Option Vec) : bindVar f i o i = o := by simp [bindVar]
theorem bindVar_ne (f : Nat → Option Vec) {i j : Nat} (o : Option Vec) (h : j ≠ i) : bindVar f i o j = f j := by
  simp [bindVar, h]

/-- one variable is changed by a step owning its buffer -/
theorem Inv.put {A : Ideal α} {w : World α} (I : Inv ty A w) {i : Nat} {o' : Option Vec} {a' : Option (Var α)} {h' : Heap α}
    {k : Cost} (s : Step w.heap (ptrs (w.vars i)) h' (ptrs o') k) (ok : VarOk ty h' a' o') :
    Inv ty (put A i a') ⟨h', bindVar w.vars i o'⟩ := by
  have others : ∀ j v b, j ≠ i → w.vars j = some v → v.ptr = some b → b ∉ ptrs (w.vars i) ∧ b ∉ ptrs o' := by
    intro j v b hj hv hb
    have h1 : b ∉ ptrs (w.vars i) := by
      intro hm
      obtain ⟨v', hv', hb'⟩ := mem_ptrs.1 hm
      exact I.sep j i v v' b hj hv hv' hb hb'
    refine ⟨h1, fun hm => ?_⟩
    have h2 := s.fresh b hm h1
    obtain ⟨a, _, r, _⟩ := I.rep_of hv
    obtain ⟨blk, h3⟩ := r.block hb
    rw [h2] at h3; cases h3
  refine ⟨?_, ?_, ?_, s.bal I.bal⟩
  · intro j
    by_cases hj : j = i
    · subst hj; simpa [Spec.Vector.put, bindVar] using ok
    · simp only [Spec.Vector.put, bindVar, hj, if_false]
      have := I.ok j
      cases hv : w.vars j with
      | none => rw [hv] at this; cases ha : A j with
        | none => trivial
        | some a => rw [ha] at this; exact this.elim
      | some v => rw [hv] at this; cases ha : A j with
        | none => rw [ha] at this; exact this.elim
        | some a =>
          rw [ha] at this
          exact ⟨this.1.keep s (fun b hb => (others j v b hj hv hb).1), this.2⟩
  · intro j j' v v' b hne hv hv' hb hb'
    simp only at hv hv'
    by_cases hj : j = i
    · subst hj
      have hj' : j' ≠ j := fun e => hne e.symm
      rw [bindVar_same] at hv; rw [bindVar_ne _ _ hj'] at hv'
      exact (others j' v' b hj' hv' hb').2 (mem_ptrs.2 ⟨v, hv, hb⟩)
    · rw [bindVar_ne _ _ hj] at hv
      by_cases hj' : j' = i
      · subst hj'
        rw [bindVar_same] at hv'
        exact (others j v b hj hv hb).2 (mem_ptrs.2 ⟨v', hv', hb'⟩)
      · rw [bindVar_ne _ _ hj'] at hv'
        exact I.sep j j' v v' b hne hv hv' hb hb'
  · intro b blk hb
    simp only at hb
    by_cases hm : b ∈ ptrs o'
    · obtain ⟨v, hv, hp⟩ := mem_ptrs.1 hm
      exact ⟨i, v, by simp [bindVar, hv], hp⟩
    · by_cases hm0 : b ∈ ptrs (w.vars i)
      · rw [s.gone b hm0 hm] at hb; cases hb
      · rw [s.frame b hm0 hm] at hb
        obtain ⟨j, v, hv, hp⟩ := I.cover b blk hb
        have hj : j ≠ i := by
          rintro rfl
          exact hm0 (mem_ptrs.2 ⟨v, hv, hp⟩)
        exact ⟨j, v, by simp only; rw [bindVar_ne _ _ hj, hv], hp⟩

/-- exchanging two variables -/
theorem Inv.exchange {A : Ideal α} {w : World α} (I : Inv ty A w) (i j : Nat) :
    Inv ty (Spec.Vector.put (Spec.Vector.put A i (A j)) j (A i)) ⟨w.heap, bindVar (bindVar w.vars i (w.vars j)) j (w.vars i)⟩ := by
  let f : Nat → Nat := fun k => if k = j then i else if k = i then j else k
  have fv : ∀ k, bindVar (bindVar w.vars i (w.vars j)) j (w.vars i) k = w.vars (f k) := by
    intro k; simp only [bindVar, f]; split
    · rfl
    · split <;> rfl
  have fA : ∀ k, Spec.Vector.put (Spec.Vector.put A i (A j)) j (A i) k = A (f k) := by
    intro k; simp only [Spec.Vector.put, f]; split
    · rfl
    · split <;> rfl
  have finv : ∀ k, f (f k) = k := by
    intro k; simp only [f]
    by_cases h1 : k = j <;> by_cases h2 : k = i <;> simp_all <;> (intro h; simp_all)
  refine ⟨?_, ?_, ?_, I.bal⟩
  · intro k; simp only [fv, fA]; exact I.ok (f k)
  · intro k k' v v' b hne hv hv' hb
    simp only [fv] at hv hv'
    exact I.sep (f k) (f k') v v' b (fun e => hne (by rw [← finv k, e, finv])) hv hv' hb
  · intro b blk hb
    obtain ⟨k, v, hv, hp⟩ := I.cover b blk hb
    exact ⟨f k, v, by simp only [fv, finv]; exact hv, hp⟩

/-- what the world step has to deliver -/
def Agree (ty : ElemTy α) (m : Out (Res α × World α)) (r : Res α) (A' : Ideal α) : Prop :=
  m.Safe fun q => q.1 = r ∧ Inv ty A' q.2

theorem run_var {w : World α} {i : Nat} {v : Vec} (hv : w.vars i = some v) : var i w = .ok (v, w) := by
  simp only [var, hv]

theorem inHeap_run {β : Type} (f : M α β) (w : World α) :
    inHeap f w = (f w.heap >>= fun p => .ok (p.1, { w with heap := p.2 })) := rfl

theorem agree_create {A : Ideal α} {w : World α} (I : Inv ty A w) {i : Nat} (hi : A i = none) {f : M α Vec} {a : Var α}
    (hf : (f w.heap).Safe fun q => ∃ k, To ty w.heap none a.xs a.cap a.alloc k q.1 q.2) :
    Agree ty (create i f w) .unit (Spec.Vector.put A i (some a)) := by
  simp only [Agree, create, Prog.bind_run, inHeap_run]
  refine Out.Safe.bind (P := fun p => ∃ k, To ty w.heap none a.xs a.cap a.alloc k p.1 p.2.heap ∧ p.2.vars = w.vars) ?_ ?_
  · refine hf.bind ?_
    rintro ⟨v, h⟩ ⟨k, t⟩
    exact ⟨k, t, rfl⟩
  · rintro ⟨v, w'⟩ ⟨k, t, hw⟩
    simp only at t hw
    simp only [setVar, Out.bind_ok, Prog.pure_run, Out.safe_ok, true_and]
    rw [hw]
    refine I.put (k := k) ?_ ⟨t.rep, t.cap, t.alloc⟩
    rw [I.get_none hi]
    exact t.step

theorem agree_change {A : Ideal α} {w : World α} (I : Inv ty A w) {i : Nat} {v : Vec} (hv : w.vars i = some v)
    {f : Vec → M α Vec} {a : Var α}
    (hf : (f v w.heap).Safe fun q => ∃ k, To ty w.heap v.ptr a.xs a.cap a.alloc k q.1 q.2) :
    Agree ty (change i f w) .unit (Spec.Vector.put A i (some a)) := by
  simp only [Agree, change, Prog.bind_run, run_var hv, Out.bind_ok, inHeap_run]
  refine Out.Safe.bind (P := fun p => ∃ k, To ty w.heap v.ptr a.xs a.cap a.alloc k p.1 p.2.heap ∧ p.2.vars = w.vars) ?_ ?_
  · refine hf.bind ?_
    rintro ⟨v, h⟩ ⟨k, t⟩
    exact ⟨k, t, rfl⟩
  · rintro ⟨v', w'⟩ ⟨k, t, hw⟩
    simp only at t hw
    simp only [setVar, Out.bind_ok, Prog.pure_run, Out.safe_ok, true_and]
    rw [hw]
    refine I.put (k := k) ?_ ⟨t.rep, t.cap, t.alloc⟩
    rw [hv]
    exact t.step

theorem agree_change' {A : Ideal α} {w : World α} (I : Inv ty A w) {i : Nat} {v : Vec} (hv : w.vars i = some v)
    {f : Vec → M α (Vec × Option Nat)} {a : Var α} {p : Option Nat}
    (hf : (f v w.heap).Safe fun q => ∃ k, To ty w.heap v.ptr a.xs a.cap a.alloc k q.1.1 q.2 ∧ q.1.2 = p) :
    Agree ty (change' i f w) (.pos p) (Spec.Vector.put A i (some a)) := by
  simp only [Agree, change', Prog.bind_run, run_var hv, Out.bind_ok, inHeap_run]
  refine Out.Safe.bind
    (P := fun q => ∃ k, To ty w.heap v.ptr a.xs a.cap a.alloc k q.1.1 q.2.heap ∧ q.2.vars = w.vars ∧ q.1.2 = p) ?_ ?_
  · refine hf.bind ?_
    rintro ⟨v, h⟩ ⟨k, t, hp⟩
    exact ⟨k, t, rfl, hp⟩
  · rintro ⟨v', w'⟩ ⟨k, t, hw, hp⟩
    simp only at t hw hp
    simp only [setVar, Out.bind_ok, Prog.pure_run, Out.safe_ok, hp, true_and]
    rw [hw]
    refine I.put (k := k) ?_ ⟨t.rep, t.cap, t.alloc⟩
    rw [hv]
    exact t.step

theorem agree_look {A : Ideal α} {w : World α} (I : Inv ty A w) {i : Nat} {v : Vec} (hv : w.vars i = some v)
    {f : Vec → M α (Res α)} {r : Res α} (hf : f v w.heap = .ok (r, w.heap)) : Agree ty (look i f w) r A := by
  simp only [Agree, look, Prog.bind_run, run_var hv, Out.bind_ok, inHeap_run, hf, Out.safe_ok, true_and]
  exact I

/-- what a reference argument denotes -/
theorem arg_ok {A : Ideal α} {w : World α} (I : Inv ty A w) {r : Arg α} {x : α} (hx : argVal A r = some x) :
    ∃ ref, argRef r w = .ok (ref, w) ∧
      (∀ p, (∀ b, p = some b → ∀ j k, r = .elem j k → ∀ v, w.vars j = some v → v.ptr ≠ some b) → Stable w.heap p ref x) ∧
      (∀ i k, r = .elem i k → ∃ v a, w.vars i = some v ∧ A i = some a ∧ ref = .slot v.ptr k ∧ a.xs[k]? = some x) := by
  cases r with
  | val y =>
    simp only [argVal, Option.some.injEq] at hx
    subst hx
    exact ⟨.tmp y, rfl, fun p _ => stable_tmp _ _ _, fun i k h => by cases h⟩
  | elem j k =>
    simp only [argVal] at hx
    cases ha : A j with
    | none => rw [ha] at hx; cases hx
    | some a =>
      rw [ha] at hx
      simp only [Option.bind_some] at hx
      obtain ⟨v, hv, rep, _⟩ := I.get ha
      refine ⟨.slot v.ptr k, ?_, ?_, ?_⟩
      · simp only [argRef, Prog.bind_run, run_var hv, Out.bind_ok, Prog.pure_run]
      · intro p hp
        exact stable_other rep hx fun b hb e => hp b e j k rfl v hv hb
      · intro i k' h
        cases h
        exact ⟨v, a, hv, ha, rfl, hx⟩

/-- an argument that is not inside vector `i` -/
theorem arg_outside {A : Ideal α} {w : World α} (I : Inv ty A w) {r : Arg α} {x : α} {ref : Ref α} {i : Nat} {v : Vec}
    (hv : w.vars i = some v)
    (h : ∀ p, (∀ b, p = some b → ∀ j k, r = .elem j k → ∀ v, w.vars j = some v → v.ptr ≠ some b) → Stable w.heap p ref x)
    (hin : inside i r = false) : Stable w.heap v.ptr ref x := by
  apply h
  intro b hb j k hr v' hv'
  subst hr
  have hne : j ≠ i := by simpa [inside] using hin
  exact fun e => I.sep j i v' v b hne hv' hv e hb

theorem arg_inside {A : Ideal α} {w : World α} {r : Arg α} {x : α} {ref : Ref α} {i : Nat} {v : Vec} {a : Var α}
    (hv : w.vars i = some v) (ha : A i = some a)
    (h : ∀ i k, r = .elem i k → ∃ v a, w.vars i = some v ∧ A i = some a ∧ ref = .slot v.ptr k ∧ a.xs[k]? = some x)
    (hin : inside i r = true) : ∃ k, r = .elem i k ∧ ref = .slot v.ptr k ∧ a.xs[k]? = some x := by
  cases r with
  | val => cases hin
  | elem j k =>
    have : j = i := by simpa [inside] using hin
    subst this
    obtain ⟨v', a', hv', ha', h1, h2⟩ := h j k rfl
    rw [hv] at hv'; rw [ha] at ha'; cases hv'; cases ha'
    exact ⟨k, rfl, h1, h2⟩

theorem afterPushes_eq : (afterPushes : Nat → Nat → Nat → Nat) = growCap := by
  funext n
  induction n with
  | zero => rfl
  | succ n ih => funext len cap; simp only [afterPushes, growCap, ih]; rfl

theorem of_only {β : Type} {g : Prop} [Decidable g] {x : Option β} {y : β} (h : only false g x = some y) : g ∧ x = some y := by
  unfold only at h
  split at h
  · rename_i hg; simp at hg; exact ⟨hg, h⟩
  · cases h

theorem of_born {A : Ideal α} {i : Nat} {v : Var α} {p : Res α × Ideal α} (h : born A i v = some p) :
    A i = none ∧ p = (.unit, Spec.Vector.put A i (some v)) := by
  unfold born at h
  split at h
  · rename_i hn; exact ⟨by simpa using hn, by cases h; rfl⟩
  · cases h

theorem of_upd {A : Ideal α} {i : Nat} {f : Var α → Option (Res α × Var α)} {p : Res α × Ideal α}
    (h : Spec.Vector.upd A i f = some p) :
    ∃ a r a', A i = some a ∧ f a = some (r, a') ∧ p = (r, Spec.Vector.put A i (some a')) := by
  unfold Spec.Vector.upd at h
  cases ha : A i with
  | none => rw [ha] at h; cases h
  | some a =>
    rw [ha] at h
    simp only [Option.bind_some] at h
    cases hf : f a with
    | none => rw [hf] at h; cases h
    | some q => rw [hf] at h; cases h; exact ⟨a, q.1, q.2, rfl, hf, rfl⟩

theorem of_ask {A : Ideal α} {i : Nat} {f : Var α → Option (Res α)} {p : Res α × Ideal α}
    (h : ask A i f = some p) : ∃ a r, A i = some a ∧ f a = some r ∧ p = (r, A) := by
  unfold ask at h
  cases ha : A i with
  | none => rw [ha] at h; cases h
  | some a =>
    rw [ha] at h
    simp only [Option.bind_some] at h
    cases hf : f a with
    | none => rw [hf] at h; cases h
    | some q => rw [hf] at h; cases h; exact ⟨a, q, rfl, hf, rfl⟩

/-- draining -/
theorem drainN_ok (n : Nat) {h : Heap α} {it : IntoIter} {ts : List α} (r : IntoRep ty h it ts) (hb : Bal h) :
    ∃ h' k, drainN ty it n h = .ok ((List.range n).map (fun k => ts[k]?), h') ∧ Step h it.vec.ptr.toList h' [] k := by
  induction n generalizing h it ts with
  | zero =>
    have : ∃ zs, Rep ty h it.vec zs := by
      rcases r.rep with ⟨_, _, h⟩ | ⟨_, zs, _, _, h⟩
      · exact ⟨_, h⟩
      · exact ⟨_, h⟩
    obtain ⟨zs, rp⟩ := this
    obtain ⟨h1, e1, t1⟩ := clear_ok rp hb
    exact ⟨h1, _, by simp only [drainN, Prog.bind_run, e1, Out.bind_ok, Prog.pure_run]; rfl, t1.step⟩
  | succ n ih =>
    cases ts with
    | nil =>
      obtain ⟨h2, k, e2, s2⟩ := ih r hb
      refine ⟨h2, k, ?_, s2⟩
      simp only [drainN, Prog.bind_run, intoNext_end r, Out.bind_ok, e2, Prog.pure_run]
      simp [List.range_succ_eq_map]
    | cons t ts =>
      obtain ⟨it', h1, k1, e1, r1, b1, s1⟩ := intoNext_ok r hb
      obtain ⟨h2, k, e2, s2⟩ := ih r1 b1
      refine ⟨h2, _, ?_, s1.trans s2⟩
      simp only [drainN, Prog.bind_run, e1, Out.bind_ok, e2, Prog.pure_run]
      simp [List.range_succ_eq_map, Function.comp_def]

theorem drainRevN_ok (n : Nat) {h : Heap α} {v : Vec} {ts : List α} (rp : Rep ty h v ts) (hb : Bal h) :
    ∃ h' k, drainRevN ty v n h = .ok ((List.range n).map (fun k => ts.reverse[k]?), h') ∧ Step h v.ptr.toList h' [] k := by
  induction n generalizing h v ts with
  | zero =>
    obtain ⟨h1, e1, t1⟩ := clear_ok rp hb
    exact ⟨h1, _, by simp only [drainRevN, Prog.bind_run, e1, Out.bind_ok, Prog.pure_run]; rfl, t1.step⟩
  | succ n ih =>
    rcases List.eq_nil_or_concat ts with rfl | ⟨ts, t, rfl⟩
    · obtain ⟨h2, k, e2, s2⟩ := ih rp hb
      refine ⟨h2, k, ?_, s2⟩
      simp only [drainRevN, Prog.bind_run, intoNextReversed_end rp, Out.bind_ok, e2, Prog.pure_run]
      simp [List.range_succ_eq_map]
    · simp only [List.concat_eq_append] at rp ⊢
      obtain ⟨v', h1, k1, e1, t1⟩ := intoNextReversed_ok rp hb
      obtain ⟨h2, k, e2, s2⟩ := ih t1.rep t1.bal
      refine ⟨h2, _, ?_, t1.step.trans s2⟩
      simp only [drainRevN, Prog.bind_run, e1, Out.bind_ok, e2, Prog.pure_run]
      simp [List.range_succ_eq_map, Function.comp_def]


theorem take_drop_split {xs : List α} {p : Nat} (hp : p ≤ xs.length) (h1 : 1 ≤ p) :
    xs = xs.take p ++ xs.drop p ∧ xs.take p ≠ [] ∧ p = (xs.take p).length ∧
      (xs.take p).length + (xs.drop p).length = xs.length := by
  refine ⟨(List.take_append_drop _ _).symm, ?_, by simp; omega, by simp; omega⟩
  intro h
  have := congrArg List.length h
  rw [List.length_take, List.length_nil] at this
  omega

theorem step_ok (op : Op α) {A : Ideal α} {w : World α} (I : Inv ty A w) {r : Res α} {A' : Ideal α}
    (hs : specStep false ty.size ty.dflt op A = some (r, A')) : Agree ty (step ty op w) r A' := by
  cases op with
  | newDefault i =>
    obtain ⟨hi, hp⟩ := of_born hs; cases hp
    exact agree_create I hi ((newDefault_ok I.bal).mono fun q h => ⟨_, h⟩)
  | newAlloc i a =>
    obtain ⟨hi, hp⟩ := of_born hs; cases hp
    exact agree_create I hi (Out.safe_ok.2 ⟨_, to_blank I.bal a⟩)
  | newFill i n rf a =>
    simp only [specStep, Option.bind_eq_some_iff] at hs
    obtain ⟨x, hx, hs⟩ := hs
    obtain ⟨hw, hs⟩ := of_only hs
    obtain ⟨hi, hp⟩ := of_born hs; cases hp
    obtain ⟨ref, e1, st, _⟩ := arg_ok I hx
    simp only [step, Prog.bind_run, e1, Out.bind_ok]
    exact agree_create I hi (newFill_ok I.bal (.inr (st none (by simp))) hw)
  | newCount i n a =>
    obtain ⟨hw, hs⟩ := of_only hs
    obtain ⟨hi, hp⟩ := of_born hs; cases hp
    exact agree_create I hi (newFill_ok I.bal (.inr (stable_tmp _ _ _)) hw)
  | newList i xs a =>
    obtain ⟨hw, hs⟩ := of_only hs
    obtain ⟨hi, hp⟩ := of_born hs; cases hp
    exact agree_create I hi ((newList_ok xs a I.bal hw).mono fun q h => ⟨_, h⟩)
  | newRange i xs a =>
    obtain ⟨hw, hs⟩ := of_only hs
    obtain ⟨hi, hp⟩ := of_born hs; cases hp
    exact agree_create I hi ((newRange_ok xs a I.bal hw).mono fun q h => ⟨_, h⟩)
  | newCopy i j =>
    simp only [specStep, Option.bind_eq_some_iff] at hs
    obtain ⟨a, ha, hs⟩ := hs
    obtain ⟨hi, hp⟩ := of_born hs; cases hp
    obtain ⟨v, hv, rv, _⟩ := I.get ha
    simp only [step, Prog.bind_run, run_var hv, Out.bind_ok]
    exact agree_create I hi ((copyImpl_ok dfltAlloc rv I.bal).mono fun q h => ⟨_, h⟩)
  | newCopyAlloc i j al =>
    simp only [specStep, Option.bind_eq_some_iff] at hs
    obtain ⟨a, ha, hs⟩ := hs
    obtain ⟨hi, hp⟩ := of_born hs; cases hp
    obtain ⟨v, hv, rv, _⟩ := I.get ha
    simp only [step, Prog.bind_run, run_var hv, Out.bind_ok]
    exact agree_create I hi ((copyImpl_ok al rv I.bal).mono fun q h => ⟨_, h⟩)
  | newMove i j al =>
    simp only [specStep, Option.bind_eq_some_iff] at hs
    obtain ⟨a, ha, hs⟩ := hs
    split at hs <;> cases hs
    rename_i hi
    simp only [Option.isNone_iff_eq_none] at hi
    obtain ⟨v, hv, rv, hc, hl⟩ := I.get ha
    have hij : i ≠ j := by rintro rfl; rw [hi] at ha; cases ha
    have J := I.exchange i j
    have K := J.put (i := j) (o' := some (Vec.blank v.alloc)) (a' := some ⟨[], 0, a.alloc⟩) (h' := w.heap) (k := 0)
      (by simp only [bindVar_same, I.get_none hi]; exact Step.refl _ _) ⟨rep_blank _ _, rfl, hl⟩
    simp only [step, Prog.bind_run, run_var hv, Out.bind_ok, setVar, newMove, moveImpl, Prog.pure_run, Agree, Out.safe_ok, true_and]
    rw [ha, hv] at K
    have e1 : Spec.Vector.put (Spec.Vector.put (Spec.Vector.put A i (some a)) j (A i)) j (some ⟨[], 0, a.alloc⟩) =
        Spec.Vector.put (Spec.Vector.put A i (some a)) j (some ⟨[], 0, a.alloc⟩) := by
      funext k; simp only [Spec.Vector.put]; split <;> rfl
    have e2 : bindVar (bindVar (bindVar w.vars i (some v)) j (w.vars i)) j (some (Vec.blank v.alloc)) =
        bindVar (bindVar w.vars i (some v)) j (some (Vec.blank v.alloc)) := by
      funext k; simp only [bindVar]; split <;> rfl
    rw [e1, e2] at K
    exact K
  | fromIter i xs =>
    obtain ⟨hi, hp⟩ := of_born hs; cases hp
    exact agree_create I hi (by rw [afterPushes_eq]; exact fromIter_ok xs I.bal)
  | copyAssign i j =>
    simp only [specStep, Option.bind_eq_some_iff] at hs
    obtain ⟨b, hb, hs⟩ := hs
    obtain ⟨a, r', a', ha, hf, hp⟩ := of_upd hs; cases hp
    obtain ⟨v, hv, rv, hc, hl⟩ := I.get ha
    by_cases hij : i = j
    · subst hij
      simp only [if_true] at hf; cases hf
      have : Spec.Vector.put A i (some a) = A := by
        funext k; simp only [Spec.Vector.put]; split
        · rename_i h; rw [h, ha]
        · rfl
      rw [this]
      simp only [step, if_true]
      exact agree_look I hv rfl
    · simp only [hij, if_false] at hf; cases hf
      obtain ⟨u, hu, ru, hc', hl'⟩ := I.get hb
      simp only [step, hij, if_false, Prog.bind_run, run_var hu, Out.bind_ok]
      refine agree_change I hv ?_
      have := copyAssign_ok rv ru I.bal (fun b hb => I.sep i j v u b hij hv hu hb)
      rwa [hc, hc', hl, hl'] at this
  | moveAssign i j =>
    simp only [specStep, Option.bind_eq_some_iff] at hs
    obtain ⟨a, ha, b, hb, hs⟩ := hs
    obtain ⟨v, hv, rv, hc, hl⟩ := I.get ha
    by_cases hij : i = j
    · subst hij
      simp only [if_true] at hs; cases hs
      simp only [step, if_true]
      exact agree_look I hv rfl
    · simp only [hij, if_false] at hs; cases hs
      obtain ⟨u, hu, ru, hc', hl'⟩ := I.get hb
      obtain ⟨h1, e1, t1⟩ := clear_ok rv I.bal
      have J1 := I.put (i := i) (o' := some (Vec.blank v.alloc)) (a' := some ⟨[], 0, a.alloc⟩) (by rw [hv]; exact t1.step)
        ⟨t1.rep, rfl, hl⟩
      have J2 := J1.exchange i j
      have hji : j ≠ i := fun e => hij e.symm
      have K := J2.put (i := j) (o' := some (Vec.blank u.alloc)) (a' := some ⟨[], 0, b.alloc⟩) (h' := h1) (k := 0)
        (by simp only [bindVar_same]; exact Step.refl _ _) ⟨rep_blank _ _, rfl, hl'⟩
      simp only [step, hij, if_false, Prog.bind_run, run_var hv, run_var hu, Out.bind_ok, inHeap_run, moveAssign, e1,
        Prog.pure_run, setVar, moveImpl, Agree, Out.safe_ok, true_and]
      have e1 : Spec.Vector.put (Spec.Vector.put (Spec.Vector.put (Spec.Vector.put A i (some ⟨[], 0, a.alloc⟩)) i
            (Spec.Vector.put A i (some ⟨[], 0, a.alloc⟩) j)) j (Spec.Vector.put A i (some ⟨[], 0, a.alloc⟩) i)) j
            (some ⟨[], 0, b.alloc⟩) =
          Spec.Vector.put (Spec.Vector.put A i (some b)) j (some ⟨[], 0, b.alloc⟩) := by
        funext k; simp only [Spec.Vector.put, hji, if_false, hb]; split
        · rfl
        · split <;> rfl
      have e2 : bindVar (bindVar (bindVar (bindVar w.vars i (some (Vec.blank v.alloc))) i
            (bindVar w.vars i (some (Vec.blank v.alloc)) j)) j (bindVar w.vars i (some (Vec.blank v.alloc)) i)) j
            (some (Vec.blank u.alloc)) =
          bindVar (bindVar w.vars i (some u)) j (some (Vec.blank u.alloc)) := by
        funext k; simp only [bindVar, hji, if_false, hu]; split
        · rfl
        · split <;> rfl
      simp only [e1, e2] at K
      exact K
  | listAssign i xs =>
    obtain ⟨hf, _⟩ := of_only hs
    exact hf.elim
  | swap i j =>
    simp only [specStep, Option.bind_eq_some_iff] at hs
    obtain ⟨a, ha, b, hb, hs⟩ := hs; cases hs
    obtain ⟨v, hv, rv, hc, hl⟩ := I.get ha
    obtain ⟨u, hu, ru, hc', hl'⟩ := I.get hb
    have K := I.exchange i j
    rw [ha, hb, hv, hu] at K
    simp only [step, Prog.bind_run, run_var hv, run_var hu, Out.bind_ok, setVar, Prog.pure_run, Agree, Out.safe_ok, true_and]
    exact K
  | drop i =>
    simp only [specStep, Option.bind_eq_some_iff] at hs
    obtain ⟨a, ha, hs⟩ := hs; cases hs
    obtain ⟨v, hv, rv, hc, hl⟩ := I.get ha
    obtain ⟨h1, e1, t1⟩ := clear_ok rv I.bal
    simp only [step, Prog.bind_run, run_var hv, Out.bind_ok, inHeap_run, e1, setVar, Prog.pure_run, Agree, Out.safe_ok, true_and]
    exact I.put (i := i) (o' := none) (a' := none) (by rw [hv]; exact t1.step) trivial
  | clear i =>
    obtain ⟨a, r', a', ha, hf, hp⟩ := of_upd hs; cases hp; cases hf
    obtain ⟨v, hv, rv, hc, hl⟩ := I.get ha
    refine agree_change I hv ?_
    obtain ⟨h1, e1, t1⟩ := clear_ok rv I.bal
    rw [e1]
    exact ⟨_, t1.cast rfl rfl hl rfl⟩
  | reserve i n =>
    obtain ⟨a, r', a', ha, hf, hp⟩ := of_upd hs; cases hp
    obtain ⟨hw, hf⟩ := of_only hf; cases hf
    obtain ⟨v, hv, rv, hc, hl⟩ := I.get ha
    exact agree_change I hv ((reserve_ok rv I.bal hw).mono fun q h => ⟨_, h.1.cast rfl (by rw [hc]) hl rfl⟩)
  | push i rf =>
    simp only [specStep, Option.bind_eq_some_iff] at hs
    obtain ⟨x, hx, hs⟩ := hs
    obtain ⟨a, r', a', ha, hf, hp⟩ := of_upd hs; cases hp
    obtain ⟨hg, hf⟩ := of_only hf; cases hf
    obtain ⟨v, hv, rv, hc, hl⟩ := I.get ha
    obtain ⟨ref, e1, st, ins⟩ := arg_ok I hx
    simp only [step, Prog.bind_run, e1, Out.bind_ok]
    refine agree_change I hv ((pushBack_ok rv I.bal ?_).mono fun q h => ⟨_, h.cast rfl (by rw [hc]; rfl) hl rfl⟩)
    cases hin : inside i rf with
    | false => exact .inl (arg_outside I hv st hin)
    | true =>
      obtain ⟨k, _, h1, h2⟩ := arg_inside hv ha ins hin
      exact .inr ⟨by rw [hc]; simpa [hin] using hg, .self k h1 h2⟩
  | pop i =>
    obtain ⟨a, r', a', ha, hf, hp⟩ := of_upd hs; cases hp
    split at hf <;> cases hf
    rename_i hne
    obtain ⟨v, hv, rv, hc, hl⟩ := I.get ha
    refine agree_change I hv ?_
    rw [← List.dropLast_concat_getLast hne] at rv
    obtain ⟨h1, e1, t1⟩ := popBack_ok rv I.bal
    rw [e1]
    exact ⟨_, t1.cast rfl hc hl rfl⟩
  | assignFill i n rf =>
    simp only [specStep, Option.bind_eq_some_iff] at hs
    obtain ⟨x, hx, hs⟩ := hs
    obtain ⟨a, r', a', ha, hf, hp⟩ := of_upd hs; cases hp
    obtain ⟨hg, hf⟩ := of_only hf; cases hf
    obtain ⟨v, hv, rv, hc, hl⟩ := I.get ha
    obtain ⟨ref, e1, st, ins⟩ := arg_ok I hx
    simp only [step, Prog.bind_run, e1, Out.bind_ok]
    refine agree_change I hv ((assignFill_ok (x := x) rv I.bal ?_ hg.1).mono fun q h => ?_)
    · exact hg.2.imp_right fun hin => arg_outside I hv st hin
    · obtain ⟨k, t, _⟩ := h
      exact ⟨k, t.cast rfl (by rw [hc]) hl rfl⟩
  | assignList i xs =>
    obtain ⟨a, r', a', ha, hf, hp⟩ := of_upd hs; cases hp
    obtain ⟨hw, hf⟩ := of_only hf; cases hf
    obtain ⟨v, hv, rv, hc, hl⟩ := I.get ha
    refine agree_change I hv ((assignList_ok xs rv I.bal hw).mono fun q h => ?_)
    obtain ⟨k, t, _⟩ := h
    exact ⟨k, t.cast rfl (by rw [hc]) hl rfl⟩
  | set i k x =>
    obtain ⟨a, r', a', ha, hf, hp⟩ := of_upd hs; cases hp
    split at hf <;> cases hf
    rename_i hk
    obtain ⟨v, hv, rv, hc, hl⟩ := I.get ha
    obtain ⟨h1, e1, t1⟩ := indexSet_ok (x := x) rv I.bal hk
    simp only [step, look, Prog.bind_run, run_var hv, Out.bind_ok, inHeap_run, e1, Prog.pure_run, Agree, Out.safe_ok, true_and]
    have K := I.put (i := i) (o' := some v) (a' := some ⟨a.xs.set k x, a.cap, a.alloc⟩) (by rw [hv]; exact t1.step)
      ⟨t1.rep, hc, hl⟩
    have e2 : bindVar w.vars i (some v) = w.vars := by
      funext j; simp only [bindVar]; split
      · rename_i h; rw [h, hv]
      · rfl
    rwa [e2] at K
  | get i k =>
    obtain ⟨a, r', ha, hf, hp⟩ := of_ask hs; cases hp
    obtain ⟨v, hv, rv, hc, hl⟩ := I.get ha
    simp only [Option.map_eq_some_iff] at hf
    obtain ⟨x, hx, rfl⟩ := hf
    exact agree_look I hv (by simp only [Prog.bind_run, index_ok rv hx, Out.bind_ok, Prog.pure_run])
  | «at» i k =>
    obtain ⟨a, r', ha, hf, hp⟩ := of_ask hs; cases hp; cases hf
    obtain ⟨v, hv, rv, hc, hl⟩ := I.get ha
    exact agree_look I hv (by simp only [Prog.bind_run, getAt_ok rv, Out.bind_ok, Prog.pure_run])
  | front i =>
    obtain ⟨a, r', ha, hf, hp⟩ := of_ask hs; cases hp; cases hf
    obtain ⟨v, hv, rv, hc, hl⟩ := I.get ha
    exact agree_look I hv (by simp only [Prog.bind_run, front_ok rv, Out.bind_ok, Prog.pure_run])
  | back i =>
    obtain ⟨a, r', ha, hf, hp⟩ := of_ask hs; cases hp; cases hf
    obtain ⟨v, hv, rv, hc, hl⟩ := I.get ha
    exact agree_look I hv (by simp only [Prog.bind_run, back_ok rv, Out.bind_ok, Prog.pure_run])
  | size i =>
    obtain ⟨a, r', ha, hf, hp⟩ := of_ask hs; cases hp; cases hf
    obtain ⟨v, hv, rv, hc, hl⟩ := I.get ha
    exact agree_look I hv (by rw [rv.len]; rfl)
  | capacity i =>
    obtain ⟨a, r', ha, hf, hp⟩ := of_ask hs; cases hp; cases hf
    obtain ⟨v, hv, rv, hc, hl⟩ := I.get ha
    exact agree_look I hv (by rw [hc]; rfl)
  | empty i =>
    obtain ⟨a, r', ha, hf, hp⟩ := of_ask hs; cases hp; cases hf
    obtain ⟨v, hv, rv, hc, hl⟩ := I.get ha
    refine agree_look I hv ?_
    rw [rv.len]
    have : (a.xs.length == 0) = a.xs.isEmpty := by cases a.xs <;> rfl
    rw [this]; rfl
  | insert i p rf =>
    simp only [specStep, Option.bind_eq_some_iff] at hs
    obtain ⟨x, hx, hs⟩ := hs
    obtain ⟨a, r', a', ha, hf, hp⟩ := of_upd hs; cases hp
    split at hf
    · rename_i hle
      obtain ⟨h1, hf⟩ := of_only hf; cases hf
      obtain ⟨v, hv, rv, hc, hl⟩ := I.get ha
      obtain ⟨ref, e1, st, ins⟩ := arg_ok I hx
      obtain ⟨hsp, hne, hpl, hll⟩ := take_drop_split hle h1
      have rd : deref ref w.heap = .ok (x, w.heap) := by
        cases hin : inside i rf with
        | false => exact (arg_outside I hv st hin).now
        | true =>
          obtain ⟨k, _, h1, h2⟩ := arg_inside hv ha ins hin
          subst h1
          exact rv.slot h2
      simp only [step, Prog.bind_run, e1, Out.bind_ok]
      refine agree_change' I hv ?_
      simp only [Model.Vector.insert, Prog.bind_run, rd, Out.bind_ok]
      rw [hsp] at rv
      refine Out.Safe.bind (P := fun q => ∃ k, To ty w.heap v.ptr (a.xs.take p ++ x :: a.xs.drop p)
        (pushCap ((a.xs.take p).length + (a.xs.drop p).length) v.cap) v.alloc k q.1.1 q.2 ∧ q.1.2 = p) ?_ ?_
      · refine (emplace_ok (x := x) rv I.bal hne hpl).bind ?_
        rintro ⟨v', h'⟩ ⟨k, t⟩
        exact ⟨k, t, rfl⟩
      · rintro ⟨⟨v', p'⟩, h'⟩ ⟨k, t, hp'⟩
        simp only at hp'
        subst hp'
        exact ⟨k, t.cast rfl (by rw [hll, hc]; rfl) hl rfl, rfl⟩
    · cases hf
  | emplace i p x =>
    obtain ⟨a, r', a', ha, hf, hp⟩ := of_upd hs; cases hp
    split at hf
    · rename_i hle
      obtain ⟨h1, hf⟩ := of_only hf; cases hf
      obtain ⟨v, hv, rv, hc, hl⟩ := I.get ha
      obtain ⟨hsp, hne, hpl, hll⟩ := take_drop_split hle h1
      refine agree_change I hv ?_
      rw [hsp] at rv
      refine (emplace_ok (x := x) rv I.bal hne hpl).mono ?_
      rintro q ⟨k, t⟩
      exact ⟨k, t.cast rfl (by rw [hll, hc]; rfl) hl rfl⟩
    · cases hf
  | insertFill i p n rf =>
    simp only [specStep, Option.bind_eq_some_iff] at hs
    obtain ⟨x, hx, hs⟩ := hs
    obtain ⟨a, r', a', ha, hf, hp⟩ := of_upd hs; cases hp
    split at hf
    · rename_i hle
      obtain ⟨⟨h1, hn, hw, hal⟩, hf⟩ := of_only hf; cases hf
      obtain ⟨v, hv, rv, hc, hl⟩ := I.get ha
      obtain ⟨ref, e1, st, ins⟩ := arg_ok I hx
      simp only [step, Prog.bind_run, e1, Out.bind_ok]
      refine agree_change' I hv ?_
      simp only [Prog.bind_run]
      by_cases h0 : a.xs = [] ∧ n = 0
      · obtain ⟨hx0, rfl⟩ := h0
        have hp0 : p = 0 := by rw [hx0] at hle; simpa using hle
        have hl0 : v.len = 0 := by rw [rv.len, hx0]; rfl
        simp only [insertFill, moveElementsBack, if_pos hl0, forUp, Prog.bind_run, Prog.pure_run, Out.bind_ok]
        exact ⟨_, (To.same rv I.bal).cast (by simp [hx0]) (by simp [hx0, hc]) hl rfl, rfl⟩
      replace h1 : 1 ≤ p := h1.resolve_right h0
      obtain ⟨hsp, hne, hpl, hll⟩ := take_drop_split hle h1
      rw [hsp] at rv
      refine (insertFill_ok (x := x) rv I.bal hne ?_ hpl ?_ (by rw [hll]; exact hw)).bind ?_
      · rcases hn with hn | hn
        · exact .inl hn
        · right; rw [hn]; simp
      · rcases hal with hal | hal | ⟨hcp, hal⟩
        · exact .inl hal
        · exact .inr (.inl (arg_outside I hv st hal))
        · right; right
          refine ⟨by rw [hll, hc]; exact hcp, ?_⟩
          cases rf with
          | val => cases hal
          | elem j k =>
            simp only [insideBefore, Bool.and_eq_true, beq_iff_eq, decide_eq_true_eq] at hal
            obtain ⟨rfl, hk⟩ := hal
            obtain ⟨k', hk', h3, h4⟩ := arg_inside hv ha ins (by simp [inside])
            cases hk'
            exact ⟨k, h3, .inl (by rw [List.getElem?_take_of_lt hk]; exact h4)⟩
      · rintro ⟨⟨v', p'⟩, h'⟩ ⟨k, t, hp'⟩
        simp only at hp'
        subst hp'
        exact ⟨k, t.cast rfl (by rw [hll, hc]) hl rfl, rfl⟩
    · cases hf
  | insertRange i p ys =>
    obtain ⟨a, r', a', ha, hf, hp⟩ := of_upd hs; cases hp
    split at hf
    · rename_i hle
      obtain ⟨⟨h1, hn, hw⟩, hf⟩ := of_only hf; cases hf
      obtain ⟨v, hv, rv, hc, hl⟩ := I.get ha
      refine agree_change' I hv ?_
      simp only [Prog.bind_run]
      by_cases h0 : a.xs = [] ∧ ys = []
      · obtain ⟨hx0, rfl⟩ := h0
        have hp0 : p = 0 := by rw [hx0] at hle; simpa using hle
        have hl0 : v.len = 0 := by rw [rv.len, hx0]; rfl
        have hw0 : ¬ wrap (v.len + ([] : List α).length) > v.cap := by rw [hl0, wrap_of_lt (by simp [wordSize])]; simp
        simp only [insertRange, if_neg hw0, moveElementsBack, if_pos hl0, constructList, Prog.bind_run, Prog.pure_run, Out.bind_ok]
        exact ⟨_, (To.same rv I.bal).cast (by simp [hx0]) (by simp [hx0, hc]) hl rfl, rfl⟩
      replace h1 : 1 ≤ p := h1.resolve_right h0
      obtain ⟨hsp, hne, hpl, hll⟩ := take_drop_split hle h1
      rw [hsp] at rv
      refine (insertRange_ok rv I.bal hne ?_ hpl (by rw [hll]; exact hw)).bind ?_
      · rcases hn with hn | hn
        · exact .inl hn
        · right; rw [hn]; simp
      · rintro ⟨⟨v', p'⟩, h'⟩ ⟨k, t, hp'⟩
        simp only at hp'
        subst hp'
        exact ⟨k, t.cast rfl (by rw [hll, hc]) hl rfl, rfl⟩
    · cases hf
  | erase i p =>
    obtain ⟨a, r', a', ha, hf, hp⟩ := of_upd hs; cases hp
    split at hf
    · rename_i hlt
      cases hf
      obtain ⟨v, hv, rv, hc, hl⟩ := I.get ha
      have hsp : a.xs = a.xs.take p ++ a.xs[p] :: a.xs.drop (p + 1) := by simp
      rw [hsp] at rv
      obtain ⟨h1, e1, t1⟩ := erase_ok (p := p) rv I.bal (by simp; omega)
      refine agree_change' I hv ?_
      rw [e1]
      exact ⟨_, t1.cast rfl hc hl rfl, rfl⟩
    · cases hf
  | eraseRange i lo hi =>
    obtain ⟨a, r', a', ha, hf, hp⟩ := of_upd hs; cases hp
    split at hf
    · rename_i hle
      obtain ⟨hg, hf⟩ := of_only hf; cases hf
      obtain ⟨v, hv, rv, hc, hl⟩ := I.get ha
      have hsp : a.xs = a.xs.take lo ++ ((a.xs.drop lo).take (hi - lo) ++ a.xs.drop hi) := by
        have h1 : a.xs.drop hi = (a.xs.drop lo).drop (hi - lo) := by rw [List.drop_drop]; congr 1; omega
        rw [h1, List.take_append_drop, List.take_append_drop]
      have hrv := rv
      rw [hsp] at rv
      obtain ⟨h1, e1, t1⟩ := eraseRange_ok (lo := lo) (hi := hi) rv I.bal (by simp; omega) (by simp; omega) (by
        rcases hg with hg | hg
        · left; intro h
          have := congrArg List.length h
          simp at this
          omega
        · right; simp [hg])
      refine agree_change' I hv ?_
      rw [e1]
      exact ⟨_, t1.cast rfl hc hl rfl, rfl⟩
    · cases hf
  | resize i n =>
    obtain ⟨a, r', a', ha, hf, hp⟩ := of_upd hs; cases hp
    obtain ⟨hw, hf⟩ := of_only hf; cases hf
    obtain ⟨v, hv, rv, hc, hl⟩ := I.get ha
    refine agree_change I hv ((resizeFill_ok rv I.bal (.inr (.inl (stable_tmp _ _ ty.dflt))) hw).mono fun q h => ?_)
    obtain ⟨k, t⟩ := h
    exact ⟨k, t.cast rfl (by rw [hc]) hl rfl⟩
  | resizeFill i n rf =>
    simp only [specStep, Option.bind_eq_some_iff] at hs
    obtain ⟨x, hx, hs⟩ := hs
    obtain ⟨a, r', a', ha, hf, hp⟩ := of_upd hs; cases hp
    obtain ⟨hg, hf⟩ := of_only hf; cases hf
    obtain ⟨v, hv, rv, hc, hl⟩ := I.get ha
    obtain ⟨ref, e1, st, ins⟩ := arg_ok I hx
    simp only [step, Prog.bind_run, e1, Out.bind_ok]
    refine agree_change I hv ((resizeFill_ok (x := x) rv I.bal ?_ hg.1).mono fun q h => ?_)
    · cases hin : inside i rf with
      | false => exact .inr (.inl (arg_outside I hv st hin))
      | true =>
        obtain ⟨k, _, h1, h2⟩ := arg_inside hv ha ins hin
        rcases hg.2 with hh | hh | hh
        · exact .inl hh
        · rw [hin] at hh; cases hh
        · exact .inr (.inr ⟨by rw [hc]; exact hh, .self k h1 h2⟩)
    · obtain ⟨k, t⟩ := h
      exact ⟨k, t.cast rfl (by rw [hc]) hl rfl⟩
  | collect i =>
    obtain ⟨a, r', ha, hf, hp⟩ := of_ask hs; cases hp; cases hf
    obtain ⟨v, hv, rv, hc, hl⟩ := I.get ha
    have := drain_ok rv [] a.xs [] rfl
    simp only [List.length_nil, List.nil_append] at this
    exact agree_look I hv (by simp only [iter, Prog.bind_run, this, Out.bind_ok, Prog.pure_run])
  | drain i n =>
    obtain ⟨a, r', a', ha, hf, hp⟩ := of_upd hs; cases hp; cases hf
    obtain ⟨v, hv, rv, hc, hl⟩ := I.get ha
    obtain ⟨r1, r2, r3⟩ := intoIter_rep rv
    obtain ⟨h1, k, e1, s1⟩ := drainN_ok n r1 I.bal
    simp only [step, Prog.bind_run, run_var hv, Out.bind_ok, setVar, inHeap_run, e1, Prog.pure_run, Agree, Out.safe_ok, true_and, r2]
    exact I.put (i := i) (o' := some (Vec.blank v.alloc)) (a' := some ⟨[], 0, a.alloc⟩) (k := k)
      (by rw [hv]; exact s1) ⟨rep_blank _ _, rfl, hl⟩
  | drainRev i n =>
    obtain ⟨a, r', a', ha, hf, hp⟩ := of_upd hs; cases hp; cases hf
    obtain ⟨v, hv, rv, hc, hl⟩ := I.get ha
    obtain ⟨h1, k, e1, s1⟩ := drainRevN_ok n rv I.bal
    have hm : (newMove v dfltAlloc) = (v, Vec.blank v.alloc) := rfl
    simp only [step, Prog.bind_run, run_var hv, Out.bind_ok, setVar, inHeap_run, hm, e1, Prog.pure_run, Agree, Out.safe_ok, true_and]
    exact I.put (i := i) (o' := some (Vec.blank v.alloc)) (a' := some ⟨[], 0, a.alloc⟩) (k := k)
      (by rw [hv]; exact s1) ⟨rep_blank _ _, rfl, hl⟩
  | equal i j eq =>
    simp only [specStep, Option.bind_eq_some_iff] at hs
    obtain ⟨b, hb, hs⟩ := hs
    obtain ⟨a, r', ha, hf, hp⟩ := of_ask hs; cases hp; cases hf
    obtain ⟨v, hv, rv, hc, hl⟩ := I.get ha
    obtain ⟨u, hu, ru, hc', hl'⟩ := I.get hb
    simp only [step, Prog.bind_run, run_var hu, Out.bind_ok]
    exact agree_look I hv (by simp only [Prog.bind_run, equal_ok eq rv ru, Out.bind_ok, Prog.pure_run])
  | compare i j cmp =>
    simp only [specStep, Option.bind_eq_some_iff] at hs
    obtain ⟨b, hb, hs⟩ := hs
    obtain ⟨a, r', ha, hf, hp⟩ := of_ask hs; cases hp; cases hf
    obtain ⟨v, hv, rv, hc, hl⟩ := I.get ha
    obtain ⟨u, hu, ru, hc', hl'⟩ := I.get hb
    simp only [step, Prog.bind_run, run_var hu, Out.bind_ok]
    exact agree_look I hv (by simp only [Prog.bind_run, threeWay_ok cmp rv ru, Out.bind_ok, Prog.pure_run])
  | print i shw =>
    obtain ⟨a, r', ha, hf, hp⟩ := of_ask hs; cases hp; cases hf
    obtain ⟨v, hv, rv, hc, hl⟩ := I.get ha
    exact agree_look I hv (by simp only [Prog.bind_run, print_ok shw rv, Out.bind_ok, Prog.pure_run])

theorem inv_init : Inv ty (fun _ => none) ({} : World α) :=
  { ok := fun _ => trivial
    sep := by intro _ _ _ _ _ _ h; cases h
    cover := by intro _ _ h; cases h
    bal := ⟨fun _ _ => rfl, rfl, rfl⟩ }

theorem run_ok (ops : List (Op α)) {A : Ideal α} {w : World α} (I : Inv ty A w) {rs : List (Res α)} {A' : Ideal α}
    (hs : specRun false ty.size ty.dflt ops A = some (rs, A')) :
    (run ty ops w).Safe fun q => q.1 = rs ∧ Inv ty A' q.2 := by
  induction ops generalizing A w rs with
  | nil => cases hs; exact ⟨rfl, I⟩
  | cons op ops ih =>
    simp only [specRun] at hs
    cases h1 : specStep false ty.size ty.dflt op A with
    | none => rw [h1] at hs; cases hs
    | some p =>
      obtain ⟨r, A1⟩ := p
      rw [h1] at hs
      simp only at hs
      cases h2 : specRun false ty.size ty.dflt ops A1 with
      | none => rw [h2] at hs; cases hs
      | some q =>
        obtain ⟨rs', A2⟩ := q
        rw [h2] at hs
        cases hs
        simp only [run, Prog.bind_run]
        refine (step_ok op I h1).bind ?_
        rintro ⟨r', w1⟩ ⟨hr, I1⟩
        simp only at hr I1 ⊢
        subst hr
        refine (ih I1 h2).bind ?_
        rintro ⟨rs'', w2⟩ ⟨hrs, I2⟩
        simp only at hrs I2 ⊢
        subst hrs
        exact ⟨rfl, I2⟩

end Verif.Proof.Vector
