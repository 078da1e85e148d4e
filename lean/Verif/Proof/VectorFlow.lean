import Verif.Proof.VectorWork
import Verif.Spec.VectorLive
/-! # Where a vector's storage comes from: a member keeps the block or takes one that did not exist before -/
namespace Verif.Proof.Vector
open Verif Verif.Model.Mem Verif.Model.Vector Verif.Proof.Mem
open Verif.Spec.Vector hiding upd

variable {α β γ : Type} {ty : ElemTy α}

/-- Block numbers only grow. -/
def Calm (p : M α β) : Prop := ∀ h r h', p h = .ok (r, h') → h.next ≤ h'.next

/-- The vector `g r` in the result has the storage of `v`, or storage newer than the call. -/
def Flows (g : β → Vec) (v : Vec) (p : M α β) : Prop := ∀ h r h', p h = .ok (r, h') →
  h.next ≤ h'.next ∧ (((g r).ptr = v.ptr ∧ (g r).cap = v.cap) ∨ ∃ b, h.next ≤ b ∧ (g r).ptr = some b)

/-- The vector in the result has storage newer than the call. -/
def Fresh (g : β → Vec) (p : M α β) : Prop := ∀ h r h', p h = .ok (r, h') →
  h.next ≤ h'.next ∧ ∃ b, h.next ≤ b ∧ (g r).ptr = some b

theorem Does.calm {p : M α β} {Q : β → Work → Prop} (hp : Does p Q) : Calm p := by
  intro h r h' he
  obtain ⟨k, -, t⟩ := hp _ _ _ he
  have := t.2.2
  omega

theorem split_ok {p : M α β} {f : β → M α γ} {h : Heap α} {q : γ × Heap α} (he : (p >>= f) h = .ok q) :
    ∃ b h1, p h = .ok (b, h1) ∧ f b h1 = .ok q := by
  rw [Prog.bind_run] at he
  cases h1 : p h with
  | ok r => rw [h1] at he; exact ⟨r.1, r.2, rfl, he⟩
  | _ => rw [h1] at he; cases he

theorem Calm.bind {p : M α β} {f : β → M α γ} (hp : Calm p) (hf : ∀ b, Calm (f b)) : Calm (p >>= f) := by
  intro h r h' he
  obtain ⟨b, h1, e1, e2⟩ := split_ok he
  exact Nat.le_trans (hp _ _ _ e1) (hf _ _ _ _ e2)

theorem calm_pure (b : β) : Calm (pure b : M α β) := (does_pure b).calm

theorem calm_forUp {f : Nat → M α Unit} (hf : ∀ i, Calm (f i)) (i n : Nat) : Calm (forUp i n f) := by
  induction n generalizing i with
  | zero => exact calm_pure ()
  | succ n ih => exact (hf i).bind fun _ => ih (i + 1)

theorem flows_pure {g : β → Vec} {v : Vec} {b : β} (h1 : (g b).ptr = v.ptr) (h2 : (g b).cap = v.cap) : Flows g v (pure b : M α β) := by
  intro h r h' he
  cases he
  exact ⟨Nat.le_refl _, .inl ⟨h1, h2⟩⟩

theorem flows_len (v : Vec) (n : Nat) : Flows id v (pure { v with len := n } : M α Vec) := flows_pure rfl rfl

theorem Flows.bind {p : M α β} {g : β → Vec} {g' : γ → Vec} {v : Vec} {f : β → M α γ} (hp : Flows g v p)
    (hf : ∀ b, Flows g' (g b) (f b)) : Flows g' v (p >>= f) := by
  intro h r h' he
  obtain ⟨b, h1, e1, e2⟩ := split_ok he
  obtain ⟨n1, s1⟩ := hp _ _ _ e1
  obtain ⟨n2, s2⟩ := hf _ _ _ _ e2
  refine ⟨Nat.le_trans n1 n2, ?_⟩
  rcases s2 with ⟨a, c⟩ | ⟨b', hb, e⟩
  · rw [a, c]; exact s1
  · exact .inr ⟨b', Nat.le_trans n1 hb, e⟩

theorem Calm.flows {p : M α β} {g : γ → Vec} {v : Vec} {f : β → M α γ} (hp : Calm p) (hf : ∀ b, Flows g v (f b)) : Flows g v (p >>= f) := by
  intro h r h' he
  obtain ⟨b, h1, e1, e2⟩ := split_ok he
  have n1 := hp _ _ _ e1
  obtain ⟨n2, s2⟩ := hf _ _ _ _ e2
  refine ⟨Nat.le_trans n1 n2, s2.imp id fun ⟨b', hb, e⟩ => ⟨b', Nat.le_trans n1 hb, e⟩⟩

theorem Fresh.flows {p : M α β} {g : β → Vec} (hp : Fresh g p) (v : Vec) : Flows g v p := fun h r h' he => by
  obtain ⟨n, s⟩ := hp h r h' he
  exact ⟨n, .inr s⟩

theorem Calm.fresh {p : M α β} {g : γ → Vec} {f : β → M α γ} (hp : Calm p) (hf : ∀ b, Fresh g (f b)) : Fresh g (p >>= f) := by
  intro h r h' he
  obtain ⟨b, h1, e1, e2⟩ := split_ok he
  have n1 := hp _ _ _ e1
  obtain ⟨n2, b', hb, e⟩ := hf _ _ _ _ e2
  exact ⟨Nat.le_trans n1 n2, b', Nat.le_trans n1 hb, e⟩

theorem Fresh.bind {p : M α β} {g : β → Vec} {g' : γ → Vec} {f : β → M α γ} (hp : Fresh g p)
    (hf : ∀ b, Flows g' (g b) (f b)) : Fresh g' (p >>= f) := by
  intro h r h' he
  obtain ⟨b, h1, e1, e2⟩ := split_ok he
  obtain ⟨n1, b1, hb1, s1⟩ := hp _ _ _ e1
  obtain ⟨n2, s2⟩ := hf _ _ _ _ e2
  refine ⟨Nat.le_trans n1 n2, ?_⟩
  rcases s2 with ⟨a, -⟩ | ⟨b', hb, e⟩
  · exact ⟨b1, hb1, a.trans s1⟩
  · exact ⟨b', Nat.le_trans n1 hb, e⟩

theorem flows_ite {c : Prop} [Decidable c] {p q : M α β} {g : β → Vec} {v : Vec} (hp : c → Flows g v p) (hq : ¬c → Flows g v q) :
    Flows g v (if c then p else q) := by
  split
  · exact hp ‹_›
  · exact hq ‹_›

theorem calm_ite {c : Prop} [Decidable c] {p q : M α β} (hp : c → Calm p) (hq : ¬c → Calm q) :
    Calm (if c then p else q) := by
  split
  · exact hp ‹_›
  · exact hq ‹_›

theorem calm_construct (p : Option Nat) (i : Nat) (x : α) : Calm (construct p i x) := (does_construct p i x).calm
theorem calm_destroy (p : Option Nat) (i : Nat) : Calm (destroy p i : M α Unit) := (does_destroy p i).calm
theorem calm_load (p : Option Nat) (i : Nat) : Calm (load p i : M α α) := (does_load p i).calm
theorem calm_store (p : Option Nat) (i : Nat) (x : α) : Calm (store p i x) := (does_store p i x).calm
theorem calm_take (p : Option Nat) (i : Nat) : Calm (take ty p i) := (does_take p i).calm
theorem calm_deref (r : Ref α) : Calm (deref r) := (does_deref r).calm
theorem calm_clear (v : Vec) : Calm (clear ty v) := (does_clear v).calm

theorem fresh_allocate (v : Vec) (n : Nat) : Fresh id (allocate ty v n) := by
  intro h r h' he
  obtain ⟨b, h1, e1, e2⟩ := split_ok he
  cases e2
  unfold alloc at e1
  dsimp only at e1
  split at e1
  · cases e1
  · cases e1
    exact ⟨Nat.le_succ _, _, Nat.le_refl _, rfl⟩

theorem flows_destroyAll (v : Vec) : Flows id v (destroyAll v : M α Vec) := by
  intro h r h' he
  have hc := (does_destroyAll v).calm h r h' he
  obtain ⟨k, ⟨rfl, -⟩, -⟩ := does_destroyAll v _ _ _ he
  exact ⟨hc, .inl ⟨rfl, rfl⟩⟩

theorem fresh_allocateReserve (v : Vec) (n : Nat) : Fresh id (allocateReserve ty v n) := by
  intro h r h' he
  obtain ⟨b, h1, e1, e2⟩ := split_ok he
  have hb : h.next ≤ b ∧ h.next ≤ h1.next := by
    unfold alloc at e1
    dsimp only at e1
    split at e1
    · cases e1
    · cases e1
      exact ⟨Nat.le_refl _, Nat.le_succ _⟩
  obtain ⟨u, h2, e3, e4⟩ := split_ok e2
  have n3 := calm_forUp (fun i => (calm_take (ty := ty) v.ptr i).bind fun x => calm_construct _ i x) _ _ _ _ _ e3
  obtain ⟨v', h3, e5, e6⟩ := split_ok e4
  have n5 := calm_clear _ _ _ _ e5
  cases e6
  exact ⟨by omega, b, hb.1, rfl⟩

theorem flows_reserve (v : Vec) (n : Nat) : Flows id v (reserve ty v n) := by
  unfold reserve
  exact flows_ite (fun _ => (fresh_allocateReserve v n).flows v) fun _ => flows_pure rfl rfl

theorem flows_extendSpace (v : Vec) : Flows id v (extendSpace ty v) := flows_reserve v _

theorem flows_pushBack (v : Vec) (r : Ref α) : Flows id v (pushBack ty v r) := by
  unfold pushBack
  refine (flows_ite (fun _ => flows_extendSpace v) fun _ => flows_pure (g := id) rfl rfl).bind fun v1 => ?_
  exact (calm_deref r).flows fun x => (calm_construct _ _ x).flows fun _ => flows_pure rfl rfl

theorem flows_popBack (v : Vec) : Flows id v (popBack v : M α Vec) :=
  (calm_destroy _ _).flows fun _ => flows_len v _

theorem flows_popLoop (v : Vec) (n : Nat) : Flows id v (popLoop v n : M α Vec) := by
  induction n generalizing v with
  | zero => exact flows_pure rfl rfl
  | succ n ih => exact (flows_popBack v).bind fun v1 => ih v1

theorem flows_pushLoop (r : Ref α) (v : Vec) (n : Nat) : Flows id v (pushLoop ty r v n) := by
  induction n generalizing v with
  | zero => exact flows_pure rfl rfl
  | succ n ih => exact (flows_pushBack v r).bind fun v1 => ih v1

theorem flows_pushList (v : Vec) (xs : List α) : Flows id v (pushList ty v xs) := by
  induction xs generalizing v with
  | nil => exact flows_pure rfl rfl
  | cons x xs ih => exact (flows_pushBack v (.tmp x)).bind fun v1 => ih v1

theorem flows_assignFill (v : Vec) (n : Nat) (r : Ref α) : Flows id v (assignFill ty v n r) :=
  (flows_destroyAll v).bind fun v1 => (flows_reserve v1 n).bind fun v2 => flows_pushLoop r v2 n

theorem flows_assignList (v : Vec) (xs : List α) : Flows id v (assignList ty v xs) :=
  (flows_destroyAll v).bind fun v1 => (flows_reserve v1 _).bind fun v2 => flows_pushList v2 xs

theorem fresh_newList (xs : List α) (a : Nat) : Fresh id (newList ty xs a) :=
  (fresh_allocate _ _).bind fun _ => (does_constructList _ 0 xs).calm.flows fun _ => flows_pure rfl rfl

theorem fresh_newRange (xs : List α) (a : Nat) : Fresh id (newRange ty xs a) :=
  (fresh_allocate _ _).bind fun _ => (does_constructList _ 0 xs).calm.flows fun _ => flows_pure rfl rfl

theorem fresh_copyImpl (v r : Vec) : Fresh id (copyImpl ty v r) :=
  (fresh_allocate _ _).bind fun v1 =>
    (calm_forUp (fun i => (calm_load r.ptr i).bind fun x => calm_construct v1.ptr i x) 0 _).flows fun _ => flows_pure rfl rfl

theorem fresh_fromIter (xs : List α) : Fresh id (fromIter ty xs) :=
  (fresh_allocate _ _).bind fun v1 => flows_pushList v1 xs

theorem calm_stdCopy (a b : Option Nat) (n : Nat) : Calm (stdCopy a b n : M α Unit) := (does_stdCopy a b n).calm

theorem flows_copyAssign (v o : Vec) : Flows id v (copyAssign ty v o) := by
  unfold copyAssign
  refine flows_ite (fun _ => ?_) fun _ => (((calm_clear v).fresh fun v1 => fresh_copyImpl v1 o).flows v)
  refine (flows_reserve v _).bind fun v1 => ?_
  refine (calm_stdCopy _ _ _).flows fun _ => ?_
  refine Calm.flows (calm_ite (fun _ => calm_forUp (fun i => calm_destroy _ _) _ _) fun _ => calm_ite (fun _ => ?_) fun _ => calm_pure _)
    fun _ => flows_pure rfl rfl
  exact calm_forUp (fun i => (calm_load _ _).bind fun x => calm_construct _ _ x) _ _

theorem fresh_copyAssign (v o : Vec) (ha : v.alloc ≠ o.alloc) : Fresh id (copyAssign ty v o) := by
  unfold copyAssign
  rw [if_neg ha]
  exact (calm_clear v).fresh fun v1 => fresh_copyImpl v1 o

theorem len_allocateReserve {v : Vec} {n : Nat} {h h' : Heap α} {v' : Vec} (he : allocateReserve ty v n h = .ok (v', h')) :
    v'.len = v.len := by
  obtain ⟨b, h2, -, e3⟩ := split_ok he
  obtain ⟨u, h3, -, e4⟩ := split_ok e3
  obtain ⟨v', h4, -, e5⟩ := split_ok e4
  cases e5
  rfl

theorem len_reserve {v : Vec} {n : Nat} {h h' : Heap α} {v' : Vec} (he : reserve ty v n h = .ok (v', h')) : v'.len = v.len := by
  unfold reserve at he
  by_cases hc : n > v.cap
  · rw [if_pos hc] at he; exact len_allocateReserve he
  · rw [if_neg hc] at he; cases he; rfl

theorem flows_moveElementsBack (v : Vec) (pos c : Nat) (h0 : 0 < pos ∨ v.len = 0) (hw : v.len < wordSize) :
    Flows id v (moveElementsBack ty v pos c) := by
  unfold moveElementsBack
  refine flows_ite (fun _ => flows_pure rfl rfl) fun hl => ?_
  have h0' : 0 < pos := by omega
  intro h r h' he
  obtain ⟨v1, h1, e1, e2⟩ := split_ok he
  have hl1 : v1.len < wordSize := by
    by_cases hc : wrap (v.len + c) > v.cap
    · rw [if_pos hc] at e1; rw [len_reserve e1]; exact hw
    · rw [if_neg hc] at e1; cases e1; exact hw
  have f1 := (flows_ite (c := wrap (v.len + c) > v.cap) (fun _ => flows_reserve (ty := ty) v _) fun _ => flows_pure (g := id) rfl rfl) _ _ _ e1
  have f2 := ((does_moveBackLoop (ty := ty) v1.ptr c pos (v1.len - 1) h0' (by omega)).calm.flows (g := id) (v := v1)
    fun _ => flows_len v1 (wrap (v1.len + c))) _ _ _ e2
  refine ⟨Nat.le_trans f1.1 f2.1, ?_⟩
  rcases f2.2 with ⟨a, c'⟩ | ⟨b', hb, e⟩
  · rw [a, c']; exact f1.2
  · exact .inr ⟨b', Nat.le_trans f1.1 hb, e⟩

theorem len_extendSpace (v : Vec) {h h' : Heap α} {v' : Vec} {c : Prop} [Decidable c]
    (he : (if c then extendSpace ty v else pure v) h = .ok (v', h')) : v'.len = v.len := by
  by_cases hc : c
  · rw [if_pos hc] at he; exact len_reserve he
  · rw [if_neg hc] at he; cases he; rfl

theorem flows_emplace (v : Vec) (pos : Nat) (x : α) (h0 : 0 < pos) (hw : v.len < wordSize) : Flows id v (emplace ty v pos x) := by
  intro h r h' he
  obtain ⟨v1, h1, e1, e2⟩ := split_ok he
  have hl1 := len_extendSpace v e1
  have f1 := (flows_ite (c := v.len = v.cap) (fun _ => flows_extendSpace (ty := ty) v) fun _ => flows_pure (g := id) rfl rfl) _ _ _ e1
  have f2 := ((flows_moveElementsBack (ty := ty) v1 pos 1 (.inl h0) (by omega)).bind fun v2 => (calm_construct v2.ptr pos x).flows (g := id)
    fun _ => flows_pure (b := v2) rfl rfl) _ _ _ e2
  refine ⟨Nat.le_trans f1.1 f2.1, ?_⟩
  rcases f2.2 with ⟨a, c'⟩ | ⟨b', hb, e⟩
  · rw [a, c']; exact f1.2
  · exact .inr ⟨b', Nat.le_trans f1.1 hb, e⟩

theorem flows_insert (v : Vec) (pos : Nat) (r : Ref α) (h0 : 0 < pos) (hw : v.len < wordSize) :
    Flows (fun q => q.1) v (insert ty v pos r) :=
  (calm_deref r).flows fun x => (flows_emplace v pos x h0 hw).bind fun _ => flows_pure rfl rfl

theorem flows_insertFill (v : Vec) (pos n : Nat) (r : Ref α) (h0 : 0 < pos ∨ v.len = 0) (hw : v.len < wordSize) :
    Flows (fun q => q.1) v (insertFill ty v pos n r) :=
  (flows_moveElementsBack v pos n h0 hw).bind fun _ =>
    (calm_forUp (fun _ => (calm_deref r).bind fun x => calm_construct _ _ x) 0 n).flows fun _ => flows_pure rfl rfl

theorem flows_insertRange (v : Vec) (pos : Nat) (xs : List α) (h0 : 0 < pos ∨ v.len = 0) (hw : v.len < wordSize) :
    Flows (fun q => q.1) v (insertRange ty v pos xs) := by
  intro h r h' he
  obtain ⟨v1, h1, e1, e2⟩ := split_ok he
  have hl1 : v1.len = v.len := by
    by_cases hc : wrap (v.len + xs.length) > v.cap
    · rw [if_pos hc] at e1; exact len_allocateReserve e1
    · rw [if_neg hc] at e1; cases e1; rfl
  have f1 := (flows_ite (c := wrap (v.len + xs.length) > v.cap) (fun _ => (fresh_allocateReserve (ty := ty) v _).flows v)
    fun _ => flows_pure (g := id) rfl rfl) _ _ _ e1
  have f2 := ((flows_moveElementsBack (ty := ty) v1 pos xs.length (by omega) (by omega)).bind
    fun v2 => (does_constructList v2.ptr pos xs).calm.flows (g := fun q : Vec × Nat => q.1)
    fun _ => flows_pure (b := (v2, pos)) rfl rfl) _ _ _ e2
  refine ⟨Nat.le_trans f1.1 f2.1, ?_⟩
  rcases f2.2 with ⟨a, c'⟩ | ⟨b', hb, e⟩
  · rw [a, c']; exact f1.2
  · exact .inr ⟨b', Nat.le_trans f1.1 hb, e⟩

theorem flows_erase (v : Vec) (p : Nat) : Flows (fun q => q.1) v (erase ty v p) := by
  unfold erase
  refine flows_ite (fun _ => ?_) fun _ => flows_ite (fun _ => ?_) fun _ => flows_pure rfl rfl
  · exact (flows_popBack v).bind fun _ => flows_pure rfl rfl
  · exact (does_stdMove _ _ _ _).calm.flows fun _ => (flows_popBack v).bind fun _ => flows_pure rfl rfl

theorem flows_eraseRange (v : Vec) (lo hi : Nat) : Flows (fun q => q.1) v (eraseRange ty v lo hi) := by
  unfold eraseRange
  refine flows_ite (fun _ => flows_pure rfl rfl) fun _ => ?_
  exact (does_stdMove _ _ _ _).calm.flows fun _ => (flows_popLoop v _).bind fun _ => flows_pure rfl rfl

theorem flows_resizeFill (v : Vec) (n : Nat) (r : Ref α) : Flows id v (resizeFill ty v n r) := by
  unfold resizeFill
  refine flows_ite (fun _ => flows_popLoop v _) fun _ => flows_ite (fun _ => ?_) fun _ => flows_pure rfl rfl
  exact (flows_ite (fun _ => flows_reserve v n) fun _ => flows_pure (g := id) rfl rfl).bind fun v1 => flows_pushLoop r v1 _

end Verif.Proof.Vector
