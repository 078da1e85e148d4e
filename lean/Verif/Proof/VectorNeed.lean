import Verif.Proof.VectorReach
import Verif.Spec.VectorNeed
/-! # Vector: a call fails for lack of memory only if a request it had to make was refused -/
namespace Verif.Proof.Vector
open Verif Verif.Model.Mem Verif.Model.Vector Verif.Proof.Mem
open Verif.Spec.Vector hiding upd

variable {α : Type} {ty : ElemTy α}

/-- `p` ends in `oom` only if `Q`, and what it returns satisfies `R`. -/
def Tr {σ β : Type} (Q : Prop) (p : Prog σ β) (R : β → Prop) : Prop :=
  ∀ s, (p s = .oom → Q) ∧ ∀ b s', p s = .ok (b, s') → R b

section
variable {σ β γ : Type} {Q Q' : Prop} {R R' : β → Prop} {S : γ → Prop}

theorem Tr.bind {p : Prog σ β} {f : β → Prog σ γ} (h : Tr Q p R) (hf : ∀ b, R b → Tr Q (f b) S) : Tr Q (p >>= f) S := by
  intro s
  simp only [Prog.bind_run]
  cases hp : p s with
  | ok b => obtain ⟨b, s'⟩ := b; exact hf b ((h s).2 b s' hp) s'
  | oom => exact ⟨fun _ => (h s).1 hp, fun _ _ h => by simp at h⟩
  | _ => exact ⟨fun h => by simp at h, fun _ _ h => by simp at h⟩

theorem Tr.mono {p : Prog σ β} (h : Tr Q p R) (hq : Q → Q') (hr : ∀ b, R b → R' b) : Tr Q' p R' :=
  fun s => ⟨fun e => hq ((h s).1 e), fun b s' e => hr b ((h s).2 b s' e)⟩

theorem Tr.any {p : Prog σ β} (h : Tr False p R) : Tr Q p fun _ => True := h.mono False.elim fun _ _ => trivial

theorem Tr.pure {b : β} (h : R b) : Tr Q (Pure.pure b : Prog σ β) R := by
  intro s
  refine ⟨fun e => (by simp at e), fun b' s' e => ?_⟩
  simp only [Prog.pure_run, Out.ok.injEq, Prod.mk.injEq] at e
  rw [← e.1]; exact h

theorem Tr.ub : Tr Q (Prog.ub : Prog σ β) R :=
  fun s => ⟨fun e => by simp at e, fun b' s' e => by simp at e⟩
end

/-- The allocator refuses a request for at most `m` elements. -/
def Req (ty : ElemTy α) (m : Nat) : Prop := ∃ k n, n ≤ ty.size * m ∧ ty.refuse k n = true

theorem Req.mono {m m' : Nat} (h : Req ty m) (hm : m ≤ m') : Req ty m' := by
  obtain ⟨k, n, h1, h2⟩ := h
  exact ⟨k, n, Nat.le_trans h1 (Nat.mul_le_mul_left _ hm), h2⟩

section prims
variable {Q : Prop} {β : Type}

theorem tr_access {p : Option Nat} {i c d : Nat} {k : Option α → Option (β × Option α)} : Tr Q (access p i c d k) fun _ => True := by
  intro h
  refine ⟨fun e => ?_, fun _ _ _ => trivial⟩
  unfold access at e
  split at e
  · cases e
  · split at e
    · cases e
    · split at e
      · cases e
      · split at e <;> cases e

theorem tr_construct {p : Option Nat} {i : Nat} {x : α} : Tr Q (construct p i x) fun _ => True := tr_access
theorem tr_destroy {p : Option Nat} {i : Nat} : Tr Q (destroy p i : M α Unit) fun _ => True := tr_access
theorem tr_load {p : Option Nat} {i : Nat} : Tr Q (load p i : M α α) fun _ => True := tr_access
theorem tr_store {p : Option Nat} {i : Nat} {x : α} : Tr Q (store p i x) fun _ => True := tr_access
theorem tr_take {p : Option Nat} {i : Nat} : Tr Q (take ty p i) fun _ => True := tr_access

theorem tr_deref {r : Ref α} : Tr Q (deref r) fun _ => True := by
  cases r with
  | tmp x => exact Tr.pure trivial
  | slot p i => exact tr_load

theorem tr_free {o : Nat} {p : Option Nat} {n : Nat} : Tr Q (free ty o p n) fun _ => True := by
  intro h
  refine ⟨fun e => ?_, fun _ _ _ => trivial⟩
  unfold free at e
  split at e
  · cases e
  · split at e
    · cases e
    · split at e <;> cases e

theorem tr_alloc {o n m : Nat} (hm : n ≤ m) (hQ : Req ty m → Q) :
    Tr Q (alloc ty o n) fun _ => wrap (ty.size * n) < 9223372036854775808 := by
  intro h
  unfold alloc
  by_cases hr : ty.refuse h.next (wrap (ty.size * n)) = true
  · simp only [hr, if_true]
    refine ⟨fun _ => hQ ⟨_, _, Nat.le_trans (Nat.mod_le _ _) (Nat.mul_le_mul_left _ hm), hr⟩, fun _ _ e => by cases e⟩
  · simp only [hr, if_false]
    refine ⟨fun e => by simp at e, fun _ _ _ => ?_⟩
    exact Nat.lt_of_not_le fun hc => hr (ty.refuse_big _ _ hc)

theorem tr_forUp {f : Nat → M α Unit} (hf : ∀ k, Tr Q (f k) fun _ => True) (i n : Nat) : Tr Q (forUp i n f) fun _ => True := by
  induction n generalizing i with
  | zero => exact Tr.pure trivial
  | succ n ih => exact (hf i).bind fun _ _ => ih _

theorem tr_stdCopy {s d : Option Nat} {n : Nat} : Tr Q (stdCopy s d n : M α Unit) fun _ => True :=
  tr_forUp (fun _ => tr_load.bind fun _ _ => tr_store) _ _

theorem tr_stdMove {p : Option Nat} {a b c : Nat} : Tr Q (stdMove ty p a b c) fun _ => True := by
  unfold stdMove
  split
  · exact Tr.ub
  · exact tr_forUp (fun _ => tr_take.bind fun _ _ => tr_store) _ _

theorem tr_constructList {p : Option Nat} {i : Nat} {xs : List α} : Tr Q (constructList p i xs) fun _ => True := by
  induction xs generalizing i with
  | nil => exact Tr.pure trivial
  | cons x xs ih => exact tr_construct.bind fun _ _ => ih

end prims

section members
variable {Q : Prop}

theorem tr_deallocate {v : Vec} : Tr Q (deallocate ty v) fun v' => v'.alloc = v.alloc ∧ v'.len = 0 ∧ v'.cap = 0 :=
  tr_free.bind fun _ _ => Tr.pure ⟨rfl, rfl, rfl⟩

theorem tr_destroyAll {v : Vec} : Tr Q (destroyAll v : M α Vec) fun v' => v'.alloc = v.alloc ∧ v'.len = 0 ∧ v'.cap = v.cap :=
  (tr_forUp (fun _ => tr_destroy) _ _).bind fun _ _ => Tr.pure ⟨rfl, rfl, rfl⟩

theorem tr_clear {v : Vec} : Tr Q (clear ty v) fun v' => v'.alloc = v.alloc ∧ v'.len = 0 ∧ v'.cap = 0 :=
  tr_destroyAll.bind fun _ h => tr_deallocate.mono id fun _ g => ⟨g.1.trans h.1, g.2⟩

theorem tr_allocate {v : Vec} {n : Nat} (hQ : Req ty n → Q) :
    Tr Q (allocate ty v n) fun v' => v'.len = 0 ∧ v'.cap = n ∧ wrap (ty.size * n) < 9223372036854775808 :=
  (tr_alloc (Nat.le_refl _) hQ).bind fun _ h => Tr.pure ⟨rfl, rfl, h⟩

theorem tr_allocateReserve {v : Vec} {n : Nat} (hQ : Req ty n → Q) :
    Tr Q (allocateReserve ty v n) fun v' => v'.len = v.len ∧ v'.cap = n ∧ wrap (ty.size * n) < 9223372036854775808 :=
  (tr_alloc (Nat.le_refl _) hQ).bind fun _ h =>
    (tr_forUp (fun _ => tr_take.bind fun _ _ => tr_construct) _ _).bind fun _ _ => tr_clear.bind fun _ _ => Tr.pure ⟨rfl, rfl, h⟩

theorem tr_reserve {v : Vec} {n : Nat} (hQ : v.cap < n → Req ty n → Q) :
    Tr Q (reserve ty v n) fun v' => v'.len = v.len ∧ v'.cap = max v.cap n ∧ (v.cap < n → wrap (ty.size * n) < 9223372036854775808) := by
  unfold reserve
  split
  · rename_i h
    exact (tr_allocateReserve (hQ h)).mono id fun _ g => ⟨g.1, by rw [g.2.1]; omega, fun _ => g.2.2⟩
  · exact Tr.pure ⟨rfl, by omega, fun h => by omega⟩

/-- `cap` elements are less than 2^63 bytes. -/
def Small (ty : ElemTy α) (cap : Nat) : Prop := cap * ty.size < 9223372036854775808

theorem Small.lt {cap : Nat} (h : Small ty cap) : cap < 9223372036854775808 :=
  Nat.lt_of_le_of_lt (Nat.le_mul_of_pos_right cap ty.size_pos) h

theorem small_of_wrap {n : Nat} (h : wrap (ty.size * n) < 9223372036854775808) (hn : n * ty.size < wordSize) : Small ty n := by
  rw [Nat.mul_comm] at h
  rwa [wrap_of_lt hn] at h

theorem tr_extendSpace {v : Vec} (hs : Small ty v.cap) (hQ : Req ty (doubled v.cap) → Q) :
    Tr Q (extendSpace ty v) fun v' => v'.len = v.len ∧ v'.cap = doubled v.cap ∧ Small ty v'.cap := by
  have hl := hs.lt
  have hsz := ty.size_lt
  have hW : wordSize = 18446744073709551616 := rfl
  have e : (if v.cap = 0 then 2 else wrap (2 * v.cap)) = doubled v.cap := by
    unfold doubled; split
    · rfl
    · exact wrap_of_lt (by omega)
  have hgt : v.cap < doubled v.cap := by unfold doubled; split <;> omega
  have hw : doubled v.cap * ty.size < wordSize := by
    unfold doubled Small at *; split
    · omega
    · rw [Nat.mul_assoc]; omega
  simp only [extendSpace, e]
  refine (tr_reserve fun _ h => hQ h).mono id fun v' h => ⟨h.1, by rw [h.2.1]; omega, ?_⟩
  rw [h.2.1, Nat.max_eq_right (by omega)]
  exact small_of_wrap (h.2.2 hgt) hw

theorem tr_pushBack {v : Vec} {r : Ref α} (hs : Small ty v.cap) (hQ : v.cap ≤ v.len → Req ty (doubled v.cap) → Q) :
    Tr Q (pushBack ty v r) fun v' => v'.len = v.len + 1 ∧ v'.cap = afterPush v.len v.cap ∧ Small ty v'.cap := by
  unfold pushBack afterPush
  by_cases h : v.len ≥ v.cap
  · rw [if_pos h, if_neg (by omega)]
    exact (tr_extendSpace hs (hQ h)).bind fun v1 h1 => tr_deref.bind fun _ _ => tr_construct.bind fun _ _ =>
      Tr.pure ⟨by simp [h1.1], by simp [h1.2.1], h1.2.2⟩
  · rw [if_neg h, if_pos (by omega)]
    exact (Tr.pure (R := fun v' => v' = v) rfl).bind fun v1 h1 => tr_deref.bind fun _ _ => tr_construct.bind fun _ _ =>
      Tr.pure (by subst h1; exact ⟨rfl, rfl, hs⟩)

/-- appending within the capacity never asks for memory -/
theorem tr_pushLoop {r : Ref α} (d : Nat) {v : Vec} (hs : Small ty v.cap) (hd : v.len + d ≤ v.cap) :
    Tr Q (pushLoop ty r v d) fun _ => True := by
  induction d generalizing v with
  | zero => exact Tr.pure trivial
  | succ d ih =>
    refine (tr_pushBack hs fun h => by omega).bind fun v1 h1 => ih h1.2.2 ?_
    have : v1.cap = v.cap := by rw [h1.2.1]; unfold afterPush; rw [if_pos (by omega)]
    omega

theorem tr_pushList_room (xs : List α) {v : Vec} (hs : Small ty v.cap) (hd : v.len + xs.length ≤ v.cap) :
    Tr Q (pushList ty v xs) fun _ => True := by
  induction xs generalizing v with
  | nil => exact Tr.pure trivial
  | cons x xs ih =>
    simp only [List.length_cons] at hd
    refine (tr_pushBack hs fun h => by omega).bind fun v1 h1 => ih h1.2.2 ?_
    have : v1.cap = v.cap := by rw [h1.2.1]; unfold afterPush; rw [if_pos (by omega)]
    omega

theorem le_afterPush (len cap : Nat) : cap ≤ afterPush len cap := by
  unfold afterPush doubled; split <;> try split
  all_goals omega

theorem le_afterPushes (n len cap : Nat) : cap ≤ afterPushes n len cap := by
  induction n generalizing len cap with
  | zero => exact Nat.le_refl _
  | succ n ih => exact Nat.le_trans (le_afterPush len cap) (ih _ _)

theorem tr_pushList (xs : List α) {v : Vec} (hs : Small ty v.cap) (hQ : Req ty (afterPushes xs.length v.len v.cap) → Q) :
    Tr Q (pushList ty v xs) fun _ => True := by
  induction xs generalizing v with
  | nil => exact Tr.pure trivial
  | cons x xs ih =>
    have hle := le_afterPushes xs.length (v.len + 1) (afterPush v.len v.cap)
    refine (tr_pushBack hs fun h hr => hQ (hr.mono ?_)).bind fun v1 h1 => ih h1.2.2 fun h => hQ ?_
    · refine Nat.le_trans ?_ hle
      unfold afterPush; rw [if_neg (by omega)]; exact Nat.le_refl _
    · rw [h1.1, h1.2.1] at h; exact h

theorem small_max {a b : Nat} (ha : Small ty a) (hb : b * ty.size < wordSize)
    (h : a < b → wrap (ty.size * b) < 9223372036854775808) : Small ty (max a b) := by
  by_cases hc : a < b
  · rw [Nat.max_eq_right (by omega)]; exact small_of_wrap (h hc) hb
  · rw [Nat.max_eq_left (by omega)]; exact ha

theorem tr_assignFill {v : Vec} {n : Nat} {r : Ref α} (hs : Small ty v.cap) (hn : n * ty.size < wordSize)
    (hQ : v.cap < n → Req ty n → Q) : Tr Q (assignFill ty v n r) fun _ => True := by
  refine tr_destroyAll.bind fun v1 h1 => (tr_reserve (by rw [h1.2.2]; exact hQ)).bind fun v2 h2 => ?_
  rw [h1.2.2, h1.2.1] at h2
  exact tr_pushLoop _ (by rw [h2.2.1]; exact small_max hs hn h2.2.2) (by omega)

theorem tr_assignList {v : Vec} {xs : List α} (hs : Small ty v.cap) (hn : xs.length * ty.size < wordSize)
    (hQ : v.cap < xs.length → Req ty xs.length → Q) : Tr Q (assignList ty v xs) fun _ => True := by
  refine tr_destroyAll.bind fun v1 h1 => (tr_reserve (by rw [h1.2.2]; exact hQ)).bind fun v2 h2 => ?_
  rw [h1.2.2, h1.2.1] at h2
  exact tr_pushList_room _ (by rw [h2.2.1]; exact small_max hs hn h2.2.2) (by omega)

theorem small_zero : Small ty 0 := by simp [Small]

theorem tr_newFill {n : Nat} {r : Ref α} {a : Nat} (hn : n * ty.size < wordSize) (hQ : 0 < n → Req ty n → Q) :
    Tr Q (newFill ty n r a) fun _ => True := tr_assignFill small_zero hn hQ

theorem tr_newList {xs : List α} {a : Nat} (hQ : Req ty xs.length → Q) : Tr Q (newList ty xs a) fun _ => True :=
  (tr_allocate hQ).bind fun _ _ => tr_constructList.bind fun _ _ => Tr.pure trivial

theorem tr_newRange {xs : List α} {a : Nat} (hQ : Req ty xs.length → Q) : Tr Q (newRange ty xs a) fun _ => True :=
  (tr_allocate hQ).bind fun _ _ => tr_constructList.bind fun _ _ => Tr.pure trivial

theorem tr_copyImpl {v r : Vec} (hQ : Req ty r.len → Q) : Tr Q (copyImpl ty v r) fun _ => True :=
  (tr_allocate hQ).bind fun _ _ => (tr_forUp (fun _ => tr_load.bind fun _ _ => tr_construct) _ _).bind fun _ _ => Tr.pure trivial

theorem tr_fromIter {xs : List α} (hQ : Req ty (afterPushes xs.length 0 2) → Q) : Tr Q (fromIter ty xs) fun _ => True := by
  refine (tr_allocate (v := Vec.blank dfltAlloc) (n := 2) fun h => hQ (h.mono (le_afterPushes _ _ _))).bind fun v h => tr_pushList _ ?_ ?_
  · rw [h.2.1]
    have := ty.size_lt
    exact small_of_wrap h.2.2 (by have : wordSize = 18446744073709551616 := rfl; omega)
  · rw [h.1, h.2.1]; exact hQ

theorem tr_copyAssign {v o : Vec} (hQ : (if v.alloc = o.alloc then v.cap < o.cap ∧ Req ty o.cap else Req ty o.len) → Q) :
    Tr Q (copyAssign ty v o) fun _ => True := by
  unfold copyAssign
  split
  · rename_i h
    rw [if_pos h] at hQ
    refine (tr_reserve fun h1 h2 => hQ ⟨h1, h2⟩).bind fun v1 h1 => tr_stdCopy.bind fun _ _ => Tr.bind (R := fun _ => True) ?_ fun _ _ => Tr.pure trivial
    split
    · exact tr_forUp (fun _ => tr_destroy) _ _
    · split
      · exact tr_forUp (fun _ => tr_load.bind fun _ _ => tr_construct) _ _
      · exact Tr.pure trivial
  · rename_i h
    rw [if_neg h] at hQ
    exact tr_clear.bind fun _ _ => tr_copyImpl hQ

theorem tr_popBack {v : Vec} : Tr Q (popBack v : M α Vec) fun _ => True := tr_destroy.bind fun _ _ => Tr.pure trivial

theorem tr_popLoop {v : Vec} (d : Nat) : Tr Q (popLoop v d : M α Vec) fun _ => True := by
  induction d generalizing v with
  | zero => exact Tr.pure trivial
  | succ d ih => exact tr_popBack.bind fun _ _ => ih

theorem tr_resizeFill {v : Vec} {n : Nat} {r : Ref α} (hs : Small ty v.cap) (hl : v.len ≤ v.cap) (hn : n * ty.size < wordSize)
    (hQ : v.cap < n → Req ty n → Q) : Tr Q (resizeFill ty v n r) fun _ => True := by
  unfold resizeFill
  split
  · exact tr_popLoop _
  · split
    · refine Tr.bind (R := fun v' => v'.len = v.len ∧ v'.cap = max v.cap n ∧ Small ty v'.cap) ?_ fun v1 h1 => ?_
      · split
        · exact (tr_reserve hQ).mono id fun v' h => ⟨h.1, h.2.1, by rw [h.2.1]; exact small_max hs hn h.2.2⟩
        · exact Tr.pure ⟨rfl, by omega, hs⟩
      · exact tr_pushLoop _ h1.2.2 (by omega)
    · exact Tr.pure trivial

theorem tr_moveBackLoop {p : Option Nat} {c pos hi : Nat} : Tr Q (moveBackLoop ty p c pos hi) fun _ => True := by
  suffices ∀ hi, Tr Q (moveBackLoop ty p c pos hi) fun _ => True from this hi
  refine moveBackLoop.fixpoint_induct ty p c pos (fun f => ∀ hi, Tr Q (f hi) fun _ => True) ?_ ?_
  · refine Lean.Order.admissible_pi_apply (fun _ (g : M α Unit) => Tr Q g fun _ => True) fun _ => ?_
    refine Lean.Order.admissible_pi_apply (β := fun _ : Heap α => Out (Unit × Heap α))
      (fun _ (o : Out (Unit × Heap α)) => (o = .oom → Q) ∧ ∀ b s', o = .ok (b, s') → True) fun h => ?_
    refine Lean.Order.admissible_flatOrder (b := (Out.div : Out (Unit × Heap α)))
      (fun o => (o = (Out.oom : Out (Unit × Heap α)) → Q) ∧ ∀ b s', o = (Out.ok (b, s') : Out (Unit × Heap α)) → True) ?_
    exact ⟨(fun h => by cases h), fun _ _ _ => trivial⟩
  · intro f ih hi
    show Tr Q (if hi ≥ pos then _ else _) _
    split
    · exact tr_take.bind fun _ _ => tr_construct.bind fun _ _ => tr_destroy.bind fun _ _ => ih _
    · exact Tr.pure trivial

theorem tr_moveElementsBack {v : Vec} {pos c : Nat} (hQ : v.len ≠ 0 → v.cap < wrap (v.len + c) → Req ty (wrap (v.len + c)) → Q) :
    Tr Q (moveElementsBack ty v pos c) fun _ => True := by
  unfold moveElementsBack
  split
  · exact Tr.pure trivial
  · rename_i h0
    refine Tr.bind (R := fun _ => True) ?_ fun _ _ => tr_moveBackLoop.bind fun _ _ => Tr.pure trivial
    split
    · exact (tr_reserve (hQ h0)).mono id fun _ _ => trivial
    · exact Tr.pure trivial

theorem tr_emplace {v : Vec} {pos : Nat} {x : α} (hs : Small ty v.cap) (hl : v.len ≤ v.cap) (hQ : v.len = v.cap → Req ty (doubled v.cap) → Q) :
    Tr Q (emplace ty v pos x) fun _ => True := by
  unfold emplace
  refine Tr.bind (R := fun v' => v'.len + 1 ≤ v'.cap ∧ Small ty v'.cap) ?_ fun v1 h1 =>
    (tr_moveElementsBack ?_).bind fun _ _ => tr_construct.bind fun _ _ => Tr.pure trivial
  · split
    · rename_i h
      refine (tr_extendSpace hs (hQ h)).mono id fun v' h' => ⟨?_, h'.2.2⟩
      rw [h'.1, h'.2.1]; unfold doubled; split <;> omega
    · exact Tr.pure ⟨by omega, hs⟩
  · intro _ h
    have := h1.2.lt
    rw [wrap_of_lt (by have : wordSize = 18446744073709551616 := rfl; omega)] at h
    omega

theorem tr_insert {v : Vec} {pos : Nat} {r : Ref α} (hs : Small ty v.cap) (hl : v.len ≤ v.cap)
    (hQ : v.len = v.cap → Req ty (doubled v.cap) → Q) : Tr Q (insert ty v pos r) fun _ => True :=
  tr_deref.bind fun _ _ => (tr_emplace hs hl hQ).bind fun _ _ => Tr.pure trivial

theorem tr_insertFill {v : Vec} {pos n : Nat} {r : Ref α} (hn : v.len + n < wordSize) (hQ : v.cap < v.len + n → Req ty (v.len + n) → Q) :
    Tr Q (insertFill ty v pos n r) fun _ => True := by
  unfold insertFill
  refine (tr_moveElementsBack fun _ => ?_).bind fun _ _ =>
    (tr_forUp (fun _ => tr_deref.bind fun _ _ => tr_construct) _ _).bind fun _ _ => Tr.pure trivial
  rw [wrap_of_lt hn]
  exact hQ

theorem tr_insertRange {v : Vec} {pos : Nat} {ys : List α} (hn : v.len + ys.length < wordSize)
    (hQ : v.cap < v.len + ys.length → Req ty (v.len + ys.length) → Q) : Tr Q (insertRange ty v pos ys) fun _ => True := by
  unfold insertRange
  rw [wrap_of_lt hn]
  refine Tr.bind (R := fun v' => v'.len = v.len ∧ v.len + ys.length ≤ v'.cap) ?_ fun v1 h1 => (tr_moveElementsBack ?_).bind fun _ _ =>
    tr_constructList.bind fun _ _ => Tr.pure trivial
  · split
    · rename_i h
      exact (tr_allocateReserve (hQ h)).mono id fun v' h' => ⟨h'.1, by omega⟩
    · exact Tr.pure ⟨rfl, by omega⟩
  · rw [h1.1, wrap_of_lt hn]
    intro _ h; omega

theorem tr_erase {v : Vec} {p : Nat} : Tr Q (erase ty v p) fun _ => True := by
  unfold erase
  split
  · exact tr_popBack.bind fun _ _ => Tr.pure trivial
  · split
    · exact tr_stdMove.bind fun _ _ => tr_popBack.bind fun _ _ => Tr.pure trivial
    · exact Tr.pure trivial

theorem tr_eraseRange {v : Vec} {lo hi : Nat} : Tr Q (eraseRange ty v lo hi) fun _ => True := by
  unfold eraseRange
  split
  · exact Tr.pure trivial
  · exact tr_stdMove.bind fun _ _ => (tr_popLoop _).bind fun _ _ => Tr.pure trivial

theorem tr_getAt {v : Vec} {k : Nat} : Tr Q (getAt v k : M α (Option α)) fun _ => True := by
  unfold getAt; split
  · exact tr_load.bind fun _ _ => Tr.pure trivial
  · exact Tr.pure trivial

theorem tr_front {v : Vec} : Tr Q (front v : M α (Option α)) fun _ => True := by
  unfold front; split
  · exact tr_load.bind fun _ _ => Tr.pure trivial
  · exact Tr.pure trivial

theorem tr_back {v : Vec} : Tr Q (back v : M α (Option α)) fun _ => True := by
  unfold back; split
  · exact tr_load.bind fun _ _ => Tr.pure trivial
  · exact Tr.pure trivial

theorem tr_iterNext {it : Iter} : Tr Q (it.next : M α (Option α × Iter)) fun _ => True := by
  unfold Iter.next; split
  · exact tr_load.bind fun _ _ => Tr.pure trivial
  · exact Tr.pure trivial

theorem tr_iterDrain {it : Iter} {acc : List α} : Tr Q (it.drain acc) fun _ => True := by
  suffices ∀ (it : Iter) (acc : List α), Tr Q (it.drain acc) fun _ => True from this it acc
  refine Iter.drain.fixpoint_induct (fun f => ∀ it (acc : List α), Tr Q (f it acc) fun _ => True) ?_ ?_
  · refine Lean.Order.admissible_pi_apply (fun _ (g : List α → M α (List α)) => ∀ acc, Tr Q (g acc) fun _ => True) fun _ => ?_
    refine Lean.Order.admissible_pi_apply (fun _ (g : M α (List α)) => Tr Q g fun _ => True) fun _ => ?_
    refine Lean.Order.admissible_pi_apply (β := fun _ : Heap α => Out (List α × Heap α))
      (fun _ (o : Out (List α × Heap α)) => (o = .oom → Q) ∧ ∀ b s', o = .ok (b, s') → True) fun h => ?_
    refine Lean.Order.admissible_flatOrder (b := (Out.div : Out (List α × Heap α)))
      (fun o => (o = (Out.oom : Out (List α × Heap α)) → Q) ∧ ∀ b s', o = (Out.ok (b, s') : Out (List α × Heap α)) → True) ?_
    exact ⟨(fun h => by cases h), fun _ _ _ => trivial⟩
  · intro f ih it acc
    refine tr_iterNext.bind fun r _ => ?_
    split
    · exact Tr.pure trivial
    · exact ih _ _

theorem tr_intoNext {it : IntoIter} : Tr Q (it.next ty) fun _ => True := by
  unfold IntoIter.next; split
  · refine tr_take.bind fun _ _ => Tr.bind (R := fun _ => True) ?_ fun _ _ => Tr.pure trivial
    split
    · exact tr_clear.mono id fun _ _ => trivial
    · exact Tr.pure trivial
  · exact Tr.pure trivial

theorem tr_drainN {it : IntoIter} (n : Nat) : Tr Q (drainN ty it n) fun _ => True := by
  induction n generalizing it with
  | zero => exact tr_clear.bind fun _ _ => Tr.pure trivial
  | succ n ih => exact tr_intoNext.bind fun _ _ => ih.bind fun _ _ => Tr.pure trivial

theorem tr_drainRevN {v : Vec} (n : Nat) : Tr Q (drainRevN ty v n) fun _ => True := by
  induction n generalizing v with
  | zero => exact tr_clear.bind fun _ _ => Tr.pure trivial
  | succ n ih =>
    refine Tr.bind (R := fun _ => True) ?_ fun _ _ => ih.bind fun _ _ => Tr.pure trivial
    unfold intoNextReversed; split
    · exact tr_take.bind fun _ _ => tr_popBack.bind fun _ _ => Tr.pure trivial
    · exact Tr.pure trivial

theorem tr_equal {eq : α → α → Bool} {l r : Vec} : Tr Q (equal eq l r) fun _ => True := by
  unfold equal; split
  · exact Tr.pure trivial
  · suffices ∀ n i, Tr Q (equalLoop eq l r i n) fun _ => True from this _ _
    intro n
    induction n with
    | zero => exact fun _ => Tr.pure trivial
    | succ n ih =>
      intro i
      refine tr_load.bind fun _ _ => tr_load.bind fun _ _ => ?_
      split
      · exact ih _
      · exact Tr.pure trivial

theorem tr_threeWay {cmp : α → α → Option Ordering} {l r : Vec} : Tr Q (threeWay cmp l r) fun _ => True := by
  unfold threeWay
  suffices ∀ n i, Tr Q (compareLoop cmp l r i n) fun _ => True from this _ _
  intro n
  induction n with
  | zero => exact fun _ => Tr.pure trivial
  | succ n ih =>
    intro i
    refine tr_load.bind fun _ _ => tr_load.bind fun _ _ => ?_
    simp only
    split
    · exact ih _
    · exact Tr.pure trivial

theorem tr_print {shw : α → String} {v : Vec} : Tr Q (print shw v) fun _ => True := by
  unfold print
  refine Tr.bind (R := fun _ => True) ?_ fun _ _ => Tr.pure trivial
  suffices ∀ n i, Tr Q (printLoop shw v i n) fun _ => True from this _ _
  intro n
  induction n with
  | zero => exact fun _ => Tr.pure trivial
  | succ n ih => exact fun i => tr_load.bind fun _ _ => (ih _).bind fun _ _ => Tr.pure trivial

end members

/-! ## Calls -/

/-- `p` run from `w` ends in `oom` only if `Q`. -/
def TrW {β : Type} (Q : Prop) (p : Prog (World α) β) (w : World α) : Prop := p w = .oom → Q

section calls
variable {Q : Prop}

theorem trw_create {w : World α} {i : Nat} {f : M α Vec} (h : Tr Q f fun _ => True) : TrW Q (create i f) w := by
  intro e
  simp only [create, inHeap, Prog.bind_run] at e
  cases hf : f w.heap with
  | oom => exact (h _).1 hf
  | ok b => rw [hf] at e; simp [setVar] at e
  | _ => rw [hf] at e; simp at e

theorem trw_change {w : World α} {i : Nat} {v : Vec} {f : Vec → M α Vec} (hv : w.vars i = some v) (h : Tr Q (f v) fun _ => True) :
    TrW Q (change i f) w := by
  intro e
  simp only [change, inHeap, Prog.bind_run, run_var hv, Out.bind_ok] at e
  cases hf : f v w.heap with
  | oom => exact (h _).1 hf
  | ok b => rw [hf] at e; simp [setVar] at e
  | _ => rw [hf] at e; simp at e

theorem trw_change' {w : World α} {i : Nat} {v : Vec} {f : Vec → M α (Vec × Option Nat)} (hv : w.vars i = some v)
    (h : Tr Q (f v) fun _ => True) : TrW Q (change' i f) w := by
  intro e
  simp only [change', inHeap, Prog.bind_run, run_var hv, Out.bind_ok] at e
  cases hf : f v w.heap with
  | oom => exact (h _).1 hf
  | ok b => rw [hf] at e; simp [setVar] at e
  | _ => rw [hf] at e; simp at e

theorem trw_look {w : World α} {i : Nat} {f : Vec → M α (Res α)} (h : ∀ v, Tr Q (f v) fun _ => True) : TrW Q (look i f) w := by
  intro e
  simp only [look, inHeap, var, Prog.bind_run] at e
  cases hv : w.vars i with
  | none => rw [hv] at e; simp at e
  | some v =>
    rw [hv] at e
    simp only [Out.bind_ok] at e
    cases hf : f v w.heap with
    | oom => exact (h v _).1 hf
    | ok b => rw [hf] at e; simp at e
    | _ => rw [hf] at e; simp at e

theorem trw_argRef {β : Type} {w : World α} {r : Arg α} {f : Ref α → Prog (World α) β} (h : ∀ x, TrW Q (f x) w) :
    TrW Q (argRef r >>= f) w := by
  intro e
  cases r with
  | val x => exact h _ e
  | elem j k =>
    simp only [argRef, var, Prog.bind_run] at e
    cases hv : w.vars j with
    | none => rw [hv] at e; simp at e
    | some v => rw [hv] at e; exact h _ e

theorem trw_var {β : Type} {w : World α} {j : Nat} {f : Vec → Prog (World α) β} (h : ∀ v, w.vars j = some v → TrW Q (f v) w) :
    TrW Q (var j >>= f) w := by
  intro e
  simp only [var, Prog.bind_run] at e
  cases hv : w.vars j with
  | none => rw [hv] at e; simp at e
  | some v => rw [hv] at e; exact h v hv e


theorem trw_chain {β γ : Type} {w w' : World α} {p : Prog (World α) β} {f : β → Prog (World α) γ} {b : β} (hp : p w = .ok (b, w'))
    (h : TrW Q (f b) w') : TrW Q (p >>= f) w := by
  intro e
  rw [Prog.bind_run, hp, Out.bind_ok] at e
  exact h e

theorem trw_inHeap {β γ : Type} {w : World α} {p : M α β} {f : β → Prog (World α) γ} (hp : Tr Q p fun _ => True)
    (h : ∀ b w', TrW Q (f b) w') : TrW Q (inHeap p >>= f) w := by
  intro e
  simp only [inHeap, Prog.bind_run] at e
  cases hf : p w.heap with
  | oom => exact (hp _).1 hf
  | ok b => rw [hf] at e; simp only [Out.bind_ok] at e; exact h _ _ e
  | _ => rw [hf] at e; simp at e

theorem trw_setVar {β : Type} {w : World α} {i : Nat} {o : Option Vec} {p : Prog (World α) β} (h : ∀ w', TrW Q p w') :
    TrW Q (do setVar i o; p) w := by
  intro e
  simp only [setVar, Prog.bind_run, Out.bind_ok] at e
  exact h _ e

theorem trw_pure {β : Type} {w : World α} {b : β} : TrW Q (Pure.pure b) w := by
  intro e; simp at e

end calls

theorem grows_some {a b : Nat} (h : a < b) : grows a b = some b := if_pos h

/-- What the theorem allows: the call needs storage, and a request for at most that much is refused. -/
def Excuse (ty : ElemTy α) (op : Op α) (A : Ideal α) : Prop := ∃ m, need op A = some m ∧ Req ty m

theorem step_need (op : Op α) {A A' : Ideal α} {w : World α} {r : Res α} (I : Inv ty A w)
    (hs : specStep false ty.size ty.dflt op A = some (r, A')) : TrW (Excuse ty op A) (Model.Vector.step ty op) w := by
  have hW : wordSize = 18446744073709551616 := rfl
  have hsp := ty.size_pos
  have get : ∀ {i : Nat} {a : Var α}, A i = some a → ∃ v, w.vars i = some v ∧ v.len = a.xs.length ∧ v.cap = a.cap ∧ v.alloc = a.alloc ∧
      v.len ≤ v.cap ∧ Small ty v.cap := by
    intro i a ha
    obtain ⟨v, h1, h2, h3, h4⟩ := I.get ha
    have h5 := h2.len; have h6 := h2.le
    exact ⟨v, h1, h2.len, h3, h4, by omega, h2.own.small⟩
  have lenlt : ∀ {n : Nat}, n * ty.size < wordSize → n < wordSize := fun h =>
    Nat.lt_of_le_of_lt (Nat.le_mul_of_pos_right _ hsp) h
  cases op with
  | newDefault i => exact trw_create ((tr_allocate fun h => ⟨_, rfl, h⟩).mono id fun _ _ => trivial)
  | newAlloc i a => exact trw_create (Tr.pure trivial)
  | newFill i n x a =>
    simp only [specStep, only, Option.bind_eq_some_iff] at hs
    obtain ⟨y, _, hs⟩ := hs
    split at hs
    · rename_i hn
      exact trw_argRef fun _ => trw_create (tr_newFill (by simpa using hn) fun h0 h => ⟨n, grows_some h0, h⟩)
    · cases hs
  | newCount i n a =>
    simp only [specStep, only] at hs
    split at hs
    · rename_i hn
      exact trw_create (tr_newFill (by simpa using hn) fun h0 h => ⟨n, grows_some h0, h⟩)
    · cases hs
  | newList i xs a => exact trw_create (tr_newList fun h => ⟨_, rfl, h⟩)
  | newRange i xs a => exact trw_create (tr_newRange fun h => ⟨_, rfl, h⟩)
  | newCopy i j =>
    simp only [specStep, Option.bind_eq_some_iff] at hs
    obtain ⟨y, hy, hs⟩ := hs
    obtain ⟨v, g1, g2, g3, g4, g5, g6⟩ := get hy
    refine trw_chain (run_var g1) (trw_create (tr_copyImpl fun h => ⟨_, ?_, h⟩))
    simp [need, hy, g2]
  | newCopyAlloc i j a =>
    simp only [specStep, Option.bind_eq_some_iff] at hs
    obtain ⟨y, hy, hs⟩ := hs
    obtain ⟨v, g1, g2, g3, g4, g5, g6⟩ := get hy
    refine trw_chain (run_var g1) (trw_create (tr_copyImpl fun h => ⟨_, ?_, h⟩))
    simp [need, hy, g2]
  | newMove i j a => exact trw_var fun v _ => trw_setVar fun _ => trw_setVar fun _ => trw_pure
  | fromIter i xs => exact trw_create (tr_fromIter fun h => ⟨_, rfl, h⟩)
  | copyAssign i j =>
    simp only [specStep, Option.bind_eq_some_iff, Spec.Vector.upd] at hs
    obtain ⟨b, hb, a, ha, hs⟩ := hs
    obtain ⟨v, g1, g2, g3, g4, g5, g6⟩ := get ha
    obtain ⟨o, f1, f2, f3, f4, f5, f6⟩ := get hb
    show TrW _ (if i = j then _ else _) w
    by_cases hij : i = j
    · rw [if_pos hij]; exact trw_look fun _ => Tr.pure trivial
    · rw [if_neg hij]
      refine trw_chain (run_var f1) (trw_change g1 (tr_copyAssign fun h => ?_))
      simp only [Excuse, need, hij, if_false, ha, hb, Option.bind_some, ← g4, ← f4, ← g3, ← f3, ← f2]
      split at h
      · rename_i he; simp only [he, if_true]; exact ⟨_, grows_some h.1, h.2⟩
      · rename_i he; simp only [he, if_false]; exact ⟨_, rfl, h⟩
  | moveAssign i j =>
    show TrW _ (if i = j then _ else _) w
    by_cases hij : i = j
    · rw [if_pos hij]; exact trw_look fun _ => Tr.pure trivial
    · rw [if_neg hij]
      exact trw_var fun v _ => trw_var fun u _ => trw_inHeap (tr_clear.bind fun _ _ => Tr.pure trivial) fun _ _ =>
        trw_setVar fun _ => trw_setVar fun _ => trw_pure
  | listAssign i xs => simp [specStep, only] at hs
  | swap i j => exact trw_var fun v _ => trw_var fun u _ => trw_setVar fun _ => trw_setVar fun _ => trw_pure
  | drop i => exact trw_var fun v _ => trw_inHeap (tr_clear.mono id fun _ _ => trivial) fun _ _ => trw_setVar fun _ => trw_pure
  | clear i =>
    simp only [specStep, Option.bind_eq_some_iff, Spec.Vector.upd] at hs
    obtain ⟨a, ha, hs⟩ := hs
    obtain ⟨v, g1, g2, g3, g4, g5, g6⟩ := get ha
    exact trw_change g1 (tr_clear.mono id fun _ _ => trivial)
  | reserve i n =>
    simp only [specStep, Option.bind_eq_some_iff, Spec.Vector.upd] at hs
    obtain ⟨a, ha, hs⟩ := hs
    obtain ⟨v, g1, g2, g3, g4, g5, g6⟩ := get ha
    refine trw_change g1 ((tr_reserve fun h1 h2 => ⟨n, ?_, h2⟩).mono id fun _ _ => trivial)
    simp only [need, ha, Option.bind_some, ← g3]; exact grows_some h1
  | push i x =>
    simp only [specStep, Option.bind_eq_some_iff, Spec.Vector.upd] at hs
    obtain ⟨y, _, a, ha, hs⟩ := hs
    obtain ⟨v, g1, g2, g3, g4, g5, g6⟩ := get ha
    refine trw_argRef fun _ => trw_change g1 ((tr_pushBack g6 fun h1 h2 => ⟨_, ?_, h2⟩).mono id fun _ _ => trivial)
    simp only [need, ha, Option.bind_some, ← g3, ← g2, afterPush, Nat.not_lt.2 h1, if_false]
    exact grows_some (by unfold doubled; split <;> omega)
  | pop i =>
    simp only [specStep, Option.bind_eq_some_iff, Spec.Vector.upd] at hs
    obtain ⟨a, ha, hs⟩ := hs
    obtain ⟨v, g1, g2, g3, g4, g5, g6⟩ := get ha
    exact trw_change g1 tr_popBack
  | assignFill i n x =>
    simp only [specStep, Option.bind_eq_some_iff, Spec.Vector.upd, only] at hs
    obtain ⟨y, _, a, ha, hs⟩ := hs
    obtain ⟨v, g1, g2, g3, g4, g5, g6⟩ := get ha
    split at hs
    · rename_i hn
      refine trw_argRef fun _ => trw_change g1 (tr_assignFill g6 (by simp at hn; exact hn.1) fun h1 h2 => ⟨n, ?_, h2⟩)
      simp only [need, ha, Option.bind_some, ← g3]; exact grows_some h1
    · cases hs
  | assignList i xs =>
    simp only [specStep, Option.bind_eq_some_iff, Spec.Vector.upd, only] at hs
    obtain ⟨a, ha, hs⟩ := hs
    obtain ⟨v, g1, g2, g3, g4, g5, g6⟩ := get ha
    split at hs
    · rename_i hn
      refine trw_change g1 (tr_assignList g6 (by simpa using hn) fun h1 h2 => ⟨xs.length, ?_, h2⟩)
      simp only [need, ha, Option.bind_some, ← g3]; exact grows_some h1
    · cases hs
  | set i k x => exact trw_look fun v => tr_store.bind fun _ _ => Tr.pure trivial
  | get i k => exact trw_look fun v => tr_load.bind fun _ _ => Tr.pure trivial
  | «at» i k => exact trw_look fun v => tr_getAt.bind fun _ _ => Tr.pure trivial
  | front i => exact trw_look fun v => tr_front.bind fun _ _ => Tr.pure trivial
  | back i => exact trw_look fun v => tr_back.bind fun _ _ => Tr.pure trivial
  | size i => exact trw_look fun v => Tr.pure trivial
  | capacity i => exact trw_look fun v => Tr.pure trivial
  | empty i => exact trw_look fun v => Tr.pure trivial
  | insert i p x =>
    simp only [specStep, Option.bind_eq_some_iff, Spec.Vector.upd] at hs
    obtain ⟨y, _, a, ha, hs⟩ := hs
    obtain ⟨v, g1, g2, g3, g4, g5, g6⟩ := get ha
    refine trw_argRef fun _ => trw_change' g1 ((tr_insert g6 g5 fun h1 h2 => ⟨_, ?_, h2⟩).bind fun _ _ => Tr.pure trivial)
    simp only [need, ha, Option.bind_some, ← g3, ← g2, afterPush, show ¬ v.len < v.cap by omega, if_false]
    exact grows_some (by unfold doubled; split <;> omega)
  | emplace i p x =>
    simp only [specStep, Option.bind_eq_some_iff, Spec.Vector.upd] at hs
    obtain ⟨a, ha, hs⟩ := hs
    obtain ⟨v, g1, g2, g3, g4, g5, g6⟩ := get ha
    refine trw_change g1 (tr_emplace g6 g5 fun h1 h2 => ⟨_, ?_, h2⟩)
    simp only [need, ha, Option.bind_some, ← g3, ← g2, afterPush, show ¬ v.len < v.cap by omega, if_false]
    exact grows_some (by unfold doubled; split <;> omega)
  | insertFill i p n x =>
    simp only [specStep, Option.bind_eq_some_iff, Spec.Vector.upd, only, Option.map_eq_some_iff] at hs
    obtain ⟨y, _, a, ha, b, hs, _⟩ := hs
    obtain ⟨v, g1, g2, g3, g4, g5, g6⟩ := get ha
    split at hs
    · split at hs
      · rename_i hn
        simp only [Bool.false_eq_true, false_or] at hn
        have hlt := lenlt hn.2.2.1
        refine trw_argRef fun _ => trw_change' g1 ((tr_insertFill (by omega) fun h1 h2 => ⟨v.len + n, ?_, h2⟩).bind fun _ _ => Tr.pure trivial)
        simp only [need, ha, Option.bind_some, ← g3, ← g2]; exact grows_some h1
      · cases hs
    · cases hs
  | insertRange i p ys =>
    simp only [specStep, Option.bind_eq_some_iff, Spec.Vector.upd, only, Option.map_eq_some_iff] at hs
    obtain ⟨a, ha, b, hs, _⟩ := hs
    obtain ⟨v, g1, g2, g3, g4, g5, g6⟩ := get ha
    split at hs
    · split at hs
      · rename_i hn
        simp only [Bool.false_eq_true, false_or] at hn
        have hlt := lenlt hn.2.2
        refine trw_change' g1 ((tr_insertRange (by omega) fun h1 h2 => ⟨v.len + ys.length, ?_, h2⟩).bind fun _ _ => Tr.pure trivial)
        simp only [need, ha, Option.bind_some, ← g3, ← g2]; exact grows_some h1
      · cases hs
    · cases hs
  | erase i p =>
    simp only [specStep, Option.bind_eq_some_iff, Spec.Vector.upd] at hs
    obtain ⟨a, ha, hs⟩ := hs
    obtain ⟨v, g1, g2, g3, g4, g5, g6⟩ := get ha
    exact trw_change' g1 tr_erase
  | eraseRange i lo hi =>
    simp only [specStep, Option.bind_eq_some_iff, Spec.Vector.upd] at hs
    obtain ⟨a, ha, hs⟩ := hs
    obtain ⟨v, g1, g2, g3, g4, g5, g6⟩ := get ha
    exact trw_change' g1 tr_eraseRange
  | resize i n =>
    simp only [specStep, Option.bind_eq_some_iff, Spec.Vector.upd, only] at hs
    obtain ⟨a, ha, hs⟩ := hs
    obtain ⟨v, g1, g2, g3, g4, g5, g6⟩ := get ha
    split at hs
    · rename_i hn
      refine trw_change g1 (tr_resizeFill g6 g5 (by simpa using hn) fun h1 h2 => ⟨n, ?_, h2⟩)
      simp only [need, ha, Option.bind_some, ← g3]; exact grows_some h1
    · cases hs
  | resizeFill i n x =>
    simp only [specStep, Option.bind_eq_some_iff, Spec.Vector.upd, only] at hs
    obtain ⟨y, _, a, ha, hs⟩ := hs
    obtain ⟨v, g1, g2, g3, g4, g5, g6⟩ := get ha
    split at hs
    · rename_i hn
      refine trw_argRef fun _ => trw_change g1 (tr_resizeFill g6 g5 (by simp at hn; exact hn.1) fun h1 h2 => ⟨n, ?_, h2⟩)
      simp only [need, ha, Option.bind_some, ← g3]; exact grows_some h1
    · cases hs
  | collect i => exact trw_look fun v => tr_iterDrain.bind fun _ _ => Tr.pure trivial
  | drain i n => exact trw_var fun v _ => trw_setVar fun _ => trw_inHeap (tr_drainN _) fun _ _ => trw_pure
  | drainRev i n => exact trw_var fun v _ => trw_setVar fun _ => trw_inHeap (tr_drainRevN _) fun _ _ => trw_pure
  | equal i j eq => exact trw_var fun v _ => trw_look fun v => tr_equal.bind fun _ _ => Tr.pure trivial
  | compare i j cmp => exact trw_var fun v _ => trw_look fun v => tr_threeWay.bind fun _ _ => Tr.pure trivial
  | print i shw => exact trw_look fun v => tr_print.bind fun _ _ => Tr.pure trivial

end Verif.Proof.Vector
