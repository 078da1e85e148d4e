import Verif.Proof.VectorReach
import Verif.Spec.VectorWork
/-! # Vector: exact work of every call -/
namespace Verif.Proof.Vector
open Verif Verif.Model.Mem Verif.Model.Vector Verif.Spec.Vector

variable {α β γ : Type} {ty : ElemTy α}

theorem Work.add_mk (a b c a' b' c' : Nat) : (⟨a, b, c⟩ + ⟨a', b', c'⟩ : Work) = ⟨a + a', b + b', c + c'⟩ := rfl

theorem Work.ext' {x y : Work} (h1 : x.made = y.made) (h2 : x.ended = y.ended) (h3 : x.blocks = y.blocks) : x = y := by
  cases x; cases y; simp_all

theorem Work.add_made (a b : Work) : (a + b).made = a.made + b.made := rfl
theorem Work.add_ended (a b : Work) : (a + b).ended = a.ended + b.ended := rfl
theorem Work.add_blocks (a b : Work) : (a + b).blocks = a.blocks + b.blocks := rfl
theorem Work.zero_add (a : Work) : nothing + a = a := Work.ext' (Nat.zero_add _) (Nat.zero_add _) (Nat.zero_add _)
theorem Work.add_zero (a : Work) : a + nothing = a := rfl
theorem Work.add_assoc (a b c : Work) : a + b + c = a + (b + c) :=
  Work.ext' (Nat.add_assoc _ _ _) (Nat.add_assoc _ _ _) (Nat.add_assoc _ _ _)

/-- From `h` to `h'` the tallies grew by `k`. -/
def Tally (h h' : Heap α) (k : Work) : Prop :=
  h'.ctors = h.ctors + k.made ∧ h'.dtors = h.dtors + k.ended ∧ h'.next = h.next + k.blocks

/-- Whenever the program returns, its work and result are related by `Q`. -/
def Does (p : M α β) (Q : β → Work → Prop) : Prop :=
  ∀ h r h', p h = .ok (r, h') → ∃ k, Q r k ∧ Tally h h' k

theorem Tally.refl (h : Heap α) : Tally h h nothing := ⟨rfl, rfl, rfl⟩

theorem Tally.trans {h h1 h2 : Heap α} {k k' : Work} (a : Tally h h1 k) (b : Tally h1 h2 k') : Tally h h2 (k + k') :=
  ⟨by rw [b.1, a.1, Work.add_made, Nat.add_assoc], by rw [b.2.1, a.2.1, Work.add_ended, Nat.add_assoc],
   by rw [b.2.2, a.2.2, Work.add_blocks, Nat.add_assoc]⟩

theorem does_pure (b : β) : Does (pure b : M α β) fun r k => r = b ∧ k = nothing := by
  rintro h r h' ⟨⟩
  exact ⟨_, ⟨rfl, rfl⟩, Tally.refl _⟩

theorem Does.mono {p : M α β} {Q R : β → Work → Prop} (hp : Does p Q) (h : ∀ r k, Q r k → R r k) : Does p R :=
  fun a r b e => let ⟨k, q, t⟩ := hp a r b e; ⟨k, h r k q, t⟩

theorem Does.bind {p : M α β} {f : β → M α γ} {Q : β → Work → Prop} {R : γ → Work → Prop} (hp : Does p Q)
    (hf : ∀ r k, Q r k → Does (f r) fun s k' => R s (k + k')) : Does (p >>= f) R := by
  intro h r h' e
  rw [Prog.bind_run] at e
  cases he : p h with
  | ok q =>
    rw [he] at e
    obtain ⟨k, hq, t⟩ := hp h q.1 q.2 he
    obtain ⟨k', hr, t'⟩ := hf q.1 k hq q.2 r h' e
    exact ⟨_, hr, t.trans t'⟩
  | _ => rw [he] at e; cases e

theorem does_access (p : Option Nat) (i c d : Nat) (g : Option α → Option (β × Option α)) :
    Does (access p i c d g) fun _ k => k = ⟨c, d, 0⟩ := by
  intro h r h' e
  unfold access at e
  split at e
  · cases e
  · split at e
    · cases e
    · split at e
      · cases e
      · split at e
        · cases e
        · cases e; exact ⟨_, rfl, rfl, rfl, rfl⟩

theorem does_construct (p : Option Nat) (i : Nat) (x : α) : Does (construct p i x) fun _ k => k = ⟨1, 0, 0⟩ := does_access _ _ _ _ _
theorem does_destroy (p : Option Nat) (i : Nat) : Does (destroy p i : M α Unit) fun _ k => k = ⟨0, 1, 0⟩ := does_access _ _ _ _ _
theorem does_load (p : Option Nat) (i : Nat) : Does (load p i : M α α) fun _ k => k = nothing := does_access _ _ _ _ _
theorem does_store (p : Option Nat) (i : Nat) (x : α) : Does (store p i x) fun _ k => k = nothing := does_access _ _ _ _ _
theorem does_take (p : Option Nat) (i : Nat) : Does (take ty p i) fun _ k => k = nothing := does_access _ _ _ _ _

theorem does_deref (r : Ref α) : Does (deref r) fun _ k => k = nothing := by
  cases r with
  | tmp x => exact (does_pure x).mono fun _ _ h => h.2
  | slot p i => exact does_load p i

/-- what a granted request for `n` elements says about `n` -/
def SmallCap (ty : ElemTy α) (n : Nat) : Prop := n * ty.size < wordSize → n * ty.size < 9223372036854775808

theorem does_alloc (o n : Nat) : Does (alloc ty o n) fun _ k => k = ⟨0, 0, 1⟩ ∧ SmallCap ty n := by
  intro h r h' e
  simp only [alloc] at e
  split at e
  · cases e
  · rename_i hr
    cases e
    refine ⟨_, ⟨rfl, fun hw => ?_⟩, rfl, rfl, rfl⟩
    rw [Nat.mul_comm] at hw ⊢
    rw [wrap_of_lt hw] at hr
    refine Nat.lt_of_not_le fun hle => hr (ty.refuse_big _ _ hle)

theorem does_free (o : Nat) (p : Option Nat) (n : Nat) : Does (free ty o p n) fun _ k => k = nothing := by
  intro h r h' e
  unfold free at e
  split at e
  · cases e; exact ⟨_, rfl, Tally.refl _⟩
  · split at e
    · cases e
    · split at e
      · cases e; exact ⟨_, rfl, rfl, rfl, rfl⟩
      · cases e

theorem does_forUp {f : Nat → M α Unit} {c d : Nat} (hf : ∀ i, Does (f i) fun _ k => k = ⟨c, d, 0⟩) (i n : Nat) :
    Does (forUp i n f) fun _ k => k = ⟨n * c, n * d, 0⟩ := by
  induction n generalizing i with
  | zero => exact (does_pure ()).mono fun _ _ h => by rw [h.2]; simp [nothing]
  | succ n ih =>
    refine (hf i).bind ?_
    rintro _ _ rfl
    refine (ih (i + 1)).mono ?_
    rintro _ _ rfl
    simp only [Work.add_mk, Nat.succ_mul, Nat.add_comm]

theorem does_deallocate (v : Vec) : Does (deallocate ty v) fun r k => r = { v with ptr := none, len := 0, cap := 0 } ∧ k = nothing := by
  refine (does_free _ _ _).bind ?_
  rintro _ _ rfl
  exact (does_pure _).mono fun _ _ h => ⟨h.1, by rw [h.2]; rfl⟩

theorem does_allocate (v : Vec) (n : Nat) : Does (allocate ty v n) fun r k => r.len = 0 ∧ r.cap = n ∧ r.alloc = v.alloc ∧ k = ⟨0, 0, 1⟩ := by
  refine (does_alloc _ _).bind ?_
  rintro _ _ ⟨rfl, -⟩
  exact (does_pure _).mono fun _ _ h => by rw [h.1, h.2]; exact ⟨rfl, rfl, rfl, rfl⟩

theorem does_destroyAll (v : Vec) : Does (destroyAll v : M α Vec) fun r k => r = { v with len := 0 } ∧ k = ⟨0, v.len, 0⟩ := by
  refine (does_forUp (fun i => does_destroy v.ptr i) 0 v.len).bind ?_
  rintro _ _ rfl
  exact (does_pure _).mono fun _ _ h => ⟨h.1, by rw [h.2, Work.add_zero]; simp⟩

theorem does_clear (v : Vec) : Does (clear ty v) fun r k => r = { v with ptr := none, len := 0, cap := 0 } ∧ k = ⟨0, v.len, 0⟩ := by
  refine (does_destroyAll v).bind ?_
  rintro _ _ ⟨rfl, rfl⟩
  exact (does_deallocate _).mono fun _ _ h => by rw [h.1, h.2]; exact ⟨rfl, rfl⟩

/-- `construct(q, i, take(p, i))` and the like -/
theorem does_copyOne {q : Option Nat} {i j : Nat} {g : M α α} (hg : Does g fun _ k => k = nothing) :
    Does (do let x ← g; construct q j x) fun _ k => k = ⟨1, 0, 0⟩ := by
  refine hg.bind ?_
  rintro _ _ rfl
  exact (does_construct _ _ _).mono fun _ _ h => by rw [h]; rfl

theorem does_allocateReserve (v : Vec) (n : Nat) :
    Does (allocateReserve ty v n) fun r k => r.len = v.len ∧ r.cap = n ∧ r.alloc = v.alloc ∧ k = ⟨v.len, v.len, 1⟩ ∧ SmallCap ty n := by
  refine (does_alloc _ _).bind ?_
  rintro b _ ⟨rfl, hs⟩
  refine (does_forUp (fun i => does_copyOne (i := i) (does_take _ i)) 0 v.len).bind ?_
  rintro _ _ rfl
  refine (does_clear _).bind ?_
  rintro _ _ ⟨rfl, rfl⟩
  refine (does_pure _).mono ?_
  rintro _ _ ⟨rfl, rfl⟩
  exact ⟨rfl, rfl, rfl, by simp [Work.add_mk, Work.add_zero], hs⟩

theorem does_reserve (v : Vec) (n : Nat) (hc : v.cap * ty.size < 9223372036854775808) (hn : n * ty.size < wordSize) :
    Does (reserve ty v n) fun r k => r.len = v.len ∧ r.cap = max v.cap n ∧ r.alloc = v.alloc ∧ k = room v.len v.cap n ∧
      r.cap * ty.size < 9223372036854775808 := by
  unfold reserve
  by_cases h : n > v.cap
  · rw [if_pos h]
    refine (does_allocateReserve v n).mono ?_
    rintro r k ⟨h1, h2, h3, rfl, hs⟩
    exact ⟨h1, by omega, h3, by rw [room, if_neg (by omega)], by rw [h2]; exact hs hn⟩
  · rw [if_neg h]
    refine (does_pure v).mono ?_
    rintro _ _ ⟨rfl, rfl⟩
    exact ⟨rfl, by omega, rfl, by rw [room, if_pos (by omega)], hc⟩

theorem cap_lt {c : Nat} (hc : c * ty.size < 9223372036854775808) : 2 * c < wordSize := by
  have := Nat.le_mul_of_pos_right c ty.size_pos
  have : wordSize = 18446744073709551616 := rfl
  omega

theorem doubled_fits {c : Nat} (hc : c * ty.size < 9223372036854775808) : doubled c * ty.size < wordSize := by
  have : wordSize = 18446744073709551616 := rfl
  have := ty.size_lt
  unfold doubled; split
  · omega
  · rw [Nat.mul_assoc]; omega

theorem does_extendSpace (v : Vec) (h : v.len = v.cap) (hc : v.cap * ty.size < 9223372036854775808) :
    Does (extendSpace ty v) fun r k => r.len = v.len ∧ r.cap = doubled v.cap ∧ r.alloc = v.alloc ∧ k = ⟨v.len, v.len, 1⟩ ∧
      r.cap * ty.size < 9223372036854775808 := by
  unfold extendSpace
  have e : (if v.cap = 0 then 2 else wrap (2 * v.cap)) = doubled v.cap := by
    unfold doubled; split
    · rfl
    · rw [wrap_of_lt (cap_lt hc)]
  rw [e]
  refine (does_reserve v _ hc (doubled_fits hc)).mono ?_
  rintro r k ⟨h1, h2, h3, rfl, h5⟩
  have hd : v.cap < doubled v.cap := by unfold doubled; split <;> omega
  exact ⟨h1, by omega, h3, by rw [room, if_neg (by omega)], h5⟩

theorem does_pushBack (v : Vec) (r : Ref α) (hl : v.len ≤ v.cap) (hc : v.cap * ty.size < 9223372036854775808) :
    Does (pushBack ty v r) fun q k => q.len = v.len + 1 ∧ q.cap = afterPush v.len v.cap ∧ q.alloc = v.alloc ∧
      k = append v.len v.cap ∧ q.cap * ty.size < 9223372036854775808 := by
  unfold pushBack
  have key : Does (if v.len ≥ v.cap then extendSpace ty v else pure v) fun q k => q.len = v.len ∧ q.cap = afterPush v.len v.cap ∧
      q.alloc = v.alloc ∧ k = room v.len v.cap (v.len + 1) ∧ q.cap * ty.size < 9223372036854775808 := by
    by_cases h : v.len ≥ v.cap
    · rw [if_pos h]
      refine (does_extendSpace v (by omega) hc).mono ?_
      rintro q k ⟨h1, h2, h3, rfl, h5⟩
      exact ⟨h1, by rw [afterPush, if_neg (by omega), h2], h3, by rw [room, if_neg (by omega)], h5⟩
    · rw [if_neg h]
      refine (does_pure v).mono ?_
      rintro _ _ ⟨rfl, rfl⟩
      exact ⟨rfl, by rw [afterPush, if_pos (by omega)], rfl, by rw [room, if_pos (by omega)], hc⟩
  refine key.bind ?_
  rintro q k ⟨h1, h2, h3, rfl, h5⟩
  refine (does_deref r).bind ?_
  rintro x _ rfl
  refine (does_construct _ _ _).bind ?_
  rintro _ _ rfl
  refine (does_pure _).mono ?_
  rintro _ _ ⟨rfl, rfl⟩
  exact ⟨by simp [h1], h2, h3, rfl, h5⟩

theorem does_popBack (v : Vec) (hv : v.len < wordSize) (h0 : 0 < v.len) :
    Does (popBack v : M α Vec) fun q k => q = { v with len := v.len - 1 } ∧ k = ⟨0, 1, 0⟩ := by
  unfold popBack
  refine (does_destroy _ _).bind ?_
  rintro _ _ rfl
  refine (does_pure _).mono ?_
  rintro _ _ ⟨rfl, rfl⟩
  exact ⟨by rw [wsub_of_le (by omega) (by omega)], rfl⟩

theorem does_popLoop (v : Vec) (hv : v.len < wordSize) (n : Nat) (hn : n ≤ v.len) :
    Does (popLoop v n : M α Vec) fun q k => q = { v with len := v.len - n } ∧ k = ⟨0, n, 0⟩ := by
  induction n generalizing v with
  | zero => exact (does_pure v).mono fun _ _ h => h
  | succ n ih =>
    refine (does_popBack v hv (by omega)).bind ?_
    rintro _ _ ⟨rfl, rfl⟩
    refine (ih _ (by simp; omega) (by simp; omega)).mono ?_
    rintro _ _ ⟨rfl, rfl⟩
    exact ⟨by simp; omega, by rw [Work.add_mk]; simp; omega⟩

/-- pushes that fit -/
theorem does_pushLoop (r : Ref α) (v : Vec) (n : Nat) (hn : v.len + n ≤ v.cap) (hc : v.cap * ty.size < 9223372036854775808) :
    Does (pushLoop ty r v n) fun _ k => k = ⟨n, 0, 0⟩ := by
  induction n generalizing v with
  | zero => exact (does_pure v).mono fun _ _ h => h.2
  | succ n ih =>
    refine (does_pushBack v r (by omega) hc).bind ?_
    rintro q _ ⟨h1, h2, -, rfl, h5⟩
    rw [afterPush, if_pos (by omega)] at h2
    refine (ih q (by omega) h5).mono ?_
    rintro _ _ rfl
    rw [append, room, if_pos (by omega), Work.zero_add, Work.add_mk, Nat.add_comm]

theorem does_pushList_fit (xs : List α) (v : Vec) (hn : v.len + xs.length ≤ v.cap) (hc : v.cap * ty.size < 9223372036854775808) :
    Does (pushList ty v xs) fun _ k => k = ⟨xs.length, 0, 0⟩ := by
  induction xs generalizing v with
  | nil => exact (does_pure v).mono fun _ _ h => h.2
  | cons x xs ih =>
    simp only [List.length_cons] at hn
    refine (does_pushBack v _ (by omega) hc).bind ?_
    rintro q _ ⟨h1, h2, -, rfl, h5⟩
    rw [afterPush, if_pos (by omega)] at h2
    refine (ih q (by omega) h5).mono ?_
    rintro _ _ rfl
    rw [append, room, if_pos (by omega), Work.zero_add, Work.add_mk, Nat.add_comm]; rfl

theorem does_pushList (xs : List α) (v : Vec) (hl : v.len ≤ v.cap) (hc : v.cap * ty.size < 9223372036854775808) :
    Does (pushList ty v xs) fun _ k => k = appends xs.length v.len v.cap := by
  induction xs generalizing v with
  | nil => exact (does_pure v).mono fun _ _ h => h.2
  | cons x xs ih =>
    refine (does_pushBack v _ hl hc).bind ?_
    rintro q _ ⟨h1, h2, -, rfl, h5⟩
    refine (ih q ?_ h5).mono ?_
    · rw [h1, h2, afterPush, doubled]; split
      · omega
      · split <;> omega
    · rintro _ _ rfl
      rw [h1, h2]; rfl

theorem does_assignFill (v : Vec) (n : Nat) (r : Ref α) (hc : v.cap * ty.size < 9223372036854775808) (hn : n * ty.size < wordSize) :
    Does (assignFill ty v n r) fun _ k => k = ⟨0, v.len, 0⟩ + room 0 v.cap n + ⟨n, 0, 0⟩ := by
  unfold assignFill
  refine (does_destroyAll v).bind ?_
  rintro _ _ ⟨rfl, rfl⟩
  refine (does_reserve { v with len := 0 } n hc hn).bind ?_
  rintro q _ ⟨h1, h2, -, rfl, h5⟩
  simp only at h1 h2
  refine (does_pushLoop r q n (by omega) h5).mono ?_
  rintro _ _ rfl
  rw [Work.add_assoc]

theorem does_assignList (v : Vec) (xs : List α) (hc : v.cap * ty.size < 9223372036854775808) (hn : xs.length * ty.size < wordSize) :
    Does (assignList ty v xs) fun _ k => k = ⟨0, v.len, 0⟩ + room 0 v.cap xs.length + ⟨xs.length, 0, 0⟩ := by
  unfold assignList
  refine (does_destroyAll v).bind ?_
  rintro _ _ ⟨rfl, rfl⟩
  refine (does_reserve { v with len := 0 } _ hc hn).bind ?_
  rintro q _ ⟨h1, h2, -, rfl, h5⟩
  simp only at h1 h2
  refine (does_pushList_fit xs q (by omega) h5).mono ?_
  rintro _ _ rfl
  rw [Work.add_assoc]

theorem does_newFill (n : Nat) (r : Ref α) (a : Nat) (hn : n * ty.size < wordSize) :
    Does (newFill ty n r a) fun _ k => k = room 0 0 n + ⟨n, 0, 0⟩ := by
  refine (does_assignFill (Vec.blank a) n r (by simp [Vec.blank]) hn).mono ?_
  rintro _ _ rfl
  simp only [Vec.blank]
  rw [show (⟨0, 0, 0⟩ : Work) = nothing from rfl, Work.zero_add]

theorem does_constructList (p : Option Nat) (i : Nat) (xs : List α) : Does (constructList p i xs) fun _ k => k = ⟨xs.length, 0, 0⟩ := by
  induction xs generalizing i with
  | nil => exact (does_pure ()).mono fun _ _ h => h.2
  | cons x xs ih =>
    refine (does_construct _ _ _).bind ?_
    rintro _ _ rfl
    refine (ih (i + 1)).mono ?_
    rintro _ _ rfl
    rw [Work.add_mk, Nat.add_comm]; rfl

theorem does_newList (xs : List α) (a : Nat) : Does (newList ty xs a) fun _ k => k = ⟨xs.length, 0, 1⟩ := by
  unfold newList
  refine (does_allocate _ _).bind ?_
  rintro v _ ⟨-, -, -, rfl⟩
  refine (does_constructList _ _ _).bind ?_
  rintro _ _ rfl
  refine (does_pure _).mono ?_
  rintro _ _ ⟨rfl, rfl⟩
  simp [Work.add_mk, Work.add_zero]

theorem does_newRange (xs : List α) (a : Nat) : Does (newRange ty xs a) fun _ k => k = ⟨xs.length, 0, 1⟩ := by
  have := does_newList (ty := ty) xs a
  simpa only [newList, newRange] using this

theorem does_copyImpl (v r : Vec) : Does (copyImpl ty v r) fun _ k => k = ⟨r.len, 0, 1⟩ := by
  unfold copyImpl
  refine (does_allocate _ _).bind ?_
  rintro v _ ⟨-, -, -, rfl⟩
  refine (does_forUp (fun i => does_copyOne (i := i) (does_load _ i)) 0 r.len).bind ?_
  rintro _ _ rfl
  refine (does_pure _).mono ?_
  rintro _ _ ⟨rfl, rfl⟩
  simp [Work.add_mk, Work.add_zero]

theorem does_fromIter (xs : List α) : Does (fromIter ty xs) fun _ k => k = ⟨0, 0, 1⟩ + appends xs.length 0 2 := by
  unfold fromIter newDefault
  have := ty.size_lt
  refine ((does_alloc (ty := ty) dfltAlloc 2).bind (f := fun b => pure _)
    (R := fun (v : Vec) k => v.len = 0 ∧ v.cap = 2 ∧ k = ⟨0, 0, 1⟩ ∧ SmallCap ty 2) ?_).bind ?_
  · rintro b _ ⟨rfl, hs⟩
    refine (does_pure _).mono ?_
    rintro _ _ ⟨rfl, rfl⟩
    exact ⟨rfl, rfl, rfl, hs⟩
  · rintro v _ ⟨h1, h2, rfl, hs⟩
    have hs := hs (by have : wordSize = 18446744073709551616 := rfl; omega)
    refine (does_pushList xs v (by omega) (by rw [h2]; exact hs)).mono ?_
    rintro _ _ rfl
    rw [h1, h2]

theorem does_stdCopy (a b : Option Nat) (n : Nat) : Does (stdCopy a b n : M α Unit) fun _ k => k = nothing := by
  unfold stdCopy
  refine (does_forUp (c := 0) (d := 0) (fun i => ?_) 0 n).mono ?_
  · refine (does_load _ _).bind ?_
    rintro _ _ rfl
    exact (does_store _ _ _).mono fun _ _ h => by rw [h]; rfl
  · rintro _ _ rfl; rfl

theorem does_copyAssign (v o : Vec) (hv : v.cap * ty.size < 9223372036854775808) (ho : o.cap * ty.size < 9223372036854775808) :
    Does (copyAssign ty v o) fun _ k => k =
      if v.alloc = o.alloc then room v.len v.cap o.cap + ⟨o.len - v.len, v.len - o.len, 0⟩ else ⟨o.len, v.len, 1⟩ := by
  unfold copyAssign
  by_cases ha : v.alloc = o.alloc
  · simp only [if_pos ha]
    refine (does_reserve v o.cap hv (by have : wordSize = 18446744073709551616 := rfl; omega)).bind ?_
    rintro q _ ⟨h1, h2, -, rfl, -⟩
    refine (does_stdCopy _ _ _).bind ?_
    rintro _ _ rfl
    have key : Does (if q.len > o.len then forUp (min q.len o.len) (q.len - min q.len o.len) fun i => destroy q.ptr i
        else if q.len < o.len then forUp (min q.len o.len) (o.len - min q.len o.len) fun i => do
          let x ← load o.ptr i
          construct q.ptr i x
        else pure () : M α Unit) fun _ k => k = ⟨o.len - v.len, v.len - o.len, 0⟩ := by
      by_cases h3 : q.len > o.len
      · rw [if_pos h3]
        refine (does_forUp (fun i => does_destroy q.ptr i) _ _).mono ?_
        rintro _ _ rfl
        apply Work.ext' <;> simp <;> omega
      · rw [if_neg h3]
        by_cases h4 : q.len < o.len
        · rw [if_pos h4]
          refine (does_forUp (fun i => does_copyOne (i := i) (does_load _ i)) _ _).mono ?_
          rintro _ _ rfl
          apply Work.ext' <;> simp <;> omega
        · rw [if_neg h4]
          refine (does_pure ()).mono ?_
          rintro _ _ ⟨-, rfl⟩
          apply Work.ext' <;> simp [nothing] <;> omega
    refine key.bind ?_
    rintro _ _ rfl
    refine (does_pure _).mono ?_
    rintro _ _ ⟨-, rfl⟩
    rw [Work.zero_add, Work.add_zero]
  · simp only [if_neg ha]
    refine (does_clear v).bind ?_
    rintro _ _ ⟨rfl, rfl⟩
    refine (does_copyImpl _ _).mono ?_
    rintro _ _ rfl
    simp [Work.add_mk]

theorem does_moveAssign (v r : Vec) : Does (moveAssign ty v r) fun _ k => k = ⟨0, v.len, 0⟩ := by
  unfold moveAssign
  refine (does_clear v).bind ?_
  rintro _ _ ⟨rfl, rfl⟩
  refine (does_pure _).mono ?_
  rintro _ _ ⟨-, rfl⟩
  rfl

theorem does_moveBackLoop (p : Option Nat) (c pos hi : Nat) (h0 : 0 < pos) (hh : hi < wordSize) :
    Does (moveBackLoop ty p c pos hi) fun _ k => k = ⟨hi + 1 - pos, hi + 1 - pos, 0⟩ := by
  induction hi with
  | zero =>
    rw [moveBackLoop, if_neg (by omega)]
    refine (does_pure ()).mono ?_
    rintro _ _ ⟨-, rfl⟩
    apply Work.ext' <;> simp [nothing] <;> omega
  | succ hi ih =>
    rw [moveBackLoop]
    by_cases h : hi + 1 ≥ pos
    · rw [if_pos h]
      refine (does_take _ _).bind ?_
      rintro _ _ rfl
      refine (does_construct _ _ _).bind ?_
      rintro _ _ rfl
      refine (does_destroy _ _).bind ?_
      rintro _ _ rfl
      rw [wsub_of_le (by omega) (by omega)]
      refine (ih (by omega)).mono ?_
      rintro _ _ rfl
      apply Work.ext' <;> simp [nothing, Work.add_mk] <;> omega
    · rw [if_neg h]
      refine (does_pure ()).mono ?_
      rintro _ _ ⟨-, rfl⟩
      apply Work.ext' <;> simp [nothing] <;> omega

theorem does_moveElementsBack (v : Vec) (pos c : Nat) (h0 : 0 < pos ∨ v.len = 0) (hl : v.len ≤ v.cap)
    (hc : v.cap * ty.size < 9223372036854775808) (hw : (v.len + c) * ty.size < wordSize) :
    Does (moveElementsBack ty v pos c) fun _ k =>
      k = if v.len = 0 then nothing else room v.len v.cap (v.len + c) + shift v.len pos := by
  unfold moveElementsBack
  by_cases he : v.len = 0
  · rw [if_pos he, if_pos he]
    exact (does_pure v).mono fun _ _ h => h.2
  · rw [if_neg he, if_neg he]
    have hlt := Nat.lt_of_le_of_lt (Nat.le_mul_of_pos_right (v.len + c) ty.size_pos) hw
    rw [wrap_of_lt hlt]
    have key : Does (if v.len + c > v.cap then reserve ty v (v.len + c) else pure v) fun q k => q.len = v.len ∧
        k = room v.len v.cap (v.len + c) := by
      by_cases h : v.len + c > v.cap
      · rw [if_pos h]
        exact (does_reserve v _ hc hw).mono fun _ _ h => ⟨h.1, h.2.2.2.1⟩
      · rw [if_neg h]
        refine (does_pure v).mono ?_
        rintro _ _ ⟨rfl, rfl⟩
        exact ⟨rfl, by rw [room, if_pos (by omega)]⟩
    refine key.bind ?_
    rintro q _ ⟨h1, rfl⟩
    refine (does_moveBackLoop _ _ _ _ (by omega) (by omega)).bind ?_
    rintro _ _ rfl
    refine (does_pure _).mono ?_
    rintro _ _ ⟨-, rfl⟩
    rw [Work.add_zero, shift, h1, show v.len - 1 + 1 = v.len by omega]

theorem does_emplace (v : Vec) (pos : Nat) (x : α) (h0 : 0 < pos) (hp : pos ≤ v.len) (hl : v.len ≤ v.cap)
    (hc : v.cap * ty.size < 9223372036854775808) :
    Does (emplace ty v pos x) fun _ k => k = room v.len v.cap (v.len + 1) + shift v.len pos + ⟨1, 0, 0⟩ := by
  unfold emplace
  have key : Does (if v.len = v.cap then extendSpace ty v else pure v) fun q k => q.len = v.len ∧ v.len + 1 ≤ q.cap ∧
      q.cap * ty.size < 9223372036854775808 ∧ k = room v.len v.cap (v.len + 1) := by
    by_cases h : v.len = v.cap
    · rw [if_pos h]
      refine (does_extendSpace v h hc).mono ?_
      rintro q _ ⟨h1, h2, -, rfl, h5⟩
      refine ⟨h1, ?_, h5, by rw [room, if_neg (by omega)]⟩
      rw [h2, doubled]; split <;> omega
    · rw [if_neg h]
      refine (does_pure v).mono ?_
      rintro _ _ ⟨rfl, rfl⟩
      exact ⟨rfl, by omega, hc, by rw [room, if_pos (by omega)]⟩
  refine key.bind ?_
  rintro q _ ⟨h1, h2, h3, rfl⟩
  have hw : (q.len + 1) * ty.size < wordSize := by
    have := Nat.mul_le_mul_right ty.size (show q.len + 1 ≤ q.cap by omega)
    have : wordSize = 18446744073709551616 := rfl
    omega
  refine (does_moveElementsBack q pos 1 (.inl h0) (by omega) h3 hw).bind ?_
  rintro q' _ rfl
  rw [if_neg (by omega), show room q.len q.cap (q.len + 1) = nothing by rw [room, if_pos (by omega)], Work.zero_add]
  refine (does_construct _ _ _).bind ?_
  rintro _ _ rfl
  refine (does_pure _).mono ?_
  rintro _ _ ⟨-, rfl⟩
  rw [Work.add_zero, h1, Work.add_assoc]

theorem does_insert (v : Vec) (pos : Nat) (r : Ref α) (h0 : 0 < pos) (hp : pos ≤ v.len) (hl : v.len ≤ v.cap)
    (hc : v.cap * ty.size < 9223372036854775808) :
    Does (Model.Vector.insert ty v pos r) fun _ k => k = room v.len v.cap (v.len + 1) + shift v.len pos + ⟨1, 0, 0⟩ := by
  unfold Model.Vector.insert
  refine (does_deref r).bind ?_
  rintro x _ rfl
  refine (does_emplace v pos x h0 hp hl hc).bind ?_
  rintro _ _ rfl
  refine (does_pure _).mono ?_
  rintro _ _ ⟨-, rfl⟩
  rw [Work.zero_add, Work.add_zero]

theorem does_insertFill (v : Vec) (pos n : Nat) (r : Ref α) (h0 : 0 < pos ∨ (v.len = 0 ∧ n = 0)) (hp : pos ≤ v.len) (hl : v.len ≤ v.cap)
    (hc : v.cap * ty.size < 9223372036854775808) (hw : (v.len + n) * ty.size < wordSize) :
    Does (insertFill ty v pos n r) fun _ k => k = room v.len v.cap (v.len + n) + shift v.len pos + ⟨n, 0, 0⟩ := by
  unfold insertFill
  refine (does_moveElementsBack v pos n (by omega) hl hc hw).bind ?_
  rintro q _ rfl
  refine (does_forUp (fun i => does_copyOne (i := i) (does_deref _)) 0 n).bind ?_
  rintro _ _ rfl
  refine (does_pure _).mono ?_
  rintro _ _ ⟨-, rfl⟩
  rw [Work.add_zero]
  by_cases he : v.len = 0
  · rw [if_pos he, room, if_pos (by omega), shift]
    apply Work.ext' <;> simp [nothing, Work.add_mk] <;> omega
  · rw [if_neg he]; simp

theorem does_insertRange (v : Vec) (pos : Nat) (xs : List α) (h0 : 0 < pos ∨ (v.len = 0 ∧ xs = [])) (hp : pos ≤ v.len)
    (hl : v.len ≤ v.cap) (hc : v.cap * ty.size < 9223372036854775808) (hw : (v.len + xs.length) * ty.size < wordSize) :
    Does (insertRange ty v pos xs) fun _ k => k = room v.len v.cap (v.len + xs.length) + shift v.len pos + ⟨xs.length, 0, 0⟩ := by
  unfold insertRange
  have hlt := Nat.lt_of_le_of_lt (Nat.le_mul_of_pos_right (v.len + xs.length) ty.size_pos) hw
  rw [wrap_of_lt hlt]
  have key : Does (if v.len + xs.length > v.cap then allocateReserve ty v (v.len + xs.length) else pure v) fun q k => q.len = v.len ∧
      v.len + xs.length ≤ q.cap ∧ q.cap * ty.size < 9223372036854775808 ∧ k = room v.len v.cap (v.len + xs.length) := by
    by_cases h : v.len + xs.length > v.cap
    · rw [if_pos h]
      refine (does_allocateReserve v _).mono ?_
      rintro q _ ⟨h1, h2, -, rfl, hs⟩
      exact ⟨h1, by omega, by rw [h2]; exact hs hw, by rw [room, if_neg (by omega)]⟩
    · rw [if_neg h]
      refine (does_pure v).mono ?_
      rintro _ _ ⟨rfl, rfl⟩
      exact ⟨rfl, by omega, hc, by rw [room, if_pos (by omega)]⟩
  refine key.bind ?_
  rintro q _ ⟨h1, h2, h3, rfl⟩
  refine (does_moveElementsBack q pos xs.length (by omega) (by omega) h3 (by rw [h1]; exact hw)).bind ?_
  rintro q' _ rfl
  refine (does_constructList _ _ _).bind ?_
  rintro _ _ rfl
  refine (does_pure _).mono ?_
  rintro _ _ ⟨-, rfl⟩
  rw [Work.add_zero, Work.add_assoc]
  congr 1
  by_cases he : q.len = 0
  · rw [if_pos he, shift]
    apply Work.ext' <;> simp [nothing, Work.add_mk] <;> omega
  · rw [if_neg he, room, if_pos (by omega), Work.zero_add, h1]

theorem does_stdMove (p : Option Nat) (f l d : Nat) : Does (stdMove ty p f l d) fun _ k => k = nothing := by
  unfold stdMove
  split
  · intro h r h' e; cases e
  · refine (does_forUp (c := 0) (d := 0) (fun i => ?_) 0 _).mono ?_
    · refine (does_take _ _).bind ?_
      rintro _ _ rfl
      exact (does_store _ _ _).mono fun _ _ h => by rw [h]; rfl
    · rintro _ _ rfl; simp [nothing]

theorem does_erase (v : Vec) (p : Nat) (hp : p < v.len) (hv : v.len < wordSize) : Does (erase ty v p) fun _ k => k = ⟨0, 1, 0⟩ := by
  unfold erase
  rw [wsub_of_le (by omega) (by omega)]
  by_cases h1 : p = v.len - 1
  · rw [if_pos h1]
    refine (does_popBack v hv (by omega)).bind ?_
    rintro _ _ ⟨-, rfl⟩
    exact (does_pure _).mono fun _ _ h => by rw [h.2]; rfl
  · rw [if_neg h1, if_pos (by omega)]
    refine (does_stdMove _ _ _ _).bind ?_
    rintro _ _ rfl
    refine (does_popBack v hv (by omega)).bind ?_
    rintro _ _ ⟨-, rfl⟩
    exact (does_pure _).mono fun _ _ h => by rw [h.2]; rfl

theorem does_eraseRange (v : Vec) (lo hi : Nat) (h1 : lo ≤ hi) (h2 : hi ≤ v.len) (hv : v.len < wordSize) :
    Does (eraseRange ty v lo hi) fun _ k => k = ⟨0, hi - lo, 0⟩ := by
  unfold eraseRange
  rw [if_neg (by omega), wsub_of_le (by omega) (by omega)]
  refine (does_stdMove _ _ _ _).bind ?_
  rintro _ _ rfl
  refine (does_popLoop v hv _ (by omega)).bind ?_
  rintro _ _ ⟨-, rfl⟩
  exact (does_pure _).mono fun _ _ h => by rw [h.2, Work.add_zero, Work.zero_add]

theorem does_resizeFill (v : Vec) (n : Nat) (r : Ref α) (hl : v.len ≤ v.cap) (hc : v.cap * ty.size < 9223372036854775808)
    (hn : n * ty.size < wordSize) :
    Does (resizeFill ty v n r) fun _ k =>
      k = if n ≤ v.len then ⟨0, v.len - n, 0⟩ else room v.len v.cap n + ⟨n - v.len, 0, 0⟩ := by
  unfold resizeFill
  have := cap_lt hc
  by_cases h1 : n < v.len
  · rw [if_pos h1, if_pos (by omega)]
    exact (does_popLoop v (by omega) _ (by omega)).mono fun _ _ h => h.2
  · rw [if_neg h1]
    by_cases h2 : n > v.len
    · rw [if_pos h2, if_neg (show ¬ n ≤ v.len by omega)]
      have key : Does (if n > v.cap then reserve ty v n else pure v) fun q k => q.len = v.len ∧ n ≤ q.cap ∧
          q.cap * ty.size < 9223372036854775808 ∧ k = room v.len v.cap n := by
        by_cases h : n > v.cap
        · rw [if_pos h]
          refine (does_reserve v n hc hn).mono ?_
          rintro q _ ⟨h1, h2, -, rfl, h5⟩
          exact ⟨h1, by omega, h5, rfl⟩
        · rw [if_neg h]
          refine (does_pure v).mono ?_
          rintro _ _ ⟨rfl, rfl⟩
          exact ⟨rfl, by omega, hc, by rw [room, if_pos (by omega)]⟩
      refine key.bind ?_
      rintro q _ ⟨h3, h4, h5, rfl⟩
      refine (does_pushLoop r q _ (by omega) h5).mono ?_
      rintro _ _ rfl
      rw [h3]
    · rw [if_neg h2, if_pos (by omega)]
      refine (does_pure v).mono ?_
      rintro _ _ ⟨-, rfl⟩
      apply Work.ext' <;> simp [nothing] <;> omega

end Verif.Proof.Vector

namespace Verif.Proof.Vector
open Verif Verif.Model.Mem Verif.Model.Vector Verif.Spec.Vector

variable {α β γ : Type} {ty : ElemTy α}

theorem does_next (it : IntoIter) : Does (it.next ty) fun r k => k = ⟨0, it.vec.len - r.2.vec.len, 0⟩ ∧ r.2.vec.len ≤ it.vec.len := by
  unfold IntoIter.next
  split
  · refine (does_take _ _).bind ?_
    rintro x _ rfl
    have key : Does (if it.pos + 1 = it.len then clear ty it.vec else pure it.vec) fun q k =>
        k = ⟨0, it.vec.len - q.len, 0⟩ ∧ q.len ≤ it.vec.len := by
      split
      · refine (does_clear _).mono ?_
        rintro _ _ ⟨rfl, rfl⟩
        exact ⟨rfl, Nat.zero_le _⟩
      · refine (does_pure _).mono ?_
        rintro _ _ ⟨rfl, rfl⟩
        exact ⟨by simp [nothing], Nat.le_refl _⟩
    refine key.bind ?_
    rintro q _ ⟨rfl, h⟩
    refine (does_pure _).mono ?_
    rintro _ _ ⟨rfl, rfl⟩
    exact ⟨by rw [Work.add_zero, Work.zero_add], h⟩
  · refine (does_pure _).mono ?_
    rintro _ _ ⟨rfl, rfl⟩
    exact ⟨by simp [nothing], Nat.le_refl _⟩

theorem does_drainN (it : IntoIter) (n : Nat) : Does (drainN ty it n) fun _ k => k = ⟨0, it.vec.len, 0⟩ := by
  induction n generalizing it with
  | zero =>
    refine (does_clear _).bind ?_
    rintro _ _ ⟨-, rfl⟩
    exact (does_pure _).mono fun _ _ h => by rw [h.2]; rfl
  | succ n ih =>
    refine (does_next it).bind ?_
    rintro r _ ⟨rfl, h⟩
    refine (ih r.2).bind ?_
    rintro _ _ rfl
    refine (does_pure _).mono ?_
    rintro _ _ ⟨-, rfl⟩
    rw [Work.add_zero, Work.add_mk]
    apply Work.ext' <;> simp <;> omega

theorem does_intoNextReversed (v : Vec) (hv : v.len < wordSize) :
    Does (intoNextReversed ty v) fun r k => k = ⟨0, v.len - r.2.len, 0⟩ ∧ r.2.len ≤ v.len := by
  unfold intoNextReversed
  split
  · refine (does_take _ _).bind ?_
    rintro x _ rfl
    refine (does_popBack v hv (by omega)).bind ?_
    rintro _ _ ⟨rfl, rfl⟩
    refine (does_pure _).mono ?_
    rintro _ _ ⟨rfl, rfl⟩
    refine ⟨?_, by simp⟩
    rw [Work.add_zero, Work.zero_add]
    apply Work.ext' <;> simp; omega
  · refine (does_pure _).mono ?_
    rintro _ _ ⟨rfl, rfl⟩
    exact ⟨by simp [nothing], Nat.le_refl _⟩

theorem does_drainRevN (v : Vec) (hv : v.len < wordSize) (n : Nat) : Does (drainRevN ty v n) fun _ k => k = ⟨0, v.len, 0⟩ := by
  induction n generalizing v with
  | zero =>
    refine (does_clear _).bind ?_
    rintro _ _ ⟨-, rfl⟩
    exact (does_pure _).mono fun _ _ h => by rw [h.2]; rfl
  | succ n ih =>
    refine (does_intoNextReversed v hv).bind ?_
    rintro r _ ⟨rfl, h⟩
    refine (ih r.2 (by omega)).bind ?_
    rintro _ _ rfl
    refine (does_pure _).mono ?_
    rintro _ _ ⟨-, rfl⟩
    rw [Work.add_zero, Work.add_mk]
    apply Work.ext' <;> simp <;> omega

theorem inHeap_work {p : M α β} {Q : β → Work → Prop} (hp : Does p Q) {w : World α} {b : β} {w' : World α}
    (he : inHeap p w = .ok (b, w')) : w'.vars = w.vars ∧ ∃ k, Q b k ∧ Tally w.heap w'.heap k := by
  unfold inHeap at he
  cases hq : p w.heap with
  | ok q =>
    rw [hq] at he
    cases he
    exact ⟨rfl, hp _ _ _ hq⟩
  | _ => rw [hq] at he; cases he

theorem bind_inv {p : Prog (World α) β} {f : β → Prog (World α) γ} {w : World α} {q : γ × World α} (he : (p >>= f) w = .ok q) :
    ∃ b w1, p w = .ok (b, w1) ∧ f b w1 = .ok q := by
  rw [Prog.bind_run] at he
  cases h : p w with
  | ok r => rw [h] at he; exact ⟨r.1, r.2, rfl, he⟩
  | _ => rw [h] at he; cases he

theorem create_work {i : Nat} {f : M α Vec} {K : Work} (hf : Does f fun _ k => k = K) {w : World α} {q : Res α × World α}
    (he : create i f w = .ok q) : Tally w.heap q.2.heap K := by
  obtain ⟨v, w1, h1, h2⟩ := bind_inv he
  obtain ⟨-, k, rfl, t⟩ := inHeap_work hf h1
  cases h2
  exact t

theorem change_work {i : Nat} {v : Vec} {f : Vec → M α Vec} {K : Work} {w : World α} (hv : w.vars i = some v)
    (hf : Does (f v) fun _ k => k = K) {q : Res α × World α} (he : change i f w = .ok q) : Tally w.heap q.2.heap K := by
  obtain ⟨v1, w1, h1, h2⟩ := bind_inv he
  simp only [var, hv] at h1
  cases h1
  obtain ⟨v2, w2, h3, h4⟩ := bind_inv h2
  obtain ⟨-, k, rfl, t⟩ := inHeap_work hf h3
  cases h4
  exact t

theorem change'_work {i : Nat} {v : Vec} {f : Vec → M α (Vec × Option Nat)} {K : Work} {w : World α} (hv : w.vars i = some v)
    (hf : Does (f v) fun _ k => k = K) {q : Res α × World α} (he : change' i f w = .ok q) : Tally w.heap q.2.heap K := by
  obtain ⟨v1, w1, h1, h2⟩ := bind_inv he
  simp only [var, hv] at h1
  cases h1
  obtain ⟨v2, w2, h3, h4⟩ := bind_inv h2
  obtain ⟨-, k, rfl, t⟩ := inHeap_work hf h3
  cases h4
  exact t

theorem look_work {i : Nat} {v : Vec} {f : Vec → M α (Res α)} {w : World α} (hv : w.vars i = some v)
    (hf : Does (f v) fun _ k => k = nothing) {q : Res α × World α} (he : look i f w = .ok q) : Tally w.heap q.2.heap nothing := by
  obtain ⟨v1, w1, h1, h2⟩ := bind_inv he
  simp only [var, hv] at h1
  cases h1
  obtain ⟨-, k, rfl, t⟩ := inHeap_work hf h2
  exact t

theorem arg_work {r : Arg α} {f : Ref α → Prog (World α) (Res α)} {w : World α} {q : Res α × World α}
    (he : (argRef r >>= f) w = .ok q) : ∃ r', f r' w = .ok q := by
  obtain ⟨r', w1, h1, h2⟩ := bind_inv he
  cases r with
  | val x => cases h1; exact ⟨_, h2⟩
  | elem j k =>
    obtain ⟨v, w2, h3, h4⟩ := bind_inv h1
    unfold var at h3
    split at h3
    · cases h3
    · cases h3; cases h4; exact ⟨_, h2⟩

theorem does_wrap {p : M α β} {K : Work} (hp : Does p fun _ k => k = K) (g : β → γ) :
    Does (do let b ← p; return g b) fun _ k => k = K := by
  refine hp.bind ?_
  rintro _ _ rfl
  exact (does_pure _).mono fun _ _ h => by rw [h.2]; rfl

theorem does_equalLoop (eq : α → α → Bool) (l r : Vec) (i n : Nat) : Does (equalLoop eq l r i n) fun _ k => k = nothing := by
  induction n generalizing i with
  | zero => exact (does_pure _).mono fun _ _ h => h.2
  | succ n ih =>
    refine (does_load _ _).bind ?_
    rintro a _ rfl
    refine (does_load _ _).bind ?_
    rintro b _ rfl
    split
    · exact (ih _).mono fun _ _ h => by rw [h]; rfl
    · exact (does_pure _).mono fun _ _ h => by rw [h.2]; rfl

theorem does_compareLoop (cmp : α → α → Option Ordering) (l r : Vec) (i n : Nat) :
    Does (compareLoop cmp l r i n) fun _ k => k = nothing := by
  induction n generalizing i with
  | zero => exact (does_pure _).mono fun _ _ h => h.2
  | succ n ih =>
    refine (does_load _ _).bind ?_
    rintro a _ rfl
    refine (does_load _ _).bind ?_
    rintro b _ rfl
    simp only
    split
    · exact (ih _).mono fun _ _ h => by rw [h]; rfl
    · exact (does_pure _).mono fun _ _ h => by rw [h.2]; rfl

theorem does_printLoop (shw : α → String) (v : Vec) (i n : Nat) : Does (printLoop shw v i n) fun _ k => k = nothing := by
  induction n generalizing i with
  | zero => exact (does_pure _).mono fun _ _ h => h.2
  | succ n ih =>
    refine (does_load _ _).bind ?_
    rintro a _ rfl
    refine (ih _).bind ?_
    rintro b _ rfl
    exact (does_pure _).mono fun _ _ h => by rw [h.2]; rfl

theorem does_equal (eq : α → α → Bool) (l r : Vec) : Does (equal eq l r) fun _ k => k = nothing := by
  unfold equal; split
  · exact (does_pure _).mono fun _ _ h => h.2
  · exact does_equalLoop _ _ _ _ _

theorem look_one (p : Option Nat) (i : Nat) : Does (do let x ← load p i; return some x : M α (Option α)) fun _ k => k = nothing :=
  does_wrap (does_load p i) some

theorem does_ite {c : Prop} [Decidable c] {p q : M α β} {Q : β → Work → Prop} (hp : Does p Q) (hq : Does q Q) :
    Does (if c then p else q) Q := by
  split
  · exact hp
  · exact hq

theorem pure_nothing (b : β) : Does (pure b : M α β) fun _ k => k = nothing := (does_pure b).mono fun _ _ h => h.2

/-- what a reachable state says about the vector in variable `i` -/
theorem reach_sizes {w : World α} (hr : Reach ty w) {i : Nat} {a : Var α} (hi : view w i = some a) :
    ∃ v, w.vars i = some v ∧ Rep ty w.heap v a.xs ∧ v.len = lenOf (view w) i ∧ v.cap = capOf (view w) i ∧ v.alloc = a.alloc ∧
      v.len ≤ v.cap ∧ v.cap * ty.size < 9223372036854775808 ∧ v.len < wordSize := by
  obtain ⟨v, h1, h2, h3, h4⟩ := reach_get hr hi
  have hc := h2.own.small
  have hl : v.len ≤ v.cap := by rw [h2.len]; exact h2.le
  have := cap_lt hc
  exact ⟨v, h1, h2, by simp [lenOf, hi, h2.len], by simp [capOf, hi, h3], h4, hl, hc, by omega⟩

end Verif.Proof.Vector

namespace Verif.Proof.Vector
open Verif Verif.Model.Mem Verif.Model.Vector Verif.Spec.Vector

variable {α : Type} {ty : ElemTy α}

theorem only_false {β : Type} {g : Prop} [Decidable g] {x : Option β} {y : β} (h : only false g x = some y) : g ∧ x = some y := by
  unfold only at h; split at h
  · rename_i hg; exact ⟨by simpa using hg, h⟩
  · cases h

theorem bind_some' {β γ : Type} {o : Option β} {f : β → Option γ} {y : γ} (h : o.bind f = some y) : ∃ b, o = some b ∧ f b = some y := by
  cases o with
  | none => cases h
  | some b => exact ⟨b, rfl, h⟩

theorem upd_some {A : Ideal α} {i : Nat} {f : Var α → Option (Res α × Var α)} {x : Res α × Ideal α} (h : Spec.Vector.upd A i f = some x) :
    ∃ v p, A i = some v ∧ f v = some p := by
  obtain ⟨v, h1, h2⟩ := bind_some' h
  cases hf : f v with
  | none => rw [hf] at h2; cases h2
  | some p => exact ⟨v, p, h1, hf⟩

theorem ask_some {A : Ideal α} {i : Nat} {f : Var α → Option (Res α)} {x : Res α × Ideal α} (h : ask A i f = some x) :
    ∃ v, A i = some v := by
  obtain ⟨v, h1, _⟩ := bind_some' h
  exact ⟨v, h1⟩

theorem step_work {w : World α} (hr : Reach ty w) {op : Op α} {r : Res α} {A' : Ideal α}
    (hs : specStep false ty.size ty.dflt op (view w) = some (r, A')) {q : Res α × World α} (he : step ty op w = .ok q) :
    Tally w.heap q.2.heap (work (view w) op) := by
  cases op with
  | newDefault i => exact create_work ((does_allocate _ _).mono fun _ _ h => h.2.2.2) he
  | newAlloc i a => exact create_work (pure_nothing _) he
  | newFill i n rf a =>
    obtain ⟨x, -, h2⟩ := bind_some' hs
    obtain ⟨r', he⟩ := arg_work he
    exact create_work (does_newFill n r' a (only_false h2).1) he
  | newCount i n a => exact create_work (does_newFill n _ a (only_false hs).1) he
  | newList i xs a => exact create_work (does_newList xs a) he
  | newRange i xs a => exact create_work (does_newRange xs a) he
  | newCopy i j | newCopyAlloc i j a =>
    obtain ⟨v, h1, h2⟩ := bind_some' hs
    obtain ⟨v, hv, -, hl, -⟩ := reach_sizes hr h1
    obtain ⟨v1, w1, h3, h4⟩ := bind_inv he
    simp only [var, hv] at h3; cases h3
    have := create_work (does_copyImpl _ v) h4
    simp only [work, ← hl]; exact this
  | newMove i j a =>
    obtain ⟨v, h1, h2⟩ := bind_some' hs
    obtain ⟨v, hv, -⟩ := reach_sizes hr h1
    obtain ⟨v1, w1, h3, h4⟩ := bind_inv he
    simp only [var, hv] at h3; cases h3
    cases h4
    exact Tally.refl _
  | fromIter i xs => exact create_work (does_fromIter xs) he
  | copyAssign i j =>
    obtain ⟨o, h1, h2⟩ := bind_some' hs
    obtain ⟨v, p, h3, h4⟩ := upd_some h2
    obtain ⟨o', ho, -, hol, hoc, hoa, -, hos, -⟩ := reach_sizes hr h1
    obtain ⟨v', hv, -, hl, hc, ha, -, hsm, -⟩ := reach_sizes hr h3
    simp only [step] at he
    simp only [work]
    by_cases hij : i = j
    · rw [if_pos hij] at he ⊢
      exact look_work hv (pure_nothing _) he
    · rw [if_neg hij] at he ⊢
      obtain ⟨v1, w1, h5, h6⟩ := bind_inv he
      simp only [var, ho] at h5; cases h5
      have := change_work hv (does_copyAssign v' o' hsm hos) h6
      have e : sameAlloc (view w) i j = decide (v'.alloc = o'.alloc) := by
        simp only [sameAlloc, h1, h3, ha, hoa, Option.map_some]; rw [Bool.eq_iff_iff]; simp
      rw [e, ← hl, ← hc, ← hol, ← hoc]
      by_cases hal : v'.alloc = o'.alloc <;> simpa [hal] using this
  | moveAssign i j =>
    obtain ⟨v, h1, h2⟩ := bind_some' hs
    obtain ⟨o, h3, h4⟩ := bind_some' h2
    obtain ⟨v', hv, -, hl, -⟩ := reach_sizes hr h1
    obtain ⟨o', ho, -⟩ := reach_sizes hr h3
    simp only [step] at he
    simp only [work]
    by_cases hij : i = j
    · rw [if_pos hij] at he ⊢
      exact look_work hv (pure_nothing _) he
    · rw [if_neg hij] at he ⊢
      obtain ⟨v1, w1, h5, h6⟩ := bind_inv he
      simp only [var, hv] at h5; cases h5
      obtain ⟨v2, w2, h7, h8⟩ := bind_inv h6
      simp only [var, ho] at h7; cases h7
      obtain ⟨v3, w3, h9, h10⟩ := bind_inv h8
      obtain ⟨-, k, rfl, t⟩ := inHeap_work (does_moveAssign _ _) h9
      cases h10
      rw [← hl]; exact t
  | listAssign i xs => exact absurd (only_false hs).1 id
  | swap i j =>
    obtain ⟨v, h1, h2⟩ := bind_some' hs
    obtain ⟨o, h3, h4⟩ := bind_some' h2
    obtain ⟨v', hv, -⟩ := reach_sizes hr h1
    obtain ⟨o', ho, -⟩ := reach_sizes hr h3
    obtain ⟨v1, w1, h5, h6⟩ := bind_inv he
    simp only [var, hv] at h5; cases h5
    obtain ⟨v2, w2, h7, h8⟩ := bind_inv h6
    simp only [var, ho] at h7; cases h7
    cases h8
    exact Tally.refl _
  | drop i =>
    obtain ⟨v, h1, h2⟩ := bind_some' hs
    obtain ⟨v', hv, -, hl, -⟩ := reach_sizes hr h1
    obtain ⟨v1, w1, h5, h6⟩ := bind_inv he
    simp only [var, hv] at h5; cases h5
    obtain ⟨v3, w3, h9, h10⟩ := bind_inv h6
    obtain ⟨-, k, ⟨-, rfl⟩, t⟩ := inHeap_work (does_clear _) h9
    cases h10
    simp only [work, ← hl]; exact t
  | clear i =>
    obtain ⟨v, p, h1, h2⟩ := upd_some hs
    obtain ⟨v', hv, -, hl, -⟩ := reach_sizes hr h1
    simp only [work, ← hl]
    exact change_work hv ((does_clear v').mono fun _ _ h => h.2) he
  | reserve i n =>
    obtain ⟨v, p, h1, h2⟩ := upd_some hs
    obtain ⟨v', hv, -, hl, hc, -, -, hsm, -⟩ := reach_sizes hr h1
    simp only [work, ← hl, ← hc]
    exact change_work hv ((does_reserve v' n hsm (only_false h2).1).mono fun _ _ h => h.2.2.2.1) he
  | push i rf =>
    obtain ⟨x, -, hs⟩ := bind_some' hs
    obtain ⟨v, p, h1, h2⟩ := upd_some hs
    obtain ⟨v', hv, -, hl, hc, -, hle, hsm, -⟩ := reach_sizes hr h1
    obtain ⟨r', he⟩ := arg_work he
    simp only [work, ← hl, ← hc]
    exact change_work hv ((does_pushBack v' r' hle hsm).mono fun _ _ h => h.2.2.2.1) he
  | pop i =>
    obtain ⟨v, p, h1, h2⟩ := upd_some hs
    obtain ⟨v', hv, rep, hl, hc, -, hle, hsm, hw⟩ := reach_sizes hr h1
    split at h2
    · cases h2
    · rename_i hne
      have := List.length_pos_iff.2 hne
      exact change_work hv ((does_popBack v' hw (by rw [rep.len]; exact this)).mono fun _ _ h => h.2) he
  | assignFill i n rf =>
    obtain ⟨x, -, hs⟩ := bind_some' hs
    obtain ⟨v, p, h1, h2⟩ := upd_some hs
    obtain ⟨v', hv, -, hl, hc, -, hle, hsm, -⟩ := reach_sizes hr h1
    obtain ⟨r', he⟩ := arg_work he
    simp only [work, ← hl, ← hc]
    exact change_work hv (does_assignFill v' n r' hsm (only_false h2).1.1) he
  | assignList i xs =>
    obtain ⟨v, p, h1, h2⟩ := upd_some hs
    obtain ⟨v', hv, -, hl, hc, -, hle, hsm, -⟩ := reach_sizes hr h1
    simp only [work, ← hl, ← hc]
    exact change_work hv (does_assignList v' xs hsm (only_false h2).1) he
  | set i k x =>
    obtain ⟨v, p, h1, h2⟩ := upd_some hs
    obtain ⟨v', hv, -⟩ := reach_sizes hr h1
    exact look_work hv (does_wrap (does_store _ _ _) _) he
  | get i k =>
    obtain ⟨v, h1⟩ := ask_some hs
    obtain ⟨v', hv, -⟩ := reach_sizes hr h1
    exact look_work hv (does_wrap (does_load _ _) _) he
  | «at» i k =>
    obtain ⟨v, h1⟩ := ask_some hs
    obtain ⟨v', hv, -⟩ := reach_sizes hr h1
    exact look_work hv (does_wrap (does_ite (look_one _ _) (pure_nothing _)) _) he
  | front i | back i =>
    obtain ⟨v, h1⟩ := ask_some hs
    obtain ⟨v', hv, -⟩ := reach_sizes hr h1
    exact look_work hv (does_wrap (does_ite (look_one _ _) (pure_nothing _)) _) he
  | size i | capacity i | empty i =>
    obtain ⟨v, h1⟩ := ask_some hs
    obtain ⟨v', hv, -⟩ := reach_sizes hr h1
    exact look_work hv (pure_nothing _) he
  | insert i p rf =>
    obtain ⟨x, -, hs⟩ := bind_some' hs
    obtain ⟨v, _, h1, h2⟩ := upd_some hs
    obtain ⟨v', hv, rep, hl, hc, -, hle, hsm, -⟩ := reach_sizes hr h1
    obtain ⟨r', he⟩ := arg_work he
    split at h2
    · simp only [work, ← hl, ← hc]
      exact change'_work hv (does_wrap (does_insert v' p r' (only_false h2).1 (by rw [rep.len]; assumption) hle hsm) _) he
    · cases h2
  | emplace i p x =>
    obtain ⟨v, _, h1, h2⟩ := upd_some hs
    obtain ⟨v', hv, rep, hl, hc, -, hle, hsm, -⟩ := reach_sizes hr h1
    split at h2
    · simp only [work, ← hl, ← hc]
      exact change_work hv (does_emplace v' p x (only_false h2).1 (by rw [rep.len]; assumption) hle hsm) he
    · cases h2
  | insertFill i p n rf =>
    obtain ⟨x, -, hs⟩ := bind_some' hs
    obtain ⟨v, _, h1, h2⟩ := upd_some hs
    obtain ⟨v', hv, rep, hl, hc, -, hle, hsm, -⟩ := reach_sizes hr h1
    obtain ⟨r', he⟩ := arg_work he
    split at h2
    · simp only [work, ← hl, ← hc]
      obtain ⟨⟨g1, -, g2, -⟩, -⟩ := only_false h2
      refine change'_work hv (does_wrap (does_insertFill v' p n r' ?_ (by rw [rep.len]; assumption) hle hsm (by rw [rep.len]; exact g2)) _) he
      rcases g1 with g | ⟨g, g'⟩
      · exact .inl g
      · exact .inr ⟨by rw [rep.len, g]; rfl, g'⟩
    · cases h2
  | insertRange i p ys =>
    obtain ⟨v, _, h1, h2⟩ := upd_some hs
    obtain ⟨v', hv, rep, hl, hc, -, hle, hsm, -⟩ := reach_sizes hr h1
    split at h2
    · simp only [work, ← hl, ← hc]
      obtain ⟨⟨g1, -, g2⟩, -⟩ := only_false h2
      refine change'_work hv (does_wrap (does_insertRange v' p ys ?_ (by rw [rep.len]; assumption) hle hsm (by rw [rep.len]; exact g2)) _) he
      rcases g1 with g | ⟨g, g'⟩
      · exact .inl g
      · exact .inr ⟨by rw [rep.len, g]; rfl, g'⟩
    · cases h2
  | erase i p =>
    obtain ⟨v, _, h1, h2⟩ := upd_some hs
    obtain ⟨v', hv, rep, hl, hc, -, hle, hsm, hw⟩ := reach_sizes hr h1
    split at h2
    · exact change'_work (f := fun v => erase ty v p) hv (does_erase v' p (by rw [rep.len]; assumption) hw) he
    · cases h2
  | eraseRange i lo hi =>
    obtain ⟨v, _, h1, h2⟩ := upd_some hs
    obtain ⟨v', hv, rep, hl, hc, -, hle, hsm, hw⟩ := reach_sizes hr h1
    split at h2
    · rename_i hh
      exact change'_work (f := fun v => eraseRange ty v lo hi) hv (does_eraseRange v' lo hi hh.1 (by rw [rep.len]; exact hh.2) hw) he
    · cases h2
  | resize i n =>
    obtain ⟨v, _, h1, h2⟩ := upd_some hs
    obtain ⟨v', hv, rep, hl, hc, -, hle, hsm, -⟩ := reach_sizes hr h1
    simp only [work, ← hl, ← hc]
    exact change_work hv (does_resizeFill v' n _ hle hsm (only_false h2).1) he
  | resizeFill i n rf =>
    obtain ⟨x, -, hs⟩ := bind_some' hs
    obtain ⟨v, _, h1, h2⟩ := upd_some hs
    obtain ⟨v', hv, rep, hl, hc, -, hle, hsm, -⟩ := reach_sizes hr h1
    obtain ⟨r', he⟩ := arg_work he
    simp only [work, ← hl, ← hc]
    exact change_work hv (does_resizeFill v' n r' hle hsm (only_false h2).1.1) he
  | collect i =>
    obtain ⟨v, h1⟩ := ask_some hs
    obtain ⟨v', hv, rep, -⟩ := reach_sizes hr h1
    obtain ⟨v1, w1, h3, h4⟩ := bind_inv he
    simp only [var, hv] at h3; cases h3
    have e := drain_ok rep [] v.xs [] rfl
    simp only [List.length_nil] at e
    simp only [inHeap, iter, Prog.bind_run, e, Out.bind_ok, Prog.pure_run] at h4
    cases h4
    exact Tally.refl _
  | drain i n =>
    obtain ⟨v, _, h1, h2⟩ := upd_some hs
    obtain ⟨v', hv, rep, hl, -⟩ := reach_sizes hr h1
    obtain ⟨v1, w1, h5, h6⟩ := bind_inv he
    simp only [var, hv] at h5; cases h5
    obtain ⟨_, w2, h7, h8⟩ := bind_inv h6
    cases h7
    obtain ⟨v3, w3, h9, h10⟩ := bind_inv h8
    obtain ⟨-, k, rfl, t⟩ := inHeap_work (does_drainN _ n) h9
    cases h10
    simp only [work, ← hl]; exact t
  | drainRev i n =>
    obtain ⟨v, _, h1, h2⟩ := upd_some hs
    obtain ⟨v', hv, rep, hl, -, -, -, -, hw⟩ := reach_sizes hr h1
    obtain ⟨v1, w1, h5, h6⟩ := bind_inv he
    simp only [var, hv] at h5; cases h5
    obtain ⟨_, w2, h7, h8⟩ := bind_inv h6
    cases h7
    obtain ⟨v3, w3, h9, h10⟩ := bind_inv h8
    obtain ⟨-, k, rfl, t⟩ := inHeap_work (does_drainRevN _ (by exact hw) n) h9
    cases h10
    simp only [work, ← hl]; exact t
  | equal i j eq =>
    obtain ⟨o, h3, hs⟩ := bind_some' hs
    obtain ⟨v, h1⟩ := ask_some hs
    obtain ⟨v', hv, -⟩ := reach_sizes hr h1
    obtain ⟨o', ho, -⟩ := reach_sizes hr h3
    obtain ⟨v1, w1, h5, h6⟩ := bind_inv he
    simp only [var, ho] at h5; cases h5
    exact look_work hv (does_wrap (does_equal _ _ _) _) h6
  | compare i j cmp =>
    obtain ⟨o, h3, hs⟩ := bind_some' hs
    obtain ⟨v, h1⟩ := ask_some hs
    obtain ⟨v', hv, -⟩ := reach_sizes hr h1
    obtain ⟨o', ho, -⟩ := reach_sizes hr h3
    obtain ⟨v1, w1, h5, h6⟩ := bind_inv he
    simp only [var, ho] at h5; cases h5
    exact look_work hv (does_wrap (does_compareLoop _ _ _ _ _) _) h6
  | print i shw =>
    obtain ⟨v, h1⟩ := ask_some hs
    obtain ⟨v', hv, -⟩ := reach_sizes hr h1
    exact look_work hv (does_wrap (does_wrap (does_printLoop _ _ _ _) _) _) he

theorem room_le (len cap n : Nat) : (room len cap n).made ≤ len ∧ (room len cap n).ended ≤ len ∧ (room len cap n).blocks ≤ 1 := by
  unfold room; split <;> simp [nothing]

theorem work_linear {A A' : Ideal α} {size : Nat} {dflt : α} {op : Op α} {r : Res α} (hs : specStep false size dflt op A = some (r, A'))
    (hf : ∀ i xs, op ≠ .fromIter i xs) :
    (work A op).made ≤ 2 * had A op + asked A op ∧ (work A op).ended ≤ 2 * had A op ∧ (work A op).blocks ≤ 1 := by
  cases op with
  | fromIter i xs => exact absurd rfl (hf i xs)
  | pop i =>
    obtain ⟨v, p, h1, h2⟩ := upd_some hs
    split at h2
    · cases h2
    · rename_i hne
      have := List.length_pos_iff.2 hne
      simp only [work, had, asked, lenOf, h1]; omega
  | erase i p =>
    obtain ⟨v, p, h1, h2⟩ := upd_some hs
    split at h2
    · simp only [work, had, asked, lenOf, h1]; omega
    · cases h2
  | eraseRange i lo hi =>
    obtain ⟨v, p, h1, h2⟩ := upd_some hs
    split at h2
    · simp only [work, had, asked, lenOf, h1]; omega
    · cases h2
  | newFill i n _ _ | newCount i n _ =>
    have := room_le 0 0 n
    simp only [work, had, asked, Work.add_made, Work.add_ended, Work.add_blocks]; omega
  | copyAssign i j =>
    have := room_le (lenOf A i) (capOf A i) (capOf A j)
    simp only [work, had, asked]
    split
    · simp [nothing]
    · split <;> simp only [Work.add_made, Work.add_ended, Work.add_blocks] <;> omega
  | moveAssign i j =>
    simp only [work, had, asked]
    split
    · simp [nothing]
    · simp only []; omega
  | reserve i n =>
    have := room_le (lenOf A i) (capOf A i) n
    simp only [work, had, asked]; omega
  | push i _ =>
    have := room_le (lenOf A i) (capOf A i) (lenOf A i + 1)
    simp only [work, append, had, asked, Work.add_made, Work.add_ended, Work.add_blocks]; omega
  | assignFill i n _ =>
    have := room_le 0 (capOf A i) n
    simp only [work, had, asked, Work.add_made, Work.add_ended, Work.add_blocks]; omega
  | assignList i xs =>
    have := room_le 0 (capOf A i) xs.length
    simp only [work, had, asked, Work.add_made, Work.add_ended, Work.add_blocks]; omega
  | insert i p _ | emplace i p _ =>
    have := room_le (lenOf A i) (capOf A i) (lenOf A i + 1)
    simp only [work, shift, had, asked, Work.add_made, Work.add_ended, Work.add_blocks]; omega
  | insertFill i p n _ =>
    have := room_le (lenOf A i) (capOf A i) (lenOf A i + n)
    simp only [work, shift, had, asked, Work.add_made, Work.add_ended, Work.add_blocks]; omega
  | insertRange i p ys =>
    have := room_le (lenOf A i) (capOf A i) (lenOf A i + ys.length)
    simp only [work, shift, had, asked, Work.add_made, Work.add_ended, Work.add_blocks]; omega
  | resize i n | resizeFill i n _ =>
    have := room_le (lenOf A i) (capOf A i) n
    simp only [work, had, asked]
    split
    · simp only []; omega
    · simp only [Work.add_made, Work.add_ended, Work.add_blocks]; omega
  | _ => simp only [work, had, asked, nothing]; omega

end Verif.Proof.Vector
