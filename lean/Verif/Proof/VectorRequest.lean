import Verif.Proof.VectorReach
/-! # Proofs about requests whose number of bytes does not fit in a word (Model/Vector) -/
namespace Verif.Proof.Vector
open Verif Verif.Model.Mem Verif.Model.Vector Verif.Proof.Mem

variable {α β γ : Type} {ty : ElemTy α}

/-- The call is undefined, runs out of memory, or returns something satisfying `P`. -/
def Loose {β : Type} (o : Out β) (P : β → Prop) : Prop :=
  match o with
  | .ok b => P b
  | .oom => True
  | .ub => True
  | .div => False
  | .panic => False

theorem Loose.bind {x : Out β} {f : β → Out γ} {P : β → Prop} {Q : γ → Prop} (h : Loose x P) (hf : ∀ b, P b → Loose (f b) Q) :
    Loose (x >>= f) Q := by
  cases x <;> simp_all [Loose]

theorem Loose.mono {x : Out β} {P Q : β → Prop} (h : Loose x P) (hf : ∀ b, P b → Q b) : Loose x Q := by
  cases x <;> simp_all [Loose]

/-- Block `p` exists and has room for `k` elements. -/
def Room (h : Heap α) (p : Option Nat) (k : Nat) : Prop :=
  ∃ b blk, p = some b ∧ h.blocks b = some blk ∧ blk.slots.length = k

theorem access_room {p q : Option Nat} {i c d n : Nat} {k : Option α → Option (β × Option α)} {h : Heap α} (hr : Room h q n) :
    Loose (access p i c d k h) fun r => Room r.2 q n := by
  unfold access
  cases p with
  | none => trivial
  | some b =>
    simp only
    cases hb : h.blocks b with
    | none => trivial
    | some blk =>
      simp only
      cases hs : blk.slots[i]? with
      | none => trivial
      | some o =>
        simp only
        cases hk : k o with
        | none => trivial
        | some r =>
          obtain ⟨b', blk', rfl, hb', hl⟩ := hr
          show Room _ _ _
          by_cases he : b' = b
          · subst he
            rw [hb] at hb'; cases hb'
            exact ⟨_, _, rfl, by simp [Model.Mem.upd]; rfl, by simpa using hl⟩
          · exact ⟨_, _, rfl, by simpa [Model.Mem.upd, he] using hb', hl⟩

theorem construct_room {p : Option Nat} {i k : Nat} {x : α} {h : Heap α} (hr : Room h p k) :
    (i < k → ∃ h', construct p i x h = .ok ((), h') ∧ Room h' p k) ∧ (k ≤ i → construct p i x h = .ub) := by
  have h0 := access_room (p := p) (i := i) (c := 1) (d := 0) (k := fun _ => some ((), some x)) hr
  obtain ⟨b, blk, rfl, hb, hl⟩ := hr
  constructor
  · intro hi
    have hs : blk.slots[i]? = some blk.slots[i] := List.getElem?_eq_getElem (by omega)
    simp only [construct, access, hb, hs] at h0 ⊢
    exact ⟨_, rfl, h0⟩
  · intro hi
    simp [construct, access, hb, List.getElem?_eq_none (show blk.slots.length ≤ i by omega)]

theorem forUp_room {q : Option Nat} {n : Nat} {f : Nat → M α Unit}
    (hf : ∀ k h, Room h q n → Loose (f k h) fun r => Room r.2 q n) :
    ∀ (m i : Nat) (h : Heap α), Room h q n → Loose (forUp i m f h) fun r => Room r.2 q n := by
  intro m
  induction m with
  | zero => intro i h hr; exact hr
  | succ m ih =>
    intro i h hr
    simp only [forUp, Prog.bind_run]
    exact (hf i h hr).bind fun r hr => ih (i + 1) r.2 hr

theorem free_room {p q : Option Nat} {o m n : Nat} {h : Heap α} (hr : Room h q n) (hne : p ≠ q) :
    Loose (free ty o p m h) fun r => Room r.2 q n := by
  unfold free
  cases p with
  | none => exact hr
  | some b =>
    simp only
    cases hb : h.blocks b with
    | none => trivial
    | some blk =>
      simp only
      split
      · obtain ⟨b', blk', rfl, hb', hl⟩ := hr
        exact ⟨_, _, rfl, by simpa [Model.Mem.upd, show b' ≠ b from fun e => hne (by rw [e])] using hb', hl⟩
      · trivial

/-- the number of elements a block has room for that was asked for `n` -/
def got (ty : ElemTy α) (n : Nat) : Nat := wrap (ty.size * n) / ty.size

theorem got_lt {n : Nat} (hw : wordSize ≤ n * ty.size) : got ty n < n := by
  have hs := ty.size_pos
  unfold got wrap
  apply Nat.div_lt_of_lt_mul
  have : ty.size * n % wordSize < wordSize := Nat.mod_lt _ (by simp [wordSize])
  rw [Nat.mul_comm] at hw
  omega

theorem alloc_got (o n : Nat) (h : Heap α) :
    Loose (alloc ty o n h) fun r => r.1 = h.next ∧ Room r.2 (some r.1) (got ty n) ∧
      ∀ b blk, b ≠ h.next → h.blocks b = some blk → r.2.blocks b = some blk := by
  unfold alloc
  simp only
  split
  · trivial
  · refine ⟨rfl, ⟨_, _, rfl, by simp [Model.Mem.upd]; rfl, by simp [got]⟩, fun b blk hb h => ?_⟩
    simpa [Model.Mem.upd, hb] using h

/-- reallocation: the new block is as large as the request came out -/
theorem reserve_got {h : Heap α} {v : Vec} {xs : List α} (r : Rep ty h v xs) (hb : Bal h) {n : Nat} (hn : v.cap < n) :
    Loose (reserve ty v n h) fun q => q.1.len = v.len ∧ q.1.cap = n ∧ Room q.2 q.1.ptr (got ty n) := by
  have hne : v.ptr ≠ some h.next := by
    intro e
    have ho := r.own
    rw [e] at ho
    have := hb.lt ho.1
    omega
  rw [reserve, if_pos hn, allocateReserve]
  simp only [Prog.bind_run]
  refine (alloc_got v.alloc n h).bind ?_
  rintro ⟨b, h1⟩ ⟨rfl, hr, _⟩
  simp only at hr ⊢
  refine (forUp_room (q := some h.next) (n := got ty n) (fun k h' hr => ?_) v.len 0 h1 hr).bind ?_
  · simp only [Prog.bind_run]
    exact (access_room hr).bind fun p hp => access_room hp
  · rintro ⟨_, h2⟩ hr2
    simp only at hr2 ⊢
    simp only [clear, destroyAll, deallocate, Prog.bind_run, Prog.pure_run]
    refine Loose.bind (P := fun p : Vec × Heap α => Room p.2 (some h.next) (got ty n)) ?_ ?_
    · refine Loose.bind (P := fun p : Vec × Heap α => Room p.2 (some h.next) (got ty n) ∧ p.1.ptr = v.ptr) ?_ ?_
      · refine (forUp_room (q := some h.next) (n := got ty n) (fun k h' hr => access_room hr) v.len 0 h2 hr2).bind ?_
        rintro ⟨_, h3⟩ hr3
        exact ⟨hr3, rfl⟩
      · rintro ⟨v3, h3⟩ ⟨hr3, hp⟩
        simp only at hp hr3 ⊢
        refine (free_room hr3 (by rw [hp]; exact hne)).bind ?_
        rintro ⟨_, h4⟩ hr4
        exact hr4
    · rintro ⟨v5, h5⟩ hr5
      exact ⟨rfl, rfl, hr5⟩

/-- filling a block that is too small -/
theorem pushLoop_short (x : α) {n k : Nat} (hk : k < n) : ∀ (d : Nat) (v : Vec) (h : Heap α), v.cap = n → v.len + d = n →
    Room h v.ptr k → v.len ≤ k ∨ 0 < d → pushLoop ty (.tmp x) v d h = .ub := by
  intro d
  induction d with
  | zero => intro v h hc hl hr ho; omega
  | succ d ih =>
    intro v h hc hl hr _
    have h1 : ¬ v.len ≥ v.cap := by omega
    simp only [pushLoop, pushBack, Prog.bind_run, if_neg h1, Prog.pure_run, Out.bind_ok, deref]
    by_cases hlt : v.len < k
    · obtain ⟨h', e, hr'⟩ := (construct_room (i := v.len) (x := x) hr).1 hlt
      rw [e]
      exact ih { v with len := v.len + 1 } h' hc (by simp; omega) hr' (.inl hlt)
    · rw [(construct_room (i := v.len) (x := x) hr).2 (by omega)]; rfl

theorem Loose.then_ub {x : Out β} {f : β → Out γ} {P : β → Prop} (h : Loose x P) (hf : ∀ b, P b → f b = .ub) :
    (x >>= f) = .ub ∨ (x >>= f) = .oom := by
  cases x with
  | ok b => exact .inl (hf b h)
  | oom => exact .inr rfl
  | ub => exact .inl rfl
  | _ => exact h.elim

theorem rep_cap_lt {h : Heap α} {v : Vec} {xs : List α} (r : Rep ty h v xs) {n : Nat} (hw : wordSize ≤ n * ty.size) : v.cap < n := by
  have hs := r.own.small
  rcases Nat.lt_or_ge v.cap n with hc | hc
  · exact hc
  have := Nat.mul_le_mul_right ty.size hc
  have hW : wordSize = 18446744073709551616 := rfl
  omega

theorem assignFill_short {h : Heap α} {v : Vec} {xs : List α} (r : Rep ty h v xs) (hb : Bal h) {n : Nat} (x : α)
    (hw : wordSize ≤ n * ty.size) : assignFill ty v n (.tmp x) h = .ub ∨ assignFill ty v n (.tmp x) h = .oom := by
  have hc := rep_cap_lt r hw
  obtain ⟨h1, e1, t1⟩ := destroyAll_ok r hb
  simp only [assignFill, Prog.bind_run, e1, Out.bind_ok]
  refine (reserve_got t1.rep t1.bal (n := n) hc).then_ub ?_
  rintro ⟨v2, h2⟩ ⟨hl, hcap, hr⟩
  exact pushLoop_short x (got_lt hw) n v2 h2 hcap (by simp at hl; simp [hl]) hr (.inr (by omega))

theorem resizeFill_short {h : Heap α} {v : Vec} {xs : List α} (r : Rep ty h v xs) (hb : Bal h) {n : Nat} (x : α)
    (hw : wordSize ≤ n * ty.size) : resizeFill ty v n (.tmp x) h = .ub ∨ resizeFill ty v n (.tmp x) h = .oom := by
  have hc := rep_cap_lt r hw
  have hle := r.le
  have hl := r.len
  rw [resizeFill, if_neg (by omega), if_pos (show n > v.len by omega), if_pos (show n > v.cap by omega)]
  simp only [Prog.bind_run]
  refine (reserve_got r hb (n := n) hc).then_ub ?_
  rintro ⟨v2, h2⟩ ⟨hl2, hcap, hr⟩
  exact pushLoop_short x (got_lt hw) (n - v2.len) v2 h2 hcap (by simp at hl2; omega) hr (.inr (by simp at hl2; omega))

theorem newFill_short {h : Heap α} (hb : Bal h) {n a : Nat} (x : α) (hw : wordSize ≤ n * ty.size) :
    newFill ty n (.tmp x) a h = .ub ∨ newFill ty n (.tmp x) a h = .oom :=
  assignFill_short (v := Vec.blank a) (xs := []) ⟨rfl, by simp [Vec.blank, Own, raws]⟩ hb x hw

end Verif.Proof.Vector
