import Verif.Model.Mem
/-! # Storage: balance of tallies, frames, loops -/
namespace Verif.Proof.Mem
open Verif Verif.Model.Mem

variable {α β : Type}

/-! ## Sums over blocks -/

def sumTo (n : Nat) (f : Nat → Nat) : Nat :=
  match n with
  | 0 => 0
  | n + 1 => sumTo n f + f n

theorem sumTo_congr {n : Nat} {f g : Nat → Nat} (h : ∀ b, b < n → f b = g b) : sumTo n f = sumTo n g := by
  induction n with
  | zero => rfl
  | succ n ih => simp only [sumTo, ih (fun b hb => h b (by omega)), h n (by omega)]

theorem sumTo_zero {n : Nat} {f : Nat → Nat} (h : ∀ b, b < n → f b = 0) : sumTo n f = 0 := by
  induction n with
  | zero => rfl
  | succ n ih => simp only [sumTo, ih (fun b hb => h b (by omega)), h n (by omega)]

/-- changing one summand -/
theorem sumTo_change {n b : Nat} {f g : Nat → Nat} (hb : b < n) (h : ∀ x, x ≠ b → g x = f x) :
    sumTo n g + f b = sumTo n f + g b := by
  induction n with
  | zero => omega
  | succ n ih =>
    simp only [sumTo]
    by_cases hn : b = n
    · subst hn
      rw [sumTo_congr (f := g) (g := f) (fun x hx => h x (by omega))]
      omega
    · have := ih (by omega)
      have := h n (by omega)
      omega

def live : Option α → Nat
  | none => 0
  | some _ => 1

def liveSlots : List (Option α) → Nat
  | [] => 0
  | o :: os => live o + liveSlots os

theorem liveSlots_append (a b : List (Option α)) : liveSlots (a ++ b) = liveSlots a + liveSlots b := by
  induction a with
  | nil => simp [liveSlots]
  | cons o os ih => simp [liveSlots, ih]; omega

theorem liveSlots_set (sl : List (Option α)) (i : Nat) (o o' : Option α) (h : sl[i]? = some o) :
    liveSlots (sl.set i o') + live o = liveSlots sl + live o' := by
  induction sl generalizing i with
  | nil => simp at h
  | cons x xs ih =>
    cases i with
    | zero => simp at h; subst h; simp [liveSlots]; omega
    | succ i => simp at h; have := ih i h; simp [liveSlots]; omega

@[simp] theorem liveSlots_raw (n : Nat) : liveSlots (List.replicate n (none : Option α)) = 0 := by
  induction n with
  | zero => rfl
  | succ n ih => simp [List.replicate_succ, liveSlots, live, ih]

@[simp] theorem liveSlots_full (xs : List α) : liveSlots (xs.map some) = xs.length := by
  induction xs with
  | nil => rfl
  | cons x xs ih => simp [liveSlots, live, ih]; omega

def liveOf (o : Option (Block α)) : Nat :=
  match o with
  | none => 0
  | some blk => liveSlots blk.slots

def bytesOf (o : Option (Block α)) : Nat :=
  match o with
  | none => 0
  | some blk => blk.bytes

/-- The tallies agree with what is in the heap: every element constructed and not yet destroyed sits in a block, every
byte obtained and not yet returned belongs to a block. -/
structure Bal (h : Heap α) : Prop where
  fresh : ∀ b, h.next ≤ b → h.blocks b = none
  elems : h.ctors = h.dtors + sumTo h.next fun b => liveOf (h.blocks b)
  bytes : h.newBytes = h.freeBytes + sumTo h.next fun b => bytesOf (h.blocks b)

theorem Bal.lt {h : Heap α} (hb : Bal h) {b : Nat} {blk : Block α} (hh : h.blocks b = some blk) : b < h.next := by
  by_cases hlt : b < h.next
  · exact hlt
  · have := hb.fresh b (by omega); rw [this] at hh; cases hh

theorem Bal.empty {h : Heap α} (hb : Bal h) (he : ∀ b, h.blocks b = none) :
    h.ctors = h.dtors ∧ h.newBytes = h.freeBytes := by
  have h1 := hb.elems
  have h2 := hb.bytes
  rw [sumTo_zero (by intro b _; simp [he b, liveOf])] at h1
  rw [sumTo_zero (by intro b _; simp [he b, bytesOf])] at h2
  exact ⟨h1, h2⟩

/-! ## Steps that own some blocks -/

/-- What a piece of program did: constructions, destructions, allocations. -/
structure Cost where
  c : Nat
  d : Nat
  a : Nat

instance : Add Cost := ⟨fun x y => ⟨x.c + y.c, x.d + y.d, x.a + y.a⟩⟩
instance : Zero Cost := ⟨⟨0, 0, 0⟩⟩
@[simp] theorem Cost.add_mk (a b c a' b' c' : Nat) : (⟨a, b, c⟩ + ⟨a', b', c'⟩ : Cost) = ⟨a + a', b + b', c + c'⟩ := rfl
theorem Cost.zero_def : (0 : Cost) = ⟨0, 0, 0⟩ := rfl

/-- From `h` to `h'` only the owned blocks changed; `l` are owned before, `l'` after. -/
structure Step (h : Heap α) (l : List Nat) (h' : Heap α) (l' : List Nat) (k : Cost) : Prop where
  ctors : h'.ctors = h.ctors + k.c
  dtors : h'.dtors = h.dtors + k.d
  allocs : h'.next = h.next + k.a
  frame : ∀ b, b ∉ l → b ∉ l' → h'.blocks b = h.blocks b
  gone : ∀ b, b ∈ l → b ∉ l' → h'.blocks b = none
  fresh : ∀ b, b ∈ l' → b ∉ l → h.blocks b = none
  bal : Bal h → Bal h'

theorem Step.refl (h : Heap α) (l : List Nat) : Step h l h l 0 :=
  ⟨rfl, rfl, rfl, fun _ _ _ => rfl, fun _ a b => absurd a b, fun _ a b => absurd a b, id⟩

theorem Step.trans {h h' h'' : Heap α} {l l' l'' : List Nat} {k k' : Cost} (a : Step h l h' l' k)
    (b : Step h' l' h'' l'' k') : Step h l h'' l'' (k + k') := by
  refine ⟨?_, ?_, ?_, ?_, ?_, ?_, fun x => b.bal (a.bal x)⟩
  · rw [b.ctors, a.ctors, Nat.add_assoc]; rfl
  · rw [b.dtors, a.dtors, Nat.add_assoc]; rfl
  · rw [b.allocs, a.allocs, Nat.add_assoc]; rfl
  · intro x hx hx2
    by_cases hm : x ∈ l'
    · rw [b.gone x hm hx2, a.fresh x hm hx]
    · rw [b.frame x hm hx2, a.frame x hx hm]
  · intro x hx hx2
    by_cases hm : x ∈ l'
    · exact b.gone x hm hx2
    · rw [b.frame x hm hx2]; exact a.gone x hx hm
  · intro x hx hx2
    by_cases hm : x ∈ l'
    · exact a.fresh x hm hx2
    · rw [← a.frame x hx2 hm]; exact b.fresh x hx hm

/-- The frame rule. -/
theorem Step.weaken {h h' : Heap α} {l l' : List Nat} {k : Cost} (a : Step h l h' l' k) (m : List Nat) :
    Step h (m ++ l) h' (m ++ l') k := by
  refine ⟨a.ctors, a.dtors, a.allocs, ?_, ?_, ?_, a.bal⟩
  · intro b h1 h2; simp at h1 h2; exact a.frame b h1.2 h2.2
  · intro b h1 h2; simp at h1 h2; exact a.gone b (h1.resolve_left h2.1) h2.2
  · intro b h1 h2; simp at h1 h2; exact a.fresh b (h1.resolve_left h2.1) h2.2

theorem Step.weaken' {h h' : Heap α} {l l' : List Nat} {k : Cost} (a : Step h l h' l' k) (m : List Nat) :
    Step h (l ++ m) h' (l' ++ m) k := by
  refine ⟨a.ctors, a.dtors, a.allocs, ?_, ?_, ?_, a.bal⟩
  · intro b h1 h2; simp at h1 h2; exact a.frame b h1.1 h2.1
  · intro b h1 h2; simp at h1 h2; exact a.gone b (h1.resolve_right h2.2) h2.1
  · intro b h1 h2; simp at h1 h2; exact a.fresh b (h1.resolve_right h2.2) h2.1

/-- Blocks of others survive. -/
theorem Step.keep {h h' : Heap α} {l l' : List Nat} {k : Cost} (a : Step h l h' l' k) {b : Nat} {blk : Block α}
    (hb : h.blocks b = some blk) (hn : b ∉ l) : h'.blocks b = some blk := by
  rw [a.frame b hn, hb]
  intro hl
  have := a.fresh b hl hn
  rw [this] at hb; cases hb

/-! ## Primitives -/

theorem free_none (ty : ElemTy α) (owner n : Nat) (h : Heap α) : free ty owner none n h = .ok ((), h) := rfl

theorem free_ok (ty : ElemTy α) {h : Heap α} {b owner bytes n : Nat} {sl : List (Option α)}
    (hh : h.blocks b = some ⟨owner, bytes, sl⟩) (hb : bytes = n * ty.size) (hw : bytes < wordSize)
    (hraw : liveSlots sl = 0) :
    ∃ h', free ty owner (some b) n h = .ok ((), h') ∧ Step h [b] h' [] 0 := by
  have hbytes : bytes = wrap (n * ty.size) := by rw [← hb]; exact (wrap_of_lt hw).symm
  refine ⟨{ h with blocks := upd h.blocks b none, freeBytes := h.freeBytes + bytes }, ?_, ?_⟩
  · simp only [free, hh]; rw [if_pos ⟨trivial, hbytes⟩]
  · refine ⟨rfl, rfl, rfl, ?_, ?_, ?_, ?_⟩
    · intro x hx _; simp at hx; simp [upd, hx]
    · intro x hx _; simp at hx; simp [upd, hx]
    · intro x hx; simp at hx
    · intro hbal
      have hlt := hbal.lt hh
      refine ⟨?_, ?_, ?_⟩
      · intro x hx; simp only [upd]; split
        · rfl
        · exact hbal.fresh x hx
      · have := hbal.elems
        have hc := sumTo_change (n := h.next) (b := b) (f := fun x => liveOf (h.blocks x))
          (g := fun x => liveOf (upd h.blocks b none x)) hlt (by intro x hx; simp [upd, hx])
        simp only [hh, upd, liveOf, hraw, if_true] at hc this ⊢
        omega
      · have := hbal.bytes
        have hc := sumTo_change (n := h.next) (b := b) (f := fun x => bytesOf (h.blocks x))
          (g := fun x => bytesOf (upd h.blocks b none x)) hlt (by intro x hx; simp [upd, hx])
        simp only [hh, upd, bytesOf, if_true] at hc this ⊢
        omega

theorem alloc_ok (ty : ElemTy α) (h : Heap α) (owner n : Nat) (hbal : Bal h) (hw : n * ty.size < wordSize) :
    (alloc ty owner n h).Safe fun q =>
      q.2.blocks q.1 = some ⟨owner, n * ty.size, List.replicate n none⟩ ∧ n * ty.size < 9223372036854775808 ∧
      Step h [] q.2 [q.1] ⟨0, 0, 1⟩ := by
  have hbytes : wrap (ty.size * n) = n * ty.size := by rw [Nat.mul_comm, wrap_of_lt hw]
  unfold alloc
  rw [hbytes]
  by_cases hr : ty.refuse h.next (n * ty.size)
  · simp [hr]
  · rw [if_neg hr]
    have hlim : n * ty.size < 9223372036854775808 := by
      by_cases hlt : n * ty.size < 9223372036854775808
      · exact hlt
      · exact absurd (ty.refuse_big _ _ (by omega)) hr
    have hdiv : n * ty.size / ty.size = n := Nat.mul_div_cancel _ ty.size_pos
    rw [hdiv]
    refine ⟨by simp [upd], hlim, ⟨rfl, rfl, rfl, ?_, ?_, ?_, ?_⟩⟩
    · intro b _ hb; simp at hb; simp [upd, hb]
    · intro b hb; simp at hb
    · intro b hb _; simp at hb; subst hb; exact hbal.fresh _ (Nat.le_refl _)
    · intro _
      refine ⟨?_, ?_, ?_⟩
      · intro x hx
        simp only at hx
        simp only [upd]
        rw [if_neg (by omega)]
        exact hbal.fresh x (by omega)
      · have := hbal.elems
        simp only [sumTo, upd, if_true, liveOf, liveSlots_raw]
        rw [sumTo_congr (g := fun b => liveOf (h.blocks b)) (by intro b hb; simp only [liveOf]; rw [if_neg (by omega)])]
        simp only [liveOf] at this ⊢
        omega
      · have := hbal.bytes
        simp only [sumTo, upd, if_true, bytesOf]
        rw [sumTo_congr (g := fun b => bytesOf (h.blocks b)) (by intro b hb; simp only [bytesOf]; rw [if_neg (by omega)])]
        simp only [bytesOf] at this ⊢
        omega

theorem access_ok {h : Heap α} {b i c d owner bytes : Nat} {sl : List (Option α)} {k : Option α → Option (β × Option α)}
    {o o' : Option α} {r : β} (hh : h.blocks b = some ⟨owner, bytes, sl⟩) (hi : sl[i]? = some o) (hk : k o = some (r, o'))
    (hc : c + live o = d + live o') :
    ∃ h', access (some b) i c d k h = .ok (r, h') ∧ h'.blocks b = some ⟨owner, bytes, sl.set i o'⟩ ∧ Step h [b] h' [b] ⟨c, d, 0⟩ := by
  refine ⟨{ h with blocks := upd h.blocks b (some ⟨owner, bytes, sl.set i o'⟩), ctors := h.ctors + c, dtors := h.dtors + d },
    by simp only [access, hh, hi, hk], by simp [upd], ⟨rfl, rfl, rfl, ?_, ?_, ?_, ?_⟩⟩
  · intro x hx _; simp at hx; simp [upd, hx]
  · intro x h1 h2; exact absurd h1 h2
  · intro x h1 h2; exact absurd h1 h2
  · intro hbal
    have hlt := hbal.lt hh
    refine ⟨?_, ?_, ?_⟩
    · intro x hx; simp only [upd]; rw [if_neg (by simp only at hx; omega)]; exact hbal.fresh x hx
    · have := hbal.elems
      have hs := liveSlots_set sl i o o' hi
      have hc := sumTo_change (n := h.next) (b := b) (f := fun x => liveOf (h.blocks x))
        (g := fun x => liveOf (upd h.blocks b (some ⟨owner, bytes, sl.set i o'⟩) x)) hlt (by intro x hx; simp [upd, hx])
      simp only [hh, upd, liveOf, if_true] at hc ⊢
      simp only [upd, liveOf] at hc this
      omega
    · have := hbal.bytes
      rw [sumTo_congr (g := fun b => bytesOf (h.blocks b))]
      · exact this
      · intro x _; simp only [upd, bytesOf]; by_cases hx : x = b
        · subst hx; simp [hh]
        · simp [hx]

theorem access_null (i c d : Nat) (k : Option α → Option (β × Option α)) (h : Heap α) : access none i c d k h = .ub := rfl

/-! ## Buffers of a container: null, or one owned block of the announced capacity -/

/-- Container fields `ptr`, `cap`, `alloc` describe a buffer with slots `sl`. -/
def Own (ty : ElemTy α) (h : Heap α) (ptr : Option Nat) (cap owner : Nat) (sl : List (Option α)) : Prop :=
  match ptr with
  | none => sl = [] ∧ cap = 0
  | some b => h.blocks b = some ⟨owner, cap * ty.size, sl⟩ ∧ sl.length = cap ∧ cap * ty.size < 9223372036854775808

variable {ty : ElemTy α}

theorem Own.length {h : Heap α} {ptr : Option Nat} {cap owner : Nat} {sl : List (Option α)}
    (ho : Own ty h ptr cap owner sl) : sl.length = cap := by
  cases ptr with
  | none => simp only [Own] at ho; simp [ho]
  | some b => simp only [Own] at ho; exact ho.2.1

theorem Own.small {h : Heap α} {ptr : Option Nat} {cap owner : Nat} {sl : List (Option α)}
    (ho : Own ty h ptr cap owner sl) : cap * ty.size < 9223372036854775808 := by
  cases ptr with
  | none => simp only [Own] at ho; simp [ho]
  | some b => simp only [Own] at ho; exact ho.2.2

theorem Own.cap_lt {h : Heap α} {ptr : Option Nat} {cap owner : Nat} {sl : List (Option α)}
    (ho : Own ty h ptr cap owner sl) : cap < 9223372036854775808 :=
  Nat.lt_of_le_of_lt (Nat.le_mul_of_pos_right cap ty.size_pos) ho.small

theorem Own.keep {h h' : Heap α} {ptr : Option Nat} {cap owner : Nat} {sl : List (Option α)} {l l' : List Nat} {k : Cost}
    (ho : Own ty h ptr cap owner sl) (s : Step h l h' l' k) (hn : ∀ b, ptr = some b → b ∉ l) : Own ty h' ptr cap owner sl := by
  cases ptr with
  | none => exact ho
  | some b => simp only [Own] at ho ⊢; exact ⟨s.keep ho.1 (hn b rfl), ho.2⟩

theorem own_access {h : Heap α} {ptr : Option Nat} {i c d cap owner : Nat} {sl : List (Option α)}
    {k : Option α → Option (β × Option α)} {o o' : Option α} {r : β} (ho : Own ty h ptr cap owner sl)
    (hi : sl[i]? = some o) (hk : k o = some (r, o')) (hc : c + live o = d + live o') :
    ∃ h', access ptr i c d k h = .ok (r, h') ∧ Own ty h' ptr cap owner (sl.set i o') ∧
      Step h ptr.toList h' ptr.toList ⟨c, d, 0⟩ := by
  cases ptr with
  | none => simp only [Own] at ho; simp [ho.1] at hi
  | some b =>
    simp only [Own] at ho
    obtain ⟨h', h1, h2, h3⟩ := access_ok ho.1 hi hk hc
    exact ⟨h', h1, by simp only [Own]; exact ⟨h2, by simp [ho.2.1], ho.2.2⟩, by simpa using h3⟩

/-- slot lists with a focus -/
theorem focus_get {A : Type} (pre : List A) (o : A) (post : List A) {i : Nat} (hi : i = pre.length) :
    (pre ++ o :: post)[i]? = some o := by subst hi; simp

theorem focus_set {A : Type} (pre : List A) (o o' : A) (post : List A) {i : Nat} (hi : i = pre.length) :
    (pre ++ o :: post).set i o' = pre ++ o' :: post := by subst hi; simp

section prims
variable {h : Heap α} {ptr : Option Nat} {i cap owner : Nat} {pre post : List (Option α)} {x y : α} {o : Option α}

theorem construct_ok (ho : Own ty h ptr cap owner (pre ++ none :: post)) (hi : i = pre.length) :
    ∃ h', construct ptr i x h = .ok ((), h') ∧ Own ty h' ptr cap owner (pre ++ some x :: post) ∧
      Step h ptr.toList h' ptr.toList ⟨1, 0, 0⟩ := by
  obtain ⟨h', h1, h2, h3⟩ := own_access (k := fun _ => some ((), some x)) (o' := some x) (c := 1) (d := 0) ho
    (focus_get pre none post hi) rfl rfl
  exact ⟨h', h1, by rwa [focus_set _ _ _ _ hi] at h2, h3⟩

theorem destroy_ok (ho : Own ty h ptr cap owner (pre ++ some x :: post)) (hi : i = pre.length) :
    ∃ h', destroy ptr i h = .ok ((), h') ∧ Own ty h' ptr cap owner (pre ++ none :: post) ∧
      Step h ptr.toList h' ptr.toList ⟨0, 1, 0⟩ := by
  obtain ⟨h', h1, h2, h3⟩ := own_access (k := fun o : Option α => o.map fun _ => ((), none)) (o' := none) (c := 0) (d := 1) ho
    (focus_get pre (some x) post hi) rfl rfl
  exact ⟨h', h1, by rwa [focus_set _ _ _ _ hi] at h2, h3⟩

theorem store_ok (ho : Own ty h ptr cap owner (pre ++ some x :: post)) (hi : i = pre.length) :
    ∃ h', store ptr i y h = .ok ((), h') ∧ Own ty h' ptr cap owner (pre ++ some y :: post) ∧
      Step h ptr.toList h' ptr.toList 0 := by
  obtain ⟨h', h1, h2, h3⟩ := own_access (k := fun o : Option α => o.map fun _ => ((), some y)) (o' := some y) (c := 0) (d := 0)
    ho (focus_get pre (some x) post hi) rfl rfl
  exact ⟨h', h1, by rwa [focus_set _ _ _ _ hi] at h2, h3⟩

theorem take_ok (ho : Own ty h ptr cap owner (pre ++ some x :: post)) (hi : i = pre.length) :
    ∃ h', take ty ptr i h = .ok (x, h') ∧ Own ty h' ptr cap owner (pre ++ some (ty.mv x) :: post) ∧
      Step h ptr.toList h' ptr.toList 0 := by
  obtain ⟨h', h1, h2, h3⟩ := own_access (k := fun o : Option α => o.map fun x => (x, some (ty.mv x))) (o' := some (ty.mv x))
    (c := 0) (d := 0) ho (focus_get pre (some x) post hi) rfl rfl
  exact ⟨h', h1, by rwa [focus_set _ _ _ _ hi] at h2, h3⟩

/-- reading changes nothing at all -/
theorem load_ok {sl : List (Option α)} (ho : Own ty h ptr cap owner sl) (hi : sl[i]? = some (some x)) :
    load ptr i h = .ok (x, h) := by
  cases ptr with
  | none => simp only [Own] at ho; simp [ho.1] at hi
  | some b =>
    simp only [Own] at ho
    simp only [load, access, ho.1, hi, Option.map_some]
    have : sl.set i (some x) = sl := by
      apply List.ext_getElem?
      intro j
      by_cases hj : i = j
      · subst hj
        have hlt : i < sl.length := by
          have := hi; rw [List.getElem?_eq_some_iff] at this; exact this.1
        rw [List.getElem?_set_self hlt, hi]
      · simp [List.getElem?_set, hj]
    rw [this]
    congr 2
    have hu : upd h.blocks b (some ⟨owner, cap * ty.size, sl⟩) = h.blocks := by
      funext b'; simp only [upd]; split
      · rename_i heq; subst heq; exact ho.1.symm
      · rfl
    rw [hu]
    rfl

end prims

end Verif.Proof.Mem
