import Verif.Proof.BStringNeed
import Verif.Spec.BStringLive
/-! # What string calls do to the buffers of all strings -/
namespace Verif.Proof.BStr
open Verif Verif.Model.BStr
open Verif.Spec.BStr hiding memory

variable {h h' : Heap} {cfg : Cfg} {w w' : World} {A A' : Ideal} {R : Nat → Nat} {i j : Nat} {xs ys : List UInt8}

structure Flow (w w' : World) (R' : Nat → Nat) (dest : Nat → Option Nat) (en : Nat → Bool) : Prop where
  keep : ∀ i s b, w.vars i = some s → b ∈ own s → match dest i with
    | some j => ∃ s', w'.vars j = some s' ∧ b ∈ own s'
    | none => w'.heap.blk b = none
  stale : ∀ b, b < w.heap.next → w.heap.blk b = none → w'.heap.blk b = none
  mono : w.heap.next ≤ w'.heap.next
  room : ∀ i s, w'.vars i = some s → R' i = cap s
  alive : ∀ i, w.vars i ≠ none → en i = false → w'.vars i ≠ none
  dead : ∀ i, en i = true → w'.vars i = none

def Rooms (w : World) (R : Nat → Nat) : Prop := ∀ i s, w.vars i = some s → R i = cap s

theorem ownVar_live (I : Inv w A) : ∀ b ∈ ownVar w i, w.heap.blk b ≠ none := by
  intro b hb
  obtain ⟨s, hs, hm⟩ := mem_ownVar.1 hb
  obtain ⟨xs, -, r⟩ := I.rep' hs
  exact r.own_live b hm

theorem step_stale {O O' : List Nat} (st : Step h O h' O') (hO : ∀ b ∈ O, h.blk b ≠ none) {b : Nat} (h1 : b < h.next) (h2 : h.blk b = none) :
    h'.blk b = none := by
  have n1 : b ∉ O := fun hm => hO b hm h2
  rw [st.keep b n1 fun hm => by have := st.new b hm n1; omega]
  exact h2

theorem flow_refl (hr : Rooms w R) : Flow w w R some fun _ => false :=
  ⟨fun i s b hs hb => ⟨s, hs, hb⟩, fun _ _ h => h, Nat.le_refl _, hr, fun _ h _ => h, fun _ h => by cases h⟩

theorem flow_set (I : Inv w A) (hr : Rooms w R) {s' : Str} {R' : Nat → Nat} {dest : Nat → Option Nat} (st : Step w.heap (ownVar w i) h' (own s'))
    (h1 : R' i = cap s') (h2 : ∀ k, k ≠ i → R' k = R k) (h3 : ∀ k, k ≠ i → dest k = some k)
    (h4 : (dest i = some i ∧ ∀ b ∈ ownVar w i, b ∈ own s') ∨ (dest i = none ∧ ∀ b ∈ ownVar w i, b ∉ own s')) :
    Flow w ⟨h', upd w.vars i (some s')⟩ R' dest fun _ => false := by
  refine ⟨?_, fun b => step_stale st (ownVar_live I), st.mono, ?_, ?_, fun _ h => by cases h⟩
  · intro k s b hs hb
    by_cases hk : k = i
    · subst hk
      have hb' : b ∈ ownVar w k := mem_ownVar.2 ⟨s, hs, hb⟩
      rcases h4 with ⟨e, hk⟩ | ⟨e, hk⟩
      · rw [e]; exact ⟨s', upd_same _ _ _, hk b hb'⟩
      · rw [e]; exact st.gone b hb' (hk b hb')
    · rw [h3 k hk]
      exact ⟨s, by rw [← hs]; exact upd_ne hk, hb⟩
  · intro k s hs
    by_cases hk : k = i
    · subst hk
      dsimp only at hs
      rw [upd_same] at hs; cases hs; exact h1
    · dsimp only at hs
      rw [upd_ne hk] at hs
      rw [h2 k hk]; exact hr k s hs
  · intro k hk _
    dsimp only
    by_cases e : k = i
    · subst e; rw [upd_same]; simp
    · rw [upd_ne e]; exact hk

theorem flow_del (I : Inv w A) (hr : Rooms w R) {dest : Nat → Option Nat} (st : Step w.heap (ownVar w i) h' [])
    (h3 : ∀ k, k ≠ i → dest k = some k) (h4 : dest i = none) : Flow w ⟨h', upd w.vars i none⟩ R dest fun k => i == k := by
  refine ⟨?_, fun b => step_stale st (ownVar_live I), st.mono, ?_, ?_, ?_⟩
  · intro k s b hs hb
    by_cases hk : k = i
    · subst hk
      rw [h4]
      exact st.gone b (mem_ownVar.2 ⟨s, hs, hb⟩) (by simp)
    · rw [h3 k hk]
      exact ⟨s, by rw [← hs]; exact upd_ne hk, hb⟩
  · intro k s hs
    by_cases hk : k = i
    · subst hk
      dsimp only at hs
      rw [upd_same] at hs; cases hs
    · dsimp only at hs
      rw [upd_ne hk] at hs
      exact hr k s hs
  · intro k hk e
    dsimp only
    rw [upd_ne (by rintro rfl; simp at e)]; exact hk
  · intro k e
    simp at e; subst e; exact upd_same _ _ _

theorem flow_set2 (I : Inv w A) (hr : Rooms w R) {s t : Str} {R' : Nat → Nat} {dest : Nat → Option Nat} (hij : i ≠ j)
    (st : Step w.heap (ownVar w i ++ ownVar w j) h' (own s)) (hs : own s = ownVar w j)
    (h1 : R' i = cap s) (h1' : R' j = cap t) (h2 : ∀ k, k ≠ i → k ≠ j → R' k = R k) (h3 : ∀ k, k ≠ i → k ≠ j → dest k = some k)
    (h4 : dest j = some i) (h5 : ownVar w i = [] ∨ dest i = none) :
    Flow w ⟨h', upd (upd w.vars i (some s)) j (some t)⟩ R' dest fun _ => false := by
  have e1 : upd (upd w.vars i (some s)) j (some t) i = some s := by rw [upd_ne hij, upd_same]
  have e2 : upd (upd w.vars i (some s)) j (some t) j = some t := upd_same _ _ _
  have e3 : ∀ k, k ≠ i → k ≠ j → upd (upd w.vars i (some s)) j (some t) k = w.vars k := fun k k1 k2 => by rw [upd_ne k2, upd_ne k1]
  refine ⟨?_, fun b => step_stale st ?_, st.mono, ?_, ?_, fun _ h => by cases h⟩
  · intro k u b hu hb
    have hb' : b ∈ ownVar w k := mem_ownVar.2 ⟨u, hu, hb⟩
    by_cases hk : k = i
    · subst hk
      rcases h5 with e | e
      · rw [e] at hb'; cases hb'
      · rw [e]
        refine st.gone b (List.mem_append_left _ hb') ?_
        rw [hs]
        intro hm
        obtain ⟨u', hu', hb2⟩ := mem_ownVar.1 hm
        exact hij (I.sep k j u u' b hu hu' hb hb2)
    · by_cases hk' : k = j
      · subst hk'
        rw [h4]
        exact ⟨s, e1, by rw [hs]; exact hb'⟩
      · rw [h3 k hk hk']
        exact ⟨u, by rw [← hu]; exact e3 k hk hk', hb⟩
  · intro b hb
    rcases List.mem_append.1 hb with hb | hb
    · exact ownVar_live I b hb
    · exact ownVar_live I b hb
  · intro k u hu
    dsimp only at hu
    by_cases hk : k = i
    · subst hk; rw [e1] at hu; cases hu; exact h1
    · by_cases hk' : k = j
      · subst hk'; rw [e2] at hu; cases hu; exact h1'
      · rw [e3 k hk hk'] at hu
        rw [h2 k hk hk']; exact hr k u hu
  · intro k hk _
    dsimp only
    by_cases k1 : k = i
    · subst k1; rw [e1]; simp
    · by_cases k2 : k = j
      · subst k2; rw [e2]; simp
      · rw [e3 k k1 k2]; exact hk

/-! ## Buffers of grown and copied strings -/

/-- Successful outcomes from heap `h`. -/
def At {β : Type} (h : Heap) (m : M β) (P : β → Heap → Prop) : Prop := ∀ b h', m h = .ok (b, h') → P b h'

theorem At.bind {β γ : Type} {m : M β} {f : β → M γ} {P : β → Heap → Prop} {Q : γ → Heap → Prop} (hm : At h m P)
    (hf : ∀ b h1, P b h1 → At h1 (f b) Q) : At h (m >>= f) Q := by
  intro c h' e
  rw [Prog.bind_run] at e
  cases e1 : m h with
  | ok p => rw [e1] at e; exact hf p.1 p.2 (hm _ _ e1) c h' e
  | _ => rw [e1] at e; cases e

theorem At.pure {β : Type} {b : β} {P : β → Heap → Prop} (hb : P b h) : At h (Pure.pure b : M β) P := by
  intro c h' e; cases e; exact hb

theorem at_any {β : Type} (m : M β) : At h m fun _ _ => True := fun _ _ _ => trivial

theorem at_ub {β : Type} {P : β → Heap → Prop} : At h (Prog.ub : M β) P := fun _ _ e => by cases e
theorem at_panic {β : Type} {P : β → Heap → Prop} : At h (Prog.panic : M β) P := fun _ _ e => by cases e

theorem Quiet.at {β : Type} {m : M β} (hm : Quiet m) : At h m fun _ h' => h'.next = h.next := by
  intro b h' e
  have := hm h
  rw [e] at this
  exact this.1

theorem at_alloc (o n : Nat) : At h (allocate cfg o n) fun b _ => b = h.next := by
  intro b h' e
  unfold allocate at e
  split at e
  · cases e
  · cases e; rfl

theorem at_write (s : Str) (l : Loc) (off : Nat) (d : List Byte) : At h (writeAt s l off d) fun s' _ => s'.bytes = s.bytes := by
  cases l with
  | heap p => exact fun b h' e => by rw [writeAt_heap s p off d h b h' e]
  | inline =>
    unfold writeAt
    simp only
    split
    · exact At.pure rfl
    · split
      · exact At.pure rfl
      · exact at_ub

/-- The pointer of a string that has grown to `n` bytes. -/
def Held (h : Heap) (s : Str) (n : Nat) (s' : Str) : Prop := s'.bytes = if n ≤ cap s then s.bytes else some h.next

theorem tryAllocate_held (s : Str) (n : Nat) : At h (tryAllocate cfg s n) fun p _ => Held h s n p.1 := by
  unfold tryAllocate Held
  by_cases hl : localSize < s.len
  · rw [if_pos hl]
    cases hs : s.store with
    | inline bs => simp only [getCap, hs]; exact at_ub
    | cap c =>
      simp only [getCap, hs, pure_bind_eq]
      have hc : cap s = c := by simp [cap, hs]; omega
      rw [hc]
      split
      next hn =>
        refine (at_alloc _ _).bind fun b _ hb => At.pure ?_
        rw [if_neg (by omega), hb]
      next hn => exact At.pure (by rw [if_pos (by omega)])
  · rw [if_neg hl]
    have hc : cap s = localSize := by simp [cap]; omega
    rw [hc]
    split
    next hn =>
      refine (at_alloc _ _).bind fun b _ hb => At.pure ?_
      rw [if_neg (by omega), hb]
    next hn => exact At.pure (by rw [if_pos (by omega)])

theorem pushBack_held (s : Str) (ch : List UInt8) : At h (pushBack cfg s ch) fun s' _ => Held h s (s.len + ch.length) s' := by
  unfold pushBack
  refine (tryAllocate_held s _).bind fun p _ hp => ?_
  refine At.bind (P := fun s' _ => s'.bytes = p.1.bytes) ?_ fun s' _ hs' => ?_
  · split
    · exact (at_any _).bind fun _ _ _ => (at_write _ _ _ _).bind fun s1 _ e1 => (at_any _).bind fun _ _ _ => At.pure e1
    · exact At.pure rfl
  · refine (at_write _ _ _ _).bind fun s2 _ e2 => At.pure ?_
    unfold Held at hp ⊢
    simp only [e2, hs', hp]

theorem insert_held (s : Str) (ch : List UInt8) (idx : Nat) :
    At h (Model.BStr.insert cfg s ch idx) fun s' _ => Held h s (s.len + ch.length) s' := by
  unfold Model.BStr.insert
  refine (quiet_isCharBoundary _ _).at.bind fun b h1 hn => ?_
  split
  · exact at_panic
  refine (tryAllocate_held s _).bind fun p _ hp => ?_
  refine At.bind (P := fun s' _ => s'.bytes = p.1.bytes) ?_ fun s' _ hs' => At.pure ?_
  · split
    · exact (at_any _).bind fun _ _ _ => (at_write _ _ _ _).bind fun s1 _ e1 => (at_write _ _ _ _).bind fun s2 _ e2 =>
        (at_any _).bind fun _ _ _ => (at_write _ _ _ _).bind fun s3 _ e3 => (at_any _).bind fun _ _ _ => At.pure (by rw [e3, e2, e1])
    · refine (at_any _).bind fun _ _ _ => (at_write _ _ _ _).bind fun s1 _ e1 => ?_
      intro s2 h2 e2
      rw [at_write _ _ _ _ s2 h2 e2, e1]
  · unfold Held at hp ⊢
    simp only [hs', hp, hn]

/-- What copy assignment between two strings on the heap leaves. -/
theorem copyAssign_held {s o : Str} {c : Nat} (hs : localSize < s.len) (ho : localSize < o.len) (hc : s.store = .cap c) :
    At h (copyAssign cfg s o) fun s' _ => s'.len = o.len ∧
      (if o.len ≤ c then s'.bytes = s.bytes ∧ s'.store = .cap c else s'.bytes = some h.next ∧ s'.store = .cap (roomy o.len)) := by
  unfold copyAssign
  rw [if_neg (by omega), if_neg (by omega), if_neg (by omega)]
  simp only [getCap, hc, pure_bind_eq]
  by_cases hle : o.len ≤ c
  · rw [if_neg (by omega)]
    simp only [if_pos hle, pure_bind_eq]
    refine (at_any _).bind fun _ _ _ => ?_
    intro s2 h2 e2
    rw [writeAt_heap _ _ _ _ _ _ _ e2]
    exact ⟨rfl, rfl, by simp [hc]⟩
  · rw [if_pos (by omega)]
    simp only [if_neg hle]
    refine At.bind (P := fun s' _ => s'.len = o.len ∧ s'.bytes = some h.next ∧ s'.store = .cap (roomy o.len)) ?_ fun s' _ hs' => ?_
    · refine (quiet_dealloc _ _ _).at.bind fun _ h1 e1 => quiet_assignAlloc.at.bind fun _ h2 e2 => (at_alloc _ _).bind fun b _ hb => At.pure ?_
      exact ⟨rfl, by simp only [hb, e2, e1], rfl⟩
    · refine (at_any _).bind fun _ _ _ => ?_
      intro s2 h2 e2
      rw [writeAt_heap _ _ _ _ _ _ _ e2]
      exact hs'

/-- A short string gets a copy of a long one. -/
theorem copyAssign_new {s o : Str} {c : Nat} (hs : s.len < localSize) (ho : localSize < o.len) (hc : o.store = .cap c) :
    At h (copyAssign cfg s o) fun s' _ => s'.len = o.len ∧ s'.store = .cap c := by
  unfold copyAssign
  rw [if_neg (by omega), if_pos ⟨hs, ho⟩]
  simp only [getCap, hc, pure_bind_eq]
  refine (at_any _).bind fun _ _ _ => (at_any _).bind fun _ _ _ => (at_any _).bind fun _ _ _ => ?_
  intro s2 h2 e2
  rw [writeAt_heap _ _ _ _ _ _ _ e2]
  exact ⟨rfl, rfl⟩

theorem moveAssign_cap {s o : Str} {c : Nat} (hs : s.len ≠ localSize) (ho : localSize < o.len) (hc : o.store = .cap c) :
    At h (moveAssign cfg s o) fun p _ => p.1.store = .cap c := by
  unfold moveAssign
  rw [if_neg (by omega)]
  split
  · refine (at_any _).bind fun _ _ _ => ?_
    simp only [getCap, hc, pure_bind_eq]
    exact At.pure rfl
  rw [if_neg (by omega)]
  refine (at_any _).bind fun _ _ _ => (at_any _).bind fun _ _ _ => (at_any _).bind fun _ _ _ => ?_
  simp only [getCap, hc, pure_bind_eq]
  exact At.pure rfl

theorem popBack_store {s : Str} : At h (popBack s) fun p _ => p.2.store = s.store := by
  unfold popBack
  refine (at_any _).bind fun bs _ _ => ?_
  split <;> exact At.pure rfl

theorem newLit_room (lit : List UInt8) (a : Nat) :
    At h (newLit cfg lit a) fun s' _ => cap s' = if lit.length ≤ 16 then 16 else roomy lit.length := by
  unfold newLit
  by_cases hl : lit.length ≤ localSize
  · rw [if_pos hl]
    rw [if_pos (show lit.length ≤ 16 from hl)]
    intro s' h' e
    have := writeAt_len _ _ _ _ _ _ _ e
    simp only at this
    simp only [cap, this, if_pos hl]; rfl
  · rw [if_neg hl, if_neg (show ¬ lit.length ≤ 16 from hl)]
    refine (at_any _).bind fun b _ _ => ?_
    intro s2 h2 e2
    rw [writeAt_heap _ _ _ _ _ _ _ e2]
    simp [cap, hl, roomy]

theorem newCopy_room {o : Str} {xs : List UInt8} (r : Rep h o xs) : At h (newCopy cfg o) fun s' _ => cap s' = cap o := by
  unfold newCopy
  by_cases hl : localSize < o.len
  · rw [if_pos hl]
    obtain ⟨b, data, a, rfl, -, -⟩ := r.big_inv (by rw [← r.len]; exact hl)
    simp only [getCap, pure_bind_eq]
    refine (at_any _).bind fun b _ _ => (at_any _).bind fun _ _ _ => ?_
    intro s2 h2 e2
    rw [writeAt_heap _ _ _ _ _ _ _ e2]
    simp [cap]
  · rw [if_neg hl]
    refine At.pure ?_
    simp [cap, show o.len ≤ localSize by omega]

/-! ## All calls -/

theorem lenOf_some (h : A i = some xs) : lenOf A i = xs.length := by simp [lenOf, h]

theorem Rep.cap_small {s : Str} (r : Rep h s xs) (hl : xs.length ≤ 16) : cap s = 16 := by
  unfold cap; rw [if_pos (by rw [r.len]; exact hl)]; rfl

theorem Rep.own_some {s : Str} {b : Nat} (r : Rep h s xs) (hb : b ∈ own s) : localSize < s.len ∧ s.bytes = some b := by
  unfold own at hb
  split at hb
  next hl => exact ⟨hl, by simpa using hb⟩
  · cases hb

/-- The owner's view of growing. -/
theorem grow_own (I : Inv w A) (hr : Rooms w R) {s s' : Str} {n : Nat} {zs : List UInt8} (hs : w.vars i = some s) (r : Rep w.heap s xs)
    (r' : Rep h' s' zs) (hn : xs.length ≤ n) (g : Grown s n s') (hh : Held w.heap s n s') (st : Step w.heap (own s) h' (own s'))
    {R' : Nat → Nat} {dest : Nat → Option Nat} (e1 : R' = fun k => if k = i ∧ R i < n then roomy n else R k)
    (e2 : dest = fun k => if k = i ∧ R i < n then none else some k) :
    Flow w ⟨h', upd w.vars i (some s')⟩ R' dest fun _ => false := by
  have L : localSize = 16 := rfl
  have hc := hr i s hs
  have hx := r.len
  obtain ⟨g1, g2⟩ := g
  unfold Held at hh
  have hle := r.len_cap
  subst e1 e2
  refine flow_set I hr (by rw [ownVar_some hs]; exact st) ?_ ?_ ?_ ?_
  · rw [g2, hc]
    by_cases hle : n ≤ cap s
    · simp [hle, hc]
    · simp [hle, show cap s < n by omega]
  · intro k hk; simp [hk]
  · intro k hk; simp [hk]
  · rw [ownVar_some hs]
    by_cases hlt : n ≤ cap s
    · left
      rw [if_pos hlt] at hh
      refine ⟨by simp [hc, hlt], fun b hb => ?_⟩
      obtain ⟨k1, k2⟩ := r.own_some hb
      unfold own
      rw [if_pos (by omega), hh, k2]; simp
    · right
      rw [if_neg hlt] at hh
      refine ⟨by simp [hc]; omega, fun b hb hb' => ?_⟩
      obtain ⟨-, k2⟩ := r'.own_some hb'
      rw [hh] at k2; cases k2
      exact r.own_live _ hb (I.bal.fresh _ (Nat.le_refl _))

theorem step_flow (op : Op) (I : Inv w A) (hr : Rooms w R) {res : Res} (hs : specStep false cfg.lenient cfg.enc op A = some (res, A'))
    {q : Res × World} (e : step cfg op w = .ok q) :
    Flow w q.2 (roomAfter A R op) (whereTo A R op) (ends op) ∧ ∀ i, made op = some i → w.vars i = none := by
  have L : localSize = 16 := rfl
  have no : ∀ i, (none : Option Nat) = some i → w.vars i = none := fun _ h => by cases h
  cases op with
  | newAlloc i a =>
    simp only [specStep] at hs
    split at hs
    next h1 =>
      have hi := I.dom i h1
      obtain ⟨e1, r, st⟩ := newAlloc_ok I.bal a
      simp only [step] at e
      rw [inHeap_ok e1, setVar_bind] at e
      cases e
      refine ⟨flow_set (i := i) I hr (by rw [ownVar_none hi]; exact st) ?_ ?_ ?_ (.inl ⟨rfl, by simp [ownVar_none hi]⟩), ?_⟩
      · simp [roomAfter, cap, Str.blank, localSize]
      · intro k hk; simp [roomAfter, hk]
      · intro k hk; rfl
      · intro k hk; cases hk; exact hi
    · cases hs
  | newLit i lit a =>
    simp only [specStep] at hs
    split at hs
    next h1 =>
      have hi := I.dom i h1.1
      simp only [step] at e
      obtain ⟨s, h', em, e⟩ := inHeap_yields e
      have g := newLit_ok (cfg := cfg) I.bal lit a
      unfold Gives at g
      rw [em] at g
      obtain ⟨r, st⟩ := g
      rw [setVar_bind] at e
      cases e
      refine ⟨flow_set (i := i) I hr (by rw [ownVar_none hi]; exact st) ?_ ?_ ?_ (.inl ⟨rfl, by simp [ownVar_none hi]⟩), ?_⟩
      · have := newLit_room lit a _ _ em
        rw [this]; simp [roomAfter]
      · intro k hk; simp [roomAfter, hk]
      · intro k hk; rfl
      · intro k hk; cases hk; exact hi
    · cases hs
  | newCopy i j =>
    simp only [specStep] at hs
    split at hs
    next h1 h2 =>
      have hi := I.dom i h1
      obtain ⟨o, ho, ro⟩ := I.rep j _ h2
      simp only [step] at e
      rw [var_bind ho] at e
      obtain ⟨s, h', em, e⟩ := inHeap_yields e
      have g := newCopy_ok (cfg := cfg) I.bal ro
      unfold Gives at g
      rw [em] at g
      obtain ⟨r, st⟩ := g
      rw [setVar_bind] at e
      cases e
      refine ⟨flow_set (i := i) I hr (by rw [ownVar_none hi]; exact st) ?_ ?_ ?_ (.inl ⟨rfl, by simp [ownVar_none hi]⟩), ?_⟩
      · have := newCopy_room ro _ _ em
        rw [this]; simp [roomAfter, hr j o ho]
      · intro k hk; simp [roomAfter, hk]
      · intro k hk; rfl
      · intro k hk; cases hk; exact hi
    · cases hs
  | newMove i j =>
    simp only [specStep] at hs
    split at hs
    next h1 h2 =>
      split at hs
      next hl =>
        have hi := I.dom i h1
        obtain ⟨o, ho, ro⟩ := I.rep j _ h2
        have hij : i ≠ j := by rintro rfl; rw [h1] at h2; cases h2
        have hl : cfg.lenient = true := by simpa using hl
        have em : newMove cfg o w.heap = .ok ((o, { o with len := 0, bytes := none, store := .cap 0 }), w.heap) := by
          simp [newMove, assignAlloc, hl]
        simp only [step] at e
        rw [var_bind ho, inHeap_ok em, setVar_bind, setVar_bind] at e
        cases e
        refine ⟨flow_set2 I hr hij ?_ (ownVar_some ho).symm ?_ ?_ ?_ ?_ ?_ (.inl (ownVar_none hi)), ?_⟩
        · rw [ownVar_none hi, ownVar_some ho]; exact Step.refl I.bal _
        · simp [roomAfter, hr j o ho]
        · simp [roomAfter, Ne.symm hij, cap, localSize]
        · intro k k1 k2; simp [roomAfter, k1, k2]
        · intro k k1 k2; simp [whereTo, k2]
        · simp [whereTo]
        · intro k hk; cases hk; exact hi
      · cases hs
    · cases hs
  | copyAssign i j =>
    simp only [specStep] at hs
    split at hs
    next xs ys h1 h2 =>
      split at hs
      next hc =>
        obtain ⟨s, hvi, r⟩ := I.rep i _ h1
        obtain ⟨o, ho, ro⟩ := I.rep j _ h2
        simp only [step] at e
        rw [var_bind hvi, var_bind ho] at e
        refine ⟨?_, no⟩
        by_cases hij : i = j
        · rw [if_pos hij] at e
          cases e
          have e1 : roomAfter A R (.copyAssign i j) = R := by funext k; simp [roomAfter, hij]
          have e2 : whereTo A R (.copyAssign i j) = some := by funext k; simp [whereTo, hij]
          rw [e1, e2]
          exact flow_refl hr
        · rw [if_neg hij] at e
          obtain ⟨s', h', em, e⟩ := inHeap_yields e
          have g := copyAssign_ok (cfg := cfg) I.bal r ro (fun b hb hb' => hij (I.sep i j s o b hvi ho hb hb'))
            (by simpa [hij, not16] using hc)
          unfold Gives at g
          rw [em] at g
          obtain ⟨r', st⟩ := g
          rw [setVar_bind] at e
          cases e
          have hx := r.len
          have hy := ro.len
          have hi := hr i s hvi
          have hj := hr j o ho
          have lx := lenOf_some h1
          have ly := lenOf_some h2
          refine flow_set (i := i) I hr (by rw [ownVar_some hvi]; exact st) ?_ ?_ ?_ ?_
          · simp only [roomAfter, hij, ne_eq, not_true, or_false, if_false, lx, ly]
            by_cases hl : ys.length ≤ 16
            · rw [if_pos hl, r'.cap_small hl]
            · rw [if_neg hl]
              by_cases hm : xs.length ≤ 16
              · rw [if_pos hm, hj]
                obtain ⟨b, data, a, rfl, -, -⟩ := ro.big_inv (by omega)
                have h16 : xs.length ≠ 16 := by
                  simp [hij, not16] at hc
                  rcases hc with hc | hc
                  · exact hc.2.1
                  · omega
                obtain ⟨k1, k2⟩ := copyAssign_new (cfg := cfg) (by omega) (by simp only; omega) rfl _ _ em
                simp [cap, k1, k2]
              · rw [if_neg hm, hi]
                obtain ⟨b, data, a, rfl, -, -⟩ := r.big_inv (by omega)
                obtain ⟨k1, k2⟩ := copyAssign_held (cfg := cfg) (by simp only; omega) (by omega) rfl _ _ em
                have hc' : cap ⟨xs.length, .cap data.length, some b, a⟩ = data.length := by simp [cap]; omega
                rw [hc']
                rw [hy] at k1 k2
                by_cases hn : ys.length ≤ data.length
                · rw [if_pos hn] at k2 ⊢
                  simp [cap, k1, k2.2]; omega
                · rw [if_neg hn] at k2 ⊢
                  simp [cap, k1, k2.2]; omega
          · intro k hk; simp [roomAfter, hk]
          · intro k hk; simp [whereTo, hk]
          · rw [ownVar_some hvi]
            simp only [whereTo, hij, ne_eq, not_true, or_false, if_false, ly, hi]
            by_cases hm : xs.length ≤ 16
            · have en := r.own_nil hm
              rw [en]
              by_cases hg : 16 < ys.length ∧ ys.length ≤ cap s
              · left; rw [if_pos hg]; simp
              · right; rw [if_neg hg]; simp
            · obtain ⟨b, data, a, rfl, hk, ht⟩ := r.big_inv (by omega)
              have hc' : cap ⟨xs.length, .cap data.length, some b, a⟩ = data.length := by simp [cap]; omega
              rw [hc', own_big (by omega)]
              by_cases hl : ys.length ≤ 16
              · right
                rw [if_neg (by omega), r'.own_nil hl]; simp
              · obtain ⟨k1, k2⟩ := copyAssign_held (cfg := cfg) (by simp only; omega) (by omega) rfl _ _ em
                rw [hy] at k1 k2
                by_cases hn : ys.length ≤ data.length
                · rw [if_pos hn] at k2
                  left
                  rw [if_pos ⟨by omega, hn⟩]
                  refine ⟨rfl, fun b' hb' => ?_⟩
                  unfold own
                  rw [if_pos (by omega), k2.1]
                  simpa using hb'
                · rw [if_neg hn] at k2
                  right
                  rw [if_neg (by omega)]
                  refine ⟨rfl, fun b' hb' => ?_⟩
                  unfold own
                  rw [if_pos (by omega), k2.1]
                  have := I.bal.lt hk
                  simp at hb' ⊢; omega
      · cases hs
    · cases hs
  | moveAssign i j =>
    simp only [specStep] at hs
    split at hs
    next xs ys h1 h2 =>
      obtain ⟨s, hvi, r⟩ := I.rep i _ h1
      obtain ⟨o, ho, ro⟩ := I.rep j _ h2
      simp only [step] at e
      rw [var_bind hvi, var_bind ho] at e
      refine ⟨?_, no⟩
      by_cases hij : i = j
      · rw [if_pos hij] at e
        cases e
        have e1 : roomAfter A R (.moveAssign i j) = R := by funext k; simp [roomAfter, hij]
        have e2 : whereTo A R (.moveAssign i j) = some := by funext k; simp [whereTo, hij]
        rw [e1, e2]
        exact flow_refl hr
      · rw [if_neg hij] at e hs
        split at hs
        next hc =>
          simp only [Bool.false_or, Bool.and_eq_true, not16, decide_eq_true_eq] at hc
          obtain ⟨p, h', em, r1, r2, o2, o1, st⟩ := moveAssign_ok I.bal r ro
            (fun b hb hb' => hij (I.sep i j s o b hvi ho hb hb')) hc.1 hc.2.1 hc.2.2
          rw [inHeap_ok em, setVar_bind, setVar_bind] at e
          cases e
          refine flow_set2 I hr hij (by rw [ownVar_some hvi, ownVar_some ho]; exact st) (by rw [ownVar_some ho]; exact o1) ?_ ?_ ?_ ?_ ?_ ?_
          · simp only [roomAfter, if_neg hij, if_true]
            rw [hr j o ho]
            by_cases hl : ys.length ≤ 16
            · rw [ro.cap_small hl, r1.cap_small hl]
            · obtain ⟨b, data, a, rfl, hk, ht⟩ := ro.big_inv (by omega)
              obtain ⟨b', data', a', ep, hk', ht'⟩ := r1.big_inv (by omega)
              have em' := moveAssign_cap (h := w.heap) (by have := r.len; omega) (by simp only; omega) rfl _ _ em
              simp only [cap, em']
              rw [ep]
          · simp only [roomAfter, if_neg hij, if_neg (Ne.symm hij), if_true]
            rw [r2.cap_small (by simp)]
          · intro k k1 k2; simp [roomAfter, hij, k1, k2]
          · intro k k1 k2; simp [whereTo, hij, k1, k2]
          · simp [whereTo, hij]
          · right; simp [whereTo, hij]
        · cases hs
    · cases hs
  | drop i =>
    simp only [specStep] at hs
    split at hs
    next xs h1 =>
      obtain ⟨s, hvi, r⟩ := I.rep i _ h1
      obtain ⟨h', em, st⟩ := destruct_ok I.bal r
      simp only [step] at e
      rw [var_bind hvi, inHeap_ok em, setVar_bind] at e
      cases e
      refine ⟨flow_del I hr (by rw [ownVar_some hvi]; exact st) ?_ ?_, no⟩
      · intro k hk; simp [whereTo, hk]
      · simp [whereTo]
    · cases hs
  | pushBack i ch =>
    simp only [specStep] at hs
    split at hs
    next xs h1 =>
      obtain ⟨s, hvi, r⟩ := I.rep i _ h1
      simp only [step] at e
      rw [var_bind hvi] at e
      obtain ⟨s', h', em, e⟩ := inHeap_yields e
      have g := pushBack_ok (cfg := cfg) I.bal r ch
      unfold Gives at g
      rw [em] at g
      obtain ⟨r', st⟩ := g
      rw [setVar_bind] at e
      cases e
      have hn := r.len
      refine ⟨grow_own I hr hvi r r' (n := s.len + ch.length) (by omega) (pushBack_grown s ch r.len_cap _ _ _ em) (pushBack_held s ch _ _ em) st ?_ ?_, no⟩
      · funext k; simp only [roomAfter, lenOf_some h1, hn]
      · funext k; simp only [whereTo, lenOf_some h1, hn]
    · cases hs
  | insert i ch idx =>
    simp only [specStep] at hs
    split at hs
    next xs h1 =>
      split at hs
      next hc =>
        obtain ⟨s, hvi, r⟩ := I.rep i _ h1
        simp only [step] at e
        rw [var_bind hvi] at e
        obtain ⟨s', h', em, e⟩ := inHeap_yields e
        have g := insert_ok (cfg := cfg) I.bal r ch hc.2
        unfold Gives at g
        rw [em] at g
        obtain ⟨r', st⟩ := g
        rw [setVar_bind] at e
        cases e
        have hn := r.len
        refine ⟨grow_own I hr hvi r r' (n := s.len + ch.length) (by omega) (insert_grown s ch idx r.len_cap _ _ _ em) (insert_held s ch idx _ _ em) st ?_ ?_, no⟩
        · funext k; simp only [roomAfter, lenOf_some h1, hn]
        · funext k; simp only [whereTo, lenOf_some h1, hn]
      · cases hs
    · cases hs
  | popBack i =>
    simp only [specStep] at hs
    split at hs
    next xs h1 =>
      split at hs
      next hc =>
        obtain ⟨s, hvi, r⟩ := I.rep i _ h1
        obtain ⟨s', em, r', o⟩ := popBack_ok r (by simpa using hc.2)
        simp only [step] at e
        rw [var_bind hvi, inHeap_ok em, setVar_bind] at e
        cases e
        refine ⟨flow_set (i := i) I hr (by rw [ownVar_some hvi, o]; exact Step.refl I.bal _) ?_ (fun _ _ => rfl) (fun _ _ => rfl)
          (.inl ⟨rfl, by rw [ownVar_some hvi, o]; exact fun _ h => h⟩), no⟩
        have h17 : xs.length ≠ 17 := by simpa using hc.2
        have e1 := r.len
        have e2 := r'.len
        rw [List.length_dropLast] at e2
        rw [show roomAfter A R (.popBack i) i = R i from rfl, hr i s hvi]
        have : s'.store = s.store := popBack_store _ _ em
        unfold cap
        rw [this]
        by_cases hl : s.len ≤ localSize
        · rw [if_pos hl, if_pos (show s'.len ≤ localSize by omega)]
        · rw [if_neg hl, if_neg (show ¬ s'.len ≤ localSize by omega)]
      · cases hs
    · cases hs
  | size i =>
    simp only [specStep] at hs
    split at hs
    next xs h1 =>
      obtain ⟨s, hvi, r⟩ := I.rep i _ h1
      simp only [step] at e
      rw [var_bind hvi] at e
      cases e
      exact ⟨flow_refl hr, no⟩
    · cases hs
  | isCharBoundary i idx =>
    simp only [specStep] at hs
    split at hs
    next xs h1 =>
      split at hs
      next hc =>
        obtain ⟨s, hvi, r⟩ := I.rep i _ h1
        simp only [step] at e
        rw [var_bind hvi, inHeap_ok (isCharBoundary_ok r idx)] at e
        cases e
        exact ⟨flow_refl hr, no⟩
      · cases hs
    · cases hs
  | chars i =>
    simp only [specStep] at hs
    split at hs
    next xs h1 =>
      split at hs
      next hc =>
        obtain ⟨s, hvi, r⟩ := I.rep i _ h1
        simp only [step] at e
        rw [var_bind hvi, inHeap_ok (chars_ascii r hc)] at e
        cases e
        exact ⟨flow_refl hr, no⟩
      · cases hs
    · cases hs
  | print i =>
    simp only [specStep] at hs
    split at hs
    next xs h1 =>
      split at hs
      next hc =>
        obtain ⟨s, hvi, r⟩ := I.rep i _ h1
        simp only [step] at e
        rw [var_bind hvi, inHeap_ok (print_ok r (by simpa using hc))] at e
        cases e
        exact ⟨flow_refl hr, no⟩
      · cases hs
    · cases hs

end Verif.Proof.BStr
