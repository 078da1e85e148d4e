import Verif.Proof.BStringWorld
import Verif.Spec.BStringNeed
import Mathlib.Tactic.Ring
/-! Which string calls ask for memory, and for how much. -/
namespace Verif.Proof.BStr
open Verif Verif.Model.BStr
open Verif.Spec.BStr hiding memory

variable {h h' : Heap} {cfg : Cfg} {w w' : World} {i j : Nat} {xs ys : List UInt8}

/-- The call makes no request. -/
def Quiet {β : Type} (m : M β) : Prop := ∀ h,
  match m h with
  | .ok (_, h') => h'.next = h.next ∧ h'.newBytes = h.newBytes
  | .oom => False
  | _ => True

/-- The call makes one request, for `n` bytes, unless it goes wrong. -/
def AsksFor (cfg : Cfg) (n : Nat) {β : Type} (m : M β) : Prop := ∀ h,
  match m h with
  | .ok (_, h') => cfg.refuse h.next n = false ∧ h'.next = h.next + 1 ∧ h'.newBytes = h.newBytes + n
  | .oom => cfg.refuse h.next n = true
  | _ => True

theorem quiet_pure {β : Type} (b : β) : Quiet (pure b : M β) := fun _ => ⟨rfl, rfl⟩
theorem pure_bind_eq {β γ : Type} (b : β) (f : β → M γ) : ((pure b : M β) >>= f) = f b := rfl
theorem quiet_ub {β : Type} : Quiet (Prog.ub : M β) := fun _ => trivial
theorem quiet_panic {β : Type} : Quiet (Prog.panic : M β) := fun _ => trivial

theorem Quiet.bind {β γ : Type} {m : M β} {f : β → M γ} (hm : Quiet m) (hf : ∀ b, Quiet (f b)) : Quiet (m >>= f) := by
  intro h
  have h1 := hm h
  rw [Prog.bind_run]
  cases e : m h with
  | ok p =>
    rw [e] at h1
    obtain ⟨b, h'⟩ := p
    have h2 := hf b h'
    simp only [Out.bind_ok]
    cases e' : f b h' with
    | ok q => rw [e'] at h2; exact ⟨h2.1.trans h1.1, h2.2.trans h1.2⟩
    | oom => rw [e'] at h2; exact h2
    | _ => trivial
  | oom => rw [e] at h1; exact h1
  | _ => trivial

theorem Quiet.asks {β γ : Type} {m : M β} {f : β → M γ} {n : Nat} (hm : Quiet m) (hf : ∀ b, AsksFor cfg n (f b)) : AsksFor cfg n (m >>= f) := by
  intro h
  have h1 := hm h
  rw [Prog.bind_run]
  cases e : m h with
  | ok p =>
    rw [e] at h1
    obtain ⟨b, h'⟩ := p
    have h2 := hf b h'
    simp only [Out.bind_ok]
    cases e' : f b h' with
    | ok q => rw [e'] at h2; simp only at h1 h2 ⊢; rw [← h1.1, ← h1.2]; exact h2
    | oom => rw [e'] at h2; simp only at h1 h2 ⊢; rw [← h1.1]; exact h2
    | _ => trivial
  | oom => rw [e] at h1; exact h1.elim
  | _ => trivial

theorem AsksFor.quiet {β γ : Type} {m : M β} {f : β → M γ} {n : Nat} (hm : AsksFor cfg n m) (hf : ∀ b, Quiet (f b)) : AsksFor cfg n (m >>= f) := by
  intro h
  have h1 := hm h
  rw [Prog.bind_run]
  cases e : m h with
  | ok p =>
    rw [e] at h1
    obtain ⟨b, h'⟩ := p
    have h2 := hf b h'
    simp only [Out.bind_ok]
    cases e' : f b h' with
    | ok q => rw [e'] at h2; simp only at h1 h2 ⊢; rw [h2.1, h2.2]; exact h1
    | oom => rw [e'] at h2; exact h2.elim
    | _ => trivial
  | oom => rw [e] at h1; exact h1
  | _ => trivial

theorem asks_allocate (o n : Nat) : AsksFor cfg n (allocate cfg o n) := by
  intro h
  rw [allocate]
  by_cases hr : cfg.refuse h.next n = true
  · rw [if_pos hr]; exact hr
  · rw [if_neg hr]; exact ⟨by simpa using hr, rfl, rfl⟩

theorem quiet_dealloc (o : Nat) (p : Option Nat) (n : Nat) : Quiet (deallocate o p n) := by
  intro h
  unfold deallocate
  cases p with
  | none => exact ⟨rfl, rfl⟩
  | some b =>
    simp only
    cases h.blk b with
    | none => trivial
    | some k =>
      by_cases hc : k.owner = o ∧ k.data.length = n
      · simp only [if_pos hc, and_self]
      · simp only [if_neg hc]

theorem quiet_part (bs : List Byte) (off n : Nat) : Quiet (part bs off n) := by
  unfold part; split
  · exact quiet_pure _
  · exact quiet_ub

theorem quiet_readAt (s : Str) (l : Loc) (off n : Nat) : Quiet (readAt s l off n) := by
  cases l with
  | inline =>
    unfold readAt
    cases s.store with
    | inline bs => exact quiet_part _ _ _
    | cap c =>
      simp only
      split
      · exact quiet_pure _
      · exact quiet_ub
  | heap p =>
    cases p with
    | none => exact quiet_ub
    | some b =>
      intro h
      simp only [readAt]
      cases h.blk b with
      | none => trivial
      | some k => exact quiet_part _ _ _ h

theorem quiet_writeAt (s : Str) (l : Loc) (off : Nat) (d : List Byte) : Quiet (writeAt s l off d) := by
  cases l with
  | inline =>
    unfold writeAt
    simp only
    split
    · exact quiet_pure _
    · split
      · exact quiet_pure _
      · exact quiet_ub
  | heap p =>
    cases p with
    | none => exact quiet_ub
    | some b =>
      intro h
      simp only [writeAt]
      cases h.blk b with
      | none => trivial
      | some k =>
        by_cases hc : off + d.length ≤ k.data.length
        · simp only [if_pos hc, and_self]
        · simp only [if_neg hc]

theorem quiet_getCap (s : Str) : Quiet (getCap s) := by
  unfold getCap
  cases s.store with
  | inline bs => exact quiet_ub
  | cap c => exact quiet_pure _

theorem quiet_assignAlloc : Quiet (assignAlloc cfg) := by
  unfold assignAlloc; split
  · exact quiet_pure _
  · exact quiet_ub

theorem quiet_look (bs : List Byte) : Quiet (look bs) := by
  induction bs with
  | nil => exact quiet_pure _
  | cons b bs ih =>
    cases b with
    | none => exact quiet_ub
    | some b => exact ih.bind fun _ => quiet_pure _

theorem quiet_slice (s : Str) (start n : Nat) : Quiet (slice s start n) := (quiet_readAt _ _ _ _).bind fun _ => quiet_look _

theorem quiet_deallocSrc (s : Str) (l : Loc) : Quiet (deallocSrc s l) := by
  cases l with
  | inline => exact quiet_ub
  | heap p => exact (quiet_getCap _).bind fun _ => quiet_dealloc _ _ _

theorem quiet_destruct (s : Str) : Quiet (destruct s) := by
  unfold destruct; split
  · exact (quiet_getCap _).bind fun _ => quiet_dealloc _ _ _
  · exact quiet_pure _

theorem quiet_newMove (o : Str) : Quiet (newMove cfg o) := quiet_assignAlloc.bind fun _ => quiet_pure _

theorem quiet_moveAssign (s o : Str) : Quiet (moveAssign cfg s o) := by
  unfold moveAssign
  split
  · exact quiet_assignAlloc.bind fun _ => quiet_pure _
  split
  · exact quiet_assignAlloc.bind fun _ => (quiet_getCap _).bind fun _ => quiet_pure _
  split
  · exact (quiet_getCap _).bind fun _ => (quiet_dealloc _ _ _).bind fun _ => quiet_assignAlloc.bind fun _ => quiet_pure _
  · exact (quiet_getCap _).bind fun _ => (quiet_dealloc _ _ _).bind fun _ => quiet_assignAlloc.bind fun _ =>
      (quiet_getCap _).bind fun _ => quiet_pure _

theorem quiet_pureOut {β : Type} (x : Out β) (hx : x ≠ .oom) : Quiet (pureOut x) := by
  intro h
  cases x with
  | ok b => exact ⟨rfl, rfl⟩
  | oom => exact absurd rfl hx
  | _ => trivial

theorem quiet_popBack (s : Str) : Quiet (popBack s) := by
  refine (quiet_slice _ _ _).bind fun bs => ?_
  cases (Model.Ascii.last bs).1 <;> exact quiet_pure _

theorem quiet_print (s : Str) : Quiet (print s) := (quiet_readAt _ _ _ _).bind fun _ => quiet_look _

theorem isCharBoundary_oom (bs : List UInt8) : Model.Utf8.isCharBoundary bs ≠ .oom := by
  unfold Model.Utf8.isCharBoundary
  split <;> simp

theorem quiet_isCharBoundary (s : Str) (idx : Nat) : Quiet (isCharBoundary s idx) := by
  unfold isCharBoundary
  split
  · exact quiet_pure _
  split
  · exact quiet_pure _
  · exact (quiet_slice _ _ _).bind fun bs => quiet_pureOut _ (isCharBoundary_oom bs)

/-! ## The calls that may ask -/

theorem newLit_quiet (lit : List UInt8) (a : Nat) (hl : lit.length ≤ localSize) : Quiet (newLit cfg lit a) := by
  unfold newLit; rw [if_pos hl]; exact quiet_writeAt _ _ _ _

theorem newLit_asks (lit : List UInt8) (a : Nat) (hl : ¬ lit.length ≤ localSize) : AsksFor cfg (roomy lit.length) (newLit cfg lit a) := by
  unfold newLit; rw [if_neg hl]; exact (asks_allocate _ _).quiet fun _ => quiet_writeAt _ _ _ _

theorem newCopy_quiet (o : Str) (hl : o.len ≤ localSize) : Quiet (newCopy cfg o) := by
  unfold newCopy; rw [if_neg (by omega)]; exact quiet_pure _

theorem newCopy_asks (o : Str) {c : Nat} (hl : localSize < o.len) (hc : o.store = .cap c) : AsksFor cfg c (newCopy cfg o) := by
  unfold newCopy
  rw [if_pos (by omega), show getCap o = pure c by simp [getCap, hc]]
  simp only [pure_bind_eq]
  exact (asks_allocate _ _).quiet fun _ => (quiet_readAt _ _ _ _).bind fun _ => quiet_writeAt _ _ _ _

theorem copyAssign_quiet (s o : Str) (hl : o.len < localSize) (hs : s.len ≠ localSize) : Quiet (copyAssign cfg s o) := by
  unfold copyAssign
  by_cases h1 : s.len < localSize
  · rw [if_pos ⟨h1, hl⟩]; exact quiet_assignAlloc.bind fun _ => quiet_pure _
  · rw [if_neg (by omega), if_neg (by omega), if_pos ⟨by omega, hl⟩]
    exact (quiet_getCap _).bind fun _ => (quiet_dealloc _ _ _).bind fun _ => quiet_assignAlloc.bind fun _ => quiet_pure _

theorem copyAssign_asks_new (s o : Str) {c : Nat} (hl : localSize < o.len) (hs : s.len < localSize) (hc : o.store = .cap c) :
    AsksFor cfg c (copyAssign cfg s o) := by
  unfold copyAssign
  rw [if_neg (by omega), if_pos ⟨hs, hl⟩, show getCap o = pure c by simp [getCap, hc]]
  simp only [pure_bind_eq]
  exact quiet_assignAlloc.asks fun _ => (asks_allocate _ _).quiet fun _ => (quiet_readAt _ _ _ _).bind fun _ => quiet_writeAt _ _ _ _

theorem copyAssign_fits (s o : Str) {c : Nat} (hl : localSize < o.len) (hs : localSize < s.len) (hc : s.store = .cap c) (hle : o.len ≤ c) :
    Quiet (copyAssign cfg s o) := by
  unfold copyAssign
  rw [if_neg (by omega), if_neg (by omega), if_neg (by omega)]
  simp only [getCap, hc, pure_bind_eq, if_neg (show ¬ c < o.len by omega)]
  exact (quiet_readAt _ _ _ _).bind fun _ => quiet_writeAt _ _ _ _

theorem copyAssign_asks_more (s o : Str) {c : Nat} (hl : localSize < o.len) (hs : localSize < s.len) (hc : s.store = .cap c) (hle : c < o.len) :
    AsksFor cfg (roomy o.len) (copyAssign cfg s o) := by
  unfold copyAssign
  rw [if_neg (by omega), if_neg (by omega), if_neg (by omega)]
  simp only [getCap, hc, pure_bind_eq, if_pos hle]
  refine AsksFor.quiet ?_ fun _ => (quiet_readAt _ _ _ _).bind fun _ => quiet_writeAt _ _ _ _
  exact (quiet_dealloc _ _ _).asks fun _ => quiet_assignAlloc.asks fun _ => (asks_allocate _ _).quiet fun _ => quiet_pure _

/-- Room of a string object. -/
def cap (s : Str) : Nat := if s.len ≤ localSize then localSize else match s.store with
  | .cap c => c
  | .inline _ => 0

theorem tryAllocate_quiet (s : Str) (n : Nat) (hn : n ≤ cap s) :
    (∃ info, tryAllocate cfg s n = pure (s, info) ∧ info.allocNew = false) ∨ tryAllocate cfg s n = Prog.ub := by
  unfold cap at hn
  unfold tryAllocate
  by_cases hl : s.len ≤ localSize
  · rw [if_pos hl] at hn
    rw [if_neg (by omega), if_neg (by omega)]
    exact .inl ⟨_, rfl, rfl⟩
  · rw [if_neg hl] at hn
    rw [if_pos (by omega)]
    cases hs : s.store with
    | inline bs => right; simp only [getCap, hs]; rfl
    | cap c =>
      rw [hs] at hn
      left
      simp only [getCap, hs, pure_bind_eq]
      rw [if_neg (by simp only at hn; omega)]
      exact ⟨_, rfl, rfl⟩

theorem tryAllocate_asks (s : Str) (n : Nat) (hn : cap s < n) : AsksFor cfg (roomy n) (tryAllocate cfg s n) ∧
    ∀ h p h', tryAllocate cfg s n h = .ok (p, h') → p.2.allocNew = true ∧ p.2.newCap = roomy n := by
  unfold cap at hn
  unfold tryAllocate
  by_cases hl : s.len ≤ localSize
  · rw [if_pos hl] at hn
    rw [if_neg (by omega), if_pos (by omega)]
    refine ⟨(asks_allocate _ _).quiet fun _ => quiet_pure _, fun h p h' e => ?_⟩
    rw [Prog.bind_run] at e
    cases ea : allocate cfg s.alloc (n + n / 2) h with
    | ok q => rw [ea] at e; cases e; exact ⟨rfl, rfl⟩
    | _ => rw [ea] at e; cases e
  · rw [if_neg hl] at hn
    rw [if_pos (by omega)]
    cases hs : s.store with
    | inline bs =>
      simp only [getCap, hs]
      exact ⟨fun h => trivial, fun h p h' e => by cases e⟩
    | cap c =>
      rw [hs] at hn
      simp only [getCap, hs, pure_bind_eq]
      rw [if_pos (by simp only at hn; omega)]
      refine ⟨(asks_allocate _ _).quiet fun _ => quiet_pure _, fun h p h' e => ?_⟩
      rw [Prog.bind_run] at e
      cases ea : allocate cfg s.alloc (n + n / 2) h with
      | ok q => rw [ea] at e; cases e; exact ⟨rfl, rfl⟩
      | _ => rw [ea] at e; cases e

theorem pushBack_quiet (s : Str) (ch : List UInt8) (hn : s.len + ch.length ≤ cap s) : Quiet (pushBack cfg s ch) := by
  unfold pushBack
  rcases tryAllocate_quiet (cfg := cfg) s _ hn with ⟨info, e, ha⟩ | e
  · simp only [e, pure_bind_eq, ha, Bool.false_eq_true, if_false]
    exact (quiet_writeAt _ _ _ _).bind fun _ => quiet_pure _
  · simp only [e]; exact quiet_ub

theorem pushBack_asks (s : Str) (ch : List UInt8) (hn : cap s < s.len + ch.length) :
    AsksFor cfg (roomy (s.len + ch.length)) (pushBack cfg s ch) := by
  unfold pushBack
  refine (tryAllocate_asks s _ hn).1.quiet fun r => Quiet.bind ?_ fun _ => (quiet_writeAt _ _ _ _).bind fun _ => quiet_pure _
  split
  · refine (quiet_readAt _ _ _ _).bind fun _ => (quiet_writeAt _ _ _ _).bind fun _ => Quiet.bind ?_ fun _ => quiet_pure _
    split
    · exact quiet_deallocSrc _ _
    · exact quiet_pure _
  · exact quiet_pure _

theorem insert_quiet (s : Str) (ch : List UInt8) (idx : Nat) (hn : s.len + ch.length ≤ cap s) : Quiet (insert cfg s ch idx) := by
  unfold Model.BStr.insert
  refine (quiet_isCharBoundary _ _).bind fun b => ?_
  split
  · exact quiet_panic
  rcases tryAllocate_quiet (cfg := cfg) s _ hn with ⟨info, e, ha⟩ | e
  · simp only [e, pure_bind_eq, ha, Bool.false_eq_true, if_false]
    exact Quiet.bind ((quiet_readAt _ _ _ _).bind fun _ => (quiet_writeAt _ _ _ _).bind fun _ => quiet_writeAt _ _ _ _) fun _ => quiet_pure _
  · simp only [e]; exact quiet_ub

theorem insert_asks (s : Str) (ch : List UInt8) (idx : Nat) (hn : cap s < s.len + ch.length) :
    AsksFor cfg (roomy (s.len + ch.length)) (insert cfg s ch idx) := by
  unfold Model.BStr.insert
  refine (quiet_isCharBoundary _ _).asks fun b => ?_
  split
  · exact fun h => trivial
  refine (tryAllocate_asks s _ hn).1.quiet fun r => Quiet.bind ?_ fun _ => quiet_pure _
  split
  · refine (quiet_readAt _ _ _ _).bind fun _ => (quiet_writeAt _ _ _ _).bind fun _ => (quiet_writeAt _ _ _ _).bind fun _ =>
      (quiet_readAt _ _ _ _).bind fun _ => (quiet_writeAt _ _ _ _).bind fun _ => Quiet.bind ?_ fun _ => quiet_pure _
    split
    · exact quiet_deallocSrc _ _
    · exact quiet_pure _
  · exact (quiet_readAt _ _ _ _).bind fun _ => (quiet_writeAt _ _ _ _).bind fun _ => quiet_writeAt _ _ _ _

/-! ## In the world -/

/-- What a call does to the tallies, given the request it makes. -/
def Tally (cfg : Cfg) (w : World) (o : Option Nat) (x : Out (Res × World)) : Prop :=
  match x with
  | .ok (_, w') =>
    match o with
    | none => requests w' = requests w ∧ obtained w' = obtained w
    | some n => cfg.refuse (requests w) n = false ∧ requests w' = requests w + 1 ∧ obtained w' = obtained w + n
  | .oom =>
    match o with
    | none => False
    | some n => cfg.refuse (requests w) n = true
  | _ => True

theorem tally_quiet {β : Type} {m : M β} (hm : Quiet m) (f : β → Prog World Res)
    (hf : ∀ b w, Tally cfg w none (f b w)) : Tally cfg w none ((inHeap m >>= f) w) := by
  have h1 := hm w.heap
  rw [Prog.bind_run, inHeap]
  cases e : m w.heap with
  | ok p =>
    rw [e] at h1
    simp only [Out.bind_ok]
    have := hf p.1 { w with heap := p.2 }
    cases e' : f p.1 { w with heap := p.2 } with
    | ok q => rw [e'] at this; exact ⟨this.1.trans h1.1, this.2.trans h1.2⟩
    | oom => rw [e'] at this; exact this.elim
    | _ => trivial
  | oom => rw [e] at h1; exact h1.elim
  | _ => trivial

theorem tally_asks {β : Type} {m : M β} {n : Nat} (hm : AsksFor cfg n m) (f : β → Prog World Res)
    (hf : ∀ b w, Tally cfg w none (f b w)) : Tally cfg w (some n) ((inHeap m >>= f) w) := by
  have h1 := hm w.heap
  rw [Prog.bind_run, inHeap]
  cases e : m w.heap with
  | ok p =>
    rw [e] at h1
    simp only [Out.bind_ok]
    have := hf p.1 { w with heap := p.2 }
    cases e' : f p.1 { w with heap := p.2 } with
    | ok q => rw [e'] at this; exact ⟨h1.1, this.1.trans h1.2.1, this.2.trans h1.2.2⟩
    | oom => rw [e'] at this; exact this.elim
    | _ => trivial
  | oom => rw [e] at h1; exact h1
  | _ => trivial

theorem cap_eq {s : Str} (hs : w.vars i = some s) (r : Rep w.heap s xs) : room w i = cap s := by
  unfold room cap
  rw [hs]
  by_cases hl : s.len ≤ 16
  · simp only [if_pos hl]; rw [if_pos (show s.len ≤ localSize from hl)]; rfl
  · simp only [if_neg hl]; rw [if_neg (show ¬ s.len ≤ localSize from hl)]
    cases r with
    | small h1 => exact absurd h1 hl
    | empty => simp at hl
    | big h1 h2 h3 =>
      simp only [Spec.BStr.memory]
      rw [if_neg (by simpa using hl)]
      simp [h2]

theorem big_cap {s : Str} (r : Rep h s xs) (hl : localSize < xs.length) : s.store = .cap (cap s) := by
  cases r with
  | small h1 => omega
  | empty => simp at hl
  | big h1 h2 h3 => simp [cap]; omega

/-- Every allowed call makes the request `asks` says, or none. -/
theorem step_tally (op : Op) (hr : Reach cfg w) {r : Res} {A' : Ideal} (hs : specStep false cfg.lenient cfg.enc op (view w) = some (r, A')) :
    Tally cfg w (asks w op) (step cfg op w) := by
  have done : ∀ i s (r : Res) w, Tally cfg w none ((setVar i s >>= fun _ => pure r) w) := fun i s r w => ⟨rfl, rfl⟩
  have done2 : ∀ i s j t (r : Res) w, Tally cfg w none ((setVar i s >>= fun _ => setVar j t >>= fun _ => pure r) w) :=
    fun i s j t r w => ⟨rfl, rfl⟩
  have done0 : ∀ (r : Res) w, Tally cfg w none ((pure r : Prog World Res) w) := fun r w => ⟨rfl, rfl⟩
  have L : localSize = 16 := rfl
  cases op with
  | newAlloc i a => exact tally_quiet (quiet_pure _) _ fun _ _ => done _ _ _ _
  | newLit i lit a =>
    simp only [step, asks]
    by_cases hl : lit.length ≤ 16
    · rw [if_pos hl]; exact tally_quiet (newLit_quiet _ _ hl) _ fun _ _ => done _ _ _ _
    · rw [if_neg hl]; exact tally_asks (newLit_asks _ _ hl) _ fun _ _ => done _ _ _ _
  | newCopy i j =>
    cases hj : view w j with
    | none => simp [specStep, hj] at hs
    | some ys =>
      obtain ⟨o, ho, ro⟩ := reach_get hr hj
      simp only [step, asks, hj]
      rw [var_bind ho]
      by_cases hl : ys.length ≤ 16
      · rw [if_pos hl]; exact tally_quiet (newCopy_quiet _ (by rw [ro.len]; exact hl)) _ fun _ _ => done _ _ _ _
      · rw [if_neg hl, cap_eq ho ro]
        exact tally_asks (newCopy_asks _ (by rw [ro.len]; omega) (big_cap ro (by omega))) _ fun _ _ => done _ _ _ _
  | newMove i j =>
    cases hj : view w j with
    | none => simp [specStep, hj] at hs
    | some ys =>
      obtain ⟨o, ho, ro⟩ := reach_get hr hj
      simp only [step, asks]
      rw [var_bind ho]
      exact tally_quiet (quiet_newMove _) _ fun _ _ => done2 _ _ _ _ _ _
  | copyAssign i j =>
    cases hi : view w i with
    | none => simp [specStep, hi] at hs
    | some xs =>
      cases hj : view w j with
      | none => simp [specStep, hi, hj] at hs
      | some ys =>
        obtain ⟨s, hs', rs⟩ := reach_get hr hi
        obtain ⟨o, ho, ro⟩ := reach_get hr hj
        simp only [step, asks, hi, hj]
        rw [var_bind hs', var_bind ho]
        by_cases hij : i = j
        · rw [if_pos hij, if_pos (.inl hij)]; exact done0 _ _
        rw [if_neg hij]
        have hc : (xs.length ≠ 16 ∧ ys.length ≠ 16) ∨ (16 < ys.length ∧ ys.length ≤ xs.length) := by
          simp only [specStep, hi, hj] at hs
          split at hs
          next hc => simp [hij, not16] at hc; exact hc.elim (fun hc => .inl hc.2) .inr
          · cases hs
        have l1 := rs.len
        have l2 := ro.len
        by_cases hl : ys.length ≤ 16
        · rw [if_pos (.inr hl)]
          exact tally_quiet (copyAssign_quiet _ _ (by omega) (by omega)) _ fun _ _ => done _ _ _ _
        rw [if_neg (by omega)]
        by_cases hx : xs.length ≤ 16
        · rw [if_pos hx, cap_eq ho ro]
          exact tally_asks (copyAssign_asks_new _ _ (by omega) (by omega) (big_cap ro (by omega))) _ fun _ _ => done _ _ _ _
        rw [if_neg hx, cap_eq hs' rs]
        by_cases hf : ys.length ≤ cap s
        · rw [if_pos hf]
          exact tally_quiet (copyAssign_fits _ _ (by omega) (by omega) (big_cap rs (by omega)) (by omega)) _ fun _ _ => done _ _ _ _
        · rw [if_neg hf, ← l2]
          exact tally_asks (copyAssign_asks_more _ _ (by omega) (by omega) (big_cap rs (by omega)) (by omega)) _ fun _ _ => done _ _ _ _
  | moveAssign i j =>
    cases hi : view w i with
    | none => simp [specStep, hi] at hs
    | some xs =>
      cases hj : view w j with
      | none => simp [specStep, hi, hj] at hs
      | some ys =>
        obtain ⟨s, hs', rs⟩ := reach_get hr hi
        obtain ⟨o, ho, ro⟩ := reach_get hr hj
        simp only [step, asks]
        rw [var_bind hs', var_bind ho]
        split
        · exact done0 _ _
        · exact tally_quiet (quiet_moveAssign _ _) _ fun _ _ => done2 _ _ _ _ _ _
  | drop i =>
    cases hi : view w i with
    | none => simp [specStep, hi] at hs
    | some xs =>
      obtain ⟨s, hs', rs⟩ := reach_get hr hi
      simp only [step, asks]
      rw [var_bind hs']
      exact tally_quiet (quiet_destruct _) _ fun _ _ => done _ _ _ _
  | pushBack i ch =>
    cases hi : view w i with
    | none => simp [specStep, hi] at hs
    | some xs =>
      obtain ⟨s, hs', rs⟩ := reach_get hr hi
      simp only [step, asks, hi]
      rw [var_bind hs', cap_eq hs' rs, ← rs.len]
      split
      next hn => exact tally_quiet (pushBack_quiet _ _ hn) _ fun _ _ => done _ _ _ _
      next hn => exact tally_asks (pushBack_asks _ _ (by omega)) _ fun _ _ => done _ _ _ _
  | insert i ch idx =>
    cases hi : view w i with
    | none => simp [specStep, hi] at hs
    | some xs =>
      obtain ⟨s, hs', rs⟩ := reach_get hr hi
      simp only [step, asks, hi]
      rw [var_bind hs', cap_eq hs' rs, ← rs.len]
      split
      next hn => exact tally_quiet (insert_quiet _ _ _ hn) _ fun _ _ => done _ _ _ _
      next hn => exact tally_asks (insert_asks _ _ _ (by omega)) _ fun _ _ => done _ _ _ _
  | popBack i =>
    cases hi : view w i with
    | none => simp [specStep, hi] at hs
    | some xs =>
      obtain ⟨s, hs', rs⟩ := reach_get hr hi
      simp only [step, asks]
      rw [var_bind hs']
      exact tally_quiet (quiet_popBack _) _ fun _ _ => done _ _ _ _
  | size i =>
    cases hi : view w i with
    | none => simp [specStep, hi] at hs
    | some xs =>
      obtain ⟨s, hs', rs⟩ := reach_get hr hi
      simp only [step, asks]
      rw [var_bind hs']
      exact done0 _ _
  | isCharBoundary i idx =>
    cases hi : view w i with
    | none => simp [specStep, hi] at hs
    | some xs =>
      obtain ⟨s, hs', rs⟩ := reach_get hr hi
      simp only [step, asks]
      rw [var_bind hs']
      exact tally_quiet (quiet_isCharBoundary _ _) _ fun _ _ => done0 _ _
  | chars i =>
    cases hi : view w i with
    | none => simp [specStep, hi] at hs
    | some xs =>
      obtain ⟨s, hs', rs⟩ := reach_get hr hi
      have he : cfg.enc = .ascii := by
        simp only [specStep, hi] at hs
        split at hs
        · assumption
        · cases hs
      simp only [step, asks]
      rw [var_bind hs', inHeap_ok (chars_ascii rs he)]
      exact ⟨rfl, rfl⟩
  | print i =>
    cases hi : view w i with
    | none => simp [specStep, hi] at hs
    | some xs =>
      obtain ⟨s, hs', rs⟩ := reach_get hr hi
      simp only [step, asks]
      rw [var_bind hs']
      exact tally_quiet (quiet_print _) _ fun _ _ => done0 _ _

/-! ## Room after growing -/

/-- Every successful outcome satisfies `P`. -/
def Yields {β : Type} (m : M β) (P : β → Prop) : Prop := ∀ h b h', m h = .ok (b, h') → P b

theorem Yields.bind {β γ : Type} {m : M β} {f : β → M γ} {P : β → Prop} {Q : γ → Prop} (hm : Yields m P) (hf : ∀ b, P b → Yields (f b) Q) :
    Yields (m >>= f) Q := by
  intro h c h' e
  rw [Prog.bind_run] at e
  cases e1 : m h with
  | ok p => rw [e1] at e; exact hf p.1 (hm h p.1 p.2 e1) p.2 c h' e
  | _ => rw [e1] at e; cases e

theorem Yields.pure {β : Type} {b : β} {P : β → Prop} (hb : P b) : Yields (Pure.pure b : M β) P := by
  intro h c h' e; cases e; exact hb

theorem yields_any {β : Type} (m : M β) : Yields m fun _ => True := fun _ _ _ _ => trivial

theorem yields_ub {β : Type} {P : β → Prop} : Yields (Prog.ub : M β) P := fun _ _ _ e => by cases e
theorem yields_panic {β : Type} {P : β → Prop} : Yields (Prog.panic : M β) P := fun _ _ _ e => by cases e

theorem writeAt_heap (s : Str) (p : Option Nat) (off : Nat) (d : List Byte) : Yields (writeAt s (.heap p) off d) fun s' => s' = s := by
  intro h b h' e
  cases p with
  | none => cases e
  | some k =>
    simp only [writeAt] at e
    cases hk : h.blk k with
    | none => rw [hk] at e; cases e
    | some q =>
      rw [hk] at e
      simp only at e
      by_cases hc : off + d.length ≤ q.data.length
      · rw [if_pos hc] at e; cases e; rfl
      · rw [if_neg hc] at e; cases e

theorem writeAt_len (s : Str) (l : Loc) (off : Nat) (d : List Byte) : Yields (writeAt s l off d) fun s' => s'.len = s.len := by
  cases l with
  | heap p => exact fun h b h' e => by rw [writeAt_heap s p off d h b h' e]
  | inline =>
    unfold writeAt
    simp only
    split
    · exact Yields.pure rfl
    · split
      · exact Yields.pure rfl
      · exact yields_ub

/-- Space found by `tryAllocate`: the string as it is, or a new block. -/
theorem tryAllocate_yields (s : Str) (n : Nat) : Yields (tryAllocate cfg s n) fun p => p.1.len = s.len ∧ p.1.store = s.store ∧
    (p.2.allocNew = true → p.2.newCap = roomy n ∧ ∃ b, p.2.des = .heap b) ∧ (n ≤ cap s → p.2.allocNew = false) ∧
    (cap s < n → p.2.allocNew = true) ∧ (localSize < s.len → ∃ b, p.2.des = .heap b) := by
  unfold tryAllocate
  by_cases hl : localSize < s.len
  · rw [if_pos hl]
    cases hs : s.store with
    | inline bs => simp only [getCap, hs]; exact yields_ub
    | cap c =>
      simp only [getCap, hs, pure_bind_eq]
      have hc : cap s = c := by simp [cap, hs]; omega
      rw [hc]
      split
      next hn =>
        refine (yields_any _).bind fun b _ => Yields.pure ?_
        exact ⟨rfl, rfl, fun _ => ⟨rfl, _, rfl⟩, fun h => by omega, fun _ => rfl, fun _ => ⟨_, rfl⟩⟩
      next hn =>
        exact Yields.pure ⟨rfl, hs, (fun h => by cases h), fun _ => rfl, fun h => by omega, fun _ => ⟨_, rfl⟩⟩
  · rw [if_neg hl]
    have hc : cap s = localSize := by simp [cap]; omega
    rw [hc]
    split
    next hn =>
      refine (yields_any _).bind fun b _ => Yields.pure ?_
      exact ⟨rfl, rfl, fun _ => ⟨rfl, _, rfl⟩, fun h => by omega, fun _ => rfl, fun h => absurd h hl⟩
    next hn =>
      exact Yields.pure ⟨rfl, rfl, (fun h => by cases h), fun _ => rfl, fun h => by omega, fun h => absurd h hl⟩

/-- Room of the grown string. -/
def Grown (s : Str) (n : Nat) (s' : Str) : Prop := s'.len = n ∧ cap s' = if n ≤ cap s then cap s else roomy n

theorem grown_of {s s' : Str} {n : Nat} (hle : s.len ≤ n) (hs : s.len ≤ cap s) (hn : s'.len = n)
    (h1 : n ≤ cap s → localSize < s.len → s'.store = s.store) (h2 : cap s < n → s'.store = .cap (roomy n)) : Grown s n s' := by
  refine ⟨hn, ?_⟩
  by_cases hc : n ≤ cap s
  · rw [if_pos hc]
    by_cases hl : localSize < s.len
    · simp [cap, hn, h1 hc hl, show ¬ n ≤ localSize by omega, show ¬ s.len ≤ localSize by omega]
    · have e : cap s = localSize := by simp [cap]; omega
      rw [e] at hc ⊢
      simp [cap, hn, hc]
  · rw [if_neg hc]
    have : localSize ≤ cap s := by
      unfold cap at hs ⊢
      split
      · omega
      · rename_i h; rw [if_neg h] at hs; omega
    simp [cap, hn, h2 (by omega), show ¬ n ≤ localSize by omega]

theorem pushBack_grown (s : Str) (ch : List UInt8) (hs : s.len ≤ cap s) : Yields (pushBack cfg s ch) (Grown s (s.len + ch.length)) := by
  unfold pushBack
  refine (tryAllocate_yields s _).bind fun p ⟨p1, p2, p3, p4, p5, p6⟩ => ?_
  by_cases ha : p.2.allocNew = true
  · obtain ⟨hn, b, hb⟩ := p3 ha
    have hc : cap s < s.len + ch.length := by
      by_contra hx
      rw [p4 (by omega)] at ha; cases ha
    simp only [ha, if_true, hb]
    refine Yields.bind (P := fun s' => s'.store = .cap (roomy (s.len + ch.length))) ?_ fun s' hs' => ?_
    · exact (yields_any _).bind fun _ _ => (yields_any _).bind fun _ _ => (yields_any _).bind fun _ _ => Yields.pure (by rw [hn])
    · refine (writeAt_heap _ _ _ _).bind fun s'' e => Yields.pure ?_
      subst e
      exact grown_of (by omega) hs rfl (fun h => by omega) fun _ => hs'
  · have ha : p.2.allocNew = false := by simpa using ha
    have hc : s.len + ch.length ≤ cap s := by
      by_contra hx
      rw [p5 (by omega)] at ha; cases ha
    simp only [ha, Bool.false_eq_true, if_false, pure_bind_eq]
    by_cases hl : localSize < s.len
    · obtain ⟨b, hb⟩ := p6 hl
      rw [hb]
      refine (writeAt_heap _ _ _ _).bind fun s'' e => Yields.pure ?_
      subst e
      exact grown_of (by omega) hs rfl (fun _ _ => p2) fun h => by omega
    · exact (yields_any _).bind fun s'' _ => Yields.pure (grown_of (by omega) hs rfl (fun _ h => absurd h hl) fun h => by omega)

theorem insert_grown (s : Str) (ch : List UInt8) (idx : Nat) (hs : s.len ≤ cap s) :
    Yields (Model.BStr.insert cfg s ch idx) (Grown s (s.len + ch.length)) := by
  unfold Model.BStr.insert
  refine (yields_any _).bind fun b _ => ?_
  split
  · exact yields_panic
  refine (tryAllocate_yields s _).bind fun p ⟨p1, p2, p3, p4, p5, p6⟩ => ?_
  by_cases ha : p.2.allocNew = true
  · obtain ⟨hn, b, hb⟩ := p3 ha
    have hc : cap s < s.len + ch.length := by
      by_contra hx
      rw [p4 (by omega)] at ha; cases ha
    simp only [ha, if_true]
    refine Yields.bind (P := fun s' => s'.store = .cap (roomy (s.len + ch.length))) ?_ fun s' hs' => ?_
    · exact (yields_any _).bind fun _ _ => (yields_any _).bind fun _ _ => (yields_any _).bind fun _ _ => (yields_any _).bind fun _ _ =>
        (yields_any _).bind fun _ _ => (yields_any _).bind fun _ _ => Yields.pure (by rw [hn])
    · exact Yields.pure (grown_of (by omega) hs rfl (fun h => by omega) fun _ => hs')
  · have ha : p.2.allocNew = false := by simpa using ha
    have hc : s.len + ch.length ≤ cap s := by
      by_contra hx
      rw [p5 (by omega)] at ha; cases ha
    simp only [ha, Bool.false_eq_true, if_false]
    by_cases hl : localSize < s.len
    · obtain ⟨b, hb⟩ := p6 hl
      rw [hb]
      refine Yields.bind (P := fun s' => s'.store = s.store) ?_ fun s' hs' => ?_
      · refine (yields_any _).bind fun _ _ => (writeAt_heap _ _ _ _).bind fun s1 e1 => ?_
        intro h t h' et
        rw [writeAt_heap _ _ _ _ h t h' et, e1, p2]
      · exact Yields.pure (grown_of (by omega) hs rfl (fun _ _ => hs') fun h => by omega)
    · exact (yields_any _).bind fun s'' _ => Yields.pure (grown_of (by omega) hs rfl (fun _ h => absurd h hl) fun h => by omega)

theorem Rep.len_cap {s : Str} (r : Rep h s xs) : s.len ≤ cap s := by
  have L : localSize = 16 := rfl
  cases r with
  | small h1 => simp [cap, h1]
  | empty => simp [cap]
  | big h1 h2 h3 =>
    have := Rep.data_le h3
    unfold cap
    rw [if_neg (by simp only; omega)]
    exact this

theorem inHeap_yields {β : Type} {m : M β} {f : β → Prog World Res} {q : Res × World} (e : (inHeap m >>= f) w = .ok q) :
    ∃ b h', m w.heap = .ok (b, h') ∧ f b { w with heap := h' } = .ok q := by
  rw [Prog.bind_run, inHeap] at e
  cases e1 : m w.heap with
  | ok p => rw [e1] at e; exact ⟨p.1, p.2, rfl, e⟩
  | _ => rw [e1] at e; cases e

theorem grow_room (hr : Reach cfg w) {op : Op} (hg : Growing i op) (hi : view w i = some xs) {r : Res} {A' : Ideal}
    (hs : specStep false cfg.lenient cfg.enc op (view w) = some (r, A')) {q : Res × World} (e : step cfg op w = .ok q) :
    ∃ zs, view q.2 i = some zs ∧ zs.length = xs.length + (added op).length ∧ xs.length ≤ room w i ∧ 16 ≤ room w i ∧
      room q.2 i = if zs.length ≤ room w i then room w i else roomy zs.length := by
  have st := reach_step hr hs
  rw [e] at st
  obtain ⟨-, hv, hr'⟩ := st
  obtain ⟨s, hs', rs⟩ := reach_get hr hi
  have hcap := cap_eq hs' rs
  have hlc := rs.len_cap
  have h16 : 16 ≤ cap s := by
    unfold cap at hlc ⊢
    split
    · exact Nat.le_refl _
    · rename_i h; rw [if_neg h] at hlc; have : localSize = 16 := rfl; omega
  have main : ∀ s' : Str, q.2.vars i = some s' → Grown s (s.len + (added op).length) s' → ∀ zs, view q.2 i = some zs →
      zs.length = xs.length + (added op).length ∧ xs.length ≤ room w i ∧ 16 ≤ room w i ∧
      room q.2 i = if zs.length ≤ room w i then room w i else roomy zs.length := by
    intro s' e1 ⟨g1, g2⟩ zs hz
    obtain ⟨t, e2, rt⟩ := reach_get hr' hz
    rw [e1] at e2; cases e2
    have hl : zs.length = xs.length + (added op).length := by rw [← rt.len, g1, rs.len]
    refine ⟨hl, by rw [hcap, ← rs.len]; exact hlc, by rw [hcap]; exact h16, ?_⟩
    rw [cap_eq e1 rt, g2, hcap, rs.len, hl]
  rcases hg with ⟨ch, rfl⟩ | ⟨ch, idx, rfl⟩
  · simp only [step] at e
    rw [var_bind hs'] at e
    obtain ⟨s', h', e1, e2⟩ := inHeap_yields e
    rw [setVar_bind] at e2
    have hq : q.2.vars i = some s' := by cases e2; exact upd_same _ _ _
    have hz : view q.2 i = some (xs ++ ch) := by
      have hv : view q.2 = A' := hv
      rw [hv]
      simp only [specStep, hi, Option.some.injEq, Prod.mk.injEq] at hs
      rw [← hs.2, put_same]
    exact ⟨_, hz, main s' hq (pushBack_grown s ch hlc _ _ _ e1) _ hz⟩
  · simp only [step] at e
    rw [var_bind hs'] at e
    obtain ⟨s', h', e1, e2⟩ := inHeap_yields e
    rw [setVar_bind] at e2
    have hq : q.2.vars i = some s' := by cases e2; exact upd_same _ _ _
    have hz : ∃ zs, view q.2 i = some zs := by
      have hv : view q.2 = A' := hv
      rw [hv]
      simp only [specStep, hi] at hs
      split at hs
      · simp only [Option.some.injEq, Prod.mk.injEq] at hs
        rw [← hs.2]; exact ⟨_, put_same _ _ _⟩
      · cases hs
    obtain ⟨zs, hz⟩ := hz
    exact ⟨zs, hz, main s' hq (insert_grown s ch idx hlc _ _ _ e1) _ hz⟩

theorem room_ge (hr : Reach cfg w) (hi : view w i = some xs) : 16 ≤ room w i := by
  obtain ⟨s, hs, rs⟩ := reach_get hr hi
  rw [cap_eq hs rs]
  have hlc := rs.len_cap
  unfold cap at hlc ⊢
  split
  · exact Nat.le_refl _
  · rename_i h; rw [if_neg h] at hlc; have : localSize = 16 := rfl; omega

theorem room_small (hr : Reach cfg w) (hi : view w i = some xs) (hl : xs.length ≤ 16) : room w i = 16 := by
  obtain ⟨s, hs, rs⟩ := reach_get hr hi
  simp only [room, hs]
  rw [if_pos (by rw [rs.len]; exact hl)]

/-! ## Amortised cost -/

/-- Requests `k` and bytes `T` so far, for a string with room `m` and `n` bytes. -/
def Amort (k T m n : Nat) : Prop :=
  (k = 0 ∧ T = 0) ∨ (0 < k ∧ T ≤ 3 * m ∧ 2 * m ≤ 3 * n ∧ 17 * 3 ^ k ≤ 2 ^ k * (m + 1) ∧ 17 * 3 ^ (k - 1) ≤ 2 ^ (k - 1) * n)

theorem Amort.fits {k T m n n' : Nat} (h : Amort k T m n) (hn : n ≤ n') : Amort k T m n' := by
  rcases h with h | ⟨h1, h2, h3, h4, h5⟩
  · exact .inl h
  · exact .inr ⟨h1, h2, by omega, h4, Nat.le_trans h5 (Nat.mul_le_mul_left _ hn)⟩

theorem Amort.more {k T m n n' : Nat} (h : Amort k T m n) (h16 : 16 ≤ m) (hn : m < n') : Amort (k + 1) (T + roomy n') (roomy n') n' := by
  have key : 17 * 3 ^ k ≤ 2 ^ k * (m + 1) := by
    rcases h with ⟨rfl, -⟩ | ⟨-, -, -, h4, -⟩
    · simp; omega
    · exact h4
  have key' : 17 * 3 ^ k ≤ 2 ^ k * n' := Nat.le_trans key (Nat.mul_le_mul_left _ hn)
  have hr : 3 * n' ≤ 2 * (roomy n' + 1) := by unfold roomy; omega
  have hr2 : 2 * roomy n' ≤ 3 * n' := by unfold roomy; omega
  refine .inr ⟨by omega, ?_, hr2, ?_, by simpa using key'⟩
  · rcases h with ⟨-, rfl⟩ | ⟨-, h2, -, -, -⟩
    · omega
    · unfold roomy; omega
  · rw [Nat.pow_succ, Nat.pow_succ]
    calc 17 * (3 ^ k * 3) = (17 * 3 ^ k) * 3 := by ring
      _ ≤ (2 ^ k * n') * 3 := Nat.mul_le_mul_right _ key'
      _ = 2 ^ k * (3 * n') := by ring
      _ ≤ 2 ^ k * (2 * (roomy n' + 1)) := Nat.mul_le_mul_left _ hr
      _ = 2 ^ k * 2 * (roomy n' + 1) := by ring

theorem amortised_run (ops : List Op) (hg : ∀ op ∈ ops, Growing i op) (hr : Reach cfg w) (hi : view w i = some xs) {k T : Nat}
    (ha : Amort k T (room w i) xs.length) {rs : List Res} {A : Ideal}
    (hs : specRun false cfg.lenient cfg.enc ops (view w) = some (rs, A)) :
    (run cfg ops w).SafeIf (Refuses cfg) fun q => ∃ zs k' T', view q.2 i = some zs ∧ Amort k' T' (room q.2 i) zs.length ∧
      requests q.2 + k = requests w + k' ∧ obtained q.2 + T = obtained w + T' := by
  induction ops generalizing w xs k T rs A with
  | nil => exact ⟨xs, k, T, hi, ha, rfl, rfl⟩
  | cons op ops ih =>
    simp only [specRun] at hs
    cases h1 : specStep false cfg.lenient cfg.enc op (view w) with
    | none => rw [h1] at hs; cases hs
    | some p =>
      rw [h1] at hs
      simp only at hs
      cases h2 : specRun false cfg.lenient cfg.enc ops p.2 with
      | none => rw [h2] at hs; cases hs
      | some p' =>
        have st := reach_step hr h1
        have ty := step_tally op hr h1
        simp only [run]
        rw [Prog.bind_run]
        cases e : step cfg op w with
        | ok q =>
          rw [e] at st ty
          obtain ⟨-, hv, hr'⟩ := st
          have hv : view q.2 = p.2 := hv
          have hgo := hg op (by simp)
          obtain ⟨zs, z1, z2, z3, z4, z5⟩ := grow_room hr hgo hi h1 e
          have hask : asks w op = if zs.length ≤ room w i then none else some (roomy zs.length) := by
            rcases hgo with ⟨ch, rfl⟩ | ⟨ch, idx, rfl⟩ <;> simp only [asks, hi, z2, added]
          unfold Tally at ty
          simp only [hask] at ty
          have sub : ∃ k1 T1, Amort k1 T1 (room q.2 i) zs.length ∧ requests q.2 + k = requests w + k1 ∧ obtained q.2 + T = obtained w + T1 := by
            rw [z5]
            by_cases hf : zs.length ≤ room w i
            · rw [if_pos hf] at ty ⊢
              simp only at ty
              exact ⟨k, T, ha.fits (by omega), by rw [ty.1], by rw [ty.2]⟩
            · rw [if_neg hf] at ty ⊢
              simp only at ty
              refine ⟨k + 1, T + roomy zs.length, ha.more z4 (by omega), by omega, by omega⟩
          obtain ⟨k1, T1, a1, a2, a3⟩ := sub
          have rec' := ih (fun o ho => hg o (by simp [ho])) hr' z1 a1 (by rw [hv]; exact h2)
          simp only [Out.bind_ok]
          rw [Prog.bind_run]
          refine Out.SafeIf.bind rec' ?_
          rintro q' ⟨ys, k', T', b1, b2, b3, b4⟩
          exact ⟨ys, k', T', b1, b2, by show requests q'.2 + k = _; omega, by show obtained q'.2 + T = _; omega⟩
        | oom => rw [e] at st; exact st
        | _ => rw [e] at st; exact st.elim

end Verif.Proof.BStr
