import Verif.Proof.BStringNeed
import Verif.Model.BStringFault
/-! Strings that are refused memory: the two models agree until a request is refused, and then the code uses null. -/
namespace Verif.Proof.BStr
open Verif Verif.Model.BStr
open Verif.Spec.BStr hiding memory

variable {h h' : Heap} {cfg : Cfg} {w w' : World} {i j : Nat} {xs ys : List UInt8}

/-- `m` is what the call does when refusal is an outcome, `n` what it does when refusal is a null pointer: wherever `m` does not
run out of memory they agree. -/
def Agrees {β : Type} (m n : M β) : Prop := ∀ h, m h = .oom ∨ n h = m h

theorem Agrees.refl {β : Type} (m : M β) : Agrees m m := fun _ => .inr rfl

theorem Agrees.bind {β γ : Type} {m n : M β} {f g : β → M γ} (h1 : Agrees m n) (h2 : ∀ b, Agrees (f b) (g b)) : Agrees (m >>= f) (n >>= g) := by
  intro h
  rw [Prog.bind_run, Prog.bind_run]
  rcases h1 h with e | e
  · left; rw [e]; rfl
  · rw [e]
    cases e' : m h with
    | ok p => simp only [Out.bind_ok]; exact h2 p.1 p.2
    | _ => right; rfl

theorem alloc_agrees {β : Type} (o n : Nat) {f : Nat → M β} {g : Option Nat → M β} (hfg : ∀ b, Agrees (f b) (g (some b))) :
    Agrees (allocate cfg o n >>= f) (allocateN cfg o n >>= g) := by
  intro h
  rw [Prog.bind_run, Prog.bind_run, allocate, allocateN]
  by_cases hr : cfg.refuse h.next n = true
  · rw [if_pos hr]; left; rfl
  · rw [if_neg hr, if_neg hr]; exact hfg _ _

theorem newLit_agrees (lit : List UInt8) (a : Nat) : Agrees (newLit cfg lit a) (newLitN cfg lit a) := by
  unfold newLit newLitN
  split
  · exact Agrees.refl _
  · exact alloc_agrees _ _ fun _ => Agrees.refl _

theorem newCopy_agrees (o : Str) : Agrees (newCopy cfg o) (newCopyN cfg o) := by
  unfold newCopy newCopyN
  split
  · exact (Agrees.refl _).bind fun _ => alloc_agrees _ _ fun _ => Agrees.refl _
  · exact Agrees.refl _

theorem copyAssign_agrees (s o : Str) : Agrees (copyAssign cfg s o) (copyAssignN cfg s o) := by
  unfold copyAssign copyAssignN
  split
  · exact Agrees.refl _
  split
  · exact (Agrees.refl _).bind fun _ => (Agrees.refl _).bind fun _ => alloc_agrees _ _ fun _ => Agrees.refl _
  split
  · exact Agrees.refl _
  · refine (Agrees.refl _).bind fun c => Agrees.bind ?_ fun _ => Agrees.refl _
    split
    · exact (Agrees.refl _).bind fun _ => (Agrees.refl _).bind fun _ => alloc_agrees _ _ fun _ => Agrees.refl _
    · exact Agrees.refl _

theorem tryAllocate_agrees (s : Str) (n : Nat) : Agrees (tryAllocate cfg s n) (tryAllocateN cfg s n) := by
  unfold tryAllocate tryAllocateN
  split
  · refine (Agrees.refl _).bind fun c => ?_
    split
    · exact alloc_agrees _ _ fun _ => Agrees.refl _
    · exact Agrees.refl _
  split
  · exact alloc_agrees _ _ fun _ => Agrees.refl _
  · exact Agrees.refl _

theorem pushBack_agrees (s : Str) (ch : List UInt8) : Agrees (pushBack cfg s ch) (pushBackN cfg s ch) :=
  (tryAllocate_agrees s _).bind fun _ => Agrees.refl _

theorem insert_agrees (s : Str) (ch : List UInt8) (idx : Nat) : Agrees (Model.BStr.insert cfg s ch idx) (insertN cfg s ch idx) := by
  unfold Model.BStr.insert insertN
  refine (Agrees.refl _).bind fun b => ?_
  split
  · exact Agrees.refl _
  · exact (tryAllocate_agrees s _).bind fun _ => Agrees.refl _

theorem inHeap_agrees {β : Type} {m n : M β} (hm : Agrees m n) (f : β → Prog World Res) :
    (inHeap m >>= f) w = .oom ∨ (inHeap n >>= f) w = (inHeap m >>= f) w := by
  rw [Prog.bind_run, Prog.bind_run, inHeap, inHeap]
  rcases hm w.heap with e | e
  · left; rw [e]; rfl
  · right; rw [e]

theorem step_agrees (op : Op) (w : World) : step cfg op w = .oom ∨ stepN cfg op w = step cfg op w := by
  have v : ∀ (f g : Str → Prog World Res) i, (∀ s, f s w = .oom ∨ g s w = f s w) → (var i >>= f) w = .oom ∨ (var i >>= g) w = (var i >>= f) w := by
    intro f g i hfg
    rw [Prog.bind_run, Prog.bind_run, var]
    cases w.vars i with
    | none => right; rfl
    | some s => exact hfg s
  cases op with
  | newLit i lit a => exact inHeap_agrees (newLit_agrees _ _) _
  | newCopy i j => exact v _ _ _ fun s => inHeap_agrees (newCopy_agrees _) _
  | copyAssign i j =>
    refine v _ _ _ fun s => v _ _ _ fun o => ?_
    by_cases hij : i = j
    · simp only [if_pos hij]; simp
    · simp only [if_neg hij]; exact inHeap_agrees (copyAssign_agrees _ _) _
  | pushBack i ch => exact v _ _ _ fun s => inHeap_agrees (pushBack_agrees _ _) _
  | insert i ch idx => exact v _ _ _ fun s => inHeap_agrees (insert_agrees _ _ _) _
  | _ => exact .inr rfl

/-! ## After a refusal -/

/-- If the first-outcome model runs out of memory, the null-pointer model reaches undefined behaviour. -/
def Doomed {β : Type} (m n : M β) : Prop := ∀ h, m h = .oom → n h = .ub

theorem Doomed.bind_left {β γ : Type} {m : M β} {f g : β → M γ} (hm : Quiet m) (h2 : ∀ b, Doomed (f b) (g b)) : Doomed (m >>= f) (m >>= g) := by
  intro h e
  rw [Prog.bind_run] at e ⊢
  have hq := hm h
  cases e' : m h with
  | ok p => rw [e'] at e; exact h2 p.1 p.2 e
  | oom => rw [e'] at hq; exact hq.elim
  | _ => rw [e'] at e; cases e

theorem doomed_quiet {β : Type} {m n : M β} (hm : Quiet m) : Doomed m n := by
  intro h e
  have := hm h
  rw [e] at this; exact this.elim

theorem doomed_alloc {β : Type} (o n : Nat) {f : Nat → M β} {g : Option Nat → M β} (hf : ∀ b, Quiet (f b)) (hg : ∀ h, g none h = .ub) :
    Doomed (allocate cfg o n >>= f) (allocateN cfg o n >>= g) := by
  intro h e
  rw [Prog.bind_run, allocate] at e
  rw [Prog.bind_run, allocateN]
  by_cases hr : cfg.refuse h.next n = true
  · rw [if_pos hr]; exact hg _
  · rw [if_neg hr] at e
    have := hf h.next { h with
      blk := upd h.blk h.next (some ⟨o, List.replicate n none⟩), next := h.next + 1, newBytes := h.newBytes + n }
    simp only [Out.bind_ok] at e
    rw [e] at this; exact this.elim

theorem read_null {s t : Str} {l : Loc} {off n : Nat} {γ : Type} {f : Str → M γ} {off' : Nat} (h : Heap) :
    (readAt s l off n >>= fun d => writeAt t (.heap none) off' d >>= f) h = .ub := by
  rw [Prog.bind_run]
  cases e : readAt s l off n h with
  | ok p => rfl
  | ub => rfl
  | _ =>
    exfalso
    cases l with
    | inline =>
      unfold readAt at e
      cases hs : s.store with
      | inline bs =>
        rw [hs] at e
        simp only [part] at e
        split at e <;> cases e
      | cap c =>
        rw [hs] at e
        simp only at e
        split at e <;> cases e
    | heap p =>
      cases p with
      | none => cases e
      | some b =>
        simp only [readAt] at e
        cases hb : h.blk b with
        | none => rw [hb] at e; cases e
        | some k =>
          rw [hb] at e
          simp only [part] at e
          split at e <;> cases e

theorem read_null' {s t : Str} {l : Loc} {off n off' : Nat} (h : Heap) :
    (readAt s l off n >>= fun d => writeAt t (.heap none) off' d) h = .ub := by
  have := read_null (s := s) (t := t) (l := l) (off := off) (n := n) (off' := off') (f := pure) h
  rw [Prog.bind_run] at this ⊢
  cases e : readAt s l off n h with
  | ok p => rfl
  | _ => rw [e] at this; exact this

theorem newLit_doomed (lit : List UInt8) (a : Nat) : Doomed (newLit cfg lit a) (newLitN cfg lit a) := by
  unfold newLit newLitN
  split
  · exact doomed_quiet (quiet_writeAt _ _ _ _)
  · exact doomed_alloc _ _ (fun _ => quiet_writeAt _ _ _ _) fun _ => rfl

theorem newCopy_doomed (o : Str) : Doomed (newCopy cfg o) (newCopyN cfg o) := by
  unfold newCopy newCopyN
  split
  · exact Doomed.bind_left (quiet_getCap _) fun _ => doomed_alloc _ _
      (fun _ => (quiet_readAt _ _ _ _).bind fun _ => quiet_writeAt _ _ _ _) fun _ => read_null' _
  · exact doomed_quiet (quiet_pure _)

/-- If asking for space is refused, the new space is at null. -/
theorem tryAllocate_null (s : Str) (n : Nat) (h : Heap) (e : tryAllocate cfg s n h = .oom) :
    ∃ p h', tryAllocateN cfg s n h = .ok (p, h') ∧ p.2.allocNew = true ∧ p.2.des = .heap none := by
  have al : ∀ (m : Nat) (f : Nat → M (Str × Info)) (g : Option Nat → M (Str × Info)), (∀ b, Quiet (f b)) →
      (∀ h, ∃ p h', g none h = .ok (p, h') ∧ p.2.allocNew = true ∧ p.2.des = .heap none) → (allocate cfg s.alloc m >>= f) h = .oom →
      ∃ p h', (allocateN cfg s.alloc m >>= g) h = .ok (p, h') ∧ p.2.allocNew = true ∧ p.2.des = .heap none := by
    intro m f g hf hg e
    rw [Prog.bind_run, allocate] at e
    rw [Prog.bind_run, allocateN]
    by_cases hr : cfg.refuse h.next m = true
    · rw [if_pos hr]; exact hg _
    · rw [if_neg hr] at e
      simp only [Out.bind_ok] at e
      have := hf h.next { h with
        blk := upd h.blk h.next (some ⟨s.alloc, List.replicate m none⟩), next := h.next + 1, newBytes := h.newBytes + m }
      rw [e] at this; exact this.elim
  unfold tryAllocate at e
  unfold tryAllocateN
  by_cases hl : s.len > localSize
  · rw [if_pos hl] at e ⊢
    cases hs : s.store with
    | inline bs => simp only [getCap, hs] at e; cases e
    | cap c =>
      simp only [getCap, hs, pure_bind_eq] at e ⊢
      by_cases hn : n > c
      · rw [if_pos hn] at e ⊢
        exact al _ _ _ (fun _ => quiet_pure _) (fun h => ⟨_, _, rfl, rfl, rfl⟩) e
      · rw [if_neg hn] at e; cases e
  · rw [if_neg hl] at e ⊢
    by_cases hn : n > localSize
    · rw [if_pos hn] at e ⊢
      exact al _ _ _ (fun _ => quiet_pure _) (fun h => ⟨_, _, rfl, rfl, rfl⟩) e
    · rw [if_neg hn] at e; cases e

theorem bind_doomed {β γ : Type} {m n : M β} {f : β → M γ} (hq : ∀ b, Quiet (f b)) (h : Heap)
    (hn : m h = .oom → ∃ p h', n h = .ok (p, h') ∧ ∀ h, f p h = .ub) (e : (m >>= f) h = .oom) : (n >>= f) h = .ub := by
  rw [Prog.bind_run] at e ⊢
  cases e' : m h with
  | oom =>
    obtain ⟨p, h', e1, e2⟩ := hn e'
    rw [e1]; exact e2 h'
  | ok p =>
    rw [e'] at e
    have := hq p.1 p.2
    simp only [Out.bind_ok] at e
    rw [e] at this; exact this.elim
  | _ => rw [e'] at e; cases e

theorem ub_bind {β γ : Type} {m : M β} {f : β → M γ} {h : Heap} (e : m h = .ub) : (m >>= f) h = .ub := by rw [Prog.bind_run, e]; rfl

theorem pushBack_doomed (s : Str) (ch : List UInt8) : Doomed (pushBack cfg s ch) (pushBackN cfg s ch) := by
  intro h e
  unfold pushBack at e
  unfold pushBackN
  refine bind_doomed (fun r => Quiet.bind ?_ fun _ => (quiet_writeAt _ _ _ _).bind fun _ => quiet_pure _) h ?_ e
  · split
    · refine (quiet_readAt _ _ _ _).bind fun _ => (quiet_writeAt _ _ _ _).bind fun _ => Quiet.bind ?_ fun _ => quiet_pure _
      split
      · exact quiet_deallocSrc _ _
      · exact quiet_pure _
    · exact quiet_pure _
  · intro e'
    obtain ⟨p, h', e1, e2, e3⟩ := tryAllocate_null s _ h e'
    refine ⟨p, h', e1, fun h => ub_bind ?_⟩
    rw [if_pos e2, e3]
    exact read_null h

theorem insert_doomed (s : Str) (ch : List UInt8) (idx : Nat) : Doomed (Model.BStr.insert cfg s ch idx) (insertN cfg s ch idx) := by
  unfold Model.BStr.insert insertN
  refine Doomed.bind_left (quiet_isCharBoundary _ _) fun b => ?_
  split
  · exact doomed_quiet quiet_panic
  intro h e
  refine bind_doomed (fun r => Quiet.bind ?_ fun _ => quiet_pure _) h ?_ e
  · split
    · refine (quiet_readAt _ _ _ _).bind fun _ => (quiet_writeAt _ _ _ _).bind fun _ => (quiet_writeAt _ _ _ _).bind fun _ =>
        (quiet_readAt _ _ _ _).bind fun _ => (quiet_writeAt _ _ _ _).bind fun _ => Quiet.bind ?_ fun _ => quiet_pure _
      split
      · exact quiet_deallocSrc _ _
      · exact quiet_pure _
    · exact (quiet_readAt _ _ _ _).bind fun _ => (quiet_writeAt _ _ _ _).bind fun _ => quiet_writeAt _ _ _ _
  · intro e'
    obtain ⟨p, h', e1, e2, e3⟩ := tryAllocate_null s _ h e'
    refine ⟨p, h', e1, fun h => ub_bind ?_⟩
    rw [if_pos e2, e3]
    exact read_null h

theorem copyAssign_doomed (s o : Str) : Doomed (copyAssign cfg s o) (copyAssignN cfg s o) := by
  unfold copyAssign copyAssignN
  split
  · exact doomed_quiet (quiet_assignAlloc.bind fun _ => quiet_pure _)
  split
  · exact Doomed.bind_left quiet_assignAlloc fun _ => Doomed.bind_left (quiet_getCap _) fun _ => doomed_alloc _ _
      (fun _ => (quiet_readAt _ _ _ _).bind fun _ => quiet_writeAt _ _ _ _) fun _ => read_null' _
  split
  · exact doomed_quiet ((quiet_getCap _).bind fun _ => (quiet_dealloc _ _ _).bind fun _ => quiet_assignAlloc.bind fun _ => quiet_pure _)
  refine Doomed.bind_left (quiet_getCap _) fun c => ?_
  split
  · intro h e
    refine bind_doomed (fun _ => (quiet_readAt _ _ _ _).bind fun _ => quiet_writeAt _ _ _ _) h ?_ e
    intro e'
    rw [Prog.bind_run] at e'
    have hq := quiet_dealloc s.alloc s.bytes c h
    cases e1 : deallocate s.alloc s.bytes c h with
    | oom => rw [e1] at hq; exact hq.elim
    | ok p =>
      rw [e1] at e'
      simp only [Out.bind_ok] at e'
      rw [Prog.bind_run] at e'
      have hq2 := quiet_assignAlloc (cfg := cfg) p.2
      cases e2 : assignAlloc cfg p.2 with
      | oom => rw [e2] at hq2; exact hq2.elim
      | ok q =>
        rw [e2] at e'
        simp only [Out.bind_ok] at e'
        rw [Prog.bind_run, allocate] at e'
        by_cases hr : cfg.refuse q.2.next (o.len + o.len / 2) = true
        · refine ⟨_, _, by rw [Prog.bind_run, e1, Out.bind_ok, Prog.bind_run, e2, Out.bind_ok, Prog.bind_run, allocateN, if_pos hr]; rfl, ?_⟩
          exact fun h => read_null' h
        · rw [if_neg hr] at e'; cases e'
      | _ => rw [e2] at e'; cases e'
    | _ => rw [e1] at e'; cases e'
  · exact doomed_quiet ((quiet_pure _).bind fun _ => (quiet_readAt _ _ _ _).bind fun _ => quiet_writeAt _ _ _ _)

theorem inHeap_doomed {β : Type} {m n : M β} (hm : Doomed m n) {f : β → Prog World Res} (hf : ∀ b w, f b w ≠ .oom)
    (e : (inHeap m >>= f) w = .oom) : (inHeap n >>= f) w = .ub := by
  rw [Prog.bind_run, inHeap] at e
  cases e' : m w.heap with
  | oom => exact inHeap_ub (hm _ e')
  | ok p => rw [e'] at e; exact absurd e (hf _ _)
  | _ => rw [e'] at e; cases e

theorem step_doomed (op : Op) (w : World) (hp : asks w op ≠ none) (e : step cfg op w = .oom) : stepN cfg op w = .ub := by
  have v : ∀ (f g : Str → Prog World Res) i, (∀ s, f s w = .oom → g s w = .ub) → (var i >>= f) w = .oom → (var i >>= g) w = .ub := by
    intro f g i hfg e
    rw [Prog.bind_run, var] at e ⊢
    cases hv : w.vars i with
    | none => rfl
    | some s => rw [hv] at e; exact hfg s e
  have fin : ∀ i (b : Str) w, (setVar i (some b) >>= fun _ => (pure .unit : Prog World Res)) w ≠ .oom := fun i b w e => by cases e
  cases op with
  | newLit i lit a => exact inHeap_doomed (newLit_doomed _ _) (fin i) e
  | newCopy i j => exact v _ _ _ (fun s => inHeap_doomed (newCopy_doomed _) (fin i)) e
  | copyAssign i j =>
    refine v _ _ _ (fun s => v _ _ _ fun o => ?_) e
    by_cases hij : i = j
    · simp only [if_pos hij]; exact fun e => by cases e
    · simp only [if_neg hij]; exact inHeap_doomed (copyAssign_doomed _ _) (fin i)
  | pushBack i ch => exact v _ _ _ (fun s => inHeap_doomed (pushBack_doomed _ _) (fin i)) e
  | insert i ch idx => exact v _ _ _ (fun s => inHeap_doomed (insert_doomed _ _ _) (fin i)) e
  | _ => exact absurd rfl hp

end Verif.Proof.BStr
