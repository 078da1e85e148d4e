import Verif.Proof.BStringGrow
import Verif.Spec.BStringView
/-!
# Programs with many strings
-/
namespace Verif.Proof.BStr
open Verif Verif.Model.BStr
open Verif.Spec.BStr hiding Ideal
open Verif.Spec.BStr (Ideal)

variable {h h' : Heap} {cfg : Cfg} {w w' : World} {A A' : Ideal} {i j : Nat} {xs ys : List UInt8}

/-! ## pop_back, chars and printing -/

theorem popBack_ok {s : Str} (r : Rep h s xs) (hl : xs.length ≠ 17) :
    ∃ s', popBack s h = .ok ((xs.getLast?.map fun b => [b], s'), h) ∧ Rep h s' xs.dropLast ∧ own s' = own s := by
  have L : localSize = 16 := rfl
  unfold popBack
  rw [Prog.bind_run, all_ok r, Out.bind_ok]
  simp only []
  rcases List.eq_nil_or_concat xs with rfl | ⟨ys, y, rfl⟩
  · exact ⟨s, rfl, r, rfl⟩
  · have hl2 : ((ys ++ [y]).length : Nat) = ys.length + 1 := by simp
    simp only [List.concat_eq_append] at *
    have e : (Model.Ascii.last (ys ++ [y])).1 = some [y] := by simp [Model.Ascii.last]
    rw [e]
    refine ⟨{ s with len := s.len - 1 }, by simp [Prog.pure_run], ?_, ?_⟩
    · rw [List.dropLast_concat]
      generalize hz : ys ++ [y] = zs at r hl hl2
      cases r with
      | empty => simp at hz
      | @small _ bs p a h1 h2 h3 h4 =>
        have := Rep.small (h := h) (xs := ys) (bs := bs) (p := p) (a := a) (by omega) h2 ?_ h4
        · rw [show zs.length - 1 = ys.length by omega]; exact this
        · have := congrArg (List.take ys.length) h3
          rw [List.take_take, Nat.min_eq_left (by omega)] at this
          rw [this, ← hz]; simp
      | @big _ b data a h1 h2 h3 =>
        have := Rep.big (h := h) (xs := ys) (b := b) (data := data) (a := a) (by omega) h2 ?_
        · rw [show zs.length - 1 = ys.length by omega]; exact this
        · have := congrArg (List.take ys.length) h3
          rw [List.take_take, Nat.min_eq_left (by omega)] at this
          rw [this, ← hz]; simp
    · unfold own
      have := r.len
      by_cases hs : s.len > localSize
      · rw [if_pos hs, if_pos (by simp only []; omega)]
      · rw [if_neg hs, if_neg (by simp only []; omega)]

/-- Dropping from 17 to 16 bytes leaves the bytes where the string no longer looks for them. -/
theorem popBack_17 {s : Str} (r : Rep h s xs) (hl : xs.length = 17) :
    ∃ b a data, s = ⟨17, .cap data.length, some b, a⟩ ∧ h.blk b = some ⟨a, data⟩ ∧
      popBack s h = .ok ((xs.getLast?.map fun b => [b], ⟨16, .cap data.length, some b, a⟩), h) := by
  obtain ⟨b, data, a, rfl, h2, h3⟩ := r.big_inv (by simp [localSize]; omega)
  refine ⟨b, a, data, by rw [hl], h2, ?_⟩
  unfold popBack
  rw [Prog.bind_run, all_ok r, Out.bind_ok]
  simp only []
  rcases List.eq_nil_or_concat xs with rfl | ⟨ys, y, rfl⟩
  · cases hl
  · simp only [List.concat_eq_append] at *
    have e : (Model.Ascii.last (ys ++ [y])).1 = some [y] := by simp [Model.Ascii.last]
    rw [e, hl]
    simp [Prog.pure_run]

theorem asciiChars (xs : List UInt8) : Model.Ascii.chars xs = xs.map fun b => [b] := by
  induction xs with
  | nil => rfl
  | cons x xs ih => simp [Model.Ascii.chars, ih]

theorem chars_ascii {s : Str} (r : Rep h s xs) (he : cfg.enc = .ascii) : chars cfg s h = .ok (xs.map fun b => [b], h) := by
  unfold chars
  rw [Prog.bind_run, all_ok r, Out.bind_ok, he, ← asciiChars]; rfl

theorem chars_utf8 {s : Str} (r : Rep h s xs) (he : cfg.enc = .utf8) :
    chars cfg s h = (Model.Utf8.chars xs).bind fun cs => .ok (cs, h) := by
  unfold chars
  rw [Prog.bind_run, all_ok r, Out.bind_ok, he]; rfl

theorem print_ok {s : Str} (r : Rep h s xs) (hl : xs.length ≠ 16) : print s h = .ok (xs, h) := by
  have L : localSize = 16 := rfl
  unfold print
  rw [r.len]
  cases r with
  | small h1 h2 h3 h4 => rw [if_pos (by omega), readi_bind (by rw [h2]; omega), List.drop_zero, h3, look_ok]
  | empty h1 => rfl
  | big h1 h2 h3 =>
    have := Rep.data_le h3
    rw [if_neg (by omega), read_bind h2 (by simp only []; omega), List.drop_zero, h3, look_ok]

theorem print_16 {s : Str} (r : Rep h s xs) (hl : xs.length = 16) : print s h = .ub := by
  have L : localSize = 16 := rfl
  unfold print
  rw [r.len, hl, if_neg (by omega), Prog.bind_run, read_stale (r.stale (by omega))]; rfl

/-! ## The invariant -/

structure Inv (w : World) (A : Ideal) : Prop where
  rep : ∀ i xs, A i = some xs → ∃ s, w.vars i = some s ∧ Rep w.heap s xs
  dom : ∀ i, A i = none → w.vars i = none
  sep : ∀ i j s t b, w.vars i = some s → w.vars j = some t → b ∈ own s → b ∈ own t → i = j
  cover : ∀ b, w.heap.blk b ≠ none → ∃ i s, w.vars i = some s ∧ b ∈ own s
  bal : Bal w.heap

theorem inv_init : Inv {} fun _ => none :=
  ⟨by simp, by simp, fun i j s t b e => by simp at e, fun b hb => absurd rfl hb, bal_init⟩

theorem Inv.rep' (I : Inv w A) {s : Str} (hs : w.vars i = some s) : ∃ xs, A i = some xs ∧ Rep w.heap s xs := by
  cases hA : A i with
  | none => rw [I.dom i hA] at hs; cases hs
  | some xs =>
    obtain ⟨t, h1, h2⟩ := I.rep i xs hA
    rw [hs] at h1; cases h1
    exact ⟨xs, rfl, h2⟩

theorem Inv.change (I : Inv w A) {v' : Nat → Option Str} (K O O' : List Nat) (st : Step w.heap O h' O')
    (same : ∀ i, i ∉ K → v' i = w.vars i ∧ A' i = A i)
    (hO : ∀ b, b ∈ O ↔ ∃ i ∈ K, ∃ s, w.vars i = some s ∧ b ∈ own s)
    (hO' : ∀ b, b ∈ O' ↔ ∃ i ∈ K, ∃ s, v' i = some s ∧ b ∈ own s)
    (rep : ∀ i ∈ K, ∀ xs, A' i = some xs → ∃ s, v' i = some s ∧ Rep h' s xs)
    (dom : ∀ i ∈ K, A' i = none → v' i = none)
    (sep : ∀ i ∈ K, ∀ j ∈ K, ∀ s t b, v' i = some s → v' j = some t → b ∈ own s → b ∈ own t → i = j) :
    Inv ⟨h', v'⟩ A' := by
  have live : ∀ b ∈ O, w.heap.blk b ≠ none := by
    intro b hb
    obtain ⟨i, -, s, hs, hm⟩ := (hO b).1 hb
    obtain ⟨xs, -, r⟩ := I.rep' hs
    exact r.own_live b hm
  have notO : ∀ i, i ∉ K → ∀ s, w.vars i = some s → ∀ b ∈ own s, b ∉ O := by
    intro i hi s hs b hb hm
    obtain ⟨j, hj, t, ht, hbt⟩ := (hO b).1 hm
    exact hi (I.sep i j s t b hs ht hb hbt ▸ hj)
  have notO' : ∀ i, i ∉ K → ∀ s, w.vars i = some s → ∀ b ∈ own s, b ∉ O' := by
    intro i hi s hs b hb hm
    obtain ⟨xs, -, r⟩ := I.rep' hs
    have h1 := st.new b hm (notO i hi s hs b hb)
    exact r.own_live b hb (I.bal.fresh b h1)
  refine ⟨?_, ?_, ?_, ?_, st.bal⟩
  · intro i xs hA
    by_cases hi : i ∈ K
    · exact rep i hi xs hA
    · rw [(same i hi).2] at hA
      obtain ⟨s, hs, r⟩ := I.rep i xs hA
      exact ⟨s, by simp only [(same i hi).1, hs], r.keep st I.bal live (notO i hi s hs)⟩
  · intro i hA
    by_cases hi : i ∈ K
    · exact dom i hi hA
    · rw [(same i hi).2] at hA
      simp only [(same i hi).1, I.dom i hA]
  · intro i j s t b hs ht hb hbt
    by_cases hi : i ∈ K <;> by_cases hj : j ∈ K
    · exact sep i hi j hj s t b hs ht hb hbt
    · simp only [(same j hj).1] at ht
      exact absurd ((hO' b).2 ⟨i, hi, s, hs, hb⟩) (notO' j hj t ht b hbt)
    · simp only [(same i hi).1] at hs
      exact absurd ((hO' b).2 ⟨j, hj, t, ht, hbt⟩) (notO' i hi s hs b hb)
    · simp only [(same i hi).1] at hs
      simp only [(same j hj).1] at ht
      exact I.sep i j s t b hs ht hb hbt
  · intro b hb
    by_cases h1 : b ∈ O'
    · obtain ⟨i, -, s, hs, hm⟩ := (hO' b).1 h1
      exact ⟨i, s, hs, hm⟩
    · by_cases h2 : b ∈ O
      · exact absurd (st.gone b h2 h1) hb
      · simp only [st.keep b h2 h1] at hb
        obtain ⟨i, s, hs, hm⟩ := I.cover b hb
        have hi : i ∉ K := fun hi => h2 ((hO b).2 ⟨i, hi, s, hs, hm⟩)
        exact ⟨i, s, by simp only [(same i hi).1, hs], hm⟩

theorem put_same (A : Ideal) (i : Nat) (x : Option (List UInt8)) : put A i x i = x := if_pos rfl
theorem put_ne {x : Option (List UInt8)} (hn : j ≠ i) : put A i x j = A j := if_neg hn

/-- Blocks of a variable, if it exists. -/
def ownVar (w : World) (i : Nat) : List Nat := (w.vars i).elim [] own

theorem mem_ownVar {b : Nat} : b ∈ ownVar w i ↔ ∃ s, w.vars i = some s ∧ b ∈ own s := by
  unfold ownVar
  cases w.vars i <;> simp

/-- One variable gets a new value. -/
theorem Inv.set (I : Inv w A) {s : Str} (st : Step w.heap (ownVar w i) h' (own s)) (r : Rep h' s xs) :
    Inv ⟨h', upd w.vars i (some s)⟩ (put A i (some xs)) := by
  refine I.change [i] _ _ st ?_ ?_ ?_ ?_ ?_ ?_
  · intro k hk
    simp only [List.mem_singleton] at hk
    exact ⟨upd_ne hk, put_ne hk⟩
  · intro b; simp [mem_ownVar]
  · intro b; simp [upd_same]
  · intro k hk ys hA
    simp only [List.mem_singleton] at hk; subst hk
    rw [put_same] at hA; cases hA
    exact ⟨s, upd_same _ _ _, r⟩
  · intro k hk hA
    simp only [List.mem_singleton] at hk; subst hk
    rw [put_same] at hA; cases hA
  · intro k hk l hl
    simp only [List.mem_singleton] at hk hl; subst hk hl
    intros; rfl

/-- One variable is destroyed. -/
theorem Inv.del (I : Inv w A) (st : Step w.heap (ownVar w i) h' []) : Inv ⟨h', upd w.vars i none⟩ (put A i none) := by
  refine I.change [i] _ _ st ?_ ?_ ?_ ?_ ?_ ?_
  · intro k hk
    simp only [List.mem_singleton] at hk
    exact ⟨upd_ne hk, put_ne hk⟩
  · intro b; simp [mem_ownVar]
  · intro b; simp [upd_same]
  · intro k hk ys hA
    simp only [List.mem_singleton] at hk; subst hk
    rw [put_same] at hA; cases hA
  · intro k hk hA
    simp only [List.mem_singleton] at hk; subst hk
    exact upd_same _ _ _
  · intro k hk l hl
    simp only [List.mem_singleton] at hk hl; subst hk hl
    intros; rfl

/-- Two variables get new values, of which the second owns nothing. -/
theorem Inv.set2 (I : Inv w A) {s t : Str} (hij : i ≠ j) (st : Step w.heap (ownVar w i ++ ownVar w j) h' (own s)) (ho : own t = [])
    (r : Rep h' s xs) (rt : Rep h' t ys) :
    Inv ⟨h', upd (upd w.vars i (some s)) j (some t)⟩ (put (put A i (some xs)) j (some ys)) := by
  have e1 : upd (upd w.vars i (some s)) j (some t) i = some s := by rw [upd_ne hij, upd_same]
  have e2 : upd (upd w.vars i (some s)) j (some t) j = some t := upd_same _ _ _
  refine I.change [i, j] _ _ st ?_ ?_ ?_ ?_ ?_ ?_
  · intro k hk
    simp only [List.mem_cons, List.not_mem_nil, or_false, not_or] at hk
    exact ⟨by rw [upd_ne hk.2, upd_ne hk.1], by rw [put_ne hk.2, put_ne hk.1]⟩
  · intro b; simp [mem_ownVar]
  · intro b; simp [e1, e2, ho]
  · intro k hk zs hA
    simp only [List.mem_cons, List.not_mem_nil, or_false] at hk
    rcases hk with rfl | rfl
    · rw [put_ne hij, put_same] at hA; cases hA
      exact ⟨s, e1, r⟩
    · rw [put_same] at hA; cases hA
      exact ⟨t, e2, rt⟩
  · intro k hk hA
    simp only [List.mem_cons, List.not_mem_nil, or_false] at hk
    rcases hk with rfl | rfl
    · rw [put_ne hij, put_same] at hA; cases hA
    · rw [put_same] at hA; cases hA
  · intro k hk l hl s' t' b h1 h2 h3 h4
    simp only [List.mem_cons, List.not_mem_nil, or_false] at hk hl
    rcases hk with rfl | rfl <;> rcases hl with rfl | rfl
    · rfl
    · rw [e2] at h2; cases h2; rw [ho] at h4; cases h4
    · rw [e2] at h1; cases h1; rw [ho] at h3; cases h3
    · rfl

/-! ## Steps -/

theorem var_bind {β : Type} {s : Str} (hs : w.vars i = some s) (f : Str → Prog World β) : (var i >>= f) w = f s w := by
  rw [Prog.bind_run, var, hs]; rfl

theorem inHeap_bind {β γ : Type} {m : M β} {f : β → Prog World γ} {P : β × Heap → Prop} {Q : γ × World → Prop}
    (hm : (m w.heap).SafeIf (Refuses cfg) P) (hf : ∀ b h', P (b, h') → (f b { w with heap := h' }).SafeIf (Refuses cfg) Q) :
    ((inHeap m >>= f) w).SafeIf (Refuses cfg) Q := by
  rw [Prog.bind_run, inHeap]
  cases he : m w.heap with
  | ok p => rw [he] at hm; exact hf p.1 p.2 hm
  | _ => rw [he] at hm; exact hm

theorem inHeap_ok {β γ : Type} {m : M β} {f : β → Prog World γ} {b : β} (hm : m w.heap = .ok (b, h')) :
    (inHeap m >>= f) w = f b { w with heap := h' } := by
  rw [Prog.bind_run, inHeap, hm]; rfl

theorem inHeap_ub {β γ : Type} {m : M β} {f : β → Prog World γ} (hm : m w.heap = .ub) : (inHeap m >>= f) w = .ub := by
  rw [Prog.bind_run, inHeap, hm]; rfl

theorem setVar_bind {β : Type} {s : Option Str} (f : Unit → Prog World β) :
    (setVar i s >>= f) w = f () { w with vars := upd w.vars i s } := rfl

theorem ownVar_some {s : Str} (hs : w.vars i = some s) : ownVar w i = own s := by simp [ownVar, hs]
theorem ownVar_none (hs : w.vars i = none) : ownVar w i = [] := by simp [ownVar, hs]

theorem put_self (h : A i = some xs) : put A i (some xs) = A := by
  funext k
  by_cases hk : k = i
  · subst hk; rw [put_same, h]
  · rw [put_ne hk]

theorem step_ok (op : Op) (I : Inv w A) {r : Res} (hs : specStep false cfg.lenient cfg.enc op A = some (r, A')) :
    (step cfg op w).SafeIf (Refuses cfg) fun q => q.1 = r ∧ Inv q.2 A' := by
  cases op with
  | newAlloc i a =>
    simp only [specStep] at hs
    split at hs
    next h1 =>
      cases hs
      obtain ⟨e, r, st⟩ := newAlloc_ok I.bal a
      simp only [step]
      rw [inHeap_ok e, setVar_bind]
      exact ⟨rfl, I.set (by rw [ownVar_none (I.dom i h1)]; exact st) r⟩
    · cases hs
  | newLit i lit a =>
    simp only [specStep] at hs
    split at hs
    next h1 =>
      cases hs
      simp only [step]
      refine inHeap_bind (newLit_ok I.bal lit a) ?_
      rintro s h' ⟨r, st⟩
      rw [setVar_bind]
      exact ⟨rfl, I.set (by rw [ownVar_none (I.dom i h1.1)]; exact st) r⟩
    · cases hs
  | newCopy i j =>
    simp only [specStep] at hs
    split at hs
    next h1 h2 =>
      cases hs
      obtain ⟨o, ho, ro⟩ := I.rep j _ h2
      simp only [step]
      rw [var_bind ho]
      refine inHeap_bind (newCopy_ok I.bal ro) ?_
      rintro s h' ⟨r, st⟩
      rw [setVar_bind]
      exact ⟨rfl, I.set (by rw [ownVar_none (I.dom i h1)]; exact st) r⟩
    · cases hs
  | newMove i j =>
    simp only [specStep] at hs
    split at hs
    next h1 h2 =>
      split at hs
      next hl =>
        cases hs
        obtain ⟨o, ho, ro⟩ := I.rep j _ h2
        have hij : i ≠ j := by rintro rfl; rw [h1] at h2; cases h2
        obtain ⟨q, e, r1, r2, o1, o2⟩ := newMove_ok (by simpa using hl) ro
        simp only [step]
        rw [var_bind ho, inHeap_ok e, setVar_bind, setVar_bind]
        refine ⟨rfl, I.set2 hij ?_ o2 r1 r2⟩
        rw [ownVar_none (I.dom i h1), ownVar_some ho, o1]
        exact Step.refl I.bal _
      · cases hs
    · cases hs
  | copyAssign i j =>
    simp only [specStep] at hs
    split at hs
    next xs ys h1 h2 =>
      split at hs
      next hc =>
        cases hs
        obtain ⟨s, hs, r⟩ := I.rep i _ h1
        obtain ⟨o, ho, ro⟩ := I.rep j _ h2
        simp only [step]
        rw [var_bind hs, var_bind ho]
        by_cases hij : i = j
        · rw [if_pos hij]
          subst hij
          rw [h1] at h2; cases h2
          rw [put_self h1]
          exact ⟨rfl, I⟩
        · rw [if_neg hij]
          refine inHeap_bind (copyAssign_ok I.bal r ro (fun b hb hb' => hij (I.sep i j s o b hs ho hb hb')) ?_) ?_
          · simpa [hij, not16] using hc
          rintro s' h' ⟨r, st⟩
          rw [setVar_bind]
          exact ⟨rfl, I.set (by rw [ownVar_some hs]; exact st) r⟩
      · cases hs
    · cases hs
  | moveAssign i j =>
    simp only [specStep] at hs
    split at hs
    next xs ys h1 h2 =>
      obtain ⟨s, hvi, r⟩ := I.rep i _ h1
      obtain ⟨o, ho, ro⟩ := I.rep j _ h2
      simp only [step]
      rw [var_bind hvi, var_bind ho]
      by_cases hij : i = j
      · rw [if_pos hij] at hs ⊢
        cases hs
        exact ⟨rfl, I⟩
      · rw [if_neg hij] at hs ⊢
        split at hs
        next hc =>
          cases hs
          simp only [Bool.false_or, Bool.and_eq_true, not16, decide_eq_true_eq] at hc
          obtain ⟨q, h', e, r1, r2, o2, o1, st⟩ := moveAssign_ok I.bal r ro
            (fun b hb hb' => hij (I.sep i j s o b hvi ho hb hb')) hc.1 hc.2.1 hc.2.2
          rw [inHeap_ok e, setVar_bind, setVar_bind]
          exact ⟨rfl, I.set2 hij (by rw [ownVar_some hvi, ownVar_some ho]; exact st) o2 r1 r2⟩
        · cases hs
    · cases hs
  | drop i =>
    simp only [specStep] at hs
    split at hs
    next xs h1 =>
      cases hs
      obtain ⟨s, hs, r⟩ := I.rep i _ h1
      obtain ⟨h', e, st⟩ := destruct_ok I.bal r
      simp only [step]
      rw [var_bind hs, inHeap_ok e, setVar_bind]
      exact ⟨rfl, I.del (by rw [ownVar_some hs]; exact st)⟩
    · cases hs
  | pushBack i ch =>
    simp only [specStep] at hs
    split at hs
    next xs h1 =>
      cases hs
      obtain ⟨s, hs, r⟩ := I.rep i _ h1
      simp only [step]
      rw [var_bind hs]
      refine inHeap_bind (pushBack_ok I.bal r ch) ?_
      rintro s' h' ⟨r, st⟩
      rw [setVar_bind]
      exact ⟨rfl, I.set (by rw [ownVar_some hs]; exact st) r⟩
    · cases hs
  | insert i ch idx =>
    simp only [specStep] at hs
    split at hs
    next xs h1 =>
      split at hs
      next hc =>
        cases hs
        obtain ⟨s, hs, r⟩ := I.rep i _ h1
        simp only [step]
        rw [var_bind hs]
        refine inHeap_bind (insert_ok I.bal r ch hc.2) ?_
        rintro s' h' ⟨r, st⟩
        rw [setVar_bind]
        exact ⟨rfl, I.set (by rw [ownVar_some hs]; exact st) r⟩
      · cases hs
    · cases hs
  | popBack i =>
    simp only [specStep] at hs
    split at hs
    next xs h1 =>
      split at hs
      next hc =>
        cases hs
        obtain ⟨s, hs, r⟩ := I.rep i _ h1
        obtain ⟨s', e, r', o⟩ := popBack_ok r (by simpa using hc.2)
        simp only [step]
        rw [var_bind hs, inHeap_ok e, setVar_bind]
        exact ⟨rfl, I.set (by rw [ownVar_some hs, o]; exact Step.refl I.bal _) r'⟩
      · cases hs
    · cases hs
  | size i =>
    simp only [specStep] at hs
    split at hs
    next xs h1 =>
      cases hs
      obtain ⟨s, hs, r⟩ := I.rep i _ h1
      simp only [step]
      rw [var_bind hs, r.len]
      exact ⟨rfl, I⟩
    · cases hs
  | isCharBoundary i idx =>
    simp only [specStep] at hs
    split at hs
    next xs h1 =>
      split at hs
      next hc =>
        cases hs
        obtain ⟨s, hs, r⟩ := I.rep i _ h1
        simp only [step]
        rw [var_bind hs, inHeap_ok (isCharBoundary_ok r idx)]
        exact ⟨rfl, I⟩
      · cases hs
    · cases hs
  | chars i =>
    simp only [specStep] at hs
    split at hs
    next xs h1 =>
      split at hs
      next hc =>
        cases hs
        obtain ⟨s, hs, r⟩ := I.rep i _ h1
        simp only [step]
        rw [var_bind hs, inHeap_ok (chars_ascii r hc)]
        exact ⟨rfl, I⟩
      · cases hs
    · cases hs
  | print i =>
    simp only [specStep] at hs
    split at hs
    next xs h1 =>
      split at hs
      next hc =>
        cases hs
        obtain ⟨s, hs, r⟩ := I.rep i _ h1
        simp only [step]
        rw [var_bind hs, inHeap_ok (print_ok r (by simpa using hc))]
        exact ⟨rfl, I⟩
      · cases hs
    · cases hs

theorem run_ok (ops : List Op) (I : Inv w A) {rs : List Res} (hs : specRun false cfg.lenient cfg.enc ops A = some (rs, A')) :
    (run cfg ops w).SafeIf (Refuses cfg) fun q => q.1 = rs ∧ Inv q.2 A' := by
  induction ops generalizing w A rs with
  | nil => cases hs; exact ⟨rfl, I⟩
  | cons op ops ih =>
    simp only [specRun] at hs
    cases h1 : specStep false cfg.lenient cfg.enc op A with
    | none => rw [h1] at hs; cases hs
    | some p =>
      rw [h1] at hs
      simp only [] at hs
      cases h2 : specRun false cfg.lenient cfg.enc ops p.2 with
      | none => rw [h2] at hs; cases hs
      | some q =>
        rw [h2] at hs
        cases hs
        simp only [run, Prog.bind_run]
        refine (step_ok op I h1).bind ?_
        rintro ⟨r, w1⟩ ⟨e1, I1⟩
        refine (ih I1 h2).bind ?_
        rintro ⟨rs, w2⟩ ⟨e2, I2⟩
        exact ⟨by simp only [] at e1 e2; rw [e1, e2], I2⟩

/-! ## Views and reachable states -/

theorem known_ok (xs : List UInt8) : known (xs.map some) = some xs := by
  induction xs with
  | nil => rfl
  | cons x xs ih => simp [known, ih]

theorem Rep.memory {s : Str} (r : Rep h s xs) :
    xs.length ≤ (memory h s).length ∧ known ((Spec.BStr.memory h s).take xs.length) = some xs := by
  have L : localSize = 16 := rfl
  cases r with
  | small h1 h2 h3 h4 => simp only [Spec.BStr.memory]; rw [if_pos (by omega)]; exact ⟨by omega, by simp only [h3, known_ok]⟩
  | empty h1 => exact ⟨by simp, by simp [known]⟩
  | big h1 h2 h3 =>
    simp only [Spec.BStr.memory]
    rw [if_neg (by omega)]
    simp only [Option.bind_some, h2, Option.map_some, Option.getD_some]
    exact ⟨Rep.data_le h3, by rw [h3, known_ok]⟩

theorem Inv.view (I : Inv w A) : view w = A := by
  funext i
  cases hA : A i with
  | none => simp [Spec.BStr.view, I.dom i hA]
  | some xs =>
    obtain ⟨s, hs, r⟩ := I.rep i xs hA
    obtain ⟨h1, h2⟩ := r.memory
    simp only [Spec.BStr.view, hs, Option.bind_some, r.len]
    rw [if_pos h1, h2]

theorem reach_inv (hr : Reach cfg w) : Inv w (view w) := by
  obtain ⟨ops, rs, A, rs', hs, he⟩ := hr
  have := run_ok ops inv_init hs
  rw [he] at this
  obtain ⟨-, I⟩ := this
  have I' : Inv w A := I
  rw [I'.view]; exact I'

theorem specRun_append {full len : Bool} {enc : Enc} (ops ops' : List Op) {A A' A'' : Ideal} {rs rs' : List Res}
    (h1 : specRun full len enc ops A = some (rs, A')) (h2 : specRun full len enc ops' A' = some (rs', A'')) :
    specRun full len enc (ops ++ ops') A = some (rs ++ rs', A'') := by
  induction ops generalizing A rs with
  | nil => cases h1; exact h2
  | cons o ops ih =>
    simp only [specRun, List.cons_append] at h1 ⊢
    cases hs : specStep full len enc o A with
    | none => rw [hs] at h1; cases h1
    | some p =>
      rw [hs] at h1
      simp only at h1 ⊢
      cases hr : specRun full len enc ops p.2 with
      | none => rw [hr] at h1; cases h1
      | some q =>
        rw [hr] at h1
        cases h1
        rw [ih hr]
        rfl

theorem run_append (ops ops' : List Op) {w w' : World} {rs : List Res} (h1 : run cfg ops w = .ok (rs, w')) :
    run cfg (ops ++ ops') w = (run cfg ops' w').bind fun q => .ok (rs ++ q.1, q.2) := by
  induction ops generalizing w rs with
  | nil => cases h1; cases e : run cfg ops' w' <;> simp [e, Out.bind]
  | cons o ops ih =>
    simp only [run, List.cons_append, Prog.bind_run] at h1 ⊢
    cases hs : step cfg o w with
    | ok p =>
      rw [hs] at h1
      simp only [Out.bind_ok] at h1 ⊢
      cases hr : run cfg ops p.2 with
      | ok q =>
        rw [hr] at h1
        cases h1
        rw [ih hr]
        cases run cfg ops' q.2 <;> rfl
      | _ => rw [hr] at h1; cases h1
    | _ => rw [hs] at h1; cases h1

theorem reach_run (hr : Reach cfg w) (ops : List Op) {rs : List Res} (hs : specRun false cfg.lenient cfg.enc ops (view w) = some (rs, A')) :
    (run cfg ops w).SafeIf (Refuses cfg) fun q => q.1 = rs ∧ Spec.BStr.view q.2 = A' ∧ Reach cfg q.2 := by
  have I := reach_inv hr
  have := run_ok ops I hs
  cases he : run cfg ops w with
  | ok q =>
    rw [he] at this
    obtain ⟨e, I'⟩ := this
    refine ⟨e, I'.view, ?_⟩
    obtain ⟨ops0, rs0, A0, rs0', h1, h2⟩ := hr
    have hA : Spec.BStr.view w = A0 := by
      have := run_ok ops0 inv_init h1
      rw [h2] at this
      exact Inv.view this.2
    rw [hA] at hs
    exact ⟨ops0 ++ ops, _, _, rs0' ++ q.1, specRun_append ops0 ops h1 hs, by rw [run_append ops0 ops h2, he]; rfl⟩
  | _ => rw [he] at this; exact this

theorem reach_step (hr : Reach cfg w) {op : Op} {r : Res} (hs : specStep false cfg.lenient cfg.enc op (view w) = some (r, A')) :
    (step cfg op w).SafeIf (Refuses cfg) fun q => q.1 = r ∧ Spec.BStr.view q.2 = A' ∧ Reach cfg q.2 := by
  have := reach_run hr [op] (rs := [r]) (A' := A') (by simp [specRun, hs])
  simp only [run, Prog.bind_run] at this
  cases he : step cfg op w with
  | ok q =>
    rw [he] at this
    obtain ⟨e, v, r⟩ := this
    exact ⟨by simpa using e, v, r⟩
  | _ => rw [he] at this; exact this

theorem reach_of (hn : ¬ Refuses cfg) (ops : List Op) {rs : List Res} (h : specRun false cfg.lenient cfg.enc ops (fun _ => none) = some (rs, A)) :
    ∃ w, Reach cfg w ∧ Spec.BStr.view w = A := by
  obtain ⟨⟨rs', w⟩, e, -, I⟩ := (run_ok (cfg := cfg) ops inv_init h).ok_of hn
  exact ⟨w, ⟨ops, rs, A, rs', h, e⟩, Inv.view I⟩

theorem reach_get (hr : Reach cfg w) (hi : view w i = some xs) : ∃ s, w.vars i = some s ∧ Rep w.heap s xs :=
  (reach_inv hr).rep i xs hi

end Verif.Proof.BStr
