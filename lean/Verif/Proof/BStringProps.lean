import Verif.Proof.BStringWorld
/-!
# Strings: facts used by the property theorems
-/
namespace Verif.Proof.BStr
open Verif Verif.Model.BStr
open Verif.Spec.BStr hiding Ideal
open Verif.Spec.BStr (Ideal)
open Verif.Spec (WellFormed CharBoundary Tail)

variable {h h' : Heap} {cfg : Cfg} {w w' : World} {A A' : Ideal} {i j : Nat} {xs ys : List UInt8}

theorem specStep_documented {len : Bool} {enc : Enc} {op : Op} {p : Res × Ideal} (h : specStep false len enc op A = some p) :
    specStep true len enc op A = some p := by
  cases op with
  | newMove i j =>
    simp only [specStep] at h ⊢
    split at h
    next h1 h2 =>
      simp only [Bool.false_or] at h
      split at h
      · simpa using h
      · cases h
    · cases h
  | copyAssign i j =>
    simp only [specStep] at h ⊢
    split at h
    next h1 h2 =>
      split at h
      · simpa using h
      · cases h
    · cases h
  | moveAssign i j =>
    simp only [specStep] at h ⊢
    split at h
    next h1 h2 =>
      by_cases hij : i = j
      · rw [if_pos hij] at h ⊢; exact h
      · rw [if_neg hij] at h ⊢
        split at h
        · simpa using h
        · cases h
    · cases h
  | popBack i =>
    simp only [specStep] at h ⊢
    split at h
    next h1 =>
      split at h
      next hc => simpa [hc.1] using h
      · cases h
    · cases h
  | print i =>
    simp only [specStep] at h ⊢
    split at h
    next h1 =>
      split at h
      next hc => simpa using h
      · cases h
    · cases h
  | _ => exact h

theorem specRun_mono {f g len : Bool} {enc : Enc} {ops : List Op} {p : List Res × Ideal}
    (hm : ∀ op ∈ ops, ∀ A q, specStep f len enc op A = some q → specStep g len enc op A = some q)
    (h : specRun f len enc ops A = some p) : specRun g len enc ops A = some p := by
  induction ops generalizing A p with
  | nil => exact h
  | cons op ops ih =>
    simp only [specRun] at h ⊢
    cases h1 : specStep f len enc op A with
    | none => rw [h1] at h; cases h
    | some q =>
      rw [h1] at h
      rw [hm op (by simp) A q h1]
      simp only [] at h ⊢
      cases h2 : specRun f len enc ops q.2 with
      | none => rw [h2] at h; cases h
      | some q2 =>
        rw [h2] at h
        rw [ih (fun o ho => hm o (by simp [ho])) h2]
        exact h

theorem specRun_documented {len : Bool} {enc : Enc} {ops : List Op} {p : List Res × Ideal}
    (h : specRun false len enc ops A = some p) : specRun true len enc ops A = some p :=
  specRun_mono (fun _ _ _ _ => specStep_documented) h

theorem specRun_plain {len : Bool} {enc : Enc} {ops : List Op} (hp : ∀ op ∈ ops, plain op = true) {p : List Res × Ideal}
    (h : specRun true len enc ops A = some p) : specRun false len enc ops A = some p := by
  refine specRun_mono (fun op ho A q e => ?_) h
  have := hp op ho
  cases op <;> first | exact e | cases this

/-! ## Validity -/

theorem contByte_iff (b : UInt8) : contByte b = true ↔ Tail b := by simp [contByte, Spec.InRange]

theorem boundary_meaning (h : WellFormed xs) (idx : Nat) : boundary xs idx = true ↔ CharBoundary xs idx := by
  by_cases h0 : idx = 0
  · subst h0
    exact ⟨fun _ => ⟨[], xs, rfl, rfl, Proof.Utf8.wf_nil, h⟩, fun _ => rfl⟩
  by_cases hl : idx < xs.length
  · rw [Proof.Utf8.boundary_iff h idx hl, boundary]
    simp [h0, List.getElem?_eq_getElem hl, Nat.ne_of_lt hl, ← isCont_contByte]
  · constructor
    · intro hb
      obtain rfl : idx = xs.length := by have := boundary_le hb; omega
      exact ⟨xs, [], by simp, rfl, h, Proof.Utf8.wf_nil⟩
    · rintro ⟨pre, post, rfl, rfl, -, -⟩
      simp at hl
      simp [boundary, hl]

theorem wf_append {xs ys : List UInt8} (h1 : WellFormed xs) (h2 : WellFormed ys) : WellFormed (xs ++ ys) := by
  obtain ⟨c1, a1, rfl⟩ := h1
  obtain ⟨c2, a2, rfl⟩ := h2
  exact ⟨c1 ++ c2, by simpa [or_imp, forall_and] using ⟨a1, a2⟩, by simp⟩

theorem insertAt_valid {ch : List UInt8} {idx : Nat} (hx : WellFormed xs) (hc : WellFormed ch) (hb : boundary xs idx = true) :
    WellFormed (insertAt xs ch idx) := by
  obtain ⟨pre, post, rfl, rfl, h1, h2⟩ := (boundary_meaning hx idx).1 hb
  simp only [insertAt, List.take_left, List.drop_left]
  exact wf_append (wf_append h1 hc) h2

theorem put_valid {x : Option (List UInt8)} (hA : ∀ i xs, A i = some xs → WellFormed xs) (hx : ∀ xs, x = some xs → WellFormed xs) :
    ∀ k xs, put A i x k = some xs → WellFormed xs := by
  intro k xs h
  by_cases hk : k = i
  · subst hk; rw [put_same] at h; exact hx xs h
  · rw [put_ne hk] at h; exact hA k xs h

theorem spec_valid_step (V : Op → Prop) (hl : ∀ i lit a, V (.newLit i lit a) → WellFormed lit) (hp : ∀ i ch, V (.pushBack i ch) → WellFormed ch)
    (hi : ∀ i ch idx, V (.insert i ch idx) → WellFormed ch) {len : Bool} (op : Op) (hv : V op) {r : Res}
    (hA : ∀ i xs, A i = some xs → WellFormed xs) (h : specStep false len .utf8 op A = some (r, A')) :
    ∀ i xs, A' i = some xs → WellFormed xs := by
  cases op with
  | newAlloc i a =>
    simp only [specStep] at h
    split at h
    · cases h; exact put_valid hA (by rintro _ ⟨⟩; exact Proof.Utf8.wf_nil)
    · cases h
  | newLit i lit a =>
    simp only [specStep] at h
    split at h
    · cases h; exact put_valid hA (by rintro _ ⟨⟩; exact hl _ _ _ hv)
    · cases h
  | newCopy i j =>
    simp only [specStep] at h
    split at h
    next h1 h2 => cases h; exact put_valid hA (by rintro _ ⟨⟩; exact hA _ _ h2)
    · cases h
  | newMove i j =>
    simp only [specStep] at h
    split at h
    next h1 h2 =>
      split at h
      · cases h; exact put_valid (put_valid hA (by rintro _ ⟨⟩; exact hA _ _ h2)) (by rintro _ ⟨⟩; exact Proof.Utf8.wf_nil)
      · cases h
    · cases h
  | copyAssign i j =>
    simp only [specStep] at h
    split at h
    next h1 h2 =>
      split at h
      · cases h; exact put_valid hA (by rintro _ ⟨⟩; exact hA _ _ h2)
      · cases h
    · cases h
  | moveAssign i j =>
    simp only [specStep] at h
    split at h
    next h1 h2 =>
      split at h
      · cases h; exact hA
      · split at h
        · cases h; exact put_valid (put_valid hA (by rintro _ ⟨⟩; exact hA _ _ h2)) (by rintro _ ⟨⟩; exact Proof.Utf8.wf_nil)
        · cases h
    · cases h
  | drop i =>
    simp only [specStep] at h
    split at h
    · cases h; exact put_valid hA (by rintro _ ⟨⟩)
    · cases h
  | pushBack i ch =>
    simp only [specStep] at h
    split at h
    next h1 => cases h; exact put_valid hA (by rintro _ ⟨⟩; exact wf_append (hA _ _ h1) (hp _ _ hv))
    · cases h
  | insert i ch idx =>
    simp only [specStep] at h
    split at h
    next h1 =>
      split at h
      next hc => cases h; exact put_valid hA (by rintro _ ⟨⟩; exact insertAt_valid (hA _ _ h1) (hi _ _ _ hv) hc.2)
      · cases h
    · cases h
  | popBack i =>
    simp only [specStep] at h
    split at h
    · simp at h
    · cases h
  | size i => simp only [specStep] at h; split at h <;> cases h; exact hA
  | isCharBoundary i idx => simp only [specStep] at h; split at h <;> (try split at h) <;> cases h; exact hA
  | chars i => simp only [specStep] at h; split at h <;> (try split at h) <;> cases h; exact hA
  | print i => simp only [specStep] at h; split at h <;> (try split at h) <;> cases h; exact hA

theorem spec_valid (V : Op → Prop) (hl : ∀ i lit a, V (.newLit i lit a) → WellFormed lit) (hp : ∀ i ch, V (.pushBack i ch) → WellFormed ch)
    (hi : ∀ i ch idx, V (.insert i ch idx) → WellFormed ch) {len : Bool} (ops : List Op) (hv : ∀ op ∈ ops, V op) {rs : List Res}
    (hA : ∀ i xs, A i = some xs → WellFormed xs) (h : specRun false len .utf8 ops A = some (rs, A')) :
    ∀ i xs, A' i = some xs → WellFormed xs := by
  induction ops generalizing A rs with
  | nil => cases h; exact hA
  | cons op ops ih =>
    simp only [specRun] at h
    cases h1 : specStep false len .utf8 op A with
    | none => rw [h1] at h; cases h
    | some q =>
      rw [h1] at h
      simp only [] at h
      cases h2 : specRun false len .utf8 ops q.2 with
      | none => rw [h2] at h; cases h
      | some q2 =>
        rw [h2] at h
        cases h
        exact ih (fun o ho => hv o (by simp [ho])) (spec_valid_step V hl hp hi op (hv op (by simp)) hA h1) h2

/-! ## Memory -/

theorem held_eq (n : Nat) : held h n = total h.blk n := by
  induction n with
  | zero => rfl
  | succ n ih => rw [held, total, ih]; cases h.blk n <;> rfl

theorem mem_own {s : Str} (r : Rep h s xs) {b : Nat} : b ∈ own s ↔ 16 < s.len ∧ s.bytes = some b := by
  unfold own
  by_cases hs : s.len > localSize
  · rw [if_pos hs]; simp only [localSize] at hs; simp [hs]
  · rw [if_neg hs]; simp only [localSize] at hs; simp [hs]

theorem owns_iff (I : Inv w A) {b : Nat} : Owns w i b ↔ b ∈ ownVar w i := by
  rw [mem_ownVar]
  constructor
  · rintro ⟨s, hs, h1, h2⟩
    obtain ⟨xs, -, r⟩ := I.rep' hs
    exact ⟨s, hs, (mem_own r).2 ⟨h1, h2⟩⟩
  · rintro ⟨s, hs, hb⟩
    obtain ⟨xs, -, r⟩ := I.rep' hs
    exact ⟨s, hs, (mem_own r).1 hb⟩

theorem own_block {s : Str} (r : Rep h s xs) {b : Nat} (hb : b ∈ own s) :
    ∃ k, h.blk b = some k ∧ k.owner = s.alloc ∧ s.store = .cap k.data.length ∧ s.len ≤ k.data.length := by
  have L : localSize = 16 := rfl
  cases r with
  | small h1 => rw [own_small h1] at hb; cases hb
  | empty h1 => rw [own_small (by simp)] at hb; cases hb
  | big h1 h2 h3 =>
    rw [own_big h1] at hb
    simp only [List.mem_singleton] at hb; subst hb
    exact ⟨_, h2, rfl, rfl, Rep.data_le h3⟩

end Verif.Proof.BStr
