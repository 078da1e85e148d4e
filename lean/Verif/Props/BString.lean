import Verif.Proof.BStringProps
/-!
# Properties C40-C45: strings

`Reach cfg w`: the program state `w` is reached by some history allowed by the restricted specification
(`Spec/BStringView.lean`).  `view w i` are the bytes of string variable `i`.  `cfg.enc` is the encoding of all strings of
the program.  `SafeIf (Refuses cfg)`: the call does not reach undefined behaviour, does not panic, terminates, and if it
returns the result is as stated; it can only fail to return because an allocation was refused, so if the allocator never
refuses it returns.  `cfg.lenient` is explained in `Model/BString.lean`; theorems without a hypothesis on it hold under
both readings of the code.
-/
namespace Verif.Props
open Verif Verif.Model.BStr Verif.Proof.BStr
open Verif.Spec.BStr hiding memory
open Verif.Spec (WellFormed Utf8Seq CharBoundary)

namespace Strings

variable {cfg : Cfg} {w : World} {i j : Nat} {xs ys : List UInt8}

/-- A configuration for the examples; the allocator never refuses. -/
def exCfg (enc : Enc) (lenient : Bool) : Cfg := ⟨enc, lenient, fun _ _ => false⟩

theorem exCfg_ok (enc : Enc) (lenient : Bool) : ¬ Refuses (exCfg enc lenient) := by rintro ⟨k, n, h⟩; cases h

/-- 'A', 'B', ... -/
def letters (n : Nat) : List UInt8 := (List.range n).map fun k => UInt8.ofNat (65 + k)

/-- String 0 is empty, 1 has 15 bytes, 2 has 16, 3 has 17, 4 has 20 and 5 is "é" twice. -/
def exOps : List Op :=
  [.newAlloc 0 7, .newLit 1 (letters 15) 0, .newLit 2 (letters 16) 0, .newLit 3 (letters 17) 0, .newLit 4 (letters 20) 3,
   .newLit 5 [0xC3, 0xA9, 0xC3, 0xA9] 0]

def exView : Ideal
  | 0 => some []
  | 1 => some (letters 15)
  | 2 => some (letters 16)
  | 3 => some (letters 17)
  | 4 => some (letters 20)
  | 5 => some [0xC3, 0xA9, 0xC3, 0xA9]
  | _ => none

theorem exReach (enc : Enc) (lenient : Bool) : ∃ w, Reach (exCfg enc lenient) w ∧ ∀ i < 7, view w i = exView i := by
  cases h : specRun false lenient enc exOps (fun _ => none) with
  | none =>
    have : (specRun false lenient enc exOps (fun _ => none)).isSome = true := by cases enc <;> cases lenient <;> decide +kernel
    rw [h] at this; cases this
  | some p =>
    obtain ⟨w, hr, hv⟩ := reach_of (exCfg_ok enc lenient) exOps h
    refine ⟨w, hr, fun i hi => ?_⟩
    rw [hv]
    have : ((specRun false lenient enc exOps (fun _ => none)).all fun p => (List.range 7).all fun i => decide (p.2 i = exView i)) = true := by
      cases enc <;> cases lenient <;> decide +kernel
    rw [h] at this
    exact of_decide_eq_true (List.all_eq_true.1 this i (List.mem_range.2 hi))

/-! ## Histories -/

/-- Any history allowed by the restricted specification, over any number of strings of either encoding, runs without undefined
behaviour, returns exactly the results of the ideal byte lists, and leaves every string with the bytes of its ideal list.
Missing: the calls excluded by `full = false`, see the `_fails` theorems below; `chars()` of UTF-8 strings, see
`C40_chars_utf8_partial`. -/
theorem C40_history_partial (ops : List Op) {rs : List Res} {A : Ideal}
    (h : specRun false cfg.lenient cfg.enc ops (fun _ => none) = some (rs, A)) :
    (run cfg ops {}).SafeIf (Refuses cfg) fun q => q.1 = rs ∧ view q.2 = A := by
  refine (run_ok ops inv_init h).imp ?_
  rintro ⟨rs', w⟩ ⟨h1, I⟩
  exact ⟨h1, I.view⟩

/-- The same, continued from any reachable state. -/
theorem C40_history_continued_partial (hr : Reach cfg w) (ops : List Op) {rs : List Res} {A : Ideal}
    (h : specRun false cfg.lenient cfg.enc ops (view w) = some (rs, A)) :
    (run cfg ops w).SafeIf (Refuses cfg) fun q => q.1 = rs ∧ view q.2 = A ∧ Reach cfg q.2 := reach_run hr ops h

/-- The restricted specification only restricts: where it has an answer it is the documented one. -/
theorem C40_documented {len : Bool} {enc : Enc} {ops : List Op} {A : Ideal} {p : List Res × Ideal}
    (h : specRun false len enc ops A = some p) : specRun true len enc ops A = some p := specRun_documented h

/-- A history with most of the calls. -/
def exLong : List Op :=
  [.newAlloc 0 7, .pushBack 0 [0x41], .pushBack 0 [0xC3, 0xA9], .insert 0 [0xE2, 0x82, 0xAC] 1, .insert 0 [0xF0, 0x90, 0x8D, 0x88] 4,
   .isCharBoundary 0 5, .isCharBoundary 0 8, .size 0, .newCopy 1 0, .insert 1 [0xF0, 0x90, 0x8D, 0x88] 0, .insert 1 [0xC3, 0xA9] 0,
   .insert 1 [0x42] 6, .insert 1 [0x43] 0, .newCopy 2 1, .pushBack 2 [0xE2, 0x82, 0xAC], .newLit 3 (letters 30) 1, .copyAssign 3 2,
   .print 3, .copyAssign 3 3, .size 1, .drop 0, .drop 1, .print 2, .drop 2, .drop 3]

example (lenient : Bool) : (specRun false lenient .utf8 exLong (fun _ => none)).isSome = true := by cases lenient <;> decide +kernel

/-! ## C40 -/

/-- **C40.**  Any documented history of construction from literals, copy construction, destruction, push_back, insert,
size() and is_char_boundary() (and, for Ascii, chars()) runs without undefined behaviour, returns exactly the results of
the ideal byte lists and leaves every string with the bytes of its ideal list, whatever the lengths. -/
theorem C40_append_insert (ops : List Op) (hp : ∀ op ∈ ops, plain op = true) {rs : List Res} {A : Ideal}
    (h : specRun true cfg.lenient cfg.enc ops (fun _ => none) = some (rs, A)) :
    (run cfg ops {}).SafeIf (Refuses cfg) fun q => q.1 = rs ∧ view q.2 = A :=
  C40_history_partial ops (specRun_plain hp h)

example : ∃ ops : List Op, (∀ op ∈ ops, plain op = true) ∧ (specRun true false .utf8 ops (fun _ => none)).isSome = true ∧ ops.length = 15 :=
  ⟨exLong.take 15, by decide +kernel, by decide +kernel, rfl⟩

/-- push_back appends the bytes of the character to this string and changes no other. -/
theorem C40_push_back (hr : Reach cfg w) (hi : view w i = some xs) (ch : List UInt8) :
    (step cfg (.pushBack i ch) w).SafeIf (Refuses cfg) fun q =>
      q.1 = .unit ∧ view q.2 i = some (xs ++ ch) ∧ (∀ k, k ≠ i → view q.2 k = view w k) ∧ Reach cfg q.2 := by
  refine (reach_step hr (op := .pushBack i ch) (r := .unit) (A' := put (view w) i (some (xs ++ ch))) (by simp only [specStep, hi])).imp ?_
  rintro ⟨r, w'⟩ ⟨h1, h2, h3⟩
  simp only [] at h2 ⊢
  exact ⟨h1, by rw [h2, put_same], fun k hk => by rw [h2, put_ne hk], h3⟩

/-- insert at a boundary puts the bytes of the character in front of byte `idx` and changes no other string. -/
theorem C40_insert (hr : Reach cfg w) (he : cfg.enc = .utf8) (hi : view w i = some xs) (ch : List UInt8) (idx : Nat)
    (hb : boundary xs idx = true) :
    (step cfg (.insert i ch idx) w).SafeIf (Refuses cfg) fun q =>
      q.1 = .unit ∧ view q.2 i = some (xs.take idx ++ ch ++ xs.drop idx) ∧ (∀ k, k ≠ i → view q.2 k = view w k) ∧ Reach cfg q.2 := by
  refine (reach_step hr (op := .insert i ch idx) (r := .unit) (A' := put (view w) i (some (insertAt xs ch idx)))
    (by simp [specStep, hi, he, hb])).imp ?_
  rintro ⟨r, w'⟩ ⟨h1, h2, h3⟩
  simp only [] at h2 ⊢
  exact ⟨h1, by rw [h2, put_same]; rfl, fun k hk => by rw [h2, put_ne hk], h3⟩

/-- insert at any other index, past the end included, panics. -/
theorem C40_insert_panics (hr : Reach cfg w) (hi : view w i = some xs) (ch : List UInt8) (idx : Nat) (hb : boundary xs idx = false) :
    step cfg (.insert i ch idx) w = .panic := by
  obtain ⟨s, hs, r⟩ := reach_get hr hi
  simp only [step]
  rw [var_bind hs, Prog.bind_run, inHeap, insert_off r hb]; rfl

/-- What "boundary" means on valid text: the index separates whole characters. -/
theorem C40_boundary_meaning (h : WellFormed xs) (idx : Nat) : boundary xs idx = true ↔ CharBoundary xs idx := boundary_meaning h idx

example (lenient : Bool) : ∃ w, Reach (exCfg .utf8 lenient) w ∧ view w 2 = some (letters 16) ∧ boundary (letters 16) 7 = true ∧
    boundary (letters 16) 17 = false ∧ view w 5 = some [0xC3, 0xA9, 0xC3, 0xA9] ∧ boundary [0xC3, 0xA9, 0xC3, 0xA9] 2 = true ∧
    boundary [0xC3, 0xA9, 0xC3, 0xA9] 1 = false := by
  obtain ⟨w, hr, hv⟩ := exReach .utf8 lenient
  exact ⟨w, hr, hv 2 (by decide), by decide, by decide, hv 5 (by decide), by decide, by decide, ⟩

/-- chars() of a valid UTF-8 string produces its characters in order and leaves everything unchanged.
Missing: strings containing U+007F, see `C40_chars_utf8_fails` and C37. -/
theorem C40_chars_utf8_partial (hr : Reach cfg w) (he : cfg.enc = .utf8) (hi : view w i = some xs) (hw : WellFormed xs)
    (h7 : (0x7F : UInt8) ∉ xs) : ∃ cs, step cfg (.chars i) w = .ok (.chars cs, w) ∧ (∀ c ∈ cs, Utf8Seq c) ∧ cs.flatten = xs := by
  obtain ⟨s, hs, r⟩ := reach_get hr hi
  obtain ⟨cs, h1, h2, h3⟩ := Proof.Utf8.chars_ok hw h7
  refine ⟨cs, ?_, h2, h3⟩
  have := chars_utf8 r he
  rw [h1] at this
  simp only [step]
  rw [var_bind hs, inHeap_ok this]; rfl

theorem C40_chars_utf8_fails (hr : Reach cfg w) (he : cfg.enc = .utf8) (hi : view w i = some [0x7F]) : step cfg (.chars i) w = .ub := by
  obtain ⟨s, hs, r⟩ := reach_get hr hi
  have := chars_utf8 r he
  rw [show Model.Utf8.chars [0x7F] = .ub by rw [Model.Utf8.chars]; simp [Model.Utf8.next, Model.Utf8.nextByteUnchecked]] at this
  simp only [step]
  rw [var_bind hs, inHeap_ub this]

example (lenient : Bool) : ∃ w, Reach (exCfg .utf8 lenient) w ∧ view w 5 = some [0xC3, 0xA9, 0xC3, 0xA9] ∧
    WellFormed [0xC3, 0xA9, 0xC3, 0xA9] ∧ (0x7F : UInt8) ∉ [0xC3, 0xA9, 0xC3, (0xA9 : UInt8)] := by
  obtain ⟨w, hr, hv⟩ := exReach .utf8 lenient
  exact ⟨w, hr, hv 5 (by decide), (Proof.Utf8.validateFrom_none_iff 0 _).1 (by decide +kernel), by decide⟩

example (lenient : Bool) : ∃ w, Reach (exCfg .utf8 lenient) w ∧ view w 0 = some [0x7F] := by
  obtain ⟨w, hr, hv⟩ := reach_of (exCfg_ok .utf8 lenient) [.newLit 0 [0x7F] 0] rfl
  exact ⟨w, hr, by rw [hv]; rfl⟩

/-! ## C41 -/

/-- Literals are valid (they are checked at compile time, C35) and characters consist of valid text. -/
def ValidOp : Op → Prop
  | .newLit _ lit _ => WellFormed lit
  | .pushBack _ ch | .insert _ ch _ => WellFormed ch
  | _ => True

/-- **C41.**  In any allowed history of UTF-8 strings with valid literals and characters all strings stay valid.
Missing: characters that `chars()` cut out of a text with U+007F; they are not valid, see `C41_fails`. -/
theorem C41_strings_stay_valid_partial (he : cfg.enc = .utf8) (ops : List Op) (hv : ∀ op ∈ ops, ValidOp op) {rs : List Res} {A : Ideal}
    (h : specRun false cfg.lenient cfg.enc ops (fun _ => none) = some (rs, A)) :
    (run cfg ops {}).SafeIf (Refuses cfg) fun q => ∀ i xs, view q.2 i = some xs → WellFormed xs := by
  refine (C40_history_partial ops h).imp ?_
  rintro ⟨rs', w⟩ ⟨-, h2⟩ i xs hi
  simp only [] at h2 hi
  rw [h2] at hi
  rw [he] at h
  refine spec_valid ValidOp (fun _ _ _ => id) (fun _ _ => id) (fun _ _ _ => id) ops hv (by simp) h i xs hi

/-- One insertion at an arbitrary index: it panics, or the string stays valid. -/
theorem C41_insert_anywhere (hr : Reach cfg w) (he : cfg.enc = .utf8) (hi : view w i = some xs) (hx : WellFormed xs)
    {ch : List UInt8} (hc : WellFormed ch) (idx : Nat) :
    (step cfg (.insert i ch idx) w = .panic ∧ ¬ CharBoundary xs idx) ∨
    (step cfg (.insert i ch idx) w).SafeIf (Refuses cfg) fun q => ∃ zs, view q.2 i = some zs ∧ WellFormed zs := by
  cases hb : boundary xs idx with
  | false => left; exact ⟨C40_insert_panics hr hi ch idx hb, fun hn => by rw [(C40_boundary_meaning hx idx).2 hn] at hb; cases hb⟩
  | true =>
    right
    refine (C40_insert hr he hi ch idx hb).imp ?_
    rintro q ⟨-, h, -⟩
    exact ⟨_, h, insertAt_valid hx hc hb⟩

example : (∀ op ∈ [Op.newLit 0 [0xC3, 0xA9] 0, .pushBack 0 [0x41], .insert 0 [0xE2, 0x82, 0xAC] 2], ValidOp op) ∧
    (specRun false false .utf8 [Op.newLit 0 [0xC3, 0xA9] 0, .pushBack 0 [0x41], .insert 0 [0xE2, 0x82, 0xAC] 2] (fun _ => none)).isSome = true := by
  refine ⟨?_, by decide +kernel⟩
  simp only [List.forall_mem_cons, ValidOp, List.not_mem_nil, false_imp_iff, implies_true, and_true]
  exact ⟨(Proof.Utf8.validateFrom_none_iff 0 _).1 (by decide +kernel), (Proof.Utf8.validateFrom_none_iff 0 _).1 (by decide +kernel),
    (Proof.Utf8.validateFrom_none_iff 0 _).1 (by decide +kernel)⟩

/-- C41 is false when the characters come from `chars()`: a text with U+007F U+00E9 'A' is valid; its first character
according to `chars()`, pushed to an empty string, makes that string invalid. -/
theorem C41_fails (hr : Reach cfg w) (he : cfg.enc = .utf8) (hi : view w i = some [0x7F, 0xC3, 0xA9, 0x41]) (hj : view w j = some []) :
    WellFormed [0x7F, 0xC3, 0xA9, 0x41] ∧ ∃ ch cs, step cfg (.chars i) w = .ok (.chars (ch :: cs), w) ∧
      (step cfg (.pushBack j ch) w).SafeIf (Refuses cfg) fun q => view q.2 j = some ch ∧ ¬ WellFormed ch := by
  have hc : Model.Utf8.chars [0x7F, 0xC3, 0xA9, 0x41] = .ok [[0x7F, 0xC3], [0xA9, 0x41]] := by
    iterate 3 (rw [Model.Utf8.chars]; simp [Model.Utf8.next, Model.Utf8.nextByteUnchecked])
  refine ⟨(Proof.Utf8.validateFrom_none_iff 0 _).1 (by decide +kernel), [0x7F, 0xC3], [[0xA9, 0x41]], ?_, ?_⟩
  · obtain ⟨s, hs, r⟩ := reach_get hr hi
    have := chars_utf8 r he
    rw [hc] at this
    simp only [step]
    rw [var_bind hs, inHeap_ok this]; rfl
  · refine (C40_push_back hr hj [0x7F, 0xC3]).imp ?_
    rintro q ⟨-, h, -⟩
    exact ⟨h, fun hn => absurd ((Proof.Utf8.validateFrom_none_iff 0 _).2 hn) (by decide +kernel)⟩

example (lenient : Bool) : ∃ w, Reach (exCfg .utf8 lenient) w ∧ view w 0 = some [0x7F, 0xC3, 0xA9, 0x41] ∧ view w 1 = some [] := by
  obtain ⟨w, hr, hv⟩ := reach_of (exCfg_ok .utf8 lenient) [.newLit 0 [0x7F, 0xC3, 0xA9, 0x41] 0, .newAlloc 1 0] rfl
  exact ⟨w, hr, by rw [hv]; rfl, by rw [hv]; rfl⟩

/-! ## C42 -/

/-- **C42**, copy construction: for every length the new string has the source's bytes, all other strings keep theirs. -/
theorem C42_copy_construct (hr : Reach cfg w) (hi : view w i = none) (hj : view w j = some ys) :
    (step cfg (.newCopy i j) w).SafeIf (Refuses cfg) fun q =>
      q.1 = .unit ∧ view q.2 i = some ys ∧ (∀ k, k ≠ i → view q.2 k = view w k) ∧ Reach cfg q.2 := by
  refine (reach_step hr (op := .newCopy i j) (r := .unit) (A' := put (view w) i (some ys)) (by simp [specStep, hi, hj])).imp ?_
  rintro ⟨r, w'⟩ ⟨h1, h2, h3⟩
  simp only [] at h2 ⊢
  exact ⟨h1, by rw [h2, put_same], fun k hk => by rw [h2, put_ne hk], h3⟩

/-- Move construction: the new string has the source's bytes and the source is empty.
Missing: it relies on `Allocate::operator=`, which lacks a `return`; see `C42_move_construct_fails`. -/
theorem C42_move_construct_partial (hlen : cfg.lenient = true) (hr : Reach cfg w) (hi : view w i = none) (hj : view w j = some ys) :
    (step cfg (.newMove i j) w).SafeIf (Refuses cfg) fun q =>
      q.1 = .unit ∧ view q.2 i = some ys ∧ view q.2 j = some [] ∧ (∀ k, k ≠ i → k ≠ j → view q.2 k = view w k) ∧ Reach cfg q.2 := by
  have hij : i ≠ j := by rintro rfl; rw [hi] at hj; cases hj
  refine (reach_step hr (op := .newMove i j) (r := .unit) (A' := put (put (view w) i (some ys)) j (some []))
    (by simp [specStep, hi, hj, hlen])).imp ?_
  rintro ⟨r, w'⟩ ⟨h1, h2, h3⟩
  simp only [] at h2 ⊢
  exact ⟨h1, by rw [h2, put_ne hij, put_same], by rw [h2, put_same], fun k hk hk' => by rw [h2, put_ne hk', put_ne hk], h3⟩

/-- Without that reading move construction is undefined, always. -/
theorem C42_move_construct_fails (hlen : cfg.lenient = false) (hr : Reach cfg w) (hj : view w j = some ys) :
    step cfg (.newMove i j) w = .ub := by
  obtain ⟨o, ho, r⟩ := reach_get hr hj
  simp only [step]
  rw [var_bind ho, inHeap_ub (newMove_strict hlen o)]

/-- Copy assignment gives the target the source's bytes and changes nothing else, if neither length is 16, or if the source
has more than 16 bytes but no more than the target (then also under the strict reading of `Allocate::operator=`).
Self-assignment is always fine.  Missing: see `C42_copy_assign_fails`; under the strict reading also assigning a longer
source to a target of more than 16 bytes, which depends on the target's capacity, see `C42_copy_assign_strict`. -/
theorem C42_copy_assign_partial (hr : Reach cfg w) (hi : view w i = some xs) (hj : view w j = some ys)
    (hc : i = j ∨ (cfg.lenient = true ∧ xs.length ≠ 16 ∧ ys.length ≠ 16) ∨ (16 < ys.length ∧ ys.length ≤ xs.length)) :
    (step cfg (.copyAssign i j) w).SafeIf (Refuses cfg) fun q =>
      q.1 = .unit ∧ view q.2 i = some ys ∧ (∀ k, k ≠ i → view q.2 k = view w k) ∧ Reach cfg q.2 := by
  refine (reach_step hr (op := .copyAssign i j) (r := .unit) (A' := put (view w) i (some ys)) ?_).imp ?_
  · simp only [specStep, hi, hj]
    rw [if_pos]
    rcases hc with rfl | hc | hc
    · simp
    · simp [not16, hc]
    · simp [hc]
  · rintro ⟨r, w'⟩ ⟨h1, h2, h3⟩
    simp only [] at h2 ⊢
    exact ⟨h1, by rw [h2, put_same], fun k hk => by rw [h2, put_ne hk], h3⟩

/-- Copy assignment with a length of exactly 16 on either side is undefined, whatever the reading; under the strict reading
every copy assignment from or to a string of at most 16 bytes is.  (It may also run out of memory first.) -/
theorem C42_copy_assign_fails (hr : Reach cfg w) (hij : i ≠ j) (hi : view w i = some xs) (hj : view w j = some ys)
    (hc : (cfg.lenient = false ∧ (xs.length ≤ 16 ∨ ys.length ≤ 16)) ∨ xs.length = 16 ∨ ys.length = 16) :
    step cfg (.copyAssign i j) w = .ub ∨ (step cfg (.copyAssign i j) w = .oom ∧ Refuses cfg) := by
  obtain ⟨s, hs, r⟩ := reach_get hr hi
  obtain ⟨o, ho, ro⟩ := reach_get hr hj
  simp only [step]
  rw [var_bind hs, var_bind ho, if_neg hij]
  rcases copyAssign_bad r ro hc with e | ⟨e, hR⟩
  · left; rw [inHeap_ub e]
  · right; refine ⟨?_, hR⟩; rw [Prog.bind_run, inHeap, e]; rfl

/-- Move assignment gives the target the source's bytes and empties the source; moving a string to itself changes nothing.
Missing: see `C42_move_assign_fails`. -/
theorem C42_move_assign_partial (hr : Reach cfg w) (hi : view w i = some xs) (hj : view w j = some ys)
    (hc : i = j ∨ (cfg.lenient = true ∧ xs.length ≠ 16 ∧ ys.length ≠ 16)) :
    (step cfg (.moveAssign i j) w).SafeIf (Refuses cfg) fun q =>
      q.1 = .unit ∧ view q.2 i = some ys ∧ (i ≠ j → view q.2 j = some []) ∧ (∀ k, k ≠ i → k ≠ j → view q.2 k = view w k) ∧ Reach cfg q.2 := by
  by_cases hij : i = j
  · subst hij
    rw [hi] at hj; cases hj
    refine (reach_step hr (op := .moveAssign i i) (r := .unit) (A' := view w) (by simp [specStep, hi])).imp ?_
    rintro ⟨r, w'⟩ ⟨h1, h2, h3⟩
    simp only [] at h2 ⊢
    exact ⟨h1, by rw [h2, hi], fun hn => absurd rfl hn, fun k _ _ => by rw [h2], h3⟩
  · have hc := hc.resolve_left hij
    refine (reach_step hr (op := .moveAssign i j) (r := .unit) (A' := put (put (view w) i (some ys)) j (some []))
      (by simp [specStep, hi, hj, hij, not16, hc])).imp ?_
    rintro ⟨r, w'⟩ ⟨h1, h2, h3⟩
    simp only [] at h2 ⊢
    exact ⟨h1, by rw [h2, put_ne hij, put_same], fun _ => by rw [h2, put_same], fun k hk hk' => by rw [h2, put_ne hk', put_ne hk], h3⟩

/-- Move assignment is undefined when either length is exactly 16, and always under the strict reading. -/
theorem C42_move_assign_fails (hr : Reach cfg w) (hij : i ≠ j) (hi : view w i = some xs) (hj : view w j = some ys)
    (hc : cfg.lenient = false ∨ xs.length = 16 ∨ ys.length = 16) : step cfg (.moveAssign i j) w = .ub := by
  obtain ⟨s, hs, r⟩ := reach_get hr hi
  obtain ⟨o, ho, ro⟩ := reach_get hr hj
  simp only [step]
  rw [var_bind hs, var_bind ho, if_neg hij, inHeap_ub (moveAssign_ub r ro hc)]

/-- All hypotheses above occur, for both readings. -/
example (enc : Enc) (lenient : Bool) : ∃ w, Reach (exCfg enc lenient) w ∧ view w 6 = none ∧ view w 1 = some (letters 15) ∧
    view w 2 = some (letters 16) ∧ view w 3 = some (letters 17) ∧ view w 4 = some (letters 20) ∧
    (letters 15).length = 15 ∧ (letters 16).length = 16 ∧ (letters 17).length = 17 ∧ (letters 20).length = 20 := by
  obtain ⟨w, hr, hv⟩ := exReach enc lenient
  exact ⟨w, hr, hv 6 (by decide), hv 1 (by decide), hv 2 (by decide), hv 3 (by decide), hv 4 (by decide), rfl, rfl, rfl, rfl⟩

/-! ## C43 -/

/-- **C43** for Ascii: pop_back returns the last character and removes it, or returns none on the empty string; other strings keep their
bytes.  Missing: strings of 17 bytes, see `C43_pop_back_fails`.  For UTF8 pop_back does not compile. -/
theorem C43_pop_back_partial (hr : Reach cfg w) (he : cfg.enc = .ascii) (hi : view w i = some xs) (hl : xs.length ≠ 17) :
    (step cfg (.popBack i) w).SafeIf (Refuses cfg) fun q =>
      q.1 = .opt (xs.getLast?.map fun b => [b]) ∧ view q.2 i = some xs.dropLast ∧ (∀ k, k ≠ i → view q.2 k = view w k) ∧ Reach cfg q.2 := by
  refine (reach_step hr (op := .popBack i) (r := .opt (xs.getLast?.map fun b => [b])) (A' := put (view w) i (some xs.dropLast))
    (by simp [specStep, hi, he, hl])).imp ?_
  rintro ⟨r, w'⟩ ⟨h1, h2, h3⟩
  simp only [] at h2 ⊢
  exact ⟨h1, by rw [h2, put_same], fun k hk => by rw [h2, put_ne hk], h3⟩

/-- After pop_back of a string of 17 bytes its remaining bytes cannot be read: the next pop_back, or chars(), is undefined. -/
theorem C43_pop_back_fails (hr : Reach cfg w) (he : cfg.enc = .ascii) (hi : view w i = some xs) (hl : xs.length = 17) :
    ∃ w', step cfg (.popBack i) w = .ok (.opt (xs.getLast?.map fun b => [b]), w') ∧ view w' i = none ∧
      step cfg (.size i) w' = .ok (.num 16, w') ∧ step cfg (.popBack i) w' = .ub ∧ step cfg (.chars i) w' = .ub := by
  obtain ⟨s, hs, r⟩ := reach_get hr hi
  obtain ⟨b, a, data, rfl, hk, e⟩ := popBack_17 r hl
  have v : upd w.vars i (some ⟨16, .cap data.length, some b, a⟩) i = some ⟨16, .cap data.length, some b, a⟩ := upd_same _ _ _
  refine ⟨{ w with vars := upd w.vars i (some ⟨16, .cap data.length, some b, a⟩) }, ?_, ?_, ?_, ?_, ?_⟩
  · simp only [step]
    rw [var_bind hs, inHeap_ok e, setVar_bind]; rfl
  · simp [view, v, Spec.BStr.memory]
  · simp only [step]
    rw [var_bind v]; rfl
  · simp only [step]
    rw [var_bind v, inHeap_ub (by rfl)]
  · simp only [step]
    rw [var_bind v, inHeap_ub (by rfl)]

example (lenient : Bool) : ∃ w, Reach (exCfg .ascii lenient) w ∧ view w 0 = some [] ∧ view w 3 = some (letters 17) ∧ view w 4 = some (letters 20) ∧
    (letters 20).length ≠ 17 ∧ (letters 17).length = 17 := by
  obtain ⟨w, hr, hv⟩ := exReach .ascii lenient
  exact ⟨w, hr, hv 0 (by decide), hv 3 (by decide), hv 4 (by decide), by decide, by decide⟩

/-! ## C44 -/

/-- **C44.**  In every reachable state each heap block belongs to exactly one string, was obtained from that string's allocator, has
the size the string will release it with and room for all its bytes; every string of more than 16 bytes has such a block;
and the bytes obtained so far are the bytes released plus the bytes of these blocks.  (`SafeIf` in the history theorems
excludes releasing a block twice, with another size or through another allocator, and any access after release.)
Missing: pop_back from 17 to 16 bytes, see `C44_memory_fails`, and the assignments excluded from restricted histories. -/
theorem C44_memory_partial (hr : Reach cfg w) :
    (∀ b k, w.heap.blk b = some k → ∃ i s, Owns w i b ∧ (∀ j, Owns w j b → j = i) ∧ w.vars i = some s ∧ k.owner = s.alloc ∧
      s.store = .cap k.data.length ∧ s.len ≤ k.data.length) ∧
    (∀ i xs, view w i = some xs → 16 < xs.length → ∃ b k, Owns w i b ∧ w.heap.blk b = some k) ∧
    (∀ i b, Owns w i b → ∃ k, w.heap.blk b = some k) ∧
    (∀ b, w.heap.next ≤ b → w.heap.blk b = none) ∧ w.heap.newBytes = w.heap.freeBytes + held w.heap w.heap.next := by
  have I := reach_inv hr
  have live : ∀ i b, Owns w i b → ∃ k, w.heap.blk b = some k := by
    intro i b ho
    obtain ⟨s, hs, hb⟩ := mem_ownVar.1 ((owns_iff I).1 ho)
    obtain ⟨xs, -, r⟩ := I.rep' hs
    obtain ⟨k, hk, -⟩ := own_block r hb
    exact ⟨k, hk⟩
  refine ⟨?_, ?_, live, I.bal.fresh, by rw [held_eq]; exact I.bal.sum⟩
  · intro b k hk
    obtain ⟨i, s, hs, hb⟩ := I.cover b (by simp [hk])
    obtain ⟨xs, -, r⟩ := I.rep' hs
    obtain ⟨k', hk', h1, h2, h3⟩ := own_block r hb
    rw [hk] at hk'; cases hk'
    refine ⟨i, s, (owns_iff I).2 (mem_ownVar.2 ⟨s, hs, hb⟩), ?_, hs, h1, h2, h3⟩
    intro j hj
    obtain ⟨t, ht, hb'⟩ := mem_ownVar.1 ((owns_iff I).1 hj)
    exact I.sep j i t s b ht hs hb' hb
  · intro i xs hi hl
    obtain ⟨s, hs, r⟩ := reach_get hr hi
    obtain ⟨b, data, a, rfl, hk, -⟩ := r.big_inv hl
    exact ⟨b, _, ⟨_, hs, hl, rfl⟩, hk⟩

/-- When all strings have been destroyed every byte obtained has been returned. -/
theorem C44_all_released_partial (hr : Reach cfg w) (hv : ∀ i, view w i = none) :
    (∀ b, w.heap.blk b = none) ∧ w.heap.newBytes = w.heap.freeBytes := by
  have I := reach_inv hr
  have h : ∀ b, w.heap.blk b = none := by
    intro b
    by_contra hb
    obtain ⟨i, s, hs, -⟩ := I.cover b hb
    rw [I.dom i (hv i)] at hs; cases hs
  exact ⟨h, I.bal.empty h⟩

/-- Removing the last character of a string of 17 bytes and destroying the string leaks its block. -/
theorem C44_memory_fails (hr : Reach cfg w) (hi : view w i = some xs) (hl : xs.length = 17) :
    ∃ rs w' b k, run cfg [.popBack i, .drop i] w = .ok (rs, w') ∧ w'.vars i = none ∧ Owns w i b ∧ w'.heap.blk b = some k ∧
      ∀ j, ¬ Owns w' j b := by
  have I := reach_inv hr
  obtain ⟨s, hs, r⟩ := reach_get hr hi
  obtain ⟨b, a, data, rfl, hk, e⟩ := popBack_17 r hl
  have v : upd w.vars i (some ⟨16, .cap data.length, some b, a⟩) i = some ⟨16, .cap data.length, some b, a⟩ := upd_same _ _ _
  have ho : Owns w i b := ⟨_, hs, by simp, rfl⟩
  refine ⟨[.opt (xs.getLast?.map fun b => [b]), .unit], { w with vars := upd (upd w.vars i (some ⟨16, .cap data.length, some b, a⟩)) i none }, b, ⟨a, data⟩, ?_, upd_same _ _ _, ho, hk, ?_⟩
  · have e1 : step cfg (.popBack i) w = .ok (.opt (xs.getLast?.map fun b => [b]), { w with vars := upd w.vars i (some ⟨16, .cap data.length, some b, a⟩) }) := by
      simp only [step]
      rw [var_bind hs, inHeap_ok e, setVar_bind]; rfl
    have e2 : step cfg (.drop i) { w with vars := upd w.vars i (some ⟨16, .cap data.length, some b, a⟩) } =
        .ok (.unit, { w with vars := upd (upd w.vars i (some ⟨16, .cap data.length, some b, a⟩)) i none }) := by
      simp only [step]
      rw [var_bind v, inHeap_ok (b := ()) (h' := w.heap) (by rfl), setVar_bind]; rfl
    simp only [run, Prog.bind_run, e1, Out.bind_ok, e2]; rfl
  · rintro j ⟨s', hs', h1, h2⟩
    by_cases hj : j = i
    · subst hj; simp only [] at hs'; rw [upd_same] at hs'; cases hs'
    · simp only [] at hs'
      rw [upd_ne hj, upd_ne hj] at hs'
      exact hj (I.sep j i s' _ b hs' hs (by simp [own, localSize, h1, h2]) (by rw [own_big (by simp [localSize])]; simp))

example (lenient : Bool) : ∃ w, Reach (exCfg .ascii lenient) w ∧ view w 3 = some (letters 17) ∧ (letters 17).length = 17 := by
  obtain ⟨w, hr, hv⟩ := exReach .ascii lenient
  exact ⟨w, hr, hv 3 (by decide), by decide⟩

/-- A string of 20 bytes and its copy, both destroyed. -/
def exDrop : List Op := [.newLit 0 (letters 20) 0, .newCopy 1 0, .drop 0, .drop 1]

example (enc : Enc) (lenient : Bool) : ∃ w, Reach (exCfg enc lenient) w ∧ ∀ i, view w i = none := by
  obtain ⟨A, hA, hn⟩ : ∃ A, specRun false lenient enc exDrop (fun _ => none) = some ([.unit, .unit, .unit, .unit], A) ∧ ∀ i, A i = none := by
    refine ⟨_, by cases enc <;> cases lenient <;> rfl, fun i => ?_⟩
    simp only [put]
    split
    · rfl
    · split <;> rfl
  obtain ⟨w, hr, hv⟩ := reach_of (exCfg_ok enc lenient) exDrop hA
  exact ⟨w, hr, fun i => by rw [hv, hn]⟩

/-! ## C45 -/

/-- **C45.**  Printing a string writes exactly its bytes and changes nothing.  Missing: strings of 16 bytes. -/
theorem C45_print_partial (hr : Reach cfg w) (hi : view w i = some xs) (hl : xs.length ≠ 16) : step cfg (.print i) w = .ok (.text xs, w) := by
  obtain ⟨s, hs, r⟩ := reach_get hr hi
  simp only [step]
  rw [var_bind hs, inHeap_ok (print_ok r hl)]; rfl

/-- Printing any string of 16 bytes is undefined. -/
theorem C45_print_fails (hr : Reach cfg w) (hi : view w i = some xs) (hl : xs.length = 16) : step cfg (.print i) w = .ub := by
  obtain ⟨s, hs, r⟩ := reach_get hr hi
  simp only [step]
  rw [var_bind hs, inHeap_ub (print_16 r hl)]

example (enc : Enc) (lenient : Bool) : ∃ w, Reach (exCfg enc lenient) w ∧ view w 2 = some (letters 16) ∧ view w 4 = some (letters 20) ∧
    (letters 16).length = 16 ∧ (letters 20).length ≠ 16 := by
  obtain ⟨w, hr, hv⟩ := exReach enc lenient
  exact ⟨w, hr, hv 2 (by decide), hv 4 (by decide), by decide, by decide⟩

end Strings
end Verif.Props
