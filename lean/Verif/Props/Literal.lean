import Verif.Proof.Literal
import Verif.Props.BString
/-!
# Properties C82, C83: literals, characters and texts

`suffix enc (literalArray s)`: what the literal with the bytes `s` and the suffix of `enc` means; `none` if it does not
compile.  `Chr.ofValid enc v`: the character constructed from a literal with the bytes `v`.  The rest as in
`Props/BString.lean`.
-/
namespace Verif.Props
open Verif Verif.Model.BStr Verif.Model.Literal Verif.Proof.BStr Verif.Proof.Lit
open Verif.Spec.BStr hiding memory
open Verif.Spec (WellFormed Utf8Seq CharBoundary literalArray IsText charStart)

namespace Strings

variable {cfg : Cfg} {w : World} {i j : Nat} {xs ys s bs ch v : List UInt8} {cs : List (List UInt8)}

/-! ## C82 -/

/-- **C82**, UTF-8 literals: one compiles exactly if it is not empty and valid, and then it denotes its bytes, without the
terminator. -/
theorem C82_utf8_literal : suffix .utf8 (literalArray s) = some bs ↔ bs = s ∧ s ≠ [] ∧ WellFormed s := by
  rw [suffix_some, validates_utf8]

example : suffix .utf8 (literalArray [0x61, 0x00, 0xC3, 0xA9]) = some [0x61, 0x00, 0xC3, 0xA9] ∧
    suffix .utf8 (literalArray [0x61, 0xC3]) = none ∧ suffix .utf8 (literalArray []) = none := by decide +kernel

/-- ASCII literals likewise.  Missing: literals with the byte 0x80, see `C82_ascii_literal_fails`. -/
theorem C82_ascii_literal_partial (h80 : (0x80 : UInt8) ∉ s) :
    suffix .ascii (literalArray s) = some bs ↔ bs = s ∧ s ≠ [] ∧ ∀ b ∈ s, b.toNat < 0x80 := by
  rw [suffix_some, validates_ascii]
  have : (∀ b ∈ s, b.toNat ≤ 0x80) ↔ ∀ b ∈ s, b.toNat < 0x80 := by
    refine ⟨fun h b hb => ?_, fun h b hb => Nat.le_of_lt (h b hb)⟩
    have h1 := h b hb
    have : b.toNat ≠ 0x80 := fun e => h80 (by have : b = 0x80 := UInt8.toNat_inj.1 e; exact this ▸ hb)
    omega
  rw [this]

example : (0x80 : UInt8) ∉ [0x61, 0x81] ∧ suffix .ascii (literalArray [0x61, 0x81]) = none ∧
    suffix .ascii (literalArray [0x61, 0x62]) = some [0x61, 0x62] := by decide +kernel

/-- Every ASCII text with bytes 0x80 put in anywhere is accepted too. -/
theorem C82_ascii_literal_fails (hs : s ≠ []) (h : ∀ b ∈ s, b.toNat < 0x80 ∨ b = 0x80) :
    suffix .ascii (literalArray s) = some s := by
  rw [suffix_some, validates_ascii]
  refine ⟨rfl, hs, fun b hb => ?_⟩
  rcases h b hb with h | rfl
  · omega
  · decide

example : ([0x61, 0x80] : List UInt8) ≠ [] ∧ ∀ b ∈ ([0x61, 0x80] : List UInt8), b.toNat < 0x80 ∨ b = 0x80 := by decide

/-- A string constructed from a literal that compiles holds exactly the bytes of the literal, embedded zeros included. -/
theorem C82_string_from_literal (hr : Reach cfg w) (hi : view w i = none) (hs : suffix cfg.enc (literalArray s) = some v) (a : Nat) :
    (step cfg (.newLit i v a) w).SafeIf (Refuses cfg) fun q =>
      view q.2 i = some s ∧ (∀ k, k ≠ i → view q.2 k = view w k) ∧ Reach cfg q.2 := by
  obtain ⟨rfl, hne, -⟩ := suffix_some.1 hs
  refine (reach_step hr (op := .newLit i v a) (r := .unit) (A' := put (view w) i (some v)) (by simp [specStep, hi, hne])).imp ?_
  rintro ⟨r, w'⟩ ⟨-, h2, h3⟩
  simp only [] at h2 ⊢
  exact ⟨by rw [h2, put_same], fun k hk => by rw [h2, put_ne hk], h3⟩

example (lenient : Bool) : ∃ w, Reach (exCfg .utf8 lenient) w ∧ view w 6 = none ∧
    suffix .utf8 (literalArray [0x61, 0x00, 0xC3, 0xA9]) = some [0x61, 0x00, 0xC3, 0xA9] := by
  obtain ⟨w, hr, hv⟩ := exReach .utf8 lenient
  exact ⟨w, hr, hv 6 (by decide), by decide +kernel⟩

/-- A literal that compiles makes a character exactly if it has at most 4 bytes (UTF-8) or 1 byte (ASCII).  The character
then has the length and the bytes of the literal: these are what printing it writes and push_back and insert put in. -/
theorem C82_character {enc : Enc} (hs : suffix enc (literalArray s) = some v) :
    ((Chr.ofValid enc v).isSome = true ↔ s.length ≤ maxLen enc) ∧
    ∀ c, Chr.ofValid enc v = some c → c.text enc = s ∧ c.getLen enc = s.length := by
  obtain ⟨rfl, hne, -⟩ := suffix_some.1 hs
  refine ⟨?_, fun c hc => ofValid_text hc⟩
  rw [ofValid_iff]
  exact ⟨And.right, fun h => ⟨List.length_pos_iff.2 hne, h⟩⟩

example : suffix .utf8 (literalArray [0xE2, 0x82, 0xAC]) = some [0xE2, 0x82, 0xAC] ∧
    (Chr.ofValid .utf8 [0xE2, 0x82, 0xAC]).isSome = true ∧ (Chr.ofValid .utf8 [0x61, 0x62, 0x63, 0x64, 0x65]).isSome = false ∧
    (Chr.ofValid .ascii [0x61]).isSome = true ∧ (Chr.ofValid .ascii [0x61, 0x62]).isSome = false := by decide +kernel

/-- Every single character, of either encoding, can be written as a literal. -/
theorem C82_every_character_partial (hc : Utf8Seq ch) :
    ∃ c, suffix .utf8 (literalArray ch) = some ch ∧ Chr.ofValid .utf8 ch = some c ∧ c.text .utf8 = ch := by
  obtain ⟨h1, h2⟩ := seq_len hc
  have hs : suffix .utf8 (literalArray ch) = some ch :=
    C82_utf8_literal.2 ⟨rfl, List.length_pos_iff.1 h1, text_wf (text_one hc)⟩
  obtain ⟨c, e⟩ := Option.isSome_iff_exists.1 (ofValid_iff.2 ⟨h1, show ch.length ≤ maxLen .utf8 from h2⟩)
  exact ⟨c, hs, e, (ofValid_text e).1⟩

example : Utf8Seq [0xF0, 0x90, 0x8D, 0x88] := .four_f0 rfl ⟨by decide, by decide⟩ ⟨by decide, by decide⟩ ⟨by decide, by decide⟩

theorem C82_every_ascii_character (b : UInt8) (hb : b.toNat < 0x80) :
    ∃ c, suffix .ascii (literalArray [b]) = some [b] ∧ Chr.ofValid .ascii [b] = some c ∧ c.text .ascii = [b] := by
  have hs : suffix .ascii (literalArray [b]) = some [b] := suffix_some.2 ⟨rfl, by simp, (validates_ascii _).2 (by simp; omega)⟩
  obtain ⟨c, e⟩ := Option.isSome_iff_exists.1 (ofValid_iff.2 ⟨by simp, show [b].length ≤ maxLen .ascii from Nat.le_refl 1⟩)
  exact ⟨c, hs, e, (ofValid_text e).1⟩

/-- A character object need not be a character: any valid text of 1 to 4 bytes passes as one, for instance "ab". -/
theorem C82_one_character_fails :
    (∀ s : List UInt8, WellFormed s → s ≠ [] → s.length ≤ 4 → ∃ c, suffix .utf8 (literalArray s) = some s ∧ Chr.ofValid .utf8 s = some c ∧ c.text .utf8 = s) ∧
    WellFormed [0x61, 0x62] ∧ ¬ Utf8Seq [0x61, 0x62] := by
  refine ⟨fun s h1 h2 h3 => ?_, (Proof.Utf8.validateFrom_none_iff 0 _).1 (by decide +kernel), ?_⟩
  · obtain ⟨c, e⟩ := Option.isSome_iff_exists.1 (ofValid_iff.2 ⟨List.length_pos_iff.2 h2, show s.length ≤ maxLen .utf8 from h3⟩)
    exact ⟨c, C82_utf8_literal.2 ⟨rfl, h2, h1⟩, e, (ofValid_text e).1⟩
  · intro h
    have := Proof.Utf8.seq_width h
    revert this; decide

/-- A default-constructed character is the empty text for UTF-8 and one zero byte for ASCII. -/
theorem C82_default : (Chr.dflt .utf8).text .utf8 = [] ∧ (Chr.dflt .ascii).text .ascii = [0] := ⟨rfl, rfl⟩

/-! ## C83 -/

/-- The characters of a text are determined by its bytes, and every valid byte string is a text. -/
theorem C83_characters_unique : (∀ cs ds, IsText xs cs → IsText xs ds → cs = ds) ∧ (WellFormed xs ↔ ∃ cs, IsText xs cs) :=
  ⟨fun _ _ => text_unique, ⟨wf_text, fun ⟨_, h⟩ => text_wf h⟩⟩

/-- **C83.**  push_back of a character appends it to the characters of the text. -/
theorem C83_push_back (hr : Reach cfg w) (hi : view w i = some xs) (ht : IsText xs cs) (hc : Utf8Seq ch) :
    (step cfg (.pushBack i ch) w).SafeIf (Refuses cfg) fun q => ∃ zs, view q.2 i = some zs ∧ IsText zs (cs ++ [ch]) ∧ Reach cfg q.2 := by
  refine (C40_push_back hr hi ch).imp ?_
  rintro q ⟨-, h, -, hr'⟩
  exact ⟨_, h, text_append ht (text_one hc), hr'⟩

/-- `is_char_boundary(idx)` is true exactly for the indices at which a character starts and for the length of the text. -/
theorem C83_boundary (hr : Reach cfg w) (he : cfg.enc = .utf8) (hi : view w i = some xs) (ht : IsText xs cs) (idx : Nat) :
    ∃ b, step cfg (.isCharBoundary i idx) w = .ok (.bool b, w) ∧ (b = true ↔ ∃ k ≤ cs.length, idx = charStart cs k) := by
  obtain ⟨s, hs, r⟩ := reach_get hr hi
  refine ⟨boundary xs idx, ?_, boundary_start ht idx⟩
  simp only [step]
  rw [var_bind hs, inHeap_ok (isCharBoundary_ok r idx)]; rfl

/-- insert in front of character `k` (or at the end) puts the character there; at every other index it panics. -/
theorem C83_insert (hr : Reach cfg w) (he : cfg.enc = .utf8) (hi : view w i = some xs) (ht : IsText xs cs) (hc : Utf8Seq ch) :
    (∀ k ≤ cs.length, (step cfg (.insert i ch (charStart cs k)) w).SafeIf (Refuses cfg) fun q =>
      ∃ zs, view q.2 i = some zs ∧ IsText zs (cs.take k ++ [ch] ++ cs.drop k) ∧ Reach cfg q.2) ∧
    (∀ idx, (∀ k ≤ cs.length, idx ≠ charStart cs k) → step cfg (.insert i ch idx) w = .panic) := by
  refine ⟨fun k hk => ?_, fun idx hn => C40_insert_panics hr hi ch idx ?_⟩
  · refine (C40_insert hr he hi ch _ ((boundary_start ht _).2 ⟨k, hk, rfl⟩)).imp ?_
    rintro q ⟨-, h, -, hr'⟩
    rw [(text_take ht k).1, (text_take ht k).2] at h
    exact ⟨_, h, text_append (text_append (text_take_text ht k) (text_one hc)) (text_drop_text ht k), hr'⟩
  · cases hb : boundary xs idx with
    | false => rfl
    | true =>
      obtain ⟨k, hk, e⟩ := (boundary_start ht idx).1 hb
      exact absurd e (hn k hk)

/-- `chars()` hands out exactly the characters of the text.  Missing: texts with U+007F, see `C40_chars_utf8_fails`. -/
theorem C83_chars_partial (hr : Reach cfg w) (he : cfg.enc = .utf8) (hi : view w i = some xs) (ht : IsText xs cs) (h7 : (0x7F : UInt8) ∉ xs) :
    step cfg (.chars i) w = .ok (.chars cs, w) := by
  obtain ⟨ds, h1, h2, h3⟩ := C40_chars_utf8_partial hr he hi (text_wf ht) h7
  rw [h1, text_unique ht ⟨h2, h3⟩]

theorem push_all_spec (full lenient : Bool) (enc : Enc) (cs : List (List UInt8)) (A : Ideal) (h : A j = some ys) :
    specRun full lenient enc (cs.map fun c => .pushBack j c) A = some (cs.map fun _ => .unit, put A j (some (ys ++ cs.flatten))) := by
  induction cs generalizing A ys with
  | nil => simp [specRun, put_self h]
  | cons c cs ih =>
    simp only [List.map_cons, specRun, specStep, h]
    rw [ih (put A j (some (ys ++ c))) (put_same _ _ _)]
    simp only [List.flatten_cons, List.append_assoc, Option.some.injEq, Prod.mk.injEq, true_and]
    funext k
    by_cases hk : k = j
    · subst hk; rw [put_same, put_same]
    · rw [put_ne hk, put_ne hk, put_ne hk]

/-- Appending the characters that `chars()` hands out, one after another, to another string appends the text; on an empty
string it rebuilds it.  Missing: texts with U+007F, see `C83_rebuild_fails`. -/
theorem C83_rebuild_partial (hr : Reach cfg w) (he : cfg.enc = .utf8) (hi : view w i = some xs) (hx : WellFormed xs) (h7 : (0x7F : UInt8) ∉ xs)
    (hj : view w j = some ys) :
    ∃ cs, step cfg (.chars i) w = .ok (.chars cs, w) ∧
      (run cfg (cs.map fun c => .pushBack j c) w).SafeIf (Refuses cfg) fun q =>
        view q.2 j = some (ys ++ xs) ∧ (∀ k, k ≠ j → view q.2 k = view w k) ∧ Reach cfg q.2 := by
  obtain ⟨cs, h1, h2, h3⟩ := C40_chars_utf8_partial hr he hi hx h7
  refine ⟨cs, h1, ?_⟩
  refine (reach_run hr _ (push_all_spec false cfg.lenient cfg.enc cs (view w) hj)).imp ?_
  rintro ⟨rs, w'⟩ ⟨-, h, hr'⟩
  simp only [] at h ⊢
  exact ⟨by rw [h, put_same, h3], fun k hk => by rw [h, put_ne hk], hr'⟩

/-- A valid text in which U+007F is the last character is never rebuilt: `chars()` is undefined on it. -/
theorem C83_rebuild_fails (hr : Reach cfg w) (he : cfg.enc = .utf8) (hi : view w i = some (xs ++ [0x7F])) (hx : WellFormed xs) (h7 : (0x7F : UInt8) ∉ xs) :
    WellFormed (xs ++ [0x7F]) ∧ step cfg (.chars i) w = .ub := by
  refine ⟨wf_append hx (text_wf (text_one (.one ⟨by decide, by decide⟩))), ?_⟩
  obtain ⟨s, hs, r⟩ := reach_get hr hi
  have := chars_utf8 r he
  rw [chars_del hx h7] at this
  simp only [step]
  rw [var_bind hs, inHeap_ub this]

/-- Printing the characters `chars()` hands out, one after another, writes what printing the string writes.
Missing: texts with U+007F; strings of 16 bytes, which cannot be printed (C45). -/
theorem C83_print_partial (hr : Reach cfg w) (he : cfg.enc = .utf8) (hi : view w i = some xs) (hx : WellFormed xs) (h7 : (0x7F : UInt8) ∉ xs)
    (hl : xs.length ≠ 16) :
    ∃ cs, step cfg (.chars i) w = .ok (.chars cs, w) ∧ step cfg (.print i) w = .ok (.text xs, w) ∧
      (∀ c ∈ cs, ∃ o, Chr.ofValid .utf8 c = some o ∧ o.text .utf8 = c) ∧ cs.flatten = xs := by
  obtain ⟨cs, h1, h2, h3⟩ := C40_chars_utf8_partial hr he hi hx h7
  refine ⟨cs, h1, C45_print_partial hr hi hl, fun c hc => ?_, h3⟩
  obtain ⟨o, -, h4, h5⟩ := C82_every_character_partial (h2 c hc)
  exact ⟨o, h4, h5⟩

theorem exText : IsText [0xC3, 0xA9, 0xC3, 0xA9] [[0xC3, 0xA9], [0xC3, 0xA9]] := by
  refine ⟨?_, rfl⟩
  intro c hc
  have : c = [0xC3, 0xA9] := by simpa using hc
  subst this
  exact .two ⟨by decide, by decide⟩ ⟨by decide, by decide⟩

example (lenient : Bool) : ∃ w, Reach (exCfg .utf8 lenient) w ∧ view w 5 = some [0xC3, 0xA9, 0xC3, 0xA9] ∧ view w 0 = some [] ∧
    IsText [0xC3, 0xA9, 0xC3, 0xA9] [[0xC3, 0xA9], [0xC3, 0xA9]] ∧ (0x7F : UInt8) ∉ [0xC3, 0xA9, 0xC3, (0xA9 : UInt8)] ∧
    charStart [[0xC3, 0xA9], [0xC3, 0xA9]] 1 = 2 ∧ Utf8Seq [0x41] := by
  obtain ⟨w, hr, hv⟩ := exReach .utf8 lenient
  exact ⟨w, hr, hv 5 (by decide), hv 0 (by decide), exText, by decide, rfl, .one ⟨by decide, by decide⟩⟩

example (lenient : Bool) : ∃ w, Reach (exCfg .utf8 lenient) w ∧ view w 0 = some ([0x41, 0xC3, 0xA9] ++ [0x7F]) ∧ WellFormed [0x41, 0xC3, 0xA9] := by
  obtain ⟨w, hr, hv⟩ := reach_of (exCfg_ok .utf8 lenient) [.newLit 0 [0x41, 0xC3, 0xA9, 0x7F] 0] rfl
  exact ⟨w, hr, by rw [hv]; rfl, (Proof.Utf8.validateFrom_none_iff 0 _).1 (by decide +kernel)⟩

end Strings
end Verif.Props
