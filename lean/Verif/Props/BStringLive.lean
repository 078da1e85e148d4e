import Verif.Proof.BStringLive
/-!
# Property C106: `chars()` iterators of strings that live across calls

Programs keep `chars()` iterators in variables while they go on calling the strings (Model/BStringLive.lean).  The ideal iterator is a
string, a position in its bytes and the length at which it was taken; bytes are `inside` the string up to length 16 and `outside`, in a
separate buffer, beyond.  `whereTo` (Spec/BStringLive.lean) says where each call leaves the buffer of each string.
-/
namespace Verif.Props
open Verif Verif.Model.BStr Verif.Proof.BStr
open Verif.Spec.BStr hiding memory

variable {cfg : Cfg}

/-- **C106.**  Any program over any number of strings and `chars()` iterators: every call answers as the ideal one, nothing undefined
happens, and at the end every string has its ideal bytes.  So an iterator goes on through the current bytes of its string, up to the length
at which it was taken, for as long as the string keeps its bytes where they are: through appending, inserting, removing and assigning within
the room the string has; and an iterator over a string of more than 16 bytes goes along when the string is moved to another one.
Missing: the calls on strings C40 to C43 exclude, and the character U+007F (`C106_delete_fails`). -/
theorem C106_history_partial (ops : List LOp) {rs : List Res} {S : LIdeal}
    (h : lspecRun false cfg.lenient cfg.enc ops {} = some (rs, S)) :
    (lrun cfg ops {}).SafeIf (Refuses cfg) fun q => q.1 = rs ∧ view q.2.base = S.text :=
  (lrun_ok ops linv_init h).imp fun _ h => ⟨h.1, h.2.base.view⟩

/-- **C106**, the other side.  After any such program `next()` on an iterator that has not reached its end is undefined if its bytes are
gone - its string was destroyed, or the buffer it looks at was replaced or released - and if the bytes were inside a string that now keeps
them elsewhere.  An iterator at its end says so whatever happened. -/
theorem C106_stale (ops : List LOp) {rs : List Res} {S : LIdeal} (h : lspecRun false cfg.lenient cfg.enc ops {} = some (rs, S)) :
    (lrun cfg ops {}).SafeIf (Refuses cfg) fun q =>
      (∀ k p n, S.its k = some (.gone p n) → p < n → lstep cfg (.next k) q.2 = .ub) ∧
      (∀ k i p n xs, S.its k = some (.inside i p n) → S.text i = some xs → 16 < xs.length → p < n → lstep cfg (.next k) q.2 = .ub) ∧
      (∀ k i p, S.its k = some (.gone p p) ∨ S.its k = some (.inside i p p) ∨ S.its k = some (.outside i p p) →
        ∃ w, lstep cfg (.next k) q.2 = .ok (.opt none, w)) := by
  refine (lrun_ok ops linv_init h).imp ?_
  rintro ⟨rs', w⟩ ⟨-, I⟩
  refine ⟨fun k p n hk hl => next_gone I hk hl, fun k i p n xs hk hx h16 hl => next_long I hk hx h16 hl, ?_⟩
  rintro k i p (hk | hk | hk)
  · exact next_end_ok I hk (Nat.le_refl p)
  · exact next_end_ok I hk (Nat.le_refl p)
  · exact next_end_ok I hk (Nat.le_refl p)

/-- A program for the examples: an iterator over a short and one over a long string. -/
def exChars : List LOp :=
  [.str (.newLit 0 [97, 98, 99] 0), .chars 0 0, .next 0, .str (.pushBack 0 [100]), .str (.insert 0 [195, 164] 1), .next 0,
   .str (.newLit 1 (List.replicate 18 65) 0), .chars 1 1, .copy 2 1, .next 1, .str (.pushBack 1 (List.replicate 9 66)), .next 1,
   .str (.newMove 2 1), .next 1, .str (.pushBack 2 [67]), .chars 3 2, .next 3]

example : (lspecRun false true .utf8 exChars {}).any (fun p =>
    decide (p.1.filterMap (fun r => match r with | .opt o => o | _ => none) = [[97], [195, 164], [65], [65], [65], [65]]) &&
    decide (p.2.its 0 = some (.inside 0 3 3) ∧ p.2.its 1 = some (.gone 3 18) ∧ p.2.its 2 = some (.gone 0 18) ∧
      p.2.its 3 = some (.outside 2 1 28))) = true := by
  decide +kernel

/-- The outcome is a success satisfying `P`. -/
def okAnd (P : List Res × LWorld → Bool) : Out (List Res × LWorld) → Bool
  | .ok q => P q
  | _ => false

example : okAnd (fun q => decide (q.1.length = 17)) (lrun ⟨.utf8, true, fun _ _ => false⟩ exChars {}) = true := by
  decide +kernel

/-- What a client of `chars()` might conclude from C106 - that an iterator goes along when its string is moved - is false for strings of at
most 16 bytes: after the move `next()` is undefined. -/
theorem C106_moved_short_fails (hl : cfg.lenient = true) (ops : List LOp) {rs : List Res} {S : LIdeal}
    (h : lspecRun false cfg.lenient cfg.enc ops {} = some (rs, S)) {i j k p n : Nat} (hk : S.its k = some (.inside j p n)) (hp : p < n)
    (hi : S.text i = none) :
    (lrun cfg ops {}).SafeIf (Refuses cfg) fun q =>
      ∃ w, lstep cfg (.str (.newMove i j)) q.2 = .ok (.unit, w) ∧ lstep cfg (.next k) w = .ub := by
  refine (lrun_ok ops linv_init h).imp ?_
  rintro ⟨rs', w⟩ ⟨-, I⟩
  exact moved_short I hl hk hp hi

example : (lspecRun false true .ascii [.str (.newLit 0 [97, 98] 0), .chars 0 0, .next 0] {}).any (fun p =>
    decide (p.2.its 0 = some (.inside 0 1 2) ∧ p.2.text 1 = none)) = true := by decide +kernel

/-- The character U+007F, one byte in UTF-8, comes out of a `chars()` iterator together with the byte after it; at the end of the bytes
`next()` is undefined. -/
theorem C106_delete_fails (he : cfg.enc = .utf8) (ops : List LOp) {rs : List Res} {S : LIdeal}
    (h : lspecRun false cfg.lenient cfg.enc ops {} = some (rs, S)) {k : Nat} {x : Place} {zs : List UInt8} (hk : S.its k = some x)
    (hz : seen S x = some zs) (h7 : zs[x.pos]? = some 0x7F) :
    charAt true cfg.enc zs x.pos = some [0x7F] ∧
    (lrun cfg ops {}).SafeIf (Refuses cfg) fun q =>
      match zs[x.pos + 1]? with
      | some b => ∃ w, lstep cfg (.next k) q.2 = .ok (.opt (some [0x7F, b]), w)
      | none => zs.length = x.stop → lstep cfg (.next k) q.2 = .ub := by
  refine ⟨charAt_delete he h7, (lrun_ok ops linv_init h).imp ?_⟩
  rintro ⟨rs', w⟩ ⟨-, I⟩
  exact next_delete I he hk hz h7

example : (lspecRun false true .utf8 [.str (.newLit 0 [0x7F, 98] 0), .chars 0 0] {}).any (fun p =>
    decide (p.2.its 0 = some (.inside 0 0 2) ∧ seen p.2 (.inside 0 0 2) = some [0x7F, 98])) = true := by decide +kernel

end Verif.Props
