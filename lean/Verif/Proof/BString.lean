import Verif.Spec.BString
import Verif.Proof.Utf8Chars
import Mathlib.Tactic.SplitIfs
import Mathlib.Tactic.ByContra
/-!
# Single strings: representation and what each call does to it
-/
namespace Verif.Proof.BStr
open Verif Verif.Model.BStr

variable {h h' : Heap} {cfg : Cfg}

/-! ## Heap accounting -/

def bytesIn : Option Blk → Nat
  | none => 0
  | some k => k.data.length

def total (f : Nat → Option Blk) : Nat → Nat
  | 0 => 0
  | n + 1 => total f n + bytesIn (f n)

structure Bal (h : Heap) : Prop where
  fresh : ∀ b, h.next ≤ b → h.blk b = none
  sum : h.newBytes = h.freeBytes + total h.blk h.next

theorem bal_init : Bal {} := ⟨fun _ _ => rfl, rfl⟩

theorem Bal.lt (hb : Bal h) {b : Nat} {k : Blk} (e : h.blk b = some k) : b < h.next := by
  by_contra hn
  rw [hb.fresh b (by omega)] at e; cases e

theorem total_congr {f g : Nat → Option Blk} {n : Nat} (e : ∀ b < n, f b = g b) : total f n = total g n := by
  induction n with
  | zero => rfl
  | succ n ih => rw [total, total, ih fun b hb => e b (by omega), e n (by omega)]

theorem total_change {f g : Nat → Option Blk} {n a : Nat} (ha : a < n) (e : ∀ b, b ≠ a → f b = g b) :
    total f n + bytesIn (g a) = total g n + bytesIn (f a) := by
  induction n with
  | zero => omega
  | succ n ih =>
    rw [total, total]
    by_cases hn : a = n
    · subst hn
      have := total_congr (f := f) (g := g) (n := a) fun b hb => e b (by omega)
      omega
    · have := ih (by omega)
      rw [e n (by omega)]; omega

theorem total_zero {f : Nat → Option Blk} (e : ∀ b, f b = none) (n : Nat) : total f n = 0 := by
  induction n with
  | zero => rfl
  | succ n ih => rw [total, ih, e]; rfl

theorem Bal.empty (hb : Bal h) (e : ∀ b, h.blk b = none) : h.newBytes = h.freeBytes := by
  rw [hb.sum, total_zero e]; omega

/-- What may happen to the heap when blocks `O` become blocks `O'`. -/
structure Step (h : Heap) (O : List Nat) (h' : Heap) (O' : List Nat) : Prop where
  keep : ∀ b, b ∉ O → b ∉ O' → h'.blk b = h.blk b
  gone : ∀ b ∈ O, b ∉ O' → h'.blk b = none
  new : ∀ b ∈ O', b ∉ O → h.next ≤ b
  mono : h.next ≤ h'.next
  bal : Bal h'

theorem Step.refl (hb : Bal h) (O : List Nat) : Step h O h O :=
  ⟨fun _ _ _ => rfl, fun _ h1 h2 => absurd h1 h2, fun _ h1 h2 => absurd h1 h2, Nat.le_refl _, hb⟩

def newBlk (h : Heap) (o n : Nat) : Heap :=
  { h with blk := upd h.blk h.next (some ⟨o, List.replicate n none⟩), next := h.next + 1, newBytes := h.newBytes + n }

def setBlk (h : Heap) (b : Nat) (k : Blk) : Heap := { h with blk := upd h.blk b (some k) }

def delBlk (h : Heap) (b n : Nat) : Heap := { h with blk := upd h.blk b none, freeBytes := h.freeBytes + n }

theorem bal_new (hb : Bal h) (o n : Nat) : Bal (newBlk h o n) := by
  constructor
  · intro b hl
    simp only [newBlk] at hl ⊢
    rw [upd, if_neg (by omega)]
    exact hb.fresh b (by omega)
  · have := hb.sum
    have e := total_congr (f := upd h.blk h.next (some ⟨o, List.replicate n none⟩)) (g := h.blk) (n := h.next)
      fun b hl => if_neg (by omega)
    simp only [newBlk, total, e]
    rw [upd, if_pos rfl]
    simp [bytesIn]; omega

theorem bal_set (hb : Bal h) {b : Nat} {k k' : Blk} (e : h.blk b = some k) (hl : k'.data.length = k.data.length) :
    Bal (setBlk h b k') := by
  have hlt := hb.lt e
  constructor
  · intro c hc
    simp only [setBlk] at hc ⊢
    rw [upd, if_neg (by omega)]
    exact hb.fresh c hc
  · have := hb.sum
    have t := total_change (f := upd h.blk b (some k')) (g := h.blk) hlt fun c hc => if_neg hc
    rw [e, upd, if_pos rfl] at t
    simp only [bytesIn, hl] at t
    simp only [setBlk]; omega

theorem bal_del (hb : Bal h) {b : Nat} {k : Blk} (e : h.blk b = some k) : Bal (delBlk h b k.data.length) := by
  have hlt := hb.lt e
  constructor
  · intro c hc
    simp only [delBlk] at hc ⊢
    rw [upd, if_neg (by omega)]
    exact hb.fresh c hc
  · have := hb.sum
    have t := total_change (f := upd h.blk b none) (g := h.blk) hlt fun c hc => if_neg hc
    rw [e, upd, if_pos rfl] at t
    simp only [bytesIn] at t
    simp only [delBlk]; omega

theorem step_new (hb : Bal h) (o n : Nat) (k : Blk) (hk : k.data.length = n) : Step h [] (setBlk (newBlk h o n) h.next k) [h.next] := by
  refine ⟨?_, by simp, ?_, by simp [setBlk, newBlk], ?_⟩
  · intro b _ h2
    simp only [List.mem_singleton] at h2
    simp [setBlk, newBlk, upd, h2]
  · intro b h1 _
    simp only [List.mem_singleton] at h1; omega
  · exact bal_set (k := ⟨o, List.replicate n none⟩) (bal_new hb o n) (by simp [newBlk, upd]) (by simp [hk])

theorem step_set (hb : Bal h) {b : Nat} {k k' : Blk} (e : h.blk b = some k) (hl : k'.data.length = k.data.length) :
    Step h [b] (setBlk h b k') [b] := by
  refine ⟨?_, fun c h1 h2 => absurd h1 h2, fun c h1 h2 => absurd h1 h2, Nat.le_refl _, bal_set hb e hl⟩
  intro c h1 _
  simp only [List.mem_singleton] at h1
  simp [setBlk, upd, h1]

theorem step_del (hb : Bal h) {b : Nat} {k : Blk} (e : h.blk b = some k) : Step h [b] (delBlk h b k.data.length) [] := by
  refine ⟨?_, ?_, by simp, Nat.le_refl _, bal_del hb e⟩
  · intro c h1 _
    simp only [List.mem_singleton] at h1
    simp [delBlk, upd, h1]
  · intro c h1 _
    simp only [List.mem_singleton] at h1
    simp [delBlk, upd, h1]

theorem Step.trans {O O' O'' : List Nat} {h'' : Heap} (hb : Bal h) (s : Step h O h' O') (t : Step h' O' h'' O'') :
    Step h O h'' O'' := by
  refine ⟨?_, ?_, ?_, Nat.le_trans s.mono t.mono, t.bal⟩
  · intro b h1 h2
    by_cases h3 : b ∈ O'
    · rw [t.gone b h3 h2, hb.fresh b (s.new b h3 h1)]
    · rw [t.keep b h3 h2, s.keep b h1 h3]
  · intro b h1 h2
    by_cases h3 : b ∈ O'
    · exact t.gone b h3 h2
    · rw [t.keep b h3 h2, s.gone b h1 h3]
  · intro b h1 h2
    by_cases h3 : b ∈ O'
    · exact s.new b h3 h2
    · exact Nat.le_trans s.mono (t.new b h1 h3)

theorem Step.frame {O O' : List Nat} (s : Step h O h' O') (X : List Nat) : Step h (O ++ X) h' (O' ++ X) := by
  refine ⟨?_, ?_, ?_, s.mono, s.bal⟩
  · intro b h1 h2
    simp only [List.mem_append, not_or] at h1 h2
    exact s.keep b h1.1 h2.1
  · intro b h1 h2
    simp only [List.mem_append, not_or] at h1 h2
    exact s.gone b (h1.resolve_right h2.2) h2.1
  · intro b h1 h2
    simp only [List.mem_append, not_or] at h1 h2
    exact s.new b (h1.resolve_right h2.2) h2.1

theorem Step.congr {O O' P P' : List Nat} (s : Step h O h' O') (h1 : ∀ b, b ∈ P ↔ b ∈ O) (h2 : ∀ b, b ∈ P' ↔ b ∈ O') : Step h P h' P' :=
  ⟨fun b k1 k2 => s.keep b (mt (h1 b).2 k1) (mt (h2 b).2 k2), fun b k1 k2 => s.gone b ((h1 b).1 k1) (mt (h2 b).2 k2),
    fun b k1 k2 => s.new b ((h2 b).1 k1) (mt (h1 b).2 k2), s.mono, s.bal⟩

/-! ## Representation -/

/-- A pointer that must not be used: null or to a released block. -/
def Stale (h : Heap) (p : Option Nat) : Prop := ∀ b, p = some b → b < h.next ∧ h.blk b = none

/-- Object `s` holds the bytes `xs`. -/
inductive Rep (h : Heap) : Str → List UInt8 → Prop
  | small {xs : List UInt8} {bs : List Byte} {p : Option Nat} {a : Nat} (hl : xs.length ≤ localSize) (hb : bs.length = localSize)
      (ht : bs.take xs.length = xs.map some) (hp : Stale h p) : Rep h ⟨xs.length, .inline bs, p, a⟩ xs
  | empty {n : Nat} {p : Option Nat} {a : Nat} (hp : Stale h p) : Rep h ⟨0, .cap n, p, a⟩ []
  | big {xs : List UInt8} {b : Nat} {data : List Byte} {a : Nat} (hl : localSize < xs.length) (hb : h.blk b = some ⟨a, data⟩)
      (ht : data.take xs.length = xs.map some) : Rep h ⟨xs.length, .cap data.length, some b, a⟩ xs

/-- The block a string owns. -/
def own (s : Str) : List Nat := if s.len > localSize then s.bytes.toList else []

theorem Rep.len {s : Str} {xs} (r : Rep h s xs) : s.len = xs.length := by cases r <;> rfl

theorem Stale.none : Stale h none := fun _ e => by cases e

theorem Stale.mono {p : Option Nat} (st : Stale h p) (hn : h.next ≤ h'.next) (hk : ∀ b, b < h.next → h.blk b = Option.none → h'.blk b = Option.none) :
    Stale h' p := fun b e => ⟨Nat.lt_of_lt_of_le (st b e).1 hn, hk b (st b e).1 (st b e).2⟩

theorem Step.stale {O O' : List Nat} (s : Step h O h' O') (hO : ∀ b ∈ O, h.blk b ≠ none) {p : Option Nat} (st : Stale h p) : Stale h' p :=
  st.mono s.mono fun b h1 h2 => by
    have n1 : b ∉ O := fun hm => hO b hm h2
    rw [s.keep b n1 (fun hm => by have := s.new b hm n1; omega)]; exact h2

/-- Strings whose block is not touched keep their contents. -/
theorem Rep.keep {O O' : List Nat} {s : Str} {xs} (r : Rep h s xs) (st : Step h O h' O') (hb : Bal h)
    (hO : ∀ b ∈ O, h.blk b ≠ Option.none) (hd : ∀ b ∈ own s, b ∉ O) : Rep h' s xs := by
  cases r with
  | small hl hb' ht hp => exact .small hl hb' ht (st.stale hO hp)
  | empty hp => exact .empty (st.stale hO hp)
  | @big _ b data a hl hb' ht =>
    refine .big hl ?_ ht
    have n1 : b ∉ O := hd b (by simp [own, hl])
    rw [st.keep b n1 (fun hm => by have := st.new b hm n1; have := hb.lt hb'; omega)]; exact hb'

theorem Rep.own_live {s : Str} {xs} (r : Rep h s xs) : ∀ b ∈ own s, h.blk b ≠ Option.none := by
  intro b hb
  cases r with
  | small hl _ _ _ => simp [own] at hb; omega
  | empty _ => simp [own] at hb
  | big hl hb' _ => simp [own, hl] at hb; subst hb; simp [hb']

/-! ## Lists of bytes -/

theorem splice_length {bs d : List Byte} {off : Nat} (hl : off + d.length ≤ bs.length) : (splice bs off d).length = bs.length := by
  simp [splice]; omega

theorem splice_take {bs d : List Byte} {off : Nat} (hl : off + d.length ≤ bs.length) :
    (splice bs off d).take (off + d.length) = bs.take off ++ d := by
  have e : off = (bs.take off).length := by simp; omega
  rw [splice, List.take_append, List.take_of_length_le (by omega), ← e, Nat.add_sub_cancel_left, List.take_left']
  rfl

theorem splice_take_lt {bs d : List Byte} {off k : Nat} (hl : off + d.length ≤ bs.length) (hk : k ≤ off) :
    (splice bs off d).take k = bs.take k := by
  rw [splice, List.take_append_of_le_length (by simp; omega), List.take_take, Nat.min_eq_left hk]

theorem splice_drop {bs d : List Byte} {off : Nat} (hl : off + d.length ≤ bs.length) :
    (splice bs off d).drop (off + d.length) = bs.drop (off + d.length) := by
  have e : off = (bs.take off).length := by simp; omega
  rw [splice, List.drop_append, List.drop_of_length_le (by omega), ← e, Nat.add_sub_cancel_left, List.drop_left']
  · rfl
  · rfl

end Verif.Proof.BStr
