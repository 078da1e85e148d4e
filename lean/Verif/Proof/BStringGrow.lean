import Verif.Proof.BStringOps
/-!
# push_back, insert, pop_back and reading
-/
namespace Verif.Proof.BStr
open Verif Verif.Model.BStr
open Verif.Spec.BStr (boundary contByte insertAt)

variable {h h' : Heap} {cfg : Cfg}

/-! ## Reading -/

theorem look_ok (xs : List UInt8) : look (xs.map some) h = .ok (xs, h) := by
  induction xs with
  | nil => rfl
  | cons x xs ih => simp only [List.map_cons, look, Prog.bind_run, ih, Out.bind_ok]; rfl

theorem take_part {bs : List Byte} {xs : List UInt8} {start n : Nat} (ht : bs.take xs.length = xs.map some) (hl : start + n ≤ xs.length) :
    (bs.drop start).take n = ((xs.drop start).take n).map some := by
  rw [List.map_take, List.map_drop, ← ht, List.drop_take, List.take_take, Nat.min_eq_left (by omega)]

theorem slice_ok {s : Str} {xs} (r : Rep h s xs) {start n : Nat} (hl : start + n ≤ xs.length) :
    slice s start n h = .ok ((xs.drop start).take n, h) := by
  unfold slice
  cases r with
  | small h1 h2 h3 h4 =>
    rw [if_neg (by simpa using h1), Prog.bind_run, read_inline (by rw [h2]; omega), Out.bind_ok, take_part h3 hl, look_ok]
  | empty h1 =>
    simp only [List.length_nil] at hl
    obtain rfl : start = 0 := by omega
    obtain rfl : n = 0 := by omega
    rfl
  | big h1 h2 h3 =>
    have := Rep.data_le h3
    rw [if_pos (by simpa using h1), Prog.bind_run, read_heap h2 (by simp only []; omega), Out.bind_ok, take_part h3 hl, look_ok]

theorem all_ok {s : Str} {xs} (r : Rep h s xs) : slice s 0 s.len h = .ok (xs, h) := by
  rw [r.len, slice_ok r (by omega)]; simp

theorem isCont_contByte (b : UInt8) : Model.Utf8.isCont b = contByte b := by
  have := Proof.Utf8.isCont_iff b
  rw [Bool.eq_iff_iff, this]
  simp [contByte, Spec.InRange]

theorem stringBoundary (xs : List UInt8) (idx : Nat) : Model.Utf8.stringIsCharBoundary xs idx = .ok (boundary xs idx) := by
  by_cases h0 : idx = 0
  · subst h0; rfl
  by_cases hl : idx < xs.length
  · rw [Proof.Utf8.stringIsCharBoundary_mid h0 hl, isCont_contByte]
    simp [boundary, h0, List.getElem?_eq_getElem hl, Nat.ne_of_lt hl]
  · rw [Model.Utf8.stringIsCharBoundary, if_neg h0, if_pos (by omega)]
    simp [boundary, h0, List.getElem?_eq_none (by omega : xs.length ≤ idx)]

theorem isCharBoundary_ok {s : Str} {xs} (r : Rep h s xs) (idx : Nat) : isCharBoundary s idx h = .ok (boundary xs idx, h) := by
  have e := stringBoundary xs idx
  unfold isCharBoundary
  unfold Model.Utf8.stringIsCharBoundary at e
  rw [r.len]
  by_cases h0 : idx = 0
  · rw [if_pos h0] at e ⊢
    rw [← Out.ok.inj e]; rfl
  rw [if_neg h0] at e ⊢
  by_cases hl : idx ≥ xs.length
  · rw [if_pos hl] at e ⊢
    rw [← Out.ok.inj e]; rfl
  rw [if_neg hl] at e ⊢
  simp only [] at e ⊢
  rw [Prog.bind_run, slice_ok r (by split <;> omega), Out.bind_ok]
  simp only [e]; rfl

theorem boundary_le {xs : List UInt8} {idx : Nat} (hb : boundary xs idx = true) : idx ≤ xs.length := by
  by_contra hn
  simp [boundary, List.getElem?_eq_none (by omega : xs.length ≤ idx)] at hb
  omega

/-! ## Writing -/

theorem splice_nil {bs : List Byte} (off : Nat) : splice bs off [] = bs := by simp [splice]

theorem write_inline {len : Nat} {bs d : List Byte} {p : Option Nat} {a off : Nat} (hl : off + d.length ≤ localSize) :
    writeAt ⟨len, .inline bs, p, a⟩ .inline off d h = .ok (⟨len, .inline (splice bs off d), p, a⟩, h) := by
  by_cases he : d = []
  · subst he
    simp only [writeAt, if_true, splice_nil]; rfl
  · simp only [writeAt, if_neg he, if_pos hl]; rfl

theorem write_bind {β : Type} {s : Str} {b off : Nat} {d : List Byte} {k : Blk} (hk : h.blk b = some k) (hl : off + d.length ≤ k.data.length)
    (f : Str → M β) : (writeAt s (.heap (some b)) off d >>= f) h = f s (setBlk h b ⟨k.owner, splice k.data off d⟩) := by
  rw [Prog.bind_run, write_heap hk hl]; rfl

theorem read_bind {β : Type} {s : Str} {b off n : Nat} {k : Blk} (hk : h.blk b = some k) (hl : off + n ≤ k.data.length)
    (f : List Byte → M β) : (readAt s (.heap (some b)) off n >>= f) h = f ((k.data.drop off).take n) h := by
  rw [Prog.bind_run, read_heap hk hl]; rfl

theorem readi_bind {β : Type} {len : Nat} {bs : List Byte} {p : Option Nat} {a off n : Nat} (hl : off + n ≤ bs.length) (f : List Byte → M β) :
    (readAt ⟨len, .inline bs, p, a⟩ .inline off n >>= f) h = f ((bs.drop off).take n) h := by
  rw [Prog.bind_run, read_inline hl]; rfl

theorem writei_bind {β : Type} {len : Nat} {bs d : List Byte} {p : Option Nat} {a off : Nat} (hl : off + d.length ≤ localSize) (f : Str → M β) :
    (writeAt ⟨len, .inline bs, p, a⟩ .inline off d >>= f) h = f ⟨len, .inline (splice bs off d), p, a⟩ h := by
  rw [Prog.bind_run, write_inline hl]; rfl

theorem splice_splice_append {bs d e : List Byte} {off : Nat} (hl : off + d.length + e.length ≤ bs.length) :
    (splice (splice bs off d) (off + d.length) e).take (off + d.length + e.length) = bs.take off ++ d ++ e := by
  rw [splice_take (by rw [splice_length (by omega)]; exact hl), splice_take (by omega)]

/-- The block of a string that has been moved to the heap: `n` bytes, of which `xs` are written in one to three pieces. -/
theorem fresh_rep {k : List Byte} {xs : List UInt8} {b a n : Nat} (hl : localSize < xs.length) (hk : h.blk b = some ⟨a, k⟩)
    (hn : k.length = n) (ht : k.take xs.length = xs.map some) {m : Nat} (hm : m = xs.length) : Rep h ⟨m, .cap n, some b, a⟩ xs := by
  subst hn hm; exact .big hl hk ht

theorem setBlk_setBlk (b : Nat) (k k' : Blk) : setBlk (setBlk h b k) b k' = setBlk h b k' := by
  unfold setBlk
  simp only [Heap.mk.injEq, and_true]
  funext c
  by_cases hc : c = b
  · subst hc; rw [upd_same, upd_same]
  · rw [upd_ne hc, upd_ne hc, upd_ne hc]

theorem setBlk_ne {b c : Nat} {k : Blk} (hc : c ≠ b) : (setBlk h b k).blk c = h.blk c := upd_ne hc

theorem set_del {b c : Nat} {k : Blk} {n : Nat} (hc : c ≠ b) : setBlk (delBlk h b n) c k = delBlk (setBlk h c k) b n := by
  unfold setBlk delBlk
  simp only [Heap.mk.injEq, and_true]
  funext d
  by_cases h1 : d = b
  · subst h1; rw [upd_ne (Ne.symm hc), upd_same, upd_same]
  · by_cases h2 : d = c
    · subst h2; rw [upd_same, upd_ne h1, upd_same]
    · rw [upd_ne h2, upd_ne h1, upd_ne h1, upd_ne h2]

/-- Replacing the block `b` by a new one with contents `k`. -/
theorem step_realloc (hb : Bal h) {b a n : Nat} {k0 k : Blk} (hk : h.blk b = some k0) (hn : k.data.length = n) :
    Step h [b] (delBlk (setBlk (newBlk h a n) h.next k) b k0.data.length) [h.next] := by
  have s1 := (step_new hb a n k hn).frame [b]
  have hlt := hb.lt hk
  have hk' : (setBlk (newBlk h a n) h.next k).blk b = some k0 := by
    rw [setBlk_ne (by omega)]; exact newBlk_old hb hk _ _
  have s2 := (step_del s1.bal hk').frame [h.next]
  refine Step.congr (Step.trans hb s1 (s2.congr (P := [h.next] ++ [b]) (P' := [h.next]) ?_ ?_)) ?_ ?_ <;> simp
  intro c; exact or_comm

/-! ## push_back -/

theorem safe_bind_eq {β γ : Type} {x : M β} {f : β → M γ} {Q : γ × Heap → Prop} (b : β) (h1 : Heap)
    (hx : (x h).SafeIf (Refuses cfg) fun p => p = (b, h1)) (hf : (f b h1).SafeIf (Refuses cfg) Q) : ((x >>= f) h).SafeIf (Refuses cfg) Q := by
  rw [Prog.bind_run]
  refine Out.SafeIf.bind hx ?_
  rintro _ rfl
  exact hf

/-- Two pieces written one after the other into a fresh block. -/
theorem two_pieces {xs ch : List UInt8} {n : Nat} (hn : xs.length + ch.length ≤ n) :
    (splice (splice (List.replicate n (none : Byte)) 0 (xs.map some)) xs.length (ch.map some)).length = n ∧
    (splice (splice (List.replicate n (none : Byte)) 0 (xs.map some)) xs.length (ch.map some)).take (xs ++ ch).length = (xs ++ ch).map some := by
  have e := splice_splice_append (bs := List.replicate n (none : Byte)) (off := 0) (d := xs.map some) (e := ch.map some) (by simpa using hn)
  refine ⟨?_, by simpa using e⟩
  rw [splice_length (by rw [splice_length (by simp; omega)]; simpa using hn), splice_length (by simp; omega)]
  simp

theorem append_piece {xs ch : List UInt8} {bs : List Byte} (ht : bs.take xs.length = xs.map some) (hn : xs.length + ch.length ≤ bs.length) :
    (splice bs xs.length (ch.map some)).length = bs.length ∧
    (splice bs xs.length (ch.map some)).take (xs ++ ch).length = (xs ++ ch).map some := by
  refine ⟨splice_length (by simpa using hn), ?_⟩
  have := splice_take (bs := bs) (off := xs.length) (d := ch.map some) (by simpa using hn)
  simpa [ht] using this

/-- The end of push_back of a string that moves to a fresh block. -/
theorem grown_ok {xs ch : List UInt8} {a n : Nat} (hl : localSize < xs.length + ch.length) (hn : xs.length + ch.length ≤ n) (st : Store) :
    ∃ k, k.length = n ∧
      (writeAt ⟨xs.length, st, some h.next, a⟩ (.heap (some h.next)) xs.length (ch.map some))
        (setBlk (newBlk h a n) h.next ⟨a, splice (List.replicate n none) 0 (xs.map some)⟩) =
        .ok (⟨xs.length, st, some h.next, a⟩, setBlk (newBlk h a n) h.next ⟨a, k⟩) ∧ k.take (xs ++ ch).length = (xs ++ ch).map some := by
  obtain ⟨e1, e2⟩ := two_pieces (xs := xs) (ch := ch) hn
  refine ⟨_, e1, ?_, e2⟩
  rw [write_heap (setBlk_get _ _) (by rw [splice_length (by simp; omega)]; simpa using hn), setBlk_setBlk]

theorem pushBack_ok (hb : Bal h) {s : Str} {xs} (r : Rep h s xs) (ch : List UInt8) :
    Gives cfg h (own s) (xs ++ ch) (pushBack cfg s ch h) := by
  have L : localSize = 16 := rfl
  unfold pushBack tryAllocate Gives
  cases r with
  | @small xs bs p a h1 h2 h3 h4 =>
    rw [if_neg (by simpa using h1), own_small h1]
    by_cases hn : xs.length + ch.length > localSize
    · simp only [if_pos hn]
      refine safe_bind_eq _ _ (alloc_bind (Out.safeIf_ok.2 rfl)) ?_
      simp only [if_true]
      have hn' : xs.length + ch.length ≤ xs.length + ch.length + (xs.length + ch.length) / 2 := by omega
      obtain ⟨k, k1, k2, k3⟩ := grown_ok (h := h) (a := a) hn hn' (.cap (xs.length + ch.length + (xs.length + ch.length) / 2))
      rw [Prog.bind_run, readi_bind (by rw [h2]; omega), List.drop_zero, h3, write_bind (newBlk_get _ _) (by simp; omega)]
      simp only [Bool.false_eq_true, if_false, pure_run_bind, Prog.pure_run, Out.bind_ok]
      rw [Prog.bind_run, k2]
      simp only [Out.bind_ok, Prog.pure_run, Out.safeIf_ok]
      refine ⟨?_, ?_⟩
      · exact fresh_rep (by simp; omega) (setBlk_get _ _) k1 k3 (by simp)
      · rw [own_big (by omega)]
        exact step_new hb _ _ _ k1
    · simp only [if_neg hn, pure_run_bind, if_false, Bool.false_eq_true]
      rw [writei_bind (by simp; omega)]
      simp only [Prog.pure_run, Out.safeIf_ok]
      obtain ⟨e1, e2⟩ := append_piece (ch := ch) h3 (by omega)
      refine ⟨?_, ?_⟩
      · have := Rep.small (h := h) (xs := xs ++ ch) (p := p) (a := a) (by simp; omega) (by rw [e1, h2]) e2 h4
        simpa using this
      · rw [own_small (by omega)]; exact Step.refl hb []
  | @empty n p a h1 =>
    rw [if_neg (by simp), own_small (by simp)]
    by_cases hn : 0 + ch.length > localSize
    · simp only [if_pos hn]
      refine safe_bind_eq _ _ (alloc_bind (Out.safeIf_ok.2 rfl)) ?_
      simp only [if_true]
      obtain ⟨k, k1, k2, k3⟩ := grown_ok (h := h) (xs := []) (ch := ch) (a := a) hn (n := 0 + ch.length + (0 + ch.length) / 2) (by simp)
        (.cap (0 + ch.length + (0 + ch.length) / 2))
      rw [Prog.bind_run, Prog.bind_run (x := readAt _ _ _ _), show readAt ⟨0, .cap n, some h.next, a⟩ .inline 0 0 (newBlk h a (0 + ch.length + (0 + ch.length) / 2)) = .ok ([], _) from rfl]
      rw [Out.bind_ok]
      simp only []
      rw [write_bind (newBlk_get _ _) (by simp)]
      simp only [Bool.false_eq_true, if_false, pure_run_bind, Prog.pure_run, Out.bind_ok]
      rw [Prog.bind_run]
      simp only [List.map_nil, List.length_nil] at k2
      rw [k2]
      simp only [Out.bind_ok, Prog.pure_run, Out.safeIf_ok]
      refine ⟨?_, ?_⟩
      · exact fresh_rep (by simp; omega) (setBlk_get _ _) k1 k3 (by simp)
      · rw [own_big (by omega)]
        exact step_new hb _ _ _ k1
    · simp only [if_neg hn, pure_run_bind, if_false, Bool.false_eq_true]
      by_cases he : ch = []
      · subst he
        simp only [writeAt, List.map_nil, if_true, pure_run_bind, Prog.pure_run, Out.safeIf_ok]
        exact ⟨.empty h1, Step.refl hb []⟩
      · have e : (ch.map some : List Byte) ≠ [] := by simpa using he
        have hl : 0 + (ch.map some : List Byte).length ≤ localSize := by simp; omega
        simp only [writeAt, if_neg e, if_pos hl, pure_run_bind, Prog.pure_run, Out.safeIf_ok]
        obtain ⟨e1, e2⟩ := append_piece (xs := []) (bs := List.replicate localSize none) (ch := ch) (by simp) (by simp; omega)
        refine ⟨?_, ?_⟩
        · have := Rep.small (h := h) (xs := [] ++ ch) (p := p) (a := a) (by simp; omega) (by rw [e1]; simp) e2 h1
          simpa using this
        · rw [own_small (by omega)]; exact Step.refl hb []
  | @big xs b data a h1 h2 h3 =>
    have hd := Rep.data_le h3
    rw [if_pos (by simpa using h1), own_big h1]
    by_cases hn : xs.length + ch.length > data.length
    · have hn' : xs.length + ch.length ≤ xs.length + ch.length + (xs.length + ch.length) / 2 := by omega
      generalize hN : xs.length + ch.length + (xs.length + ch.length) / 2 = N at hn'
      have hlt := hb.lt h2
      refine safe_bind_eq (⟨xs.length, .cap data.length, some h.next, a⟩, ⟨.heap (some b), .heap (some h.next), N, true, true⟩) (newBlk h a N)
        (by rw [getCap_bind, if_pos hn]; exact alloc_bind (Out.safeIf_ok.2 rfl)) ?_
      simp only [if_true]
      have hk1 := newBlk_old hb h2 a N
      obtain ⟨k1, k3⟩ := two_pieces (xs := xs) (ch := ch) hn'
      rw [Prog.bind_run, read_bind hk1 (by simpa using hd), List.drop_zero, h3, write_bind (newBlk_get _ _) (by simp; omega)]
      have hk2 : (setBlk (newBlk h a N) h.next ⟨a, splice (List.replicate N none) 0 (xs.map some)⟩).blk b = some ⟨a, data⟩ := by
        rw [setBlk_ne (by omega)]; exact hk1
      simp only [deallocSrc]
      rw [Prog.bind_run, getCap_bind, dealloc_run hk2]
      simp only [Out.bind_ok, Prog.pure_run]
      have hk3 : (delBlk (setBlk (newBlk h a N) h.next ⟨a, splice (List.replicate N none) 0 (xs.map some)⟩) b data.length).blk h.next =
          some ⟨a, splice (List.replicate N none) 0 (xs.map some)⟩ := by
        simp only [delBlk]; rw [upd_ne (by omega)]; exact setBlk_get _ _
      rw [write_bind hk3 (by rw [splice_length (by simp; omega)]; simpa using hn'), set_del (by omega), setBlk_setBlk]
      simp only [Prog.pure_run, Out.safeIf_ok]
      refine ⟨?_, ?_⟩
      · refine fresh_rep (by simp; omega) ?_ k1 k3 (by simp)
        simp only [delBlk]; rw [upd_ne (by omega)]; exact setBlk_get _ _
      · rw [own_big (by omega)]
        exact step_realloc hb h2 k1
    · rw [Prog.bind_run, getCap_bind, if_neg hn]
      simp only [Prog.pure_run, Out.bind_ok, Bool.false_eq_true, if_false, pure_run_bind]
      obtain ⟨e1, e2⟩ := append_piece (ch := ch) h3 (by omega)
      rw [write_bind h2 (by simp; omega)]
      simp only [Prog.pure_run, Out.safeIf_ok]
      refine ⟨fresh_rep (by simp; omega) (setBlk_get _ _) e1 e2 (by simp), ?_⟩
      rw [own_big (by omega)]
      exact step_set hb h2 e1

/-! ## insert -/

/-- Three pieces written one after the other into a fresh block. -/
theorem three_pieces {xs ch : List UInt8} {n idx : Nat} (hi : idx ≤ xs.length) (hn : xs.length + ch.length ≤ n) :
    (splice (splice (splice (List.replicate n (none : Byte)) 0 ((xs.take idx).map some)) idx (ch.map some)) (idx + ch.length)
      ((xs.drop idx).map some)).length = n ∧
    (splice (splice (splice (List.replicate n (none : Byte)) 0 ((xs.take idx).map some)) idx (ch.map some)) (idx + ch.length)
      ((xs.drop idx).map some)).take (insertAt xs ch idx).length = (insertAt xs ch idx).map some := by
  have l1 : ((xs.take idx).map some : List Byte).length = idx := by simp; omega
  have l3 : ((xs.drop idx).map some : List Byte).length = xs.length - idx := by simp
  have l2 : (ch.map some : List Byte).length = ch.length := by simp
  have e0 : (splice (List.replicate n (none : Byte)) 0 ((xs.take idx).map some)).length = n := by
    rw [splice_length (by rw [l1]; simp; omega)]; simp
  have e1 : (splice (splice (List.replicate n (none : Byte)) 0 ((xs.take idx).map some)) idx (ch.map some)).length = n := by
    rw [splice_length (by rw [l2, e0]; omega), e0]
  refine ⟨by rw [splice_length (by rw [l3, e1]; omega), e1], ?_⟩
  have t := splice_splice_append (bs := splice (List.replicate n (none : Byte)) 0 ((xs.take idx).map some)) (off := idx) (d := ch.map some)
    (e := (xs.drop idx).map some) (by rw [l2, l3, e0]; omega)
  have t0 := splice_take (bs := List.replicate n (none : Byte)) (off := 0) (d := (xs.take idx).map some) (by rw [l1]; simp; omega)
  rw [l1, Nat.zero_add] at t0
  rw [t0, l2, l3] at t
  have hl : (insertAt xs ch idx).length = idx + ch.length + (xs.length - idx) := by simp [insertAt]; omega
  rw [hl, t]
  simp [insertAt]

/-- The suffix moved first, then the new piece written over the gap. -/
theorem shift_piece {xs ch : List UInt8} {bs : List Byte} {idx : Nat} (ht : bs.take xs.length = xs.map some) (hi : idx ≤ xs.length)
    (hn : xs.length + ch.length ≤ bs.length) :
    (splice bs (idx + ch.length) ((xs.drop idx).map some)).length = bs.length ∧
    (splice (splice bs (idx + ch.length) ((xs.drop idx).map some)) idx (ch.map some)).length = bs.length ∧
    (splice (splice bs (idx + ch.length) ((xs.drop idx).map some)) idx (ch.map some)).take (insertAt xs ch idx).length =
      (insertAt xs ch idx).map some := by
  have l3 : ((xs.drop idx).map some : List Byte).length = xs.length - idx := by simp
  have l2 : (ch.map some : List Byte).length = ch.length := by simp
  have h1 : idx + ch.length + ((xs.drop idx).map some : List Byte).length ≤ bs.length := by rw [l3]; omega
  have e1 := splice_length h1
  have h2 : idx + (ch.map some : List Byte).length ≤ (splice bs (idx + ch.length) ((xs.drop idx).map some)).length := by rw [l2, e1]; omega
  refine ⟨e1, by rw [splice_length h2, e1], ?_⟩
  have t1 := splice_take h1
  have t0 := splice_take_lt (k := idx) h1 (by omega)
  have t2 := splice_take h2
  have d2 := splice_drop h2
  rw [l2] at t2 d2
  have hp : bs.take idx = (xs.take idx).map some := by
    rw [List.map_take, ← ht, List.take_take, Nat.min_eq_left hi]
  have hl : (insertAt xs ch idx).length = (idx + ch.length) + (xs.length - idx) := by simp [insertAt]; omega
  rw [hl, List.take_add, t2, t0, hp, d2]
  rw [l3] at t1
  have : ((splice bs (idx + ch.length) ((xs.drop idx).map some)).drop (idx + ch.length)).take (xs.length - idx) = (xs.drop idx).map some := by
    have := congrArg (List.drop (idx + ch.length)) t1
    rw [List.drop_take, Nat.add_sub_cancel_left] at this
    rw [this, List.drop_append_of_le_length (by simp; omega), List.drop_of_length_le (by simp; omega)]
    simp
  rw [this]
  simp [insertAt]

theorem take_drop_part {bs : List Byte} {xs : List UInt8} {idx : Nat} (ht : bs.take xs.length = xs.map some) (hi : idx ≤ xs.length) :
    bs.take idx = (xs.take idx).map some ∧ (bs.drop idx).take (xs.length - idx) = (xs.drop idx).map some := by
  have a := take_part (start := 0) (n := idx) ht (by omega)
  have b := take_part (start := idx) (n := xs.length - idx) ht (by omega)
  refine ⟨by simpa using a, ?_⟩
  rw [b, List.take_of_length_le (by simp)]

theorem insert_off {s : Str} {xs} (r : Rep h s xs) {ch : List UInt8} {idx : Nat} (hx : boundary xs idx = false) :
    Model.BStr.insert cfg s ch idx h = .panic := by
  unfold Model.BStr.insert
  rw [Prog.bind_run, isCharBoundary_ok r, hx]; rfl

theorem insert_ok (hb : Bal h) {s : Str} {xs} (r : Rep h s xs) (ch : List UInt8) {idx : Nat} (hx : boundary xs idx = true) :
    Gives cfg h (own s) (insertAt xs ch idx) (Model.BStr.insert cfg s ch idx h) := by
  have L : localSize = 16 := rfl
  have hi := boundary_le hx
  unfold Model.BStr.insert Gives
  rw [Prog.bind_run, isCharBoundary_ok r, hx, Out.bind_ok]
  simp only [Bool.not_true, Bool.false_eq_true, if_false]
  have hlen : (insertAt xs ch idx).length = xs.length + ch.length := by simp [insertAt]; omega
  unfold tryAllocate
  cases r with
  | @small xs bs p a h1 h2 h3 h4 =>
    obtain ⟨p1, p2⟩ := take_drop_part h3 hi
    rw [if_neg (by simpa using h1), own_small h1]
    by_cases hn : xs.length + ch.length > localSize
    · simp only [if_pos hn]
      have hn' : xs.length + ch.length ≤ xs.length + ch.length + (xs.length + ch.length) / 2 := by omega
      generalize xs.length + ch.length + (xs.length + ch.length) / 2 = N at hn'
      refine safe_bind_eq _ _ (alloc_bind (Out.safeIf_ok.2 rfl)) ?_
      simp only [if_true]
      obtain ⟨k1, k3⟩ := three_pieces (xs := xs) (ch := ch) hi hn'
      rw [Prog.bind_run, readi_bind (by rw [h2]; omega), List.drop_zero, p1, write_bind (newBlk_get _ _) (by simp; omega)]
      rw [write_bind (setBlk_get _ _) (by rw [splice_length (by simp; omega)]; simp; omega), setBlk_setBlk]
      rw [readi_bind (by rw [h2]; simp only []; omega), p2]
      rw [write_bind (setBlk_get _ _) (by rw [splice_length (by rw [splice_length (by simp; omega)]; simp; omega), splice_length (by simp; omega)]; simp; omega), setBlk_setBlk]
      simp only [Bool.false_eq_true, if_false, pure_run_bind, Prog.pure_run, Out.bind_ok, Out.safeIf_ok]
      refine ⟨fresh_rep (by omega) (setBlk_get _ _) k1 k3 hlen.symm, ?_⟩
      rw [own_big (by omega)]
      exact step_new hb _ _ _ k1
    · simp only [if_neg hn, pure_run_bind, if_false, Bool.false_eq_true]
      obtain ⟨e0, e1, e2⟩ := shift_piece (ch := ch) h3 hi (by omega)
      rw [Prog.bind_run, readi_bind (by rw [h2]; omega), p2, writei_bind (by simp; omega), write_inline (by simp; omega)]
      simp only [Prog.pure_run, Out.bind_ok, Out.safeIf_ok]
      refine ⟨?_, ?_⟩
      · have := Rep.small (h := h) (xs := insertAt xs ch idx) (p := p) (a := a) (by omega) (by rw [e1, h2]) e2 h4
        rwa [hlen] at this
      · rw [own_small (by omega)]; exact Step.refl hb []
  | @empty n p a h1 =>
    obtain rfl : idx = 0 := by simpa using hi
    rw [if_neg (by simp), own_small (by simp)]
    have hI : insertAt [] ch 0 = ch := by simp [insertAt]
    rw [hI] at hlen ⊢
    by_cases hn : 0 + ch.length > localSize
    · simp only [if_pos hn]
      have hn' : ch.length ≤ 0 + ch.length + (0 + ch.length) / 2 := by omega
      generalize 0 + ch.length + (0 + ch.length) / 2 = N at hn'
      refine safe_bind_eq _ _ (alloc_bind (Out.safeIf_ok.2 rfl)) ?_
      simp only [if_true]
      obtain ⟨k1, k3⟩ := three_pieces (xs := []) (idx := 0) (ch := ch) (n := N) (by simp) (by simpa using hn')
      rw [hI] at k3
      simp only [List.take_nil, List.drop_nil, List.map_nil, splice_nil] at k1 k3
      have hr : ∀ h2 : Heap, readAt ⟨0, .cap n, some h.next, a⟩ .inline 0 0 h2 = .ok ([], h2) := fun _ => rfl
      rw [Prog.bind_run, Prog.bind_run (x := readAt _ _ _ _), hr, Out.bind_ok]
      simp only []
      rw [write_bind (newBlk_get _ _) (by simp)]
      rw [write_bind (setBlk_get _ _) (by rw [splice_length (by simp)]; simp; omega), setBlk_setBlk]
      simp only [Nat.sub_self]
      rw [Prog.bind_run (x := readAt _ _ _ _), hr, Out.bind_ok]
      simp only [splice_nil]
      rw [write_bind (setBlk_get _ _) (by rw [splice_length (by simp; omega)]; simp; omega), setBlk_setBlk]
      simp only [Bool.false_eq_true, if_false, pure_run_bind, Prog.pure_run, Out.bind_ok, Out.safeIf_ok, splice_nil]
      refine ⟨fresh_rep (by omega) (setBlk_get _ _) k1 k3 (by simp), ?_⟩
      rw [own_big (by omega)]
      exact step_new hb _ _ _ k1
    · simp only [if_neg hn, pure_run_bind, if_false, Bool.false_eq_true]
      have hr : ∀ h2 : Heap, readAt ⟨0, .cap n, p, a⟩ .inline 0 0 h2 = .ok ([], h2) := fun _ => rfl
      rw [Prog.bind_run, Prog.bind_run (x := readAt _ _ _ _)]
      simp only [Nat.sub_self]
      rw [hr, Out.bind_ok]
      simp only []
      have hw : ∀ (off : Nat) (h2 : Heap), writeAt ⟨0, .cap n, p, a⟩ .inline off [] h2 = .ok (⟨0, .cap n, p, a⟩, h2) := fun _ _ => rfl
      rw [Prog.bind_run, hw, Out.bind_ok]
      by_cases he : ch = []
      · subst he
        simp only [writeAt, List.map_nil, if_true, pure_run_bind, Prog.pure_run, Out.safeIf_ok, Out.bind_ok]
        exact ⟨.empty h1, Step.refl hb []⟩
      · have e : (ch.map some : List Byte) ≠ [] := by simpa using he
        have hl : 0 + (ch.map some : List Byte).length ≤ localSize := by simp; omega
        simp only [writeAt, if_neg e, if_pos hl, pure_run_bind, Prog.pure_run, Out.safeIf_ok, Out.bind_ok]
        obtain ⟨e1, e2⟩ := append_piece (xs := []) (bs := List.replicate localSize none) (ch := ch) (by simp) (by simp; omega)
        refine ⟨?_, ?_⟩
        · have := Rep.small (h := h) (xs := [] ++ ch) (p := p) (a := a) (by simp; omega) (by rw [e1]; simp) e2 h1
          simpa using this
        · rw [own_small (by omega)]; exact Step.refl hb []
  | @big xs b data a h1 h2 h3 =>
    have hd := Rep.data_le h3
    obtain ⟨p1, p2⟩ := take_drop_part h3 hi
    rw [if_pos (by simpa using h1), own_big h1]
    by_cases hn : xs.length + ch.length > data.length
    · have hn' : xs.length + ch.length ≤ xs.length + ch.length + (xs.length + ch.length) / 2 := by omega
      generalize hN : xs.length + ch.length + (xs.length + ch.length) / 2 = N at hn'
      have hlt := hb.lt h2
      refine safe_bind_eq (⟨xs.length, .cap data.length, some h.next, a⟩, ⟨.heap (some b), .heap (some h.next), N, true, true⟩) (newBlk h a N)
        (by rw [getCap_bind, if_pos hn]; exact alloc_bind (Out.safeIf_ok.2 rfl)) ?_
      simp only [if_true]
      have hk1 := newBlk_old hb h2 a N
      have hk2 : ∀ k, (setBlk (newBlk h a N) h.next k).blk b = some ⟨a, data⟩ := by
        intro k; rw [setBlk_ne (by omega)]; exact hk1
      obtain ⟨k1, k3⟩ := three_pieces (xs := xs) (ch := ch) hi hn'
      rw [Prog.bind_run, read_bind hk1 (by simp only []; omega), List.drop_zero, p1, write_bind (newBlk_get _ _) (by simp; omega)]
      rw [write_bind (setBlk_get _ _) (by rw [splice_length (by simp; omega)]; simp; omega), setBlk_setBlk]
      rw [read_bind (hk2 _) (by simp only []; omega), p2]
      rw [write_bind (setBlk_get _ _) (by rw [splice_length (by rw [splice_length (by simp; omega)]; simp; omega), splice_length (by simp; omega)]; simp; omega), setBlk_setBlk]
      simp only [deallocSrc]
      rw [Prog.bind_run, getCap_bind, dealloc_run (hk2 _)]
      simp only [Out.bind_ok, Prog.pure_run, Out.safeIf_ok]
      refine ⟨?_, ?_⟩
      · refine fresh_rep (by omega) ?_ k1 k3 hlen.symm
        simp only [delBlk]; rw [upd_ne (by omega)]; exact setBlk_get _ _
      · rw [own_big (by omega)]
        exact step_realloc hb h2 k1
    · rw [Prog.bind_run, getCap_bind, if_neg hn]
      simp only [Prog.pure_run, Out.bind_ok, Bool.false_eq_true, if_false, pure_run_bind]
      obtain ⟨e0, e1, e2⟩ := shift_piece (ch := ch) h3 hi (by omega)
      rw [Prog.bind_run, read_bind h2 (by simp only []; omega), p2, write_bind h2 (by simp; omega),
        write_heap (setBlk_get _ _) (by rw [e0]; simp; omega), setBlk_setBlk]
      simp only [Prog.pure_run, Out.bind_ok, Out.safeIf_ok]
      refine ⟨fresh_rep (by omega) (setBlk_get _ _) e1 e2 hlen.symm, ?_⟩
      rw [own_big (by omega)]
      exact step_set hb h2 e1

end Verif.Proof.BStr
