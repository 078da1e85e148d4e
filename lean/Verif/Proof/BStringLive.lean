import Verif.Proof.BStringMoved
/-! # Programs over strings and `chars()` iterators -/
namespace Verif.Proof.BStr
open Verif Verif.Model.BStr
open Verif.Spec.BStr hiding memory

variable {h h' : Heap} {cfg : Cfg} {w w' : LWorld} {S S' : LIdeal} {A A' : Ideal} {i j k l : Nat} {xs ys zs : List UInt8}

/-! ## Reading one byte -/

theorem inBase_run {β : Type} {f : Prog World β} {b : β} {w1 : World} (e : f w.base = .ok (b, w1)) :
    inBase f w = .ok (b, { w with base := w1 }) := by
  unfold inBase; rw [e]; rfl

theorem inBase_ub {β : Type} {f : Prog World β} (e : f w.base = .ub) : inBase f w = .ub := by
  unfold inBase; rw [e]; rfl

theorem inHeap_run {β : Type} {v : World} {m : M β} {b : β} (e : m v.heap = .ok (b, v.heap)) : inHeap m v = .ok (b, v) := by
  unfold inHeap; rw [e]

theorem inHeap_run_ub {β : Type} {v : World} {m : M β} (e : m v.heap = .ub) : inHeap m v = .ub := by
  unfold inHeap; rw [e]

theorem one {zs : List UInt8} {off : Nat} (hl : off < zs.length) : (zs.drop off).take 1 = [zs[off]] := by
  rw [List.drop_eq_getElem_cons hl]; rfl

theorem byte_inline {s : Str} (r : Rep h s xs) (h16 : xs.length ≤ 16) {off : Nat} (hl : off < xs.length) :
    byte s .inline off h = .ok (xs[off], h) := by
  cases r with
  | small h1 h2 h3 h4 =>
    have : off + 1 ≤ xs.length := hl
    unfold byte
    rw [readi_bind (by rw [h2]; omega), take_part h3 this, one hl]; rfl
  | empty => simp at hl
  | big h1 => simp [localSize] at h1; omega

theorem byte_heap {s s0 : Str} (r : Rep h s xs) {b off : Nat} (hb : b ∈ own s) (hl : off < xs.length) :
    byte s0 (.heap (some b)) off h = .ok (xs[off], h) := by
  obtain ⟨k1, k2⟩ := r.own_some hb
  obtain ⟨b', data, a, rfl, hk, ht⟩ := r.big_inv (by rw [← r.len]; exact k1)
  cases k2
  have := Rep.data_le ht
  have hl' : off + 1 ≤ xs.length := hl
  unfold byte
  rw [read_bind hk (by simp only; omega), take_part ht hl', one hl]; rfl

/-- The bytes `zs` are there for the cursor. -/
def Shows (w : LWorld) (c : Cursor) (zs : List UInt8) : Prop :=
  zs.length ≤ c.stop ∧ ∀ off (hl : off < zs.length), peek c.mem off w = .ok (zs[off], w)

/-- Nothing is there for the cursor. -/
def Blind (w : LWorld) (c : Cursor) : Prop := ∀ off, peek c.mem off w = .ub

theorem next_run {c : Cursor} (hs : Shows w c zs) (hl : c.start < zs.length) :
    c.next w = .ok ((some zs[c.start], { c with start := c.start + 1 }), w) := by
  unfold Cursor.next
  rw [if_neg (by have := hs.1; omega), Prog.bind_run, hs.2 c.start hl]; rfl

theorem next_end {c : Cursor} (hl : c.stop ≤ c.start) : c.next w = .ok ((none, c), w) := by
  unfold Cursor.next; rw [if_pos hl]; rfl

theorem next_blind {c : Cursor} (hb : Blind w c) (hl : c.start < c.stop) : c.next w = .ub := by
  unfold Cursor.next; rw [if_neg (by omega), Prog.bind_run, hb]; rfl

theorem Shows.go {c : Cursor} (hs : Shows w c zs) (d : Nat) : Shows w { c with start := d } zs := hs

theorem must_run {c : Cursor} (hs : Shows w c zs) (hl : c.start < zs.length) :
    c.must w = .ok ((zs[c.start], { c with start := c.start + 1 }), w) := by
  unfold Cursor.must; rw [Prog.bind_run, next_run hs hl]; rfl

theorem charsNext_end {c : Cursor} (hl : c.stop ≤ c.start) : charsNext cfg c w = .ok ((none, c), w) := by
  unfold charsNext
  cases cfg.enc with
  | ascii => unfold nextAscii; simp only; rw [Prog.bind_run, next_end hl]; rfl
  | utf8 => unfold nextUtf8; simp only; rw [Prog.bind_run, next_end hl]; rfl

theorem charsNext_blind {c : Cursor} (hb : Blind w c) (hl : c.start < c.stop) : charsNext cfg c w = .ub := by
  unfold charsNext
  cases cfg.enc with
  | ascii => unfold nextAscii; simp only; rw [Prog.bind_run, next_blind hb hl]; rfl
  | utf8 => unfold nextUtf8; simp only; rw [Prog.bind_run, next_blind hb hl]; rfl

theorem take_cons {zs : List UInt8} {p n : Nat} (hl : p < zs.length) : (zs.drop p).take (n + 1) = zs[p] :: (zs.drop (p + 1)).take n := by
  rw [List.drop_eq_getElem_cons hl]; rfl

theorem charsNext_run {c : Cursor} (hs : Shows w c zs) {ch : List UInt8} (hc : charAt false cfg.enc zs c.start = some ch) :
    charsNext cfg c w = .ok ((some ch, { c with start := c.start + ch.length }), w) := by
  unfold charAt at hc
  split at hc
  · cases hc
  next b hb =>
    obtain ⟨hl, hb⟩ := List.getElem?_eq_some_iff.1 hb
    split at hc
    · cases hc
    next hn =>
      split at hc
      next hw =>
        cases hc
        unfold charsNext
        cases he : cfg.enc with
        | ascii =>
          simp only [he, width]
          unfold nextAscii
          rw [Prog.bind_run, next_run hs hl, one hl]; rfl
        | utf8 =>
          rw [he] at hw hn
          simp only [he]
          unfold nextUtf8
          rw [Prog.bind_run, next_run hs hl, Out.bind_ok]
          simp only [hb]
          have h7 : b.toNat ≠ 0x7F := fun h7 => hn ⟨rfl, .inr ⟨rfl, h7⟩⟩
          unfold width at hw ⊢
          simp only at hw ⊢
          by_cases w1 : b.toNat < 0x80
          · rw [if_pos w1] at hw ⊢
            rw [if_pos (by omega), one hl, hb]; rfl
          rw [if_neg w1] at hw ⊢
          rw [if_neg (by omega)]
          by_cases w2 : b.toNat < 0xE0
          · rw [if_pos w2] at hw ⊢
            rw [Prog.bind_run, must_run (hs.go _) (show c.start + 1 < zs.length by omega), Out.bind_ok, if_pos w2,
              take_cons hl, one (by omega), hb]
            rfl
          rw [if_neg w2] at hw ⊢
          by_cases w3 : b.toNat < 0xF0
          · rw [if_pos w3] at hw ⊢
            rw [Prog.bind_run, must_run (hs.go _) (show c.start + 1 < zs.length by omega), Out.bind_ok, if_neg w2, Prog.bind_run,
              must_run (hs.go _) (show c.start + 1 + 1 < zs.length by omega), Out.bind_ok, if_pos w3,
              take_cons hl, take_cons (by omega), one (by omega), hb]
            rfl
          rw [if_neg w3] at hw ⊢
          rw [Prog.bind_run, must_run (hs.go _) (show c.start + 1 < zs.length by omega), Out.bind_ok, if_neg w2, Prog.bind_run,
            must_run (hs.go _) (show c.start + 1 + 1 < zs.length by omega), Out.bind_ok, if_neg w3, Prog.bind_run,
            must_run (hs.go _) (show c.start + 1 + 1 + 1 < zs.length by omega), Out.bind_ok,
            take_cons hl, take_cons (by omega), take_cons (by omega), one (by omega), hb]
          rfl
      · cases hc

/-! ## The invariant -/

inductive ItOk (w : LWorld) : Cursor → Place → Prop
  | inside {i p n : Nat} {s : Str} (hs : w.base.vars i = some s) : ItOk w ⟨.inside i (w.born i), p, n⟩ (.inside i p n)
  | outside {i p n b : Nat} {s : Str} (hs : w.base.vars i = some s) (hb : b ∈ own s) : ItOk w ⟨.heap (some b), p, n⟩ (.outside i p n)
  | deadIn {i t p n : Nat} (ht : t < w.clock) (hd : w.base.vars i = none ∨ w.born i ≠ t) : ItOk w ⟨.inside i t, p, n⟩ (.gone p n)
  | deadOut {b p n : Nat} (hb : b < w.base.heap.next) (hd : w.base.heap.blk b = none) : ItOk w ⟨.heap (some b), p, n⟩ (.gone p n)

structure LInv (w : LWorld) (S : LIdeal) : Prop where
  base : Inv w.base S.text
  rooms : Rooms w.base S.room
  stamp : ∀ i, w.base.vars i ≠ none → w.born i < w.clock
  its : ∀ k, match w.its k, S.its k with
    | none, none => True
    | some c, some x => ItOk w c x
    | _, _ => False

theorem linv_init : LInv {} {} := ⟨inv_init, (fun i s e => by cases e), fun i h => absurd rfl h, fun k => trivial⟩

theorem LInv.it {x : Place} (I : LInv w S) (hx : S.its k = some x) : ∃ c, w.its k = some c ∧ ItOk w c x := by
  have := I.its k
  rw [hx] at this
  cases hc : w.its k with
  | none => rw [hc] at this; exact this.elim
  | some c => rw [hc] at this; exact ⟨c, rfl, this⟩

theorem ItOk.bounds {c : Cursor} {x : Place} (o : ItOk w c x) : c.start = x.pos ∧ c.stop = x.stop := by
  cases o <;> exact ⟨rfl, rfl⟩

/-- An iterator is moved on. -/
theorem ItOk.on {c : Cursor} {x : Place} (o : ItOk w c x) (d : Nat) : ItOk w { c with start := c.start + d } (x.goOn d) := by
  cases o with
  | inside hs => exact .inside hs
  | outside hs hb => exact .outside hs hb
  | deadIn ht hd => exact .deadIn ht hd
  | deadOut hb hd => exact .deadOut hb hd

theorem peek_in {off : Nat} {s : Str} (hs : w.base.vars i = some s) (t : Nat) :
    peek (.inside i t) off w = if w.born i = t then inBase (inHeap (byte s .inline off)) w else .ub := by
  unfold peek
  have e : var i w.base = .ok (s, w.base) := by unfold var; rw [hs]
  simp only [Prog.bind_run, theBorn, Out.bind_ok]
  rw [inBase_run e, Out.bind_ok]
  split <;> rfl

theorem shows_of {c : Cursor} {x : Place} (I : LInv w S) (o : ItOk w c x) (hz : seen S x = some zs) : Shows w c zs := by
  cases o with
  | @inside i p n s hs =>
    obtain ⟨xs, hA, r⟩ := I.base.rep' hs
    simp only [seen, hA, Option.bind_some] at hz
    split at hz
    next h16 =>
      cases hz
      refine ⟨by simp, fun off hl => ?_⟩
      rw [peek_in hs, if_pos rfl]
      have hl' : off < xs.length := by simp at hl; omega
      rw [inBase_run (inHeap_run (byte_inline r h16 hl'))]
      simp
    · cases hz
  | @outside i p n b s hs hb =>
    obtain ⟨xs, hA, r⟩ := I.base.rep' hs
    simp only [seen, hA, Option.map_some, Option.some.injEq] at hz
    subst hz
    refine ⟨by simp, fun off hl => ?_⟩
    have hl' : off < xs.length := by simp at hl; omega
    unfold peek
    simp only
    rw [inBase_run (inHeap_run (byte_heap r hb hl'))]
    simp
  | deadIn => cases hz
  | deadOut => cases hz

theorem byte_dead {s : Str} {b off : Nat} (hd : h.blk b = none) : byte s (.heap (some b)) off h = .ub := by
  have e : readAt s (.heap (some b)) off 1 h = .ub := by simp only [readAt, hd]
  unfold byte
  rw [Prog.bind_run, e]; rfl

theorem blind_gone {c : Cursor} {p n : Nat} (o : ItOk w c (.gone p n)) : Blind w c := by
  intro off
  cases o with
  | @deadIn i t _ _ ht hd =>
    cases hv : w.base.vars i with
    | none =>
      unfold peek
      have e : var i w.base = .ub := by unfold var; rw [hv]
      simp only [Prog.bind_run, theBorn, Out.bind_ok]
      rw [inBase_ub e]; rfl
    | some s =>
      rw [peek_in hv, if_neg]
      rw [hv] at hd
      exact hd.resolve_left (by simp)
  | deadOut hb hd =>
    unfold peek
    simp only
    exact inBase_ub (inHeap_run_ub (byte_dead hd))

theorem byte_cap {s : Str} {off c : Nat} (hs : s.store = .cap c) : byte s .inline off h = .ub := by
  unfold byte
  simp only [Prog.bind_run, readAt, hs]; rfl

/-- The bytes are on the heap, not inside. -/
theorem blind_long {c : Cursor} {p n : Nat} (I : LInv w S) (o : ItOk w c (.inside i p n)) (hx : S.text i = some xs) (hl : 16 < xs.length) : Blind w c := by
  intro off
  cases o with
  | @inside _ _ _ s hs =>
    obtain ⟨ys, hA, r⟩ := I.base.rep' hs
    rw [hx] at hA; cases hA
    obtain ⟨b, data, a, rfl, -, -⟩ := r.big_inv hl
    rw [peek_in hs, if_pos rfl]
    exact inBase_ub (inHeap_run_ub (byte_cap rfl))

/-! ## Steps -/

theorem theIt_run {c : Cursor} (hc : w.its k = some c) : theIt k w = .ok (c, w) := by unfold theIt; rw [hc]

theorem LInv.put {c : Cursor} {x : Place} (I : LInv w S) (o : ItOk w c x) : LInv { w with its := upd w.its k (some c) } (putIt S k x) := by
  refine ⟨I.base, I.rooms, I.stamp, fun k' => ?_⟩
  have o' : ∀ {c c' x}, ItOk w c x → ItOk { w with its := upd w.its k (some c') } c x := by
    intro c c' x o
    cases o with
    | inside hs => exact .inside hs
    | outside hs hb => exact .outside hs hb
    | deadIn ht hd => exact .deadIn ht hd
    | deadOut hb hd => exact .deadOut hb hd
  dsimp only [putIt]
  by_cases hk : k' = k
  · subst hk
    rw [upd_same, if_pos rfl]
    exact o' o
  · rw [upd_ne hk, if_neg hk]
    have := I.its k'
    cases e1 : w.its k' with
    | none => rw [e1] at this; cases e2 : S.its k' with
      | none => trivial
      | some y => rw [e2] at this; exact this.elim
    | some d => rw [e1] at this; cases e2 : S.its k' with
      | none => rw [e2] at this; exact this.elim
      | some y => rw [e2] at this; exact o' this

theorem spec_none {full len : Bool} {enc : Enc} {op : Op} {r : Res} (hs : specStep full len enc op A = some (r, A')) (hi : A i = none)
    (hm : made op ≠ some i) : A' i = none := by
  cases op <;> simp only [specStep] at hs <;> (try split at hs) <;> (try split at hs) <;> (try split at hs) <;> cases hs <;>
    simp only [made, ne_eq, Option.some.injEq, not_false_eq_true] at hm <;> (try simp only [put]) <;> (try split_ifs) <;> simp_all

/-- The world after a call on the strings. -/
def after (w : LWorld) (op : Op) (v : World) : LWorld :=
  match made op with
  | none => { w with base := v }
  | some i => { base := v, born := upd w.born i w.clock, clock := w.clock + 1, its := w.its }

theorem lstep_str (op : Op) {q : Res × World} (e : step cfg op w.base = .ok q) : lstep cfg (.str op) w = .ok (q.1, after w op q.2) := by
  simp only [lstep, Prog.bind_run]
  rw [inBase_run e, Out.bind_ok]
  unfold birth after
  cases made op <;> rfl

theorem after_base (w : LWorld) (op : Op) (v : World) : (after w op v).base = v := by unfold after; cases made op <;> rfl
theorem after_its (w : LWorld) (op : Op) (v : World) : (after w op v).its = w.its := by unfold after; cases made op <;> rfl
theorem after_clock (w : LWorld) (op : Op) (v : World) : w.clock ≤ (after w op v).clock := by
  unfold after; cases made op <;> simp
theorem after_born (w : LWorld) (op : Op) (v : World) (i : Nat) :
    (made op = some i ∧ (after w op v).born i = w.clock ∧ w.clock < (after w op v).clock) ∨ (made op ≠ some i ∧ (after w op v).born i = w.born i) := by
  unfold after
  cases hm : made op with
  | none => right; exact ⟨by simp, rfl⟩
  | some j =>
    by_cases hj : i = j
    · subst hj; left; exact ⟨rfl, upd_same _ _ _, Nat.lt_succ_self _⟩
    · right; exact ⟨fun h => hj (by cases h; rfl), upd_ne hj⟩

theorem str_inv (I : LInv w S) {op : Op} {r : Res} (hs : specStep false cfg.lenient cfg.enc op S.text = some (r, A'))
    {q : Res × World} (e : step cfg op w.base = .ok q) (I' : Inv q.2 A') :
    LInv (after w op q.2) ⟨A', roomAfter S.text S.room op, fun k => (S.its k).map (follow S.text S.room op)⟩ := by
  obtain ⟨fl, mk⟩ := step_flow op I.base I.rooms hs e
  have B := after_base w op q.2
  have C := after_clock w op q.2
  refine ⟨by rw [B]; exact I', by rw [B]; exact fl.room, ?_, ?_⟩
  · intro i hi
    rw [B] at hi
    rcases after_born w op q.2 i with ⟨-, hb, hc⟩ | ⟨hm, hb⟩
    · rw [hb]; exact hc
    · rw [hb]
      refine Nat.lt_of_lt_of_le (I.stamp i fun hn => hi ?_) C
      have hA : S.text i = none := by
        cases hA : S.text i with
        | none => rfl
        | some xs => obtain ⟨s, h1, -⟩ := I.base.rep i xs hA; rw [hn] at h1; cases h1
      exact I'.dom i (spec_none hs hA hm)
  · intro k
    rw [after_its]
    dsimp only
    have := I.its k
    cases e1 : w.its k with
    | none => rw [e1] at this; cases e2 : S.its k with
      | none => trivial
      | some y => rw [e2] at this; exact this.elim
    | some c => rw [e1] at this; cases e2 : S.its k with
      | none => rw [e2] at this; exact this.elim
      | some x =>
        rw [e2] at this
        simp only [Option.map_some]
        simp only at this
        cases this with
        | @inside i p n s hs' =>
          have hne : w.base.vars i ≠ none := by rw [hs']; simp
          have hmk : made op ≠ some i := fun h => hne (mk i h)
          have hb : (after w op q.2).born i = w.born i := by
            rcases after_born w op q.2 i with ⟨hm, -⟩ | ⟨-, hb⟩
            · exact absurd hm hmk
            · exact hb
          unfold follow
          cases en : ends op i with
          | true =>
            simp only [en, if_true]
            exact .deadIn (Nat.lt_of_lt_of_le (I.stamp i hne) C) (.inl (by rw [B]; exact fl.dead i en))
          | false =>
            simp only [en, Bool.false_eq_true, if_false]
            obtain ⟨s', h'⟩ := Option.ne_none_iff_exists'.1 (fl.alive i hne en)
            have := ItOk.inside (w := after w op q.2) (i := i) (p := p) (n := n) (s := s') (by rw [B]; exact h')
            rw [hb] at this
            exact this
        | @outside i p n b s hs' hb =>
          have := fl.keep i s b hs' hb
          unfold follow
          simp only
          cases hw : whereTo S.text S.room op i with
          | none => rw [hw] at this; exact .deadOut (by
              rw [B]
              obtain ⟨ys, -, r⟩ := I.base.rep' hs'
              have h1 := r.own_live b hb
              have h2 : b < w.base.heap.next := by
                apply Nat.lt_of_not_le
                intro hle
                exact h1 (I.base.bal.fresh b hle)
              exact Nat.lt_of_lt_of_le h2 fl.mono) (by rw [B]; exact this)
          | some j =>
            rw [hw] at this
            obtain ⟨s', h1, h2⟩ := this
            exact .outside (by rw [B]; exact h1) h2
        | @deadIn i t p n ht hd =>
          unfold follow
          refine .deadIn (Nat.lt_of_lt_of_le ht C) ?_
          rw [B]
          rcases after_born w op q.2 i with ⟨-, hb, -⟩ | ⟨hm, hb⟩
          · right; rw [hb]; omega
          · rw [hb]
            rcases hd with hd | hd
            · left
              have hA : S.text i = none := by
                cases hA : S.text i with
                | none => rfl
                | some xs => obtain ⟨s, h1, -⟩ := I.base.rep i xs hA; rw [hd] at h1; cases h1
              exact I'.dom i (spec_none hs hA hm)
            · exact .inr hd
        | deadOut hb hd =>
          unfold follow
          exact .deadOut (by rw [B]; exact Nat.lt_of_lt_of_le hb fl.mono) (by rw [B]; exact fl.stale _ hb hd)

theorem lstep_ok {op : LOp} (I : LInv w S) {r : Res} (hs : lspecStep false cfg.lenient cfg.enc op S = some (r, S')) :
    (lstep cfg op w).SafeIf (Refuses cfg) fun q => q.1 = r ∧ LInv q.2 S' := by
  cases op with
  | str op =>
    simp only [lspecStep, Option.map_eq_some_iff] at hs
    obtain ⟨⟨r', A'⟩, hs, he⟩ := hs
    cases he
    have ok := step_ok op I.base hs
    cases e : step cfg op w.base with
    | ok q =>
      rw [e] at ok
      obtain ⟨e1, I'⟩ := ok
      rw [lstep_str op e]
      exact ⟨e1, str_inv I hs e I'⟩
    | oom =>
      rw [e] at ok
      simp only [lstep, Prog.bind_run, inBase, e]
      exact ok
    | _ => rw [e] at ok; exact ok.elim
  | chars k i =>
    simp only [lspecStep, Option.map_eq_some_iff] at hs
    obtain ⟨xs, hA, he⟩ := hs
    cases he
    obtain ⟨s, hv, r⟩ := I.base.rep i xs hA
    have e : var i w.base = .ok (s, w.base) := by unfold var; rw [hv]
    simp only [lstep, Prog.bind_run]
    rw [inBase_run e, Out.bind_ok]
    simp only [theBorn, Out.bind_ok, setIt, Prog.pure_run]
    refine ⟨rfl, I.put ?_⟩
    unfold makeChars
    by_cases hl : xs.length ≤ 16
    · rw [if_neg (by rw [r.len]; simp [localSize]; omega), if_pos hl, r.len]
      exact .inside hv
    · rw [if_pos (by rw [r.len]; simp [localSize]; omega), if_neg hl]
      obtain ⟨b, data, a, rfl, -, -⟩ := r.big_inv (by simp [localSize]; omega)
      exact .outside hv (by rw [own_big (by simp [localSize]; omega)]; simp)
  | copy k l =>
    simp only [lspecStep, Option.map_eq_some_iff] at hs
    obtain ⟨x, hx, he⟩ := hs
    cases he
    obtain ⟨c, hc, o⟩ := I.it hx
    simp only [lstep, Prog.bind_run, theIt_run hc, Out.bind_ok, setIt, Prog.pure_run]
    exact ⟨rfl, I.put o⟩
  | next k =>
    simp only [lspecStep, Option.bind_eq_some_iff] at hs
    obtain ⟨x, hx, hs⟩ := hs
    obtain ⟨c, hc, o⟩ := I.it hx
    obtain ⟨b1, b2⟩ := o.bounds
    simp only [lstep, Prog.bind_run, theIt_run hc, Out.bind_ok]
    split at hs
    next hle =>
      cases hs
      rw [charsNext_end (by omega)]
      simp only [Out.bind_ok, setIt, Prog.pure_run]
      have := I.put (k := k) o
      have e : putIt S k x = S := by
        unfold putIt
        congr
        funext k'
        by_cases hk : k' = k
        · subst hk; rw [if_pos rfl, hx]
        · rw [if_neg hk]
      rw [e] at this
      exact ⟨rfl, this⟩
    next hle =>
      simp only [Option.bind_eq_some_iff, Option.map_eq_some_iff] at hs
      obtain ⟨zs, hz, ch, hch, he⟩ := hs
      cases he
      have sh := shows_of I o hz
      rw [← b1] at hch
      rw [charsNext_run sh hch]
      simp only [Out.bind_ok, setIt, Prog.pure_run]
      exact ⟨rfl, I.put (o.on _)⟩

theorem lrun_ok (ops : List LOp) (I : LInv w S) {rs : List Res} (hs : lspecRun false cfg.lenient cfg.enc ops S = some (rs, S')) :
    (lrun cfg ops w).SafeIf (Refuses cfg) fun q => q.1 = rs ∧ LInv q.2 S' := by
  induction ops generalizing w S rs with
  | nil => cases hs; exact ⟨rfl, I⟩
  | cons op ops ih =>
    simp only [lspecRun] at hs
    cases h1 : lspecStep false cfg.lenient cfg.enc op S with
    | none => rw [h1] at hs; cases hs
    | some p =>
      rw [h1] at hs
      simp only [] at hs
      cases h2 : lspecRun false cfg.lenient cfg.enc ops p.2 with
      | none => rw [h2] at hs; cases hs
      | some q =>
        rw [h2] at hs
        cases hs
        simp only [lrun, Prog.bind_run]
        refine (lstep_ok I h1).bind ?_
        rintro ⟨r, w1⟩ ⟨e1, I1⟩
        refine (ih I1 h2).bind ?_
        rintro ⟨rs, w2⟩ ⟨e2, I2⟩
        exact ⟨by simp only [] at e1 e2; rw [e1, e2], I2⟩

theorem next_end_ok {x : Place} (I : LInv w S) (hx : S.its k = some x) (hl : x.stop ≤ x.pos) :
    ∃ w', lstep cfg (.next k) w = .ok (.opt none, w') := by
  obtain ⟨c, hc, o⟩ := I.it hx
  obtain ⟨b1, b2⟩ := o.bounds
  simp only [lstep, Prog.bind_run, theIt_run hc, Out.bind_ok]
  rw [charsNext_end (by omega)]
  exact ⟨_, rfl⟩

theorem next_ub {c : Cursor} (hc : w.its k = some c) (hb : Blind w c) (hl : c.start < c.stop) : lstep cfg (.next k) w = .ub := by
  simp only [lstep, Prog.bind_run, theIt_run hc, Out.bind_ok]
  rw [charsNext_blind hb hl]; rfl

theorem next_gone {p n : Nat} (I : LInv w S) (hx : S.its k = some (.gone p n)) (hl : p < n) : lstep cfg (.next k) w = .ub := by
  obtain ⟨c, hc, o⟩ := I.it hx
  obtain ⟨b1, b2⟩ := o.bounds
  exact next_ub hc (blind_gone o) (by rw [b1, b2]; exact hl)

theorem next_long {p n : Nat} (I : LInv w S) (hx : S.its k = some (.inside i p n)) (hA : S.text i = some xs) (h16 : 16 < xs.length)
    (hl : p < n) : lstep cfg (.next k) w = .ub := by
  obtain ⟨c, hc, o⟩ := I.it hx
  obtain ⟨b1, b2⟩ := o.bounds
  exact next_ub hc (blind_long I o hA h16) (by rw [b1, b2]; exact hl)

theorem moved_short {p n : Nat} (I : LInv w S) (hl : cfg.lenient = true) (hk : S.its k = some (.inside j p n)) (hp : p < n) (hi : S.text i = none) :
    ∃ w', lstep cfg (.str (.newMove i j)) w = .ok (.unit, w') ∧ lstep cfg (.next k) w' = .ub := by
  obtain ⟨c, hc, o⟩ := I.it hk
  cases o with
  | @inside _ _ _ s hs =>
    obtain ⟨xs, hA, r⟩ := I.base.rep' hs
    have hij : i ≠ j := by rintro rfl; rw [hi] at hA; cases hA
    have em : newMove cfg s w.base.heap = .ok ((s, { s with len := 0, bytes := none, store := .cap 0 }), w.base.heap) := by
      simp [newMove, assignAlloc, hl]
    have e : step cfg (.newMove i j) w.base = .ok (.unit, { w.base with
        vars := upd (upd w.base.vars i (some s)) j (some { s with len := 0, bytes := none, store := .cap 0 }) }) := by
      simp only [step]
      rw [var_bind hs, inHeap_ok em, setVar_bind, setVar_bind]; rfl
    refine ⟨_, lstep_str _ e, ?_⟩
    refine next_ub (c := ⟨.inside j (w.born j), p, n⟩) (by rw [after_its]; exact hc) (fun off => ?_) hp
    have hv : (after w (.newMove i j) { w.base with
        vars := upd (upd w.base.vars i (some s)) j (some { s with len := 0, bytes := none, store := .cap 0 }) }).base.vars j =
        some { s with len := 0, bytes := none, store := .cap 0 } := by rw [after_base]; exact upd_same _ _ _
    rw [peek_in hv]
    split
    · exact inBase_ub (inHeap_run_ub (byte_cap rfl))
    · rfl

theorem charAt_delete {p : Nat} {enc : Enc} (he : enc = .utf8) (h7 : zs[p]? = some 0x7F) : charAt true enc zs p = some [0x7F] := by
  obtain ⟨hl, hb⟩ := List.getElem?_eq_some_iff.1 h7
  subst he
  unfold charAt
  rw [h7]
  simp only
  rw [if_neg (by simp [contByte]), if_pos (by simp [width]; omega)]
  simp only [width]
  rw [if_pos (by decide), one hl, hb]

theorem next_delete {x : Place} (I : LInv w S) (he : cfg.enc = .utf8) (hk : S.its k = some x) (hz : seen S x = some zs)
    (h7 : zs[x.pos]? = some 0x7F) :
    match zs[x.pos + 1]? with
    | some b => ∃ w', lstep cfg (.next k) w = .ok (.opt (some [0x7F, b]), w')
    | none => zs.length = x.stop → lstep cfg (.next k) w = .ub := by
  obtain ⟨c, hc, o⟩ := I.it hk
  obtain ⟨b1, b2⟩ := o.bounds
  have sh := shows_of I o hz
  obtain ⟨hl, hb⟩ := List.getElem?_eq_some_iff.1 h7
  simp only [← b1] at hl hb ⊢
  simp only [← b2]
  simp only [lstep, Prog.bind_run, theIt_run hc, Out.bind_ok, charsNext, he, nextUtf8, next_run sh hl, hb]
  rw [if_neg (by decide)]
  split
  next b hb' =>
    obtain ⟨hl', hb'⟩ := List.getElem?_eq_some_iff.1 hb'
    rw [Prog.bind_run, must_run (sh.go _) hl', Out.bind_ok, if_pos (by decide), hb']
    exact ⟨_, rfl⟩
  next hn =>
    intro hst
    have : zs.length ≤ c.start + 1 := List.getElem?_eq_none_iff.1 hn
    rw [Prog.bind_run]
    unfold Cursor.must
    rw [Prog.bind_run, next_end (show c.stop ≤ c.start + 1 by omega)]; rfl

end Verif.Proof.BStr
