import Verif.Proof.BString
/-!
# What each call does to the strings it is given
-/
namespace Verif.Proof.BStr
open Verif Verif.Model.BStr

variable {h h' : Heap} {cfg : Cfg}

theorem upd_same {γ : Type} (f : Nat → γ) (a : Nat) (x : γ) : upd f a x a = x := if_pos rfl
theorem upd_ne {γ : Type} {f : Nat → γ} {a b : Nat} {x : γ} (hn : b ≠ a) : upd f a x b = f b := if_neg hn

theorem pure_run_bind {β γ : Type} (x : β) (f : β → M γ) : ((pure x : M β) >>= f) h = f x h := rfl

theorem alloc_bind {β : Type} {f : Nat → M β} {Q : β × Heap → Prop} {o n : Nat}
    (k : (f h.next (newBlk h o n)).SafeIf (Refuses cfg) Q) : ((allocate cfg o n >>= f) h).SafeIf (Refuses cfg) Q := by
  rw [Prog.bind_run, allocate]
  by_cases hr : cfg.refuse h.next n = true
  · rw [if_pos hr]; exact ⟨_, _, hr⟩
  · rw [if_neg hr]; exact k

theorem write_heap {s : Str} {b off : Nat} {d : List Byte} {k : Blk} (hk : h.blk b = some k) (hl : off + d.length ≤ k.data.length) :
    writeAt s (.heap (some b)) off d h = .ok (s, setBlk h b ⟨k.owner, splice k.data off d⟩) := by
  simp only [writeAt, hk, if_pos hl]; rfl

theorem read_heap {s : Str} {b off n : Nat} {k : Blk} (hk : h.blk b = some k) (hl : off + n ≤ k.data.length) :
    readAt s (.heap (some b)) off n h = .ok ((k.data.drop off).take n, h) := by
  simp only [readAt, hk, part, if_pos hl]; rfl

theorem read_inline {len : Nat} {bs : List Byte} {p : Option Nat} {a off n : Nat} (hl : off + n ≤ bs.length) :
    readAt ⟨len, .inline bs, p, a⟩ .inline off n h = .ok ((bs.drop off).take n, h) := by
  simp only [readAt, part, if_pos hl]; rfl

theorem dealloc_run {b o : Nat} {data : List Byte} (hk : h.blk b = some ⟨o, data⟩) :
    deallocate o (some b) data.length h = .ok ((), delBlk h b data.length) := by
  simp [deallocate, hk, delBlk]

theorem newBlk_get (o n : Nat) : (newBlk h o n).blk h.next = some ⟨o, List.replicate n none⟩ := upd_same _ _ _

theorem setBlk_get (b : Nat) (k : Blk) : (setBlk h b k).blk b = some k := upd_same _ _ _

theorem own_small {len : Nat} {st : Store} {p : Option Nat} {a : Nat} (hl : len ≤ localSize) : own ⟨len, st, p, a⟩ = [] := by
  simp [own]; omega

theorem own_big {len b : Nat} {st : Store} {a : Nat} (hl : localSize < len) : own ⟨len, st, some b, a⟩ = [b] := by
  simp [own, hl]

/-- The contract of a call that gives one string new contents `xs`. -/
def Gives (cfg : Cfg) (h : Heap) (O : List Nat) (xs : List UInt8) (x : Out (Str × Heap)) : Prop :=
  x.SafeIf (Refuses cfg) fun q => Rep q.2 q.1 xs ∧ Step h O q.2 (own q.1)

/-! ## Construction and destruction -/

theorem newAlloc_ok (hb : Bal h) (a : Nat) : newAlloc a h = .ok (Str.blank a, h) ∧ Rep h (Str.blank a) [] ∧ Step h [] h (own (Str.blank a)) := by
  refine ⟨rfl, ?_, ?_⟩
  · exact Rep.small (xs := []) (by simp) (by simp) (by simp) Stale.none
  · rw [Str.blank, own_small (by simp)]; exact Step.refl hb []

theorem newLit_ok (hb : Bal h) (lit : List UInt8) (a : Nat) : Gives cfg h [] lit (newLit cfg lit a h) := by
  unfold newLit Gives
  by_cases hl : lit.length ≤ localSize
  · rw [if_pos hl]
    by_cases he : lit = []
    · subst he
      simp only [writeAt, List.map_nil, if_pos, Prog.pure_run, Out.safeIf_ok]
      obtain ⟨-, r, st⟩ := newAlloc_ok hb a
      exact ⟨r, st⟩
    · have e : (lit.map some : List Byte) ≠ [] := by simpa using he
      simp only [writeAt, if_neg e, List.length_map, Nat.zero_add, if_pos hl, Prog.pure_run, Out.safeIf_ok, Str.blank]
      have hl' : 0 + (lit.map some : List Byte).length ≤ (List.replicate localSize (none : Byte)).length := by simpa using hl
      refine ⟨.small hl ?_ ?_ Stale.none, ?_⟩
      · rw [splice_length hl']; simp
      · have := splice_take hl'
        simpa using this
      · rw [own_small hl]; exact Step.refl hb []
  · rw [if_neg hl]
    refine alloc_bind ?_
    have hl' : 0 + (lit.map some : List Byte).length ≤ (List.replicate (lit.length + lit.length / 2) (none : Byte)).length := by simp
    rw [write_heap (newBlk_get _ _) hl', Out.safeIf_ok]
    have e := splice_length hl'
    have t := splice_take hl'
    simp only [Str.blank]
    refine ⟨?_, ?_⟩
    · have := Rep.big (h := setBlk (newBlk h a (lit.length + lit.length / 2)) h.next ⟨a, splice (List.replicate (lit.length + lit.length / 2) none) 0 (lit.map some)⟩)
        (xs := lit) (b := h.next) (a := a) (by omega) (setBlk_get _ _) (by simpa using t)
      rw [e] at this
      simpa using this
    · rw [own_big (by omega)]
      exact step_new hb _ _ _ (by rw [e]; simp)

theorem destruct_ok (hb : Bal h) {s : Str} {xs} (r : Rep h s xs) : ∃ h', destruct s h = .ok ((), h') ∧ Step h (own s) h' [] := by
  cases r with
  | small hl hb' ht hp =>
    refine ⟨h, ?_, by rw [own_small hl]; exact Step.refl hb []⟩
    rw [destruct, if_neg (by simpa using hl)]; rfl
  | empty hp =>
    refine ⟨h, ?_, by rw [own_small (by simp)]; exact Step.refl hb []⟩
    rw [destruct, if_neg (by simp)]; rfl
  | @big xs b data a hl hb' ht =>
    refine ⟨delBlk h b data.length, ?_, ?_⟩
    · rw [destruct, if_pos (by exact hl)]
      simp only [getCap, Prog.bind_run, Prog.pure_run, Out.bind_ok]
      exact dealloc_run hb'
    · rw [own_big hl]; exact step_del hb hb'

/-! ## Copy and move -/

theorem Rep.data_le {xs : List UInt8} {data : List Byte} (ht : data.take xs.length = xs.map some) : xs.length ≤ data.length := by
  have := congrArg List.length ht
  simp at this; omega

/-- A fresh block of `n` bytes filled with `xs`. -/
theorem fill_ok (hb : Bal h) {xs : List UInt8} {a n : Nat} (hl : localSize < xs.length) (hn : xs.length ≤ n) {p : Option Nat} {s : Str}
    (hs : s = ⟨xs.length, .cap n, some h.next, a⟩) (hp : p = some h.next) :
    ∃ h', writeAt s (.heap p) 0 (xs.map some) (newBlk h a n) = .ok (s, h') ∧ Rep h' s xs ∧ Step h [] h' (own s) := by
  subst hs hp
  have hl' : 0 + (xs.map some : List Byte).length ≤ (List.replicate n (none : Byte)).length := by simpa using hn
  refine ⟨_, write_heap (newBlk_get _ _) hl', ?_, ?_⟩
  · have e := splice_length hl'
    have t := splice_take hl'
    have := Rep.big (h := setBlk (newBlk h a n) h.next ⟨a, splice (List.replicate n none) 0 (xs.map some)⟩)
      (xs := xs) (b := h.next) (a := a) hl (setBlk_get _ _) (by simpa using t)
    rw [e] at this
    simpa using this
  · rw [own_big hl]
    exact step_new hb _ _ _ (by rw [splice_length hl']; simp)

theorem newBlk_old (hb : Bal h) {b : Nat} {k : Blk} (e : h.blk b = some k) (o n : Nat) : (newBlk h o n).blk b = some k := by
  have := hb.lt e
  simp only [newBlk]; rw [upd_ne (by omega)]; exact e

theorem read_big {s : Str} {b : Nat} {xs : List UInt8} {data : List Byte} {a : Nat} (hb' : h.blk b = some ⟨a, data⟩)
    (ht : data.take xs.length = xs.map some) : readAt s (.heap (some b)) 0 xs.length h = .ok (xs.map some, h) := by
  rw [read_heap hb' (by simpa using Rep.data_le ht), List.drop_zero, ht]

theorem newCopy_ok (hb : Bal h) {o : Str} {xs} (r : Rep h o xs) : Gives cfg h [] xs (newCopy cfg o h) := by
  unfold newCopy Gives
  cases r with
  | small hl hb' ht hp =>
    rw [if_neg (by simpa using hl)]
    simp only [Prog.pure_run, Out.safeIf_ok, Str.blank]
    refine ⟨.small hl hb' ht Stale.none, ?_⟩
    rw [own_small hl]; exact Step.refl hb []
  | empty hp =>
    rw [if_neg (by simp)]
    simp only [Prog.pure_run, Out.safeIf_ok, Str.blank]
    refine ⟨.empty Stale.none, ?_⟩
    rw [own_small (by simp)]; exact Step.refl hb []
  | @big xs b data a hl hb' ht =>
    rw [if_pos (by exact hl)]
    simp only [getCap, pure_run_bind, Str.blank]
    refine alloc_bind ?_
    rw [Prog.bind_run, read_big (newBlk_old hb hb' _ _) ht, Out.bind_ok]
    obtain ⟨h', e, r', st⟩ := fill_ok (a := dfltAlloc) hb hl (Rep.data_le ht) rfl rfl
    rw [e]; exact ⟨r', st⟩

theorem newMove_ok (hlen : cfg.lenient = true) {o : Str} {xs} (r : Rep h o xs) :
    ∃ q, newMove cfg o h = .ok (q, h) ∧ Rep h q.1 xs ∧ Rep h q.2 [] ∧ own q.1 = own o ∧ own q.2 = [] := by
  refine ⟨(o, { o with len := 0, bytes := none, store := .cap 0 }), ?_, r, .empty Stale.none, rfl, rfl⟩
  simp [newMove, assignAlloc, hlen]

theorem newMove_strict (hlen : cfg.lenient = false) (o : Str) : newMove cfg o h = .ub := by
  simp [newMove, assignAlloc, hlen, Prog.ub]

theorem assign_run {β : Type} (hlen : cfg.lenient = true) (f : Unit → M β) : (assignAlloc cfg >>= f) h = f () h := by
  simp only [assignAlloc, hlen, if_true, pure_run_bind]

/-! ## Assignment -/

theorem Rep.stale {s : Str} {xs} (r : Rep h s xs) (hl : xs.length ≤ localSize) : Stale h s.bytes := by
  cases r with
  | small _ _ _ hp => exact hp
  | empty hp => exact hp
  | big h1 => omega

theorem Rep.place {s : Str} {xs} (r : Rep h s xs) (hl : xs.length ≤ localSize) {p : Option Nat} (hp : Stale h p) (a : Nat) :
    Rep h ⟨s.len, s.store, p, a⟩ xs := by
  cases r with
  | small h1 h2 h3 _ => exact .small h1 h2 h3 hp
  | empty _ => exact .empty hp
  | big h1 => omega

theorem Rep.own_nil {s : Str} {xs} (r : Rep h s xs) (hl : xs.length ≤ localSize) : own s = [] := by
  unfold own; rw [if_neg (by rw [r.len]; omega)]

theorem Rep.big_inv {s : Str} {xs} (r : Rep h s xs) (hl : localSize < xs.length) :
    ∃ b data a, s = ⟨xs.length, .cap data.length, some b, a⟩ ∧ h.blk b = some ⟨a, data⟩ ∧ data.take xs.length = xs.map some := by
  cases r with
  | small h1 => omega
  | empty => simp [localSize] at hl
  | big h1 h2 h3 => exact ⟨_, _, _, rfl, h2, h3⟩

theorem getCap_bind {β : Type} {len n a : Nat} {p : Option Nat} (f : Nat → M β) : (getCap ⟨len, .cap n, p, a⟩ >>= f) h = f n h := rfl

theorem dealloc_bind {β : Type} {b o : Nat} {data : List Byte} (hk : h.blk b = some ⟨o, data⟩) (f : Unit → M β) :
    (deallocate o (some b) data.length >>= f) h = f () (delBlk h b data.length) := by
  rw [Prog.bind_run, dealloc_run hk]; rfl

theorem delBlk_stale (hb : Bal h) {b : Nat} {k : Blk} (e : h.blk b = some k) (n : Nat) : Stale (delBlk h b n) (some b) := by
  intro c hc
  cases hc
  exact ⟨hb.lt e, upd_same _ _ _⟩

/-- Overwriting one's own block. -/
theorem rewrite_ok (hb : Bal h) {b a len : Nat} {data : List Byte} {ys : List UInt8} (hk : h.blk b = some ⟨a, data⟩)
    (hy : localSize < ys.length) (hl : ys.length ≤ data.length) :
    ∃ h', writeAt ⟨len, .cap data.length, some b, a⟩ (.heap (some b)) 0 (ys.map some) h = .ok (⟨len, .cap data.length, some b, a⟩, h') ∧
      Rep h' ⟨ys.length, .cap data.length, some b, a⟩ ys ∧ Step h [b] h' [b] := by
  have hl' : 0 + (ys.map some : List Byte).length ≤ data.length := by simpa using hl
  refine ⟨_, write_heap hk hl', ?_, ?_⟩
  · have t := splice_take hl'
    have := Rep.big (h := setBlk h b ⟨a, splice data 0 (ys.map some)⟩) (xs := ys) (b := b) (a := a) hy (setBlk_get _ _) (by simpa using t)
    rw [splice_length hl'] at this
    exact this
  · exact step_set hb hk (by rw [splice_length hl'])

theorem copyAssign_ok (hb : Bal h) {s o : Str} {xs ys} (r : Rep h s xs) (ro : Rep h o ys) (hd : ∀ b ∈ own s, b ∉ own o)
    (hc : (cfg.lenient = true ∧ xs.length ≠ 16 ∧ ys.length ≠ 16) ∨ (16 < ys.length ∧ ys.length ≤ xs.length)) :
    Gives cfg h (own s) ys (copyAssign cfg s o h) := by
  unfold copyAssign Gives
  rw [r.len, ro.len]
  by_cases hs : xs.length ≤ 16
  · obtain ⟨hlen, hx, hy⟩ : cfg.lenient = true ∧ xs.length ≠ 16 ∧ ys.length ≠ 16 := hc.resolve_right (by omega)
    rw [r.own_nil hs]
    by_cases ho : ys.length ≤ 16
    · rw [if_pos ⟨by simp [localSize]; omega, by simp [localSize]; omega⟩]
      simp only [assign_run hlen, Prog.pure_run, Out.safeIf_ok]
      have := ro.place ho (r.stale hs) o.alloc
      rw [ro.len] at this
      refine ⟨this, ?_⟩
      rw [this.own_nil ho]; exact Step.refl hb []
    · rw [if_neg (by simp [localSize]; omega), if_pos ⟨by simp [localSize]; omega, by simp [localSize]; omega⟩]
      simp only [assign_run hlen]
      obtain ⟨b, data, a, rfl, hk, ht⟩ := ro.big_inv (by simp [localSize]; omega)
      rw [getCap_bind]
      refine alloc_bind ?_
      rw [Prog.bind_run, read_big (newBlk_old hb hk _ _) ht, Out.bind_ok]
      obtain ⟨h', e, r', st⟩ := fill_ok (a := a) hb (by simp [localSize]; omega) (Rep.data_le ht) rfl rfl
      rw [e]; exact ⟨r', st⟩
  · obtain ⟨b, data, a, rfl, hk, ht⟩ := r.big_inv (by simp [localSize]; omega)
    rw [own_big (by simp [localSize]; omega)]
    by_cases ho : ys.length ≤ 16
    · obtain ⟨hlen, hx, hy⟩ : cfg.lenient = true ∧ xs.length ≠ 16 ∧ ys.length ≠ 16 := hc.resolve_right (by omega)
      rw [if_neg (by simp [localSize]; omega), if_neg (by simp [localSize]; omega),
        if_pos ⟨by simp [localSize]; omega, by simp [localSize]; omega⟩]
      simp only [getCap_bind, dealloc_bind hk, assign_run hlen, Prog.pure_run, Out.safeIf_ok]
      have sd := step_del hb hk
      have ro' := ro.keep sd hb (by simp [hk]) (by rw [ro.own_nil ho]; simp)
      have := ro'.place ho (delBlk_stale hb hk _) o.alloc
      rw [ro.len] at this
      refine ⟨this, ?_⟩
      rw [this.own_nil ho]; exact sd
    · rw [if_neg (by simp [localSize]; omega), if_neg (by simp [localSize]; omega), if_neg (by simp [localSize]; omega)]
      simp only [getCap_bind]
      obtain ⟨b', data', a', rfl, hk', ht'⟩ := ro.big_inv (by simp [localSize]; omega)
      have hne : b' ≠ b := by
        rintro rfl
        exact hd b' (by simp [own, localSize]; omega) (by simp [own, localSize]; omega)
      by_cases hcap : data.length < ys.length
      · obtain ⟨hlen, hx, hy⟩ : cfg.lenient = true ∧ xs.length ≠ 16 ∧ ys.length ≠ 16 :=
          hc.resolve_right (by have := Rep.data_le ht; omega)
        rw [if_pos hcap]
        have sd := step_del hb hk
        rw [Prog.bind_run]
        simp only [dealloc_bind hk, assign_run hlen]
        refine Out.SafeIf.bind (P := fun p => p = (⟨ys.length, .cap (ys.length + ys.length / 2), some h.next, a'⟩,
          newBlk (delBlk h b data.length) a' (ys.length + ys.length / 2))) (alloc_bind (Out.safeIf_ok.2 rfl)) ?_
        rintro _ rfl
        have hk2 : (delBlk h b data.length).blk b' = some ⟨a', data'⟩ := by
          simp only [delBlk]; rw [upd_ne hne]; exact hk'
        rw [Prog.bind_run, read_big (newBlk_old sd.bal hk2 _ _) ht', Out.bind_ok]
        obtain ⟨h', e, r', st⟩ := fill_ok (a := a') (xs := ys) (n := ys.length + ys.length / 2) sd.bal (by simp [localSize]; omega) (by omega) rfl rfl
        refine (congrArg (Out.SafeIf (Refuses cfg) · _) e).mpr ?_
        exact ⟨r', Step.trans hb sd st⟩
      · rw [if_neg hcap, pure_run_bind, Prog.bind_run, read_big hk' ht', Out.bind_ok]
        obtain ⟨h', e, r', st⟩ := rewrite_ok (ys := ys) (len := ys.length) hb hk (by simp [localSize]; omega) (by omega)
        rw [e]
        refine ⟨r', ?_⟩
        rw [own_big (by simp [localSize]; omega)]; exact st

theorem moveAssign_ok (hb : Bal h) {s o : Str} {xs ys} (r : Rep h s xs) (ro : Rep h o ys) (hd : ∀ b ∈ own s, b ∉ own o)
    (hlen : cfg.lenient = true) (hx : xs.length ≠ 16) (hy : ys.length ≠ 16) :
    ∃ q h', moveAssign cfg s o h = .ok (q, h') ∧ Rep h' q.1 ys ∧ Rep h' q.2 [] ∧ own q.2 = [] ∧ own q.1 = own o ∧
      Step h (own s ++ own o) h' (own q.1) := by
  unfold moveAssign
  rw [r.len, ro.len]
  have L : localSize = 16 := rfl
  by_cases hs : xs.length ≤ 16
  · rw [r.own_nil hs]
    by_cases ho : ys.length ≤ 16
    · rw [if_pos ⟨by omega, by omega⟩]
      simp only [assign_run hlen, Prog.pure_run]
      have := ro.place ho (r.stale hs) o.alloc
      rw [ro.len] at this
      refine ⟨_, _, rfl, this, ?_, rfl, by rw [this.own_nil ho, ro.own_nil ho], ?_⟩
      · cases ro with
        | small h1 h2 h3 h4 => exact .small (xs := []) (by simp) h2 (by simp) h4
        | empty h1 => exact .empty h1
        | big h1 => omega
      · rw [ro.own_nil ho, this.own_nil ho]; exact Step.refl hb []
    · rw [if_neg (by omega), if_pos ⟨by omega, by omega⟩]
      obtain ⟨b, data, a, rfl, hk, ht⟩ := ro.big_inv (by omega)
      simp only [assign_run hlen, getCap_bind, Prog.pure_run]
      refine ⟨_, _, rfl, .big (by omega) hk ht, .empty Stale.none, rfl, rfl, ?_⟩
      exact Step.refl hb _
  · obtain ⟨b, data, a, rfl, hk, ht⟩ := r.big_inv (by omega)
    have sd := step_del hb hk
    rw [own_big (by omega)]
    by_cases ho : ys.length ≤ 16
    · rw [if_neg (by omega), if_neg (by omega), if_pos ⟨by omega, by omega⟩]
      simp only [getCap_bind, dealloc_bind hk, assign_run hlen, Prog.pure_run]
      have ro' := ro.keep sd hb (by simp [hk]) (by rw [ro.own_nil ho]; simp)
      have := ro'.place ho (delBlk_stale hb hk _) o.alloc
      rw [ro.len] at this
      refine ⟨_, _, rfl, this, ?_, rfl, by rw [this.own_nil ho, ro.own_nil ho], ?_⟩
      · cases ro' with
        | small h1 h2 h3 h4 => exact .small (xs := []) (by simp) h2 (by simp) h4
        | empty h1 => exact .empty h1
        | big h1 => omega
      · rw [ro.own_nil ho, this.own_nil ho]; exact sd
    · rw [if_neg (by omega), if_neg (by omega), if_neg (by omega)]
      obtain ⟨b', data', a', rfl, hk', ht'⟩ := ro.big_inv (by omega)
      have hne : b' ≠ b := by
        rintro rfl
        exact hd b' (by simp [own]; omega) (by simp [own]; omega)
      simp only [getCap_bind, dealloc_bind hk, assign_run hlen, Prog.pure_run]
      have hk2 : (delBlk h b data.length).blk b' = some ⟨a', data'⟩ := by
        simp only [delBlk]; rw [upd_ne hne]; exact hk'
      refine ⟨_, _, rfl, .big (by omega) hk2 ht', .empty Stale.none, rfl, rfl, ?_⟩
      rw [own_big (by omega)]
      exact sd.frame [b']

/-! ### Where assignment goes wrong -/

theorem read_stale {s : Str} {p : Option Nat} (hp : Stale h p) (off n : Nat) : readAt s (.heap p) off n h = .ub := by
  cases p with
  | none => rfl
  | some b => simp only [readAt, (hp b rfl).2]

theorem dealloc_stale {p : Option Nat} (hp : Stale h p) (o n : Nat) : deallocate o p n h = .ub ∨ deallocate o p n h = .ok ((), h) := by
  cases p with
  | none => right; rfl
  | some b => left; simp only [deallocate, (hp b rfl).2]

theorem Rep.inv16 {s : Str} {xs} (r : Rep h s xs) (hl : xs.length = 16) : ∃ bs p a, s = ⟨16, .inline bs, p, a⟩ := by
  cases r with
  | small => exact ⟨_, _, _, by rw [hl]⟩
  | empty => simp at hl
  | big h1 => simp [localSize] at h1; omega

theorem assign_strict {β : Type} (hl : cfg.lenient = false) (f : Unit → M β) : (assignAlloc cfg >>= f) h = .ub := by
  simp [assignAlloc, hl, Prog.ub]

theorem moveAssign_ub {s o : Str} {xs ys} (r : Rep h s xs) (ro : Rep h o ys)
    (hc : cfg.lenient = false ∨ xs.length = 16 ∨ ys.length = 16) : moveAssign cfg s o h = .ub := by
  unfold moveAssign
  rw [r.len, ro.len]
  have L : localSize = 16 := rfl
  by_cases c1 : xs.length < localSize ∧ ys.length < localSize
  · rw [if_pos c1, assign_strict (hc.resolve_right (by omega))]
  rw [if_neg c1]
  by_cases c2 : xs.length < localSize ∧ ys.length > localSize
  · rw [if_pos c2, assign_strict (hc.resolve_right (by omega))]
  rw [if_neg c2]
  by_cases c3 : xs.length > localSize ∧ ys.length < localSize
  · rw [if_pos c3]
    obtain ⟨b, data, a, rfl, hk, ht⟩ := r.big_inv (by omega)
    simp only [getCap_bind, dealloc_bind hk, assign_strict (hc.resolve_right (by omega))]
  rw [if_neg c3]
  have tail : ∀ {β : Type} {h : Heap} (f : Nat → M β), xs.length ≠ 16 →
      (assignAlloc cfg >>= fun _ => getCap o >>= f) h = .ub := by
    intro β h f hx
    cases hl : cfg.lenient with
    | false => exact assign_strict hl _
    | true =>
      obtain ⟨bs, p, a, rfl⟩ := ro.inv16 ((hc.resolve_left (by simp [hl])).resolve_left hx)
      rw [assign_run hl]; rfl
  cases r with
  | small => rfl
  | empty hp =>
    rw [getCap_bind, Prog.bind_run]
    rcases dealloc_stale hp _ _ with e | e
    · rw [e]; rfl
    · rw [e]; exact tail _ (by simp)
  | big h1 h2 h3 =>
    rw [getCap_bind, dealloc_bind h2]
    exact tail _ (by omega)

theorem copyAssign_bad {s o : Str} {xs ys} (r : Rep h s xs) (ro : Rep h o ys)
    (hc : (cfg.lenient = false ∧ (xs.length ≤ 16 ∨ ys.length ≤ 16)) ∨ xs.length = 16 ∨ ys.length = 16) :
    copyAssign cfg s o h = .ub ∨ (copyAssign cfg s o h = .oom ∧ Refuses cfg) := by
  unfold copyAssign
  rw [r.len, ro.len]
  have L : localSize = 16 := rfl
  by_cases c1 : xs.length < localSize ∧ ys.length < localSize
  · rw [if_pos c1]; left; exact assign_strict (hc.resolve_right (by omega)).1 _
  rw [if_neg c1]
  by_cases c2 : xs.length < localSize ∧ ys.length > localSize
  · rw [if_pos c2]; left; exact assign_strict (hc.resolve_right (by omega)).1 _
  rw [if_neg c2]
  by_cases c3 : xs.length > localSize ∧ ys.length < localSize
  · rw [if_pos c3]; left
    obtain ⟨b, data, a, rfl, hk, ht⟩ := r.big_inv (by omega)
    simp only [getCap_bind, dealloc_bind hk, assign_strict (hc.resolve_right (by omega)).1]
  rw [if_neg c3]
  cases r with
  | small => left; rfl
  | @empty n p a hp =>
    have hy : ys.length = 16 := by simp at c1 c2; omega
    have so : Stale h o.bytes := ro.stale (by omega)
    simp only [getCap_bind]
    by_cases hn : n < ys.length
    · rw [if_pos hn, Prog.bind_run, Prog.bind_run]
      rcases dealloc_stale hp a n with e | e
      · left; rw [e]; rfl
      · rw [e, Out.bind_ok]
        cases hl : cfg.lenient with
        | false => left; rw [assign_strict hl]; rfl
        | true =>
          rw [assign_run hl, Prog.bind_run, allocate]
          by_cases hr : cfg.refuse h.next (ys.length + ys.length / 2) = true
          · right; rw [if_pos hr]; exact ⟨rfl, _, _, hr⟩
          · left
            rw [if_neg hr]
            simp only [Out.bind_ok, Prog.pure_run, Prog.bind_run]
            rw [read_stale]
            · rfl
            · intro b hb
              obtain ⟨h1, h2⟩ := so b hb
              refine ⟨by simp; omega, ?_⟩
              simp only []
              rw [upd_ne (by omega)]; exact h2
    · left
      rw [if_neg hn, pure_run_bind, Prog.bind_run, read_stale so]; rfl
  | big h1 h2 h3 =>
    have hy : ys.length = 16 := by omega
    left
    simp only [getCap_bind]
    rw [if_neg (by have := Rep.data_le h3; omega), pure_run_bind, Prog.bind_run, read_stale (ro.stale (by omega))]; rfl

end Verif.Proof.BStr
