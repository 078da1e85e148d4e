import Verif.Model.LinkedListHist
import Verif.Proof.Mem
import Mathlib.Data.List.Chain
import Mathlib.Data.List.Nodup
/-! # Linked lists: heap updates, chains of nodes, ownership -/
namespace Verif.Proof.LL
open Verif Verif.Model.LL
open Verif.Proof.Mem (sumTo sumTo_congr sumTo_zero sumTo_change Cost)

variable {α β σ : Type} {cfg : Cfg α}

/-! ## Updates -/

@[simp] theorem upd_same {γ : Type} (f : Nat → γ) (a : Nat) (x : γ) : upd f a x a = x := by simp [upd]
theorem upd_ne {γ : Type} (f : Nat → γ) {a b : Nat} (x : γ) (h : b ≠ a) : upd f a x b = f b := by simp [upd, h]
@[simp] theorem upd_upd {γ : Type} (f : Nat → γ) (a : Nat) (x y : γ) : upd (upd f a x) a y = upd f a y := by
  funext b; simp only [upd]; split <;> rfl

/-- `a->set_next(b)` -/
def link (d : Bool) (h : Heap α) (a b : Nat) : Heap α :=
  { h with nxt := upd h.nxt a (some (some b)), prv := if d then upd h.prv b (some (some a)) else h.prv }

/-- `a->next = nullptr` -/
def cut (h : Heap α) (a : Nat) : Heap α := { h with nxt := upd h.nxt a (some none) }

/-- a new element node -/
def newElem (cfg : Cfg α) (own : Nat) (x : α) (h : Heap α) : Heap α :=
  { h with
    info := upd h.info h.next (some ⟨own, cfg.dsize, .live x⟩)
    nxt := upd h.nxt h.next none
    prv := upd h.prv h.next none
    next := h.next + 1
    ctors := h.ctors + 1
    newBytes := h.newBytes + cfg.dsize }

/-- a new virtual node -/
def mkVirt (cfg : Cfg α) (own : Nat) (h : Heap α) : Heap α :=
  { h with
    info := upd h.info h.next (some ⟨own, cfg.vsize, .null⟩)
    nxt := upd h.nxt h.next (some none)
    prv := if cfg.dbl then upd h.prv h.next (some none) else upd h.prv h.next none
    next := h.next + 1
    newBytes := h.newBytes + cfg.vsize }

/-- an element node destroyed -/
def kill (cfg : Cfg α) (h : Heap α) (a : Nat) : Heap α :=
  { h with info := upd h.info a none, dtors := h.dtors + 1, freeBytes := h.freeBytes + cfg.dsize }

/-- a virtual node released -/
def killVirt (cfg : Cfg α) (h : Heap α) (a : Nat) : Heap α :=
  { h with info := upd h.info a none, freeBytes := h.freeBytes + cfg.vsize }

/-- an element overwritten -/
def poke (cfg : Cfg α) (own : Nat) (h : Heap α) (a : Nat) (x : α) : Heap α :=
  { h with info := upd h.info a (some ⟨own, cfg.dsize, .live x⟩) }

def IsElem (cfg : Cfg α) (own : Nat) (h : Heap α) (a : Nat) (x : α) : Prop := h.info a = some ⟨own, cfg.dsize, .live x⟩
def IsVirt (cfg : Cfg α) (own : Nat) (h : Heap α) (a : Nat) : Prop := h.info a = some ⟨own, cfg.vsize, .null⟩
def Live (h : Heap α) (a : Nat) : Prop := h.info a ≠ none

theorem IsElem.live {own : Nat} {h : Heap α} {a : Nat} {x : α} (e : IsElem cfg own h a x) : Live h a := by
  rw [Live, show h.info a = _ from e]; simp
theorem IsVirt.live {own : Nat} {h : Heap α} {a : Nat} (e : IsVirt cfg own h a) : Live h a := by
  rw [Live, show h.info a = _ from e]; simp

section
variable {h : Heap α} {a b c : Nat} {d : Bool} {x : α} {own : Nat}

@[simp] theorem link_info : (link d h a b).info = h.info := rfl
@[simp] theorem link_next : (link d h a b).next = h.next := rfl
@[simp] theorem link_ctors : (link d h a b).ctors = h.ctors := rfl
@[simp] theorem link_dtors : (link d h a b).dtors = h.dtors := rfl
@[simp] theorem link_newBytes : (link d h a b).newBytes = h.newBytes := rfl
@[simp] theorem link_freeBytes : (link d h a b).freeBytes = h.freeBytes := rfl
@[simp] theorem link_nxt_same : (link d h a b).nxt a = some (some b) := by simp [link]
theorem link_nxt_ne (hc : c ≠ a) : (link d h a b).nxt c = h.nxt c := by simp [link, upd_ne _ _ hc]
theorem link_prv_same : (link true h a b).prv b = some (some a) := by simp [link]
theorem link_prv_ne (hc : c ≠ b) : (link d h a b).prv c = h.prv c := by cases d <;> simp [link, upd_ne _ _ hc]

@[simp] theorem cut_info : (cut h a).info = h.info := rfl
@[simp] theorem cut_next : (cut h a).next = h.next := rfl
@[simp] theorem cut_prv : (cut h a).prv = h.prv := rfl
@[simp] theorem cut_nxt_same : (cut h a).nxt a = some none := by simp [cut]
theorem cut_nxt_ne (hc : c ≠ a) : (cut h a).nxt c = h.nxt c := by simp [cut, upd_ne _ _ hc]

@[simp] theorem mk_next : (newElem cfg own x h).next = h.next + 1 := rfl
@[simp] theorem mk_info_same : (newElem cfg own x h).info h.next = some ⟨own, cfg.dsize, .live x⟩ := by simp [newElem]
theorem mk_info_ne (hc : c ≠ h.next) : (newElem cfg own x h).info c = h.info c := by simp [newElem, upd_ne _ _ hc]
theorem mk_nxt_ne (hc : c ≠ h.next) : (newElem cfg own x h).nxt c = h.nxt c := by simp [newElem, upd_ne _ _ hc]
theorem mk_prv_ne (hc : c ≠ h.next) : (newElem cfg own x h).prv c = h.prv c := by simp [newElem, upd_ne _ _ hc]

@[simp] theorem mkVirt_next : (mkVirt cfg own h).next = h.next + 1 := rfl
@[simp] theorem mkVirt_info_same : (mkVirt cfg own h).info h.next = some ⟨own, cfg.vsize, .null⟩ := by simp [mkVirt]
@[simp] theorem mkVirt_nxt_same : (mkVirt cfg own h).nxt h.next = some none := by simp [mkVirt]
theorem mkVirt_prv_same (hd : cfg.dbl = true) : (mkVirt cfg own h).prv h.next = some none := by simp [mkVirt, hd]
theorem mkVirt_info_ne (hc : c ≠ h.next) : (mkVirt cfg own h).info c = h.info c := by simp [mkVirt, upd_ne _ _ hc]
theorem mkVirt_nxt_ne (hc : c ≠ h.next) : (mkVirt cfg own h).nxt c = h.nxt c := by simp [mkVirt, upd_ne _ _ hc]
theorem mkVirt_prv_ne (hc : c ≠ h.next) : (mkVirt cfg own h).prv c = h.prv c := by
  simp only [mkVirt]; split <;> rw [upd_ne _ _ hc]

@[simp] theorem kill_next : (kill cfg h a).next = h.next := rfl
@[simp] theorem kill_nxt : (kill cfg h a).nxt = h.nxt := rfl
@[simp] theorem kill_prv : (kill cfg h a).prv = h.prv := rfl
@[simp] theorem kill_info_same : (kill cfg h a).info a = none := by simp [kill]
theorem kill_info_ne (hc : c ≠ a) : (kill cfg h a).info c = h.info c := by simp [kill, upd_ne _ _ hc]

@[simp] theorem killVirt_next : (killVirt cfg h a).next = h.next := rfl
@[simp] theorem killVirt_nxt : (killVirt cfg h a).nxt = h.nxt := rfl
@[simp] theorem killVirt_prv : (killVirt cfg h a).prv = h.prv := rfl
@[simp] theorem killVirt_info_same : (killVirt cfg h a).info a = none := by simp [killVirt]
theorem killVirt_info_ne (hc : c ≠ a) : (killVirt cfg h a).info c = h.info c := by simp [killVirt, upd_ne _ _ hc]

@[simp] theorem poke_next : (poke cfg own h a x).next = h.next := rfl
@[simp] theorem poke_nxt : (poke cfg own h a x).nxt = h.nxt := rfl
@[simp] theorem poke_prv : (poke cfg own h a x).prv = h.prv := rfl
@[simp] theorem poke_info_same : (poke cfg own h a x).info a = some ⟨own, cfg.dsize, .live x⟩ := by simp [poke]
theorem poke_info_ne (hc : c ≠ a) : (poke cfg own h a x).info c = h.info c := by simp [poke, upd_ne _ _ hc]

theorem IsElem.link (e : IsElem cfg own h c x) : IsElem cfg own (link d h a b) c x := e
theorem IsVirt.link (e : IsVirt cfg own h c) : IsVirt cfg own (LL.link d h a b) c := e
theorem IsElem.mk {y : α} {o : Nat} (e : IsElem cfg own h c x) (hc : c ≠ h.next) : IsElem cfg own (newElem cfg o y h) c x := by
  rw [IsElem, mk_info_ne hc]; exact e
theorem IsVirt.mk {y : α} {o : Nat} (e : IsVirt cfg own h c) (hc : c ≠ h.next) : IsVirt cfg own (newElem cfg o y h) c := by
  rw [IsVirt, mk_info_ne hc]; exact e
theorem isElem_mk : IsElem cfg own (newElem cfg own x h) h.next x := mk_info_same
theorem isVirt_mkVirt : IsVirt cfg own (mkVirt cfg own h) h.next := mkVirt_info_same
theorem IsElem.kill (e : IsElem cfg own h c x) (hc : c ≠ a) : IsElem cfg own (kill cfg h a) c x := by
  rw [IsElem, kill_info_ne hc]; exact e
theorem IsVirt.kill (e : IsVirt cfg own h c) (hc : c ≠ a) : IsVirt cfg own (LL.kill cfg h a) c := by
  rw [IsVirt, kill_info_ne hc]; exact e
theorem IsElem.killVirt (e : IsElem cfg own h c x) (hc : c ≠ a) : IsElem cfg own (killVirt cfg h a) c x := by
  rw [IsElem, killVirt_info_ne hc]; exact e
theorem IsVirt.killVirt (e : IsVirt cfg own h c) (hc : c ≠ a) : IsVirt cfg own (LL.killVirt cfg h a) c := by
  rw [IsVirt, killVirt_info_ne hc]; exact e
end

/-! ## Running the primitives -/

section
variable {h : Heap α} {a b : Nat} {x : α} {own : Nat}

theorem Live.get (hl : Live h a) : ∃ i, h.info a = some i := by
  cases hi : h.info a with
  | none => exact absurd hi hl
  | some i => exact ⟨i, rfl⟩

theorem getNext_run {q : Ptr} (hl : Live h a) (hn : h.nxt a = some q) : getNext (some a) h = .ok (q, h) := by
  obtain ⟨i, hi⟩ := hl.get; simp [getNext, withNode, hi, hn]

theorem getPrev_run {q : Ptr} (hl : Live h a) (hn : h.prv a = some q) : getPrev (some a) h = .ok (q, h) := by
  obtain ⟨i, hi⟩ := hl.get; simp [getPrev, withNode, hi, hn]

theorem putNext_null_run (hl : Live h a) : putNext (some a) none h = .ok ((), cut h a) := by
  obtain ⟨i, hi⟩ := hl.get; simp [putNext, withNode, hi, cut]

theorem setNext_run (ha : Live h a) (hb : Live h b) : setNext cfg (some a) (some b) h = .ok ((), link cfg.dbl h a b) := by
  obtain ⟨i, hi⟩ := ha.get
  obtain ⟨j, hj⟩ := hb.get
  cases hd : cfg.dbl <;> simp [setNext, hd, Prog.bind_run, putNext, putPrev, withNode, hi, hj, link]

theorem setNext_null_run (ha : Live h a) : setNext cfg (some a) none h = .ok ((), cut h a) := by
  obtain ⟨i, hi⟩ := ha.get
  cases hd : cfg.dbl <;> simp [setNext, hd, Prog.bind_run, putNext, withNode, hi, cut]

theorem load_run (e : IsElem cfg own h a x) : load (some a) h = .ok (x, h) := by
  simp [load, withNode, show h.info a = _ from e]

theorem dataNull_elem (e : IsElem cfg own h a x) : dataNull (some a) h = .ok (false, h) := by
  simp [dataNull, withNode, show h.info a = _ from e]

theorem dataNull_virt (e : IsVirt cfg own h a) : dataNull (some a) h = .ok (true, h) := by
  simp [dataNull, withNode, show h.info a = _ from e]

theorem store_run {y : α} (e : IsElem cfg own h a x) : store (some a) y h = .ok ((), poke cfg own h a y) := by
  simp [store, withNode, show h.info a = _ from e, poke]

theorem take_run (e : IsElem cfg own h a x) : take cfg (some a) h = .ok (x, poke cfg own h a (cfg.mv x)) := by
  simp only [take, Prog.bind_run, load_run e, Out.bind_ok, store_run (cfg := cfg) e, Prog.pure_run]

theorem constructNode_run (own : Nat) (x : α) (h : Heap α) :
    (constructNode cfg own x h).SafeIf (Refuses cfg) fun q => q = (some h.next, newElem cfg own x h) := by
  simp only [constructNode, Prog.bind_run, allocNode]
  split
  · rename_i hr; exact ⟨_, _, hr⟩
  · simp [constructData, dataNull, withNode, dbgAssert, Prog.bind_run, newElem]

theorem buildVirtual_run (own : Nat) (h : Heap α) :
    (buildVirtual cfg own h).SafeIf (Refuses cfg) fun q => q = (some h.next, mkVirt cfg own h) := by
  simp only [buildVirtual, Prog.bind_run, allocNode]
  split
  · rename_i hr; exact ⟨_, _, hr⟩
  · cases hd : cfg.dbl <;> simp [putNext, putPrev, withNode, Prog.bind_run, mkVirt, hd]

theorem destroyNode_elem (e : IsElem cfg own h a x) : destroyNode cfg own (some a) h = .ok ((), kill cfg h a) := by
  simp [destroyNode, Prog.bind_run, dataNull_elem e, destroyData, freeNode, withNode, show h.info a = _ from e, kill]

theorem destroyNode_virt (e : IsVirt cfg own h a) : destroyNode cfg own (some a) h = .ok ((), killVirt cfg h a) := by
  simp [destroyNode, Prog.bind_run, dataNull_virt e, freeNode, withNode, show h.info a = _ from e, killVirt]

theorem dbgAssert_run {p : Bool} (hp : p = true) : dbgAssert cfg p h = .ok ((), h) := by
  simp [dbgAssert, hp]
end

/-! ## Balance -/

def liveOf (o : Option (Info α)) : Nat :=
  match o with
  | some ⟨_, _, .live _⟩ => 1
  | _ => 0

def bytesOf (o : Option (Info α)) : Nat :=
  match o with
  | some i => i.bytes
  | none => 0

/-- The tallies agree with what is in the heap. -/
structure Bal (h : Heap α) : Prop where
  fresh : ∀ a, h.next ≤ a → h.info a = none
  elems : h.ctors = h.dtors + sumTo h.next fun a => liveOf (h.info a)
  bytes : h.newBytes = h.freeBytes + sumTo h.next fun a => bytesOf (h.info a)

theorem Bal.lt {h : Heap α} (hb : Bal h) {a : Nat} (hl : Live h a) : a < h.next := by
  by_contra hn; exact hl (hb.fresh a (by omega))

theorem Bal.ne_next {h : Heap α} (hb : Bal h) {a : Nat} (hl : Live h a) : a ≠ h.next := (Nat.ne_of_lt (hb.lt hl))

theorem Bal.empty {h : Heap α} (hb : Bal h) (he : ∀ b, h.info b = none) : h.ctors = h.dtors ∧ h.newBytes = h.freeBytes := by
  have h1 := hb.elems
  have h2 := hb.bytes
  rw [sumTo_zero (by intro b _; simp [he b, liveOf])] at h1
  rw [sumTo_zero (by intro b _; simp [he b, bytesOf])] at h2
  exact ⟨h1, h2⟩

theorem bal_init : Bal ({} : Heap α) := ⟨fun _ _ => rfl, rfl, rfl⟩

/-- From `h` to `h'` only the owned nodes changed; `l` are owned before, `l'` after. -/
structure Step (h : Heap α) (l : List Nat) (h' : Heap α) (l' : List Nat) (k : Cost) : Prop where
  ctors : h'.ctors = h.ctors + k.c
  dtors : h'.dtors = h.dtors + k.d
  allocs : h'.next = h.next + k.a
  frame : ∀ a, a ∉ l → a ∉ l' → h'.info a = h.info a
  keep : ∀ a, a ∉ l → Live h a → h'.nxt a = h.nxt a ∧ h'.prv a = h.prv a
  gone : ∀ a, a ∈ l → a ∉ l' → h'.info a = none
  fresh : ∀ a, a ∈ l' → a ∉ l → h.info a = none
  bal : Bal h'

section
variable {h h' h'' : Heap α} {l l' l'' m m' : List Nat} {k k' : Cost} {a b : Nat} {d : Bool} {x : α} {own : Nat}

theorem Step.refl (hb : Bal h) (l : List Nat) : Step h l h l 0 :=
  ⟨rfl, rfl, rfl, fun _ _ _ => rfl, fun _ _ _ => ⟨rfl, rfl⟩, fun _ a b => absurd a b, fun _ a b => absurd a b, hb⟩

theorem Step.live (s : Step h l h' l' k) (ha : a ∉ l) (hl : Live h a) : a ∉ l' ∧ Live h' a ∧ h'.info a = h.info a := by
  have : a ∉ l' := fun hm => hl (s.fresh a hm ha)
  have e := s.frame a ha this
  exact ⟨this, by rw [Live, e]; exact hl, e⟩

theorem Step.trans (s : Step h l h' l' k) (t : Step h' l' h'' l'' k') : Step h l h'' l'' (k + k') := by
  refine ⟨?_, ?_, ?_, ?_, ?_, ?_, ?_, t.bal⟩
  · rw [t.ctors, s.ctors, Nat.add_assoc]; rfl
  · rw [t.dtors, s.dtors, Nat.add_assoc]; rfl
  · rw [t.allocs, s.allocs, Nat.add_assoc]; rfl
  · intro x hx hx2
    by_cases hm : x ∈ l'
    · rw [t.gone x hm hx2, s.fresh x hm hx]
    · rw [t.frame x hm hx2, s.frame x hx hm]
  · intro x hx hl
    obtain ⟨h1, h2, _⟩ := s.live hx hl
    have k1 := s.keep x hx hl
    have k2 := t.keep x h1 h2
    exact ⟨k2.1.trans k1.1, k2.2.trans k1.2⟩
  · intro x hx hx2
    by_cases hm : x ∈ l'
    · exact t.gone x hm hx2
    · rw [t.frame x hm hx2, s.gone x hx hm]
  · intro x hx hx2
    by_cases hm : x ∈ l'
    · exact s.fresh x hm hx2
    · have := t.fresh x hx hm
      rw [← s.frame x hx2 hm]; exact this

theorem Step.congr (s : Step h l h' l' k) (hl : ∀ a, a ∈ l ↔ a ∈ m) (hl' : ∀ a, a ∈ l' ↔ a ∈ m') : Step h m h' m' k := by
  refine ⟨s.ctors, s.dtors, s.allocs, ?_, ?_, ?_, ?_, s.bal⟩
  · intro a h1 h2; exact s.frame a (by rwa [hl]) (by rwa [hl'])
  · intro a h1 h2; exact s.keep a (by rwa [hl]) h2
  · intro a h1 h2; exact s.gone a (by rwa [hl]) (by rwa [hl'])
  · intro a h1 h2; exact s.fresh a (by rwa [hl']) (by rwa [hl])

theorem Step.cost (s : Step h l h' l' k) (hk : k = k') : Step h l h' l' k' := hk ▸ s

/-- nodes owned in addition and left alone -/
theorem Step.more (s : Step h l h' l' k) (m : List Nat) : Step h (l ++ m) h' (l' ++ m) k := by
  refine ⟨s.ctors, s.dtors, s.allocs, ?_, ?_, ?_, ?_, s.bal⟩
  · intro a h1 h2; simp only [List.mem_append, not_or] at h1 h2; exact s.frame a h1.1 h2.1
  · intro a h1 h2; simp only [List.mem_append, not_or] at h1; exact s.keep a h1.1 h2
  · intro a h1 h2
    simp only [List.mem_append, not_or] at h1 h2
    exact s.gone a (h1.resolve_right h2.2) h2.1
  · intro a h1 h2
    simp only [List.mem_append, not_or] at h1 h2
    exact s.fresh a (h1.resolve_right h2.2) h2.1

theorem bal_of_info (hb : Bal h) (h1 : h'.info = h.info) (h2 : h'.next = h.next) (h3 : h'.ctors = h.ctors) (h4 : h'.dtors = h.dtors)
    (h5 : h'.newBytes = h.newBytes) (h6 : h'.freeBytes = h.freeBytes) : Bal h' :=
  ⟨by rw [h1, h2]; exact hb.fresh, by rw [h1, h2, h3, h4]; exact hb.elems, by rw [h1, h2, h5, h6]; exact hb.bytes⟩

theorem step_link (hb : Bal h) (ha : a ∈ l) (hb' : b ∈ l) : Step h l (link d h a b) l 0 := by
  refine ⟨rfl, rfl, rfl, fun _ _ _ => rfl, ?_, fun _ a b => absurd a b, fun _ a b => absurd a b, bal_of_info hb rfl rfl rfl rfl rfl rfl⟩
  intro c hc _
  exact ⟨link_nxt_ne (by rintro rfl; exact hc ha), link_prv_ne (by rintro rfl; exact hc hb')⟩

theorem step_cut (hb : Bal h) (ha : a ∈ l) : Step h l (cut h a) l 0 := by
  refine ⟨rfl, rfl, rfl, fun _ _ _ => rfl, ?_, fun _ a b => absurd a b, fun _ a b => absurd a b, bal_of_info hb rfl rfl rfl rfl rfl rfl⟩
  intro c hc _
  exact ⟨cut_nxt_ne (by rintro rfl; exact hc ha), rfl⟩

theorem bal_change (hb : Bal h) (ha : a < h.next) (hi : ∀ c, c ≠ a → h'.info c = h.info c) (h2 : h'.next = h.next)
    (he : h'.ctors + h.dtors + liveOf (h.info a) = h.ctors + h'.dtors + liveOf (h'.info a))
    (hy : h'.newBytes + h.freeBytes + bytesOf (h.info a) = h.newBytes + h'.freeBytes + bytesOf (h'.info a)) : Bal h' := by
  have e1 := sumTo_change (n := h.next) (f := fun c => liveOf (h.info c)) (g := fun c => liveOf (h'.info c)) ha
    (fun c hc => by simp only [hi c hc])
  have e2 := sumTo_change (n := h.next) (f := fun c => bytesOf (h.info c)) (g := fun c => bytesOf (h'.info c)) ha
    (fun c hc => by simp only [hi c hc])
  have f1 := hb.elems
  have f2 := hb.bytes
  refine ⟨?_, ?_, ?_⟩
  · intro c hc
    rw [h2] at hc
    rw [hi c (by omega)]; exact hb.fresh c hc
  · rw [h2]; omega
  · rw [h2]; omega

theorem bal_kill (hb : Bal h) (e : IsElem cfg own h a x) : Bal (kill cfg h a) := by
  refine bal_change (a := a) hb (hb.lt e.live) (fun c hc => kill_info_ne hc) rfl ?_ ?_
  · rw [show h.info a = _ from e, kill_info_same]; simp [kill, liveOf]; omega
  · rw [show h.info a = _ from e, kill_info_same]; simp [kill, bytesOf]; omega

theorem bal_killVirt (hb : Bal h) (e : IsVirt cfg own h a) : Bal (killVirt cfg h a) := by
  refine bal_change (a := a) hb (hb.lt e.live) (fun c hc => killVirt_info_ne hc) rfl ?_ ?_
  · rw [show h.info a = _ from e, killVirt_info_same]; simp [killVirt, liveOf]
  · rw [show h.info a = _ from e, killVirt_info_same]; simp [killVirt, bytesOf]; omega

theorem bal_poke {y : α} (hb : Bal h) (e : IsElem cfg own h a x) : Bal (poke cfg own h a y) := by
  refine bal_change (a := a) hb (hb.lt e.live) (fun c hc => poke_info_ne hc) rfl ?_ ?_
  · rw [show h.info a = _ from e, poke_info_same]; simp [poke, liveOf]
  · rw [show h.info a = _ from e, poke_info_same]; simp [poke, bytesOf]

theorem bal_new (hb : Bal h) (hn : h'.next = h.next + 1) (hi : ∀ c, c ≠ h.next → h'.info c = h.info c)
    (he : h'.ctors + h.dtors = h.ctors + h'.dtors + liveOf (h'.info h.next))
    (hy : h'.newBytes + h.freeBytes = h.newBytes + h'.freeBytes + bytesOf (h'.info h.next)) : Bal h' := by
  have f1 := hb.elems
  have f2 := hb.bytes
  refine ⟨?_, ?_, ?_⟩
  · intro c hc
    rw [hi c (by omega)]; exact hb.fresh c (by omega)
  · rw [hn, sumTo, sumTo_congr (g := fun c => liveOf (h.info c)) (fun c hc => by rw [hi c (by omega)])]; omega
  · rw [hn, sumTo, sumTo_congr (g := fun c => bytesOf (h.info c)) (fun c hc => by rw [hi c (by omega)])]; omega

theorem bal_mk (hb : Bal h) : Bal (newElem cfg own x h) := by
  refine bal_new hb rfl (fun c hc => mk_info_ne hc) ?_ ?_
  · rw [mk_info_same]; simp [newElem, liveOf]; omega
  · rw [mk_info_same]; simp [newElem, bytesOf]; omega

theorem bal_mkVirt (hb : Bal h) : Bal (mkVirt cfg own h) := by
  refine bal_new hb rfl (fun c hc => mkVirt_info_ne hc) ?_ ?_
  · rw [mkVirt_info_same]; simp [mkVirt, liveOf]
  · rw [mkVirt_info_same]; simp [mkVirt, bytesOf]; omega

theorem step_kill (hb : Bal h) (e : IsElem cfg own h a x) : Step h [a] (kill cfg h a) [] ⟨0, 1, 0⟩ := by
  refine ⟨rfl, rfl, rfl, ?_, fun _ _ _ => ⟨rfl, rfl⟩, ?_, by simp, bal_kill hb e⟩
  · intro c hc _; exact kill_info_ne (by simpa using hc)
  · intro c hc _; simp at hc; subst hc; exact kill_info_same

theorem step_killVirt (hb : Bal h) (e : IsVirt cfg own h a) : Step h [a] (killVirt cfg h a) [] 0 := by
  refine ⟨rfl, rfl, rfl, ?_, fun _ _ _ => ⟨rfl, rfl⟩, ?_, by simp, bal_killVirt hb e⟩
  · intro c hc _; exact killVirt_info_ne (by simpa using hc)
  · intro c hc _; simp at hc; subst hc; exact killVirt_info_same

theorem step_poke {y : α} (hb : Bal h) (e : IsElem cfg own h a x) : Step h [a] (poke cfg own h a y) [a] 0 := by
  refine ⟨rfl, rfl, rfl, ?_, fun _ _ _ => ⟨rfl, rfl⟩, fun _ a b => absurd a b, fun _ a b => absurd a b, bal_poke hb e⟩
  intro c hc _; exact poke_info_ne (by simpa using hc)

theorem step_mk (hb : Bal h) : Step h [] (newElem cfg own x h) [h.next] ⟨1, 0, 1⟩ := by
  refine ⟨rfl, rfl, rfl, ?_, ?_, by simp, ?_, bal_mk hb⟩
  · intro c _ hc; exact mk_info_ne (by simpa using hc)
  · intro c _ hl; exact ⟨mk_nxt_ne (hb.ne_next hl), mk_prv_ne (hb.ne_next hl)⟩
  · intro c hc _; simp at hc; subst hc; exact hb.fresh _ (Nat.le_refl _)

theorem step_mkVirt (hb : Bal h) : Step h [] (mkVirt cfg own h) [h.next] ⟨0, 0, 1⟩ := by
  refine ⟨rfl, rfl, rfl, ?_, ?_, by simp, ?_, bal_mkVirt hb⟩
  · intro c _ hc; exact mkVirt_info_ne (by simpa using hc)
  · intro c _ hl; exact ⟨mkVirt_nxt_ne (hb.ne_next hl), mkVirt_prv_ne (hb.ne_next hl)⟩
  · intro c hc _; simp at hc; subst hc; exact hb.fresh _ (Nat.le_refl _)
end

/-! ## Chains -/

/-- `a` is followed by `b` -/
def Linked (d : Bool) (h : Heap α) (a b : Nat) : Prop := h.nxt a = some (some b) ∧ (d = true → h.prv b = some (some a))

abbrev Chain (d : Bool) (h : Heap α) (l : List Nat) : Prop := l.IsChain (Linked d h)

section
variable {h h' : Heap α} {l l1 l2 : List Nat} {a b c : Nat} {d : Bool}

theorem chain_imp (hc : Chain d h l) (hn : ∀ a ∈ l.dropLast, h'.nxt a = h.nxt a) (hp : ∀ a ∈ l.tail, h'.prv a = h.prv a) :
    Chain d h' l := by
  induction l with
  | nil => exact .nil
  | cons x t ih =>
    cases t with
    | nil => exact .singleton _
    | cons y t =>
      rw [Chain, List.isChain_cons_cons] at hc ⊢
      refine ⟨⟨?_, ?_⟩, ih hc.2 (fun a ha => hn a ?_) (fun a ha => hp a ?_)⟩
      · rw [hn x (by simp)]; exact hc.1.1
      · intro hd; rw [hp y (by simp)]; exact hc.1.2 hd
      · simp at ha ⊢; exact .inr ha
      · simp at ha ⊢; exact .inr ha

theorem chain_frame (hc : Chain d h l) (hf : ∀ a ∈ l, h'.nxt a = h.nxt a ∧ h'.prv a = h.prv a) : Chain d h' l :=
  chain_imp hc (fun a ha => (hf a (List.dropLast_subset _ ha)).1) (fun a ha => (hf a (List.mem_of_mem_tail ha)).2)

theorem chain_link_frame (hc : Chain d h l) (ha : a ∉ l.dropLast) (hb : b ∉ l.tail) : Chain d (link d h a b) l :=
  chain_imp hc (fun c hc => link_nxt_ne (by rintro rfl; exact ha hc)) (fun c hc => link_prv_ne (by rintro rfl; exact hb hc))

theorem linked_link : Linked d (link d h a b) a b := ⟨link_nxt_same, by rintro rfl; exact link_prv_same⟩

/-- joining two chains -/
theorem chain_join (h1 : Chain d h (l1 ++ [a])) (h2 : Chain d h (b :: l2)) (hn : (l1 ++ a :: b :: l2).Nodup) :
    Chain d (link d h a b) (l1 ++ a :: b :: l2) := by
  have hn' := hn
  simp only [List.nodup_append, List.nodup_cons, List.mem_cons, not_or] at hn
  obtain ⟨_, ⟨⟨hab, ha2⟩, hb2, _⟩, h3⟩ := hn
  rw [Chain, List.isChain_append_cons_cons]
  refine ⟨chain_link_frame h1 ?_ ?_, linked_link, chain_link_frame h2 ?_ ?_⟩
  · simp; intro hm; exact h3 a hm a (.inl rfl) rfl
  · intro hm
    have := List.mem_of_mem_tail hm
    simp at this
    rcases this with h | h
    · exact h3 b h b (.inr (.inl rfl)) rfl
    · exact hab h.symm
  · intro hm
    have := List.dropLast_subset _ hm
    simp at this
    rcases this with h | h
    · exact hab h
    · exact ha2 h
  · simpa using hb2

theorem Chain.left (hc : Chain d h (l1 ++ a :: l2)) : Chain d h (l1 ++ [a]) := (List.isChain_split.1 hc).1
theorem Chain.right (hc : Chain d h (l1 ++ l2)) : Chain d h l2 := List.IsChain.right_of_append hc
theorem Chain.nxt (hc : Chain d h (l1 ++ a :: b :: l2)) : h.nxt a = some (some b) := (List.isChain_append_cons_cons.1 hc).2.1.1
theorem Chain.prv (hc : Chain true h (l1 ++ a :: b :: l2)) : h.prv b = some (some a) := (List.isChain_append_cons_cons.1 hc).2.1.2 rfl

end

end Verif.Proof.LL
