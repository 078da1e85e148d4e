import Verif.Proof.VectorLive
import Verif.Spec.VectorSlice
/-! # Slices over vectors: proofs -/
namespace Verif.Proof.VSlice
open Verif Verif.Model.Mem Verif.Model.Vector Verif.Proof.Mem Verif.Proof.Vector
open Verif.Model.VSlice hiding setIt
open Verif.Spec.Vector hiding upd
open Verif.Spec.VSlice

variable {α β : Type} {ty : ElemTy α}

/-- `p` is the storage of vector `i`, with room for `n`. -/
def Owns (w : World α) (i n : Nat) (p : Option Nat) : Prop := ∃ v, w.vars i = some v ∧ n ≤ v.cap ∧ p = v.ptr

def SliceOk (w : World α) : Option View → Option Sl → Prop
  | none, none => True
  | some (.at i lo hi), some s => lo ≤ hi ∧ ∃ p, Owns w i lo p ∧ s = ⟨⟨p, lo⟩, hi - lo⟩
  | some .empty, some s => s = ⟨⟨none, 0⟩, 0⟩
  | some .gone, some s => Dead w s.ptr.blk
  | _, _ => False

def IterOk (w : World α) : Option View → Option SIt → Prop
  | none, none => True
  | some (.at i lo hi), some s => lo ≤ hi ∧ ∃ p, Owns w i hi p ∧ s = ⟨⟨p, lo⟩, ⟨p, hi⟩⟩
  | some .empty, some s => s = ⟨⟨none, 0⟩, ⟨none, 0⟩⟩
  | some .gone, some s => ∃ p lo hi, lo ≤ hi ∧ s = ⟨⟨p, lo⟩, ⟨p, hi⟩⟩ ∧ Dead w p
  | _, _ => False

structure SInv (ty : ElemTy α) (S : State α) (w : SWorld α) : Prop where
  reach : Reach ty w.base
  vecs : view w.base = S.vecs
  slices : ∀ s, SliceOk w.base (S.slices s) (w.slices s)
  its : ∀ k, IterOk w.base (S.its k) (w.its k)

theorem SInv.inv {S : State α} {w : SWorld α} (I : SInv ty S w) : Inv ty S.vecs w.base := I.vecs ▸ reach_inv I.reach

theorem inBase_run (f : Prog (World α) β) (w : SWorld α) :
    Model.VSlice.inBase f w = f w.base >>= fun p => .ok (p.1, { w with base := p.2 }) := rfl

theorem heap_step {f : M α β} {b : β} {w : SWorld α} (h : f w.base.heap = .ok (b, w.base.heap)) :
    Model.VSlice.inBase (inHeap f) w = .ok (b, w) := by
  simp only [inBase_run, inHeap_run, h, Out.bind_ok]

theorem heap_ub {f : M α β} {w : SWorld α} (h : f w.base.heap = .ub) : Model.VSlice.inBase (inHeap f) w = .ub := by
  simp only [inBase_run, inHeap_run, h]
  rfl

theorem var_step {i : Nat} {v : Vec} {w : SWorld α} (h : w.base.vars i = some v) : Model.VSlice.inBase (var i) w = .ok (v, w) := by
  simp only [inBase_run, run_var h, Out.bind_ok]

theorem theIt_run {k : Nat} {it : SIt} {w : SWorld α} (h : w.its k = some it) : Model.VSlice.theIt k w = .ok (it, w) := by
  simp only [Model.VSlice.theIt, h]

theorem theSlice_run {k : Nat} {s : Sl} {w : SWorld α} (h : w.slices k = some s) : theSlice k w = .ok (s, w) := by
  simp only [theSlice, h]

/-! ## Following the storage -/

theorem owns_move {A A0 : Ideal α} {op : Op α} {w w' : World α} (I : Inv ty A0 w) (m : Moved A op w w')
    (hn : w.heap.next ≤ w'.heap.next) {i n : Nat} {p : Option Nat} (h : Owns w i n p) :
    match whereTo A op i with | some j => Owns w' j n p | none => Dead w' p := by
  obtain ⟨v, hv, hle, rfl⟩ := h
  have := itOk_move I m hn (x := some (.at i n 0)) (it := some (itOf v.ptr n 0)) ⟨v, hv, hle, rfl⟩
  simp only [Option.map_some, Spec.Vector.follow] at this
  cases hw : whereTo A op i with
  | some j =>
    rw [hw] at this
    obtain ⟨v', h1, h2, h3⟩ := this
    exact ⟨v', h1, h2, by simpa [itOf] using h3⟩
  | none =>
    rw [hw] at this
    obtain ⟨p', q, m', h3, h4⟩ := this
    have : v.ptr = p' := by have := congrArg (fun it => it.beg.blk) h3; simpa [itOf] using this
    rw [this]; exact h4

theorem dead_move {A A0 : Ideal α} {op : Op α} {w w' : World α} (I : Inv ty A0 w) (m : Moved A op w w')
    (hn : w.heap.next ≤ w'.heap.next) {p : Option Nat} (h : Dead w p) : Dead w' p := by
  have := itOk_move I m hn (x := some .gone) (it := some (itOf p 0 0)) ⟨p, 0, 0, rfl, h⟩
  obtain ⟨p', q, m', h3, h4⟩ := this
  have : p = p' := by have := congrArg (fun it => it.beg.blk) h3; simpa [itOf] using this
  rw [this]; exact h4

theorem sliceOk_move {A A0 : Ideal α} {op : Op α} {w w' : World α} (I : Inv ty A0 w) (m : Moved A op w w')
    (hn : w.heap.next ≤ w'.heap.next) {x : Option View} {s : Option Sl} (h : SliceOk w x s) :
    SliceOk w' (x.map (View.follow A op)) s := by
  match x, s, h with
  | none, none, _ => trivial
  | some (.at i lo hi), some s, ⟨h1, p, h2, h3⟩ =>
    have := owns_move I m hn h2
    simp only [Option.map_some, View.follow]
    cases hw : whereTo A op i with
    | some j => rw [hw] at this; exact ⟨h1, p, this, h3⟩
    | none => rw [hw] at this; subst h3; exact this
  | some .empty, some s, h => exact h
  | some .gone, some s, h => exact dead_move I m hn h

theorem iterOk_move {A A0 : Ideal α} {op : Op α} {w w' : World α} (I : Inv ty A0 w) (m : Moved A op w w')
    (hn : w.heap.next ≤ w'.heap.next) {x : Option View} {s : Option SIt} (h : IterOk w x s) :
    IterOk w' (x.map (View.follow A op)) s := by
  match x, s, h with
  | none, none, _ => trivial
  | some (.at i lo hi), some s, ⟨h1, p, h2, h3⟩ =>
    have := owns_move I m hn h2
    simp only [Option.map_some, View.follow]
    cases hw : whereTo A op i with
    | some j => rw [hw] at this; exact ⟨h1, p, this, h3⟩
    | none => rw [hw] at this; exact ⟨p, lo, hi, h1, h3, this⟩
  | some .empty, some s, h => exact h
  | some .gone, some s, ⟨p, lo, hi, h1, h2, h3⟩ => exact ⟨p, lo, hi, h1, h2, dead_move I m hn h3⟩

/-- A call on the vectors. -/
theorem vec_ok {S : State α} {w : SWorld α} (I : SInv ty S w) {op : Op α} {r : Res α} {A' : Ideal α}
    (hs : specStep false ty.size ty.dflt op S.vecs = some (r, A')) :
    (Model.VSlice.inBase (step ty op) w).Safe fun q => q.1 = r ∧
      SInv ty ⟨A', fun s => (S.slices s).map (View.follow S.vecs op), fun k => (S.its k).map (View.follow S.vecs op)⟩ q.2 := by
  rw [← I.vecs] at hs
  have hok := reach_step I.reach hs
  simp only [inBase_run]
  cases he : step ty op w.base with
  | ok q =>
    rw [he] at hok
    have m := step_moved I.reach hs he
    have t := (step_work I.reach hs he).2.2
    refine ⟨hok.1, ⟨hok.2.2, hok.2.1, fun s => ?_, fun k => ?_⟩⟩
    · rw [← I.vecs]
      exact sliceOk_move (reach_inv I.reach) m (by omega) (I.slices s)
    · rw [← I.vecs]
      exact iterOk_move (reach_inv I.reach) m (by omega) (I.its k)
  | oom => trivial
  | _ => rw [he] at hok; exact hok.elim

theorem SInv.setIt {S : State α} {w : SWorld α} (I : SInv ty S w) (k : Nat) {x : View} {it : SIt} (h : IterOk w.base (some x) (some it)) :
    SInv ty (S.setIt k x) { w with its := fun k' => if k' = k then some it else w.its k' } := by
  refine ⟨I.reach, I.vecs, I.slices, fun k' => ?_⟩
  simp only [State.setIt]
  by_cases hk : k' = k
  · simp only [hk, if_true]; exact h
  · simp only [hk, if_false]; exact I.its k'

theorem SInv.setSlice {S : State α} {w : SWorld α} (I : SInv ty S w) (k : Nat) {x : View} {s : Sl} (h : SliceOk w.base (some x) (some s)) :
    SInv ty (S.setSlice k x) { w with slices := fun k' => if k' = k then some s else w.slices k' } := by
  refine ⟨I.reach, I.vecs, fun k' => ?_, I.its⟩
  simp only [State.setSlice]
  by_cases hk : k' = k
  · simp only [hk, if_true]; exact h
  · simp only [hk, if_false]; exact I.slices k'

/-! ## The members of the iterators -/

/-- A reference to position `p` of vector `i`. -/
def RefOk (w : World α) : Option (Nat × Nat) → Option Ptr → Prop
  | none, none => True
  | some (i, p), some q => ∃ v, w.vars i = some v ∧ p < v.cap ∧ q = ⟨v.ptr, p⟩
  | _, _ => False

theorem ge_run {h : Heap α} (p : Option Nat) (a b : Nat) : ptrGe ⟨p, a⟩ ⟨p, b⟩ h = .ok (decide (b ≤ a), h) := by
  simp only [ptrGe, Prog.bind_run, Ptr.diff, if_true, Out.bind_ok, Prog.pure_run]
  congr 3
  simp

theorem back_run {h : Heap α} {v : Vec} {xs : List α} (r : Rep ty h v xs) {hi : Nat} (h0 : 0 < hi) (hc : hi ≤ v.cap) :
    Ptr.move ⟨v.ptr, hi⟩ (-1) h = .ok (⟨v.ptr, hi - 1⟩, h) := by
  rw [rep_move r hc, if_pos (by omega)]
  congr 4
  omega

theorem next_run {h : Heap α} {v : Vec} {xs : List α} (r : Rep ty h v xs) {lo hi : Nat} (hle : lo ≤ hi) (hc : hi ≤ v.cap) :
    SIt.next ⟨⟨v.ptr, lo⟩, ⟨v.ptr, hi⟩⟩ h = .ok (if lo < hi then (some ⟨v.ptr, lo⟩, ⟨⟨v.ptr, lo + 1⟩, ⟨v.ptr, hi⟩⟩)
      else (none, ⟨⟨v.ptr, lo⟩, ⟨v.ptr, hi⟩⟩), h) := by
  simp only [SIt.next, Prog.bind_run, ge_run, Out.bind_ok]
  by_cases hlt : lo < hi
  · rw [if_pos hlt, if_neg (by simpa using hlt)]
    simp only [Prog.bind_run]
    rw [rep_move r (by omega), if_pos (by omega)]
    rfl
  · rw [if_neg hlt, if_pos (by simpa using hlt)]
    rfl

theorem prev_run {h : Heap α} {v : Vec} {xs : List α} (r : Rep ty h v xs) {lo hi : Nat} (hle : lo ≤ hi) (hc : hi ≤ v.cap) :
    SIt.prev ⟨⟨v.ptr, lo⟩, ⟨v.ptr, hi⟩⟩ h = .ok (if lo < hi then (some ⟨v.ptr, hi - 1⟩, ⟨⟨v.ptr, lo⟩, ⟨v.ptr, hi - 1⟩⟩)
      else (none, ⟨⟨v.ptr, lo⟩, ⟨v.ptr, hi⟩⟩), h) := by
  simp only [SIt.prev, Prog.bind_run, ge_run, Out.bind_ok]
  by_cases hlt : lo < hi
  · rw [if_pos hlt, if_neg (by simpa using hlt)]
    simp only [Prog.bind_run]
    rw [back_run r (by omega) hc]
    rfl
  · rw [if_neg hlt, if_pos (by simpa using hlt)]
    rfl

theorem last_run {h : Heap α} {v : Vec} {xs : List α} (r : Rep ty h v xs) {lo hi : Nat} (hle : lo ≤ hi) (hc : hi ≤ v.cap) :
    SIt.last ⟨⟨v.ptr, lo⟩, ⟨v.ptr, hi⟩⟩ h = .ok (if lo < hi then some ⟨v.ptr, hi - 1⟩ else none, h) := by
  unfold SIt.last SIt.isEmpty
  by_cases hlt : lo < hi
  · rw [if_pos hlt, if_neg (by simp; omega)]
    simp only [Prog.bind_run]
    rw [back_run r (by omega) hc]
    rfl
  · have : lo = hi := by omega
    subst this
    rw [if_neg hlt, if_pos (by simp)]
    rfl

theorem first_ok {S : State α} {w : SWorld α} (I : SInv ty S w) {k : Nat} {V V' : View} {q : Option (Nat × Nat)} (hk : S.its k = some V)
    (hf : V.first = some (q, V')) : ∃ it o it', w.its k = some it ∧ it.next w.base.heap = .ok ((o, it'), w.base.heap) ∧
      RefOk w.base q o ∧ IterOk w.base (some V') (some it') := by
  have h1 := I.its k
  rw [hk] at h1
  cases hwi : w.its k with
  | none => rw [hwi] at h1; cases V <;> exact h1.elim
  | some it =>
    rw [hwi] at h1
    cases V with
    | «at» i lo hi =>
      obtain ⟨hle, p, ⟨v, hv, hc, rfl⟩, rfl⟩ := h1
      obtain ⟨a, ha, r, -⟩ := I.inv.rep_of hv
      have e := next_run r hle hc
      simp only [View.first, Option.some.injEq] at hf
      split at hf <;> rename_i hlt
      · rw [if_pos hlt] at e
        cases hf
        exact ⟨_, _, _, rfl, e, ⟨v, hv, by omega, rfl⟩, by omega, v.ptr, ⟨v, hv, hc, rfl⟩, rfl⟩
      · rw [if_neg hlt] at e
        cases hf
        exact ⟨_, _, _, rfl, e, trivial, hle, v.ptr, ⟨v, hv, hc, rfl⟩, rfl⟩
    | empty =>
      cases hf
      have e : it = ⟨⟨none, 0⟩, ⟨none, 0⟩⟩ := h1
      subst e
      refine ⟨_, none, _, rfl, ?_, trivial, rfl⟩
      simp only [SIt.next, Prog.bind_run, ge_run, Out.bind_ok]
      rfl
    | gone => cases hf

theorem final_ok {S : State α} {w : SWorld α} (I : SInv ty S w) {k : Nat} {V V' : View} {q : Option (Nat × Nat)} (hk : S.its k = some V)
    (hf : V.final = some (q, V')) : ∃ it o it', w.its k = some it ∧ it.prev w.base.heap = .ok ((o, it'), w.base.heap) ∧
      it.last w.base.heap = .ok (o, w.base.heap) ∧ RefOk w.base q o ∧ IterOk w.base (some V') (some it') := by
  have h1 := I.its k
  rw [hk] at h1
  cases hwi : w.its k with
  | none => rw [hwi] at h1; cases V <;> exact h1.elim
  | some it =>
    rw [hwi] at h1
    cases V with
    | «at» i lo hi =>
      obtain ⟨hle, p, ⟨v, hv, hc, rfl⟩, rfl⟩ := h1
      obtain ⟨a, ha, r, -⟩ := I.inv.rep_of hv
      have e := prev_run r hle hc
      have e' := last_run r hle hc
      simp only [View.final, Option.some.injEq] at hf
      split at hf <;> rename_i hlt
      · rw [if_pos hlt] at e e'
        cases hf
        exact ⟨_, _, _, rfl, e, e', ⟨v, hv, by omega, rfl⟩, by omega, v.ptr, ⟨v, hv, by omega, rfl⟩, rfl⟩
      · rw [if_neg hlt] at e e'
        cases hf
        exact ⟨_, _, _, rfl, e, e', trivial, hle, v.ptr, ⟨v, hv, hc, rfl⟩, rfl⟩
    | empty =>
      cases hf
      have e : it = ⟨⟨none, 0⟩, ⟨none, 0⟩⟩ := h1
      subst e
      refine ⟨_, none, _, rfl, ?_, rfl, trivial, rfl⟩
      simp only [SIt.prev, Prog.bind_run, ge_run, Out.bind_ok]
      rfl
    | gone => cases hf

theorem read_pos {h : Heap α} {v : Vec} {xs : List α} (r : Rep ty h v xs) {p : Nat} (hp : p ≤ v.cap) :
    load v.ptr p h = match xs[p]? with | some x => .ok (x, h) | none => .ub := by
  have := deref_of r hp 0
  exact this

theorem shown_ok {S : State α} {w : SWorld α} (I : SInv ty S w) {q : Option (Nat × Nat)} {o : Option Ptr} (hr : RefOk w.base q o)
    {x : Option α} (hs : shown S.vecs q = some x) : readRef o w.base.heap = .ok (x, w.base.heap) := by
  match q, o, hr with
  | none, none, _ => cases hs; rfl
  | some (i, p), some _, ⟨v, hv, hp, rfl⟩ =>
    obtain ⟨a, ha, r, -⟩ := I.inv.rep_of hv
    simp only [shown, elem, ha, Option.bind_some, Option.map_eq_some_iff] at hs
    obtain ⟨y, hy, rfl⟩ := hs
    simp only [readRef, Prog.bind_run, Ptr.read, read_pos r (Nat.le_of_lt hp), hy, Out.bind_ok, Prog.pure_run]

theorem follow_set (A : Ideal α) (i p : Nat) (x : α) (f : Nat → Option View) :
    (fun k => (f k).map (View.follow A (.set i p x))) = f := by
  funext k
  cases f k with
  | none => rfl
  | some v => cases v <;> rfl

theorem assigned_ok {S : State α} {w : SWorld α} (I : SInv ty S w) {q : Option (Nat × Nat)} {o : Option Ptr} (hr : RefOk w.base q o)
    {x : α} {b : Bool} {A' : Ideal α} (hs : assigned S.vecs x q = some (b, A')) :
    (Model.VSlice.inBase (inHeap (writeRef x o)) w).Safe fun r => r.1 = b ∧ SInv ty { S with vecs := A' } r.2 := by
  match q, o, hr with
  | none, none, _ => cases hs; exact ⟨rfl, I⟩
  | some (i, p), some _, ⟨v, hv, hp, rfl⟩ =>
    obtain ⟨a, ha, r, -⟩ := I.inv.rep_of hv
    simp only [assigned, assign, ha, Option.bind_some] at hs
    split at hs
    case isFalse => cases hs
    rename_i hlt
    cases hs
    have hok := vec_ok I (op := .set i p x) (r := .unit) (A' := put S.vecs i (some ⟨a.xs.set p x, a.cap, a.alloc⟩)) (by
      simp [specStep, Spec.Vector.upd, ha, hlt])
    rw [follow_set, follow_set] at hok
    simp only [inBase_run, inHeap_run, writeRef, Prog.bind_run, Prog.pure_run]
    simp only [inBase_run, step, look, Prog.bind_run, run_var hv, Out.bind_ok, inHeap_run, indexSet, Prog.pure_run] at hok
    cases hst : store v.ptr p x w.base.heap with
    | ok y => rw [hst] at hok; exact ⟨rfl, hok.2⟩
    | oom => trivial
    | div => rw [hst] at hok; exact hok.elim
    | panic => rw [hst] at hok; exact hok.elim
    | ub => rw [hst] at hok; exact hok.elim

/-- An iterator made from a slice. -/
theorem make_ok {S : State α} {w : SWorld α} (I : SInv ty S w) {s i lo hi : Nat} (hs : S.slices s = some (.at i lo hi))
    (hc : hi ≤ capOf S.vecs i) : ∃ sl it, w.slices s = some sl ∧ SIt.make sl.ptr sl.size w.base.heap = .ok (it, w.base.heap) ∧
      IterOk w.base (some (.at i lo hi)) (some it) := by
  have h1 := I.slices s
  rw [hs] at h1
  cases hi' : w.slices s with
  | none => rw [hi'] at h1; exact h1.elim
  | some sl =>
    rw [hi'] at h1
    obtain ⟨hle, p, ⟨v, hv, hlo, rfl⟩, rfl⟩ := h1
    obtain ⟨a, ha, r, hcap, -⟩ := I.inv.rep_of hv
    have hcc : capOf S.vecs i = v.cap := by simp [capOf, ha, hcap]
    refine ⟨_, ⟨⟨v.ptr, lo⟩, ⟨v.ptr, hi⟩⟩, rfl, ?_, hle, v.ptr, ⟨v, hv, by omega, rfl⟩, rfl⟩
    simp only [SIt.make, Prog.bind_run]
    rw [rep_move r hlo, if_pos (by omega)]
    simp only [Out.bind_ok, Prog.pure_run]
    congr 4
    omega

theorem make_empty {S : State α} {w : SWorld α} (I : SInv ty S w) {s : Nat} (hs : S.slices s = some .empty) :
    ∃ sl it, w.slices s = some sl ∧ SIt.make sl.ptr sl.size w.base.heap = .ok (it, w.base.heap) ∧ IterOk w.base (some .empty) (some it) := by
  have h1 := I.slices s
  rw [hs] at h1
  cases hi' : w.slices s with
  | none => rw [hi'] at h1; exact h1.elim
  | some sl =>
    rw [hi'] at h1
    have e : sl = ⟨⟨none, 0⟩, 0⟩ := h1
    subst e
    exact ⟨_, _, rfl, rfl, rfl⟩

theorem sstep_ok {S S' : State α} {w : SWorld α} (I : SInv ty S w) {op : SOp α} {r : Res α}
    (hs : sliceStep false ty.size ty.dflt op S = some (r, S')) : (sstep ty op w).Safe fun q => q.1 = r ∧ SInv ty S' q.2 := by
  cases op with
  | vec op =>
    simp only [sliceStep, Option.map_eq_some_iff] at hs
    obtain ⟨q, h1, e⟩ := hs
    cases e
    exact vec_ok I h1
  | slice s i off n =>
    simp only [sliceStep, Option.bind_eq_some_iff] at hs
    obtain ⟨a, ha, h2⟩ := hs
    split at h2
    case isFalse => cases h2
    rename_i hoff
    cases h2
    obtain ⟨v, hv, r, hc, -⟩ := I.inv.get ha
    have hm : Ptr.move (data v) off w.base.heap = .ok (⟨v.ptr, off⟩, w.base.heap) := by
      unfold data
      rw [rep_move r (by omega), if_pos (by omega)]
      congr 4
      omega
    simp only [sstep, Prog.bind_run, var_step hv, Out.bind_ok, heap_step hm, Model.VSlice.setSlice, Prog.pure_run, Sl.fromRaw]
    exact ⟨rfl, I.setSlice s ⟨by omega, v.ptr, ⟨v, hv, by omega, rfl⟩, by congr 1; omega⟩⟩
  | copySlice s t =>
    simp only [sliceStep, Option.map_eq_some_iff] at hs
    obtain ⟨x, hx, e⟩ := hs
    cases e
    have h1 := I.slices t
    rw [hx] at h1
    cases hi : w.slices t with
    | none => rw [hi] at h1; cases x <;> exact h1.elim
    | some sl =>
      rw [hi] at h1
      simp only [sstep, Prog.bind_run, theSlice_run hi, Out.bind_ok, Model.VSlice.setSlice, Prog.pure_run]
      exact ⟨rfl, I.setSlice s h1⟩
  | iter k s =>
    simp only [sliceStep, Option.bind_eq_some_iff] at hs
    obtain ⟨x, hx, h2⟩ := hs
    have key : ∀ V, (∃ sl it, w.slices s = some sl ∧ SIt.make sl.ptr sl.size w.base.heap = .ok (it, w.base.heap) ∧
        IterOk w.base (some V) (some it)) → (sstep ty (.iter k s) w).Safe fun q => q.1 = .unit ∧ SInv ty (S.setIt k V) q.2 := by
      rintro V ⟨sl, it, e1, e2, h⟩
      simp only [sstep, Prog.bind_run, theSlice_run e1, Out.bind_ok, Sl.iter, heap_step e2, Model.VSlice.setIt, Prog.pure_run]
      exact ⟨rfl, I.setIt k h⟩
    cases x with
    | «at» i lo hi =>
      simp only at h2
      split at h2
      · cases h2; exact key _ (make_ok I hx (by assumption))
      · cases h2
    | empty => cases h2; exact key _ (make_empty I hx)
    | gone => cases h2
  | intoIter k s =>
    simp only [sliceStep, Option.bind_eq_some_iff] at hs
    obtain ⟨x, hx, h2⟩ := hs
    have key : ∀ V, (∃ sl it, w.slices s = some sl ∧ SIt.make sl.ptr sl.size w.base.heap = .ok (it, w.base.heap) ∧
        IterOk w.base (some V) (some it)) →
        (sstep ty (.intoIter k s) w).Safe fun q => q.1 = .unit ∧ SInv ty ((S.setSlice s .empty).setIt k V) q.2 := by
      rintro V ⟨sl, it, e1, e2, h⟩
      have e3 : sl.intoIter w.base.heap = .ok ((it, ⟨⟨none, 0⟩, 0⟩), w.base.heap) := by
        simp only [Sl.intoIter, Prog.bind_run, e2, Out.bind_ok, Prog.pure_run]
      simp only [sstep, Prog.bind_run, theSlice_run e1, Out.bind_ok, heap_step e3, Model.VSlice.setIt, Model.VSlice.setSlice, Prog.pure_run]
      exact ⟨rfl, (I.setSlice s (x := .empty) (s := ⟨⟨none, 0⟩, 0⟩) rfl).setIt k h⟩
    cases x with
    | «at» i lo hi =>
      simp only at h2
      split at h2
      · cases h2; exact key _ (make_ok I hx (by assumption))
      · cases h2
    | empty => cases h2; exact key _ (make_empty I hx)
    | gone => cases h2
  | copyIter k l =>
    simp only [sliceStep, Option.map_eq_some_iff] at hs
    obtain ⟨x, hx, e⟩ := hs
    cases e
    have h1 := I.its l
    rw [hx] at h1
    cases hi : w.its l with
    | none => rw [hi] at h1; cases x <;> exact h1.elim
    | some it =>
      rw [hi] at h1
      simp only [sstep, Prog.bind_run, theIt_run hi, Out.bind_ok, Model.VSlice.setIt, Prog.pure_run]
      exact ⟨rfl, I.setIt k h1⟩
  | next k =>
    simp only [sliceStep, Option.bind_eq_some_iff, Option.map_eq_some_iff] at hs
    obtain ⟨V, hV, ⟨q, V'⟩, hq, x, hx, e⟩ := hs
    cases e
    obtain ⟨it, o, it', e1, e2, h3, h4⟩ := first_ok I hV hq
    have I' := I.setIt k h4
    have e5 := heap_step (w := { w with its := fun k' => if k' = k then some it' else w.its k' }) (shown_ok I' h3 hx)
    simp only [sstep, Prog.bind_run, theIt_run e1, Out.bind_ok, heap_step e2, Model.VSlice.setIt, e5]
    exact ⟨rfl, I'⟩
  | prev k =>
    simp only [sliceStep, Option.bind_eq_some_iff, Option.map_eq_some_iff] at hs
    obtain ⟨V, hV, ⟨q, V'⟩, hq, x, hx, e⟩ := hs
    cases e
    obtain ⟨it, o, it', e1, e2, -, h3, h4⟩ := final_ok I hV hq
    have I' := I.setIt k h4
    have e5 := heap_step (w := { w with its := fun k' => if k' = k then some it' else w.its k' }) (shown_ok I' h3 hx)
    simp only [sstep, Prog.bind_run, theIt_run e1, Out.bind_ok, heap_step e2, Model.VSlice.setIt, e5]
    exact ⟨rfl, I'⟩
  | last k =>
    simp only [sliceStep, Option.bind_eq_some_iff, Option.map_eq_some_iff] at hs
    obtain ⟨V, hV, ⟨q, V'⟩, hq, x, hx, e⟩ := hs
    cases e
    obtain ⟨it, o, it', e1, -, e2, h3, h4⟩ := final_ok I hV hq
    have e5 := shown_ok I h3 hx
    simp only [sstep, Prog.bind_run, theIt_run e1, Out.bind_ok, heap_step e2, heap_step e5, Prog.pure_run]
    exact ⟨rfl, I⟩
  | setNext k x =>
    simp only [sliceStep, Option.bind_eq_some_iff, Option.map_eq_some_iff] at hs
    obtain ⟨V, hV, ⟨q, V'⟩, hq, y, hx, e⟩ := hs
    cases e
    obtain ⟨it, o, it', e1, e2, h3, h4⟩ := first_ok I hV hq
    have I' := I.setIt k h4
    have S5 := assigned_ok I' h3 (b := y.1) (A' := y.2) hx
    simp only [sstep, Prog.bind_run, theIt_run e1, Out.bind_ok, heap_step e2, Model.VSlice.setIt]
    refine S5.bind ?_
    rintro ⟨b, w'⟩ ⟨h6, h7⟩
    exact ⟨congrArg Res.bool h6, h7⟩
  | setPrev k x =>
    simp only [sliceStep, Option.bind_eq_some_iff, Option.map_eq_some_iff] at hs
    obtain ⟨V, hV, ⟨q, V'⟩, hq, y, hx, e⟩ := hs
    cases e
    obtain ⟨it, o, it', e1, e2, -, h3, h4⟩ := final_ok I hV hq
    have I' := I.setIt k h4
    have S5 := assigned_ok I' h3 (b := y.1) (A' := y.2) hx
    simp only [sstep, Prog.bind_run, theIt_run e1, Out.bind_ok, heap_step e2, Model.VSlice.setIt]
    refine S5.bind ?_
    rintro ⟨b, w'⟩ ⟨h6, h7⟩
    exact ⟨congrArg Res.bool h6, h7⟩
  | len k =>
    simp only [sliceStep, Option.bind_eq_some_iff] at hs
    obtain ⟨V, hV, h2⟩ := hs
    have h1 := I.its k
    rw [hV] at h1
    cases hi : w.its k with
    | none => rw [hi] at h1; cases V <;> exact h1.elim
    | some it =>
      rw [hi] at h1
      cases V with
      | «at» i lo hi' =>
        cases h2
        obtain ⟨hle, p, ⟨v, hv, hc, rfl⟩, rfl⟩ := h1
        obtain ⟨a, ha, r, -⟩ := I.inv.rep_of hv
        have hw := r.cap_word
        have e : SIt.len ⟨⟨v.ptr, lo⟩, ⟨v.ptr, hi'⟩⟩ w.base.heap = .ok (hi' - lo, w.base.heap) := by
          simp only [SIt.len, Prog.bind_run, Ptr.diff, if_true, Out.bind_ok, Prog.pure_run, toUsize_le hle (show hi' < wordSize by omega)]
        simp only [sstep, Prog.bind_run, theIt_run hi, Out.bind_ok, heap_step e, Prog.pure_run]
        exact ⟨rfl, I⟩
      | empty =>
        cases h2
        have e : it = ⟨⟨none, 0⟩, ⟨none, 0⟩⟩ := h1
        subst e
        have e : SIt.len ⟨⟨none, 0⟩, ⟨none, 0⟩⟩ w.base.heap = .ok (0, w.base.heap) := rfl
        simp only [sstep, Prog.bind_run, theIt_run hi, Out.bind_ok, heap_step e, Prog.pure_run]
        exact ⟨rfl, I⟩
      | gone => cases h2
  | isEmpty k =>
    simp only [sliceStep, Option.bind_eq_some_iff] at hs
    obtain ⟨V, hV, h2⟩ := hs
    have h1 := I.its k
    rw [hV] at h1
    cases hi : w.its k with
    | none => rw [hi] at h1; cases V <;> exact h1.elim
    | some it =>
      rw [hi] at h1
      simp only [sstep, Prog.bind_run, theIt_run hi, Out.bind_ok, Prog.pure_run]
      cases V with
      | «at» i lo hi' =>
        cases h2
        obtain ⟨hle, p, ⟨v, hv, hc, rfl⟩, rfl⟩ := h1
        refine ⟨?_, I⟩
        simp only [SIt.isEmpty, Res.bool.injEq]
        by_cases he : lo = hi'
        · subst he; simp
        · simp [he]
      | empty =>
        cases h2
        have e : it = ⟨⟨none, 0⟩, ⟨none, 0⟩⟩ := h1
        subst e
        exact ⟨rfl, I⟩
      | gone => cases h2

theorem sinv_init : SInv ty ({} : State α) {} := by
  have hr : Reach ty ({} : World α) := ⟨[], [], _, [], rfl, rfl⟩
  refine ⟨hr, ?_, fun _ => trivial, fun _ => trivial⟩
  exact Inv.view (ty := ty) inv_init

theorem srun_ok (ops : List (SOp α)) {S S' : State α} {w : SWorld α} (I : SInv ty S w) {rs : List (Res α)}
    (hs : Spec.VSlice.sliceRun false ty.size ty.dflt ops S = some (rs, S')) :
    (srun ty ops w).Safe fun q => q.1 = rs ∧ SInv ty S' q.2 := by
  induction ops generalizing S w rs with
  | nil => cases hs; exact ⟨rfl, I⟩
  | cons op ops ih =>
    simp only [Spec.VSlice.sliceRun, Option.bind_eq_some_iff, Option.map_eq_some_iff] at hs
    obtain ⟨⟨r, S1⟩, h1, ⟨rs', S2⟩, h2, e⟩ := hs
    cases e
    simp only [srun, Prog.bind_run]
    refine (sstep_ok I h1).bind ?_
    rintro ⟨r', w1⟩ ⟨hr, I1⟩
    simp only at hr I1 ⊢
    subst hr
    refine (ih I1 h2).bind ?_
    rintro ⟨rs1, w2⟩ ⟨hr, I2⟩
    simp only at hr I2 ⊢
    subst hr
    exact ⟨rfl, I2⟩

/-! ## What happens outside the specification -/

theorem at_it {S : State α} {w : SWorld α} (I : SInv ty S w) {k i lo hi : Nat} (hk : S.its k = some (.at i lo hi)) :
    ∃ v a, w.base.vars i = some v ∧ S.vecs i = some a ∧ Rep ty w.base.heap v a.xs ∧ a.cap = v.cap ∧ lo ≤ hi ∧ hi ≤ v.cap ∧
      w.its k = some ⟨⟨v.ptr, lo⟩, ⟨v.ptr, hi⟩⟩ := by
  have h1 := I.its k
  rw [hk] at h1
  cases hwi : w.its k with
  | none => rw [hwi] at h1; exact h1.elim
  | some it =>
    rw [hwi] at h1
    obtain ⟨hle, p, ⟨v, hv, hc, rfl⟩, rfl⟩ := h1
    obtain ⟨a, ha, r, hcap, -⟩ := I.inv.rep_of hv
    exact ⟨v, a, hv, ha, r, by omega, hle, hc, rfl⟩

theorem next_ub {S : State α} {w : SWorld α} (I : SInv ty S w) {k i lo hi : Nat} (hk : S.its k = some (.at i lo hi)) (hlt : lo < hi)
    {a : Var α} (ha : S.vecs i = some a) (hlen : a.xs.length ≤ lo) : sstep ty (.next k) w = .ub := by
  obtain ⟨v, a', hv, ha', r, hcap, hle, hc, hw⟩ := at_it I hk
  rw [ha] at ha'; cases ha'
  have e := next_run r hle hc
  rw [if_pos hlt] at e
  have e2 : readRef (some (⟨v.ptr, lo⟩ : Ptr)) w.base.heap = .ub := by
    simp only [readRef, Prog.bind_run, Ptr.read, read_pos r (show lo ≤ v.cap by omega), List.getElem?_eq_none hlen]
    rfl
  have e3 := heap_ub (w := { w with its := fun k' => if k' = k then some ⟨⟨v.ptr, lo + 1⟩, ⟨v.ptr, hi⟩⟩ else w.its k' }) e2
  simp only [sstep, Prog.bind_run, theIt_run hw, Out.bind_ok, heap_step e, Model.VSlice.setIt, e3]
  rfl

theorem prev_ub {S : State α} {w : SWorld α} (I : SInv ty S w) {k i lo hi : Nat} (hk : S.its k = some (.at i lo hi)) (hlt : lo < hi)
    {a : Var α} (ha : S.vecs i = some a) (hlen : a.xs.length ≤ hi - 1) : sstep ty (.prev k) w = .ub := by
  obtain ⟨v, a', hv, ha', r, hcap, hle, hc, hw⟩ := at_it I hk
  rw [ha] at ha'; cases ha'
  have e := prev_run r hle hc
  rw [if_pos hlt] at e
  have e2 : readRef (some (⟨v.ptr, hi - 1⟩ : Ptr)) w.base.heap = .ub := by
    simp only [readRef, Prog.bind_run, Ptr.read, read_pos r (show hi - 1 ≤ v.cap by omega), List.getElem?_eq_none hlen]
    rfl
  have e3 := heap_ub (w := { w with its := fun k' => if k' = k then some ⟨⟨v.ptr, lo⟩, ⟨v.ptr, hi - 1⟩⟩ else w.its k' }) e2
  simp only [sstep, Prog.bind_run, theIt_run hw, Out.bind_ok, heap_step e, Model.VSlice.setIt, e3]
  rfl

theorem dead_ub {S : State α} {w : SWorld α} (I : SInv ty S w) {p : Option Nat} (d : Dead w.base p) (a : Nat) {n : Int} (hn : n ≠ 0) :
    Ptr.move ⟨p, a⟩ n w.base.heap = .ub := by
  cases p with
  | none => simp only [Ptr.move, if_neg hn]
  | some b =>
    have hb : w.base.heap.blocks b = none := by
      cases hb : w.base.heap.blocks b with
      | none => rfl
      | some blk =>
        obtain ⟨i, v, h1, h2⟩ := I.inv.cover b blk hb
        exact (d.2 i v h1 h2).elim
    simp only [Ptr.move, hb]

theorem gone_it {S : State α} {w : SWorld α} (I : SInv ty S w) {k : Nat} (hk : S.its k = some .gone) :
    ∃ p lo hi, lo ≤ hi ∧ w.its k = some ⟨⟨p, lo⟩, ⟨p, hi⟩⟩ ∧ Dead w.base p := by
  have h1 := I.its k
  rw [hk] at h1
  cases hwi : w.its k with
  | none => rw [hwi] at h1; exact h1.elim
  | some it =>
    rw [hwi] at h1
    obtain ⟨p, lo, hi, h1, rfl, h3⟩ := h1
    exact ⟨p, lo, hi, h1, rfl, h3⟩

/-- An iterator over storage that is gone: asking it for an element is undefined unless it had none left. -/
theorem gone_exact {S : State α} {w : SWorld α} (I : SInv ty S w) {k : Nat} (hk : S.its k = some .gone) :
    (sstep ty (.next k) w = .ub ∧ sstep ty (.prev k) w = .ub ∧ sstep ty (.last k) w = .ub) ∨
    ((∃ w', sstep ty (.next k) w = .ok (.opt none, w')) ∧ (∃ w', sstep ty (.prev k) w = .ok (.opt none, w')) ∧
      sstep ty (.last k) w = .ok (.opt none, w)) := by
  obtain ⟨p, lo, hi, hle, hw, d⟩ := gone_it I hk
  by_cases hlt : lo < hi
  · left
    have e1 : SIt.next ⟨⟨p, lo⟩, ⟨p, hi⟩⟩ w.base.heap = .ub := by
      simp only [SIt.next, Prog.bind_run, ge_run, Out.bind_ok]
      rw [if_neg (by simpa using hlt)]
      simp only [Prog.bind_run]
      rw [dead_ub I d lo (by decide)]
      rfl
    have e2 : SIt.prev ⟨⟨p, lo⟩, ⟨p, hi⟩⟩ w.base.heap = .ub := by
      simp only [SIt.prev, Prog.bind_run, ge_run, Out.bind_ok]
      rw [if_neg (by simpa using hlt)]
      simp only [Prog.bind_run]
      rw [dead_ub I d hi (by decide)]
      rfl
    have e3 : SIt.last ⟨⟨p, lo⟩, ⟨p, hi⟩⟩ w.base.heap = .ub := by
      unfold SIt.last SIt.isEmpty
      rw [if_neg (by simp; omega)]
      simp only [Prog.bind_run]
      rw [dead_ub I d hi (by decide)]
      rfl
    refine ⟨?_, ?_, ?_⟩ <;>
    · simp only [sstep, Prog.bind_run, theIt_run hw, Out.bind_ok, heap_ub e1, heap_ub e2, heap_ub e3]
      rfl
  · right
    have he : lo = hi := by omega
    subst he
    have e1 : SIt.next ⟨⟨p, lo⟩, ⟨p, lo⟩⟩ w.base.heap = .ok ((none, ⟨⟨p, lo⟩, ⟨p, lo⟩⟩), w.base.heap) := by
      simp only [SIt.next, Prog.bind_run, ge_run, Out.bind_ok]
      rw [if_pos (by simp)]
      rfl
    have e2 : SIt.prev ⟨⟨p, lo⟩, ⟨p, lo⟩⟩ w.base.heap = .ok ((none, ⟨⟨p, lo⟩, ⟨p, lo⟩⟩), w.base.heap) := by
      simp only [SIt.prev, Prog.bind_run, ge_run, Out.bind_ok]
      rw [if_pos (by simp)]
      rfl
    have e3 : SIt.last ⟨⟨p, lo⟩, ⟨p, lo⟩⟩ w.base.heap = .ok (none, w.base.heap) := by
      unfold SIt.last SIt.isEmpty
      rw [if_pos (by simp)]
      rfl
    refine ⟨⟨{ w with its := fun k' => if k' = k then some ⟨⟨p, lo⟩, ⟨p, lo⟩⟩ else w.its k' }, ?_⟩,
      ⟨{ w with its := fun k' => if k' = k then some ⟨⟨p, lo⟩, ⟨p, lo⟩⟩ else w.its k' }, ?_⟩, ?_⟩
    rotate_left 2
    · have e4 : readRef none w.base.heap = .ok ((none : Option α), w.base.heap) := rfl
      simp only [sstep, Prog.bind_run, theIt_run hw, Out.bind_ok, heap_step e3, heap_step e4, Prog.pure_run]
    all_goals
      simp only [sstep, Prog.bind_run, theIt_run hw, Out.bind_ok, heap_step e1, heap_step e2, Model.VSlice.setIt]
      rfl

/-- A slice longer than the storage behind it. -/
theorem iter_ub {S : State α} {w : SWorld α} (I : SInv ty S w) {s i lo hi : Nat} (hs : S.slices s = some (.at i lo hi))
    (hc : capOf S.vecs i < hi) (k : Nat) : sstep ty (.iter k s) w = .ub ∧ sstep ty (.intoIter k s) w = .ub := by
  have h1 := I.slices s
  rw [hs] at h1
  cases hi' : w.slices s with
  | none => rw [hi'] at h1; exact h1.elim
  | some sl =>
    rw [hi'] at h1
    obtain ⟨hle, p, ⟨v, hv, hlo, rfl⟩, rfl⟩ := h1
    obtain ⟨a, ha, r, hcap, -⟩ := I.inv.rep_of hv
    have hcc : capOf S.vecs i = v.cap := by simp [capOf, ha, hcap]
    have e : SIt.make ⟨v.ptr, lo⟩ (hi - lo) w.base.heap = .ub := by
      simp only [SIt.make, Prog.bind_run]
      rw [rep_move r hlo, if_neg (by omega)]
      rfl
    have e2 : Sl.intoIter ⟨⟨v.ptr, lo⟩, hi - lo⟩ w.base.heap = .ub := by
      simp only [Sl.intoIter, Prog.bind_run, e]
      rfl
    constructor
    · simp only [sstep, Prog.bind_run, theSlice_run hi', Out.bind_ok, Sl.iter, heap_ub e]
      rfl
    · simp only [sstep, Prog.bind_run, theSlice_run hi', Out.bind_ok, heap_ub e2]
      rfl

end Verif.Proof.VSlice
