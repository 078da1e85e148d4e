import Verif.Proof.VectorReach
import Verif.Spec.VectorIter
/-! # Vector iterators as positions -/
namespace Verif.Proof.Vector
open Verif Verif.Model.Mem Verif.Model.Vector Verif.Proof.Mem
open Verif.Spec.Vector hiding upd

variable {α : Type} {ty : ElemTy α}

/-- The iterator at position `p` of vector `v`. -/
def itAt (v : Vec) (p : Nat) : RIter := ⟨⟨v.ptr, 0⟩, ⟨v.ptr, p⟩, ⟨v.ptr, v.len⟩⟩

theorem ptr_move {h : Heap α} {ptr : Option Nat} {cap a : Nat} {sl : List (Option α)} (o : Own ty h ptr cap a sl) {p : Nat}
    (hp : p ≤ cap) (d : Int) : Ptr.move ⟨ptr, p⟩ d h = if 0 ≤ (p : Int) + d ∧ (p : Int) + d ≤ cap then
      .ok (⟨ptr, ((p : Int) + d).toNat⟩, h) else .ub := by
  cases ptr with
  | none =>
    obtain ⟨-, rfl⟩ := o
    obtain rfl : p = 0 := by omega
    simp only [Ptr.move]
    by_cases hd : d = 0
    · subst hd; simp
    · rw [if_neg hd, if_neg (by omega)]
  | some b =>
    obtain ⟨e, hl, -⟩ := o
    simp only [Ptr.move, e, hl]

theorem rep_move {h : Heap α} {v : Vec} {xs : List α} (r : Rep ty h v xs) {p : Nat} (hp : p ≤ v.cap) (d : Int) :
    Ptr.move ⟨v.ptr, p⟩ d h = if 0 ≤ (p : Int) + d ∧ (p : Int) + d ≤ v.cap then
      .ok (⟨v.ptr, ((p : Int) + d).toNat⟩, h) else .ub := ptr_move r.own hp d

theorem begin_ok {h : Heap α} {v : Vec} {xs : List α} (r : Rep ty h v xs) : begin v h = .ok (itAt v 0, h) := by
  have hle := r.le
  have := r.len
  simp only [begin, Prog.bind_run]
  rw [rep_move r (by omega), if_pos (by omega)]
  simp [itAt]

theorem end_ok {h : Heap α} {v : Vec} {xs : List α} (r : Rep ty h v xs) : endIt v h = .ok (itAt v v.len, h) := by
  have hle := r.le
  have := r.len
  simp only [endIt, Prog.bind_run]
  rw [rep_move r (by omega), if_pos (by omega)]
  simp only [Out.bind_ok]
  rw [rep_move r (by omega), if_pos (by omega)]
  simp [itAt]

theorem up_run {h : Heap α} {v : Vec} {xs : List α} (r : Rep ty h v xs) {p : Nat} (hp : p ≤ v.cap) (n : Nat) :
    Ptr.move ⟨v.ptr, p⟩ n h = match up v.cap p n with | some q => .ok (⟨v.ptr, q⟩, h) | none => .ub := by
  rw [rep_move r hp]
  unfold up
  by_cases hq : p + n ≤ v.cap
  · rw [if_pos (by omega), if_pos hq]
    show _ = Out.ok _
    congr
  · rw [if_neg (by omega), if_neg hq]

theorem down_run {h : Heap α} {v : Vec} {xs : List α} (r : Rep ty h v xs) {p : Nat} (hp : p ≤ v.cap) (n : Nat) :
    Ptr.move ⟨v.ptr, p⟩ (-n) h = match down p n with | some q => .ok (⟨v.ptr, q⟩, h) | none => .ub := by
  rw [rep_move r hp]
  unfold down
  by_cases hq : n ≤ p
  · rw [if_pos (by omega), if_pos hq]
    show _ = Out.ok _
    congr 4
    omega
  · rw [if_neg (by omega), if_neg hq]

theorem apply_run {h : Heap α} {v : Vec} {xs : List α} (r : Rep ty h v xs) {p : Nat} (hp : p ≤ v.cap) (m : Move) :
    (itAt v p).apply m h = match Spec.Vector.move v.cap m p with | some q => .ok (itAt v q, h) | none => .ub := by
  have u1 := up_run r hp 1
  have d1 := down_run r hp 1
  cases m with
  | inc =>
    simp only [RIter.apply, RIter.preInc, Prog.bind_run, itAt, Spec.Vector.move]
    rw [show (1 : Int) = ((1 : Nat) : Int) from rfl, u1]
    cases up v.cap p 1 <;> rfl
  | dec =>
    simp only [RIter.apply, RIter.preDec, Prog.bind_run, itAt, Spec.Vector.move]
    rw [show (-1 : Int) = -((1 : Nat) : Int) from rfl, d1]
    cases down p 1 <;> rfl
  | postInc old =>
    simp only [RIter.apply, RIter.postInc, Prog.bind_run, itAt, Spec.Vector.move]
    rw [show (1 : Int) = ((1 : Nat) : Int) from rfl, u1]
    cases up v.cap p 1 <;> cases old <;> rfl
  | postDec old =>
    simp only [RIter.apply, RIter.postDec, Prog.bind_run, itAt, Spec.Vector.move]
    rw [show (-1 : Int) = -((1 : Nat) : Int) from rfl, d1]
    cases down p 1 <;> cases old <;> rfl
  | plus n =>
    simp only [RIter.apply, RIter.plus, Prog.bind_run, itAt, Spec.Vector.move]
    rw [up_run r hp n]
    cases up v.cap p n <;> rfl
  | minus n =>
    simp only [RIter.apply, RIter.minus, Prog.bind_run, itAt, Spec.Vector.move]
    rw [down_run r hp n]
    cases down p n <;> rfl

theorem move_le {room p q : Nat} {m : Move} (hp : p ≤ room) (h : Spec.Vector.move room m p = some q) : q ≤ room := by
  cases m <;> simp only [Spec.Vector.move, up, down, Option.map_eq_some_iff] at h <;> try (split at h <;> cases h <;> omega)
  all_goals
    obtain ⟨a, h1, h2⟩ := h
    split at h1 <;> cases h1
    subst h2
    split <;> omega

theorem walk_le {room : Nat} (ms : List Move) {p q : Nat} (hp : p ≤ room) (h : walk room ms p = some q) : q ≤ room := by
  induction ms generalizing p with
  | nil => cases h; exact hp
  | cons m ms ih =>
    simp only [walk, Option.bind_eq_some_iff] at h
    obtain ⟨p', h1, h2⟩ := h
    exact ih (move_le hp h1) h2

theorem applyAll_run {h : Heap α} {v : Vec} {xs : List α} (r : Rep ty h v xs) (ms : List Move) {p : Nat} (hp : p ≤ v.cap) :
    (itAt v p).applyAll ms h = match walk v.cap ms p with | some q => .ok (itAt v q, h) | none => .ub := by
  induction ms generalizing p with
  | nil => rfl
  | cons m ms ih =>
    simp only [RIter.applyAll, Prog.bind_run, apply_run r hp, walk]
    cases hm : Spec.Vector.move v.cap m p with
    | none => rfl
    | some q => exact ih (move_le hp hm)

theorem walkIn_run {w : World α} {i : Nat} {v : Vec} {xs : List α} (hv : w.vars i = some v) (r : Rep ty w.heap v xs)
    (fromEnd : Bool) (ms : List Move) :
    walkIn i fromEnd ms w = match walk v.cap ms (if fromEnd then v.len else 0) with
      | some q => .ok (itAt v q, w) | none => .ub := by
  have hle := r.le
  have hl := r.len
  have e : (if fromEnd then endIt v else begin v) w.heap = .ok (itAt v (if fromEnd then v.len else 0), w.heap) := by
    cases fromEnd
    · exact begin_ok r
    · exact end_ok r
  simp only [walkIn, Prog.bind_run, run_var hv, Out.bind_ok, inHeap_run, e]
  rw [applyAll_run r ms (by cases fromEnd <;> simp <;> omega)]
  cases walk v.cap ms (if fromEnd then v.len else 0) <;> rfl

theorem deref_at {h : Heap α} {v v0 : Vec} {xs : List α} (r : Rep ty h v xs) (hp : v0.ptr = v.ptr) {p : Nat} (hc : p ≤ v.cap) :
    (itAt v0 p).deref h = match xs[p]? with | some x => .ok (x, h) | none => .ub := by
  cases hx : xs[p]? with
  | some x => simp only [RIter.deref, Ptr.read, itAt, hp]; exact r.slot hx
  | none =>
    simp only [RIter.deref, Ptr.read, itAt, hp]
    have ho := r.own
    have hle := r.le
    rw [List.getElem?_eq_none_iff] at hx
    cases hq : v.ptr with
    | none => rfl
    | some b =>
      rw [hq] at ho
      obtain ⟨e, hl, -⟩ := ho
      have e1 : (xs.map some ++ raws (v.cap - xs.length))[p]? = none ∨
          (xs.map some ++ raws (v.cap - xs.length))[p]? = some none := by
        rw [List.getElem?_append_right (by simpa using hx), raws, List.getElem?_replicate]
        split
        · exact .inr rfl
        · exact .inl rfl
      rcases e1 with e1 | e1 <;> simp only [load, access, e, e1, Option.map_none]

theorem dist_at {h : Heap α} {v v' : Vec} (hp : v.ptr = v'.ptr) (p q : Nat) :
    (itAt v p).dist (itAt v' q) h = .ok (toUsize ((p : Int) - q), h) := by
  simp only [RIter.dist, Ptr.diff, itAt, Prog.bind_run, hp, if_true, Out.bind_ok, Prog.pure_run]

theorem pos_at {h : Heap α} {v : Vec} {p : Nat} (hp : p < wordSize) : (itAt v p).pos h = .ok (p, h) := by
  simp only [RIter.pos, Ptr.diff, itAt, Prog.bind_run, if_true, Out.bind_ok, Prog.pure_run, toUsize]
  congr 2
  rw [show ((wordSize : Nat) : Int) = 18446744073709551616 from rfl]
  have : wordSize = 18446744073709551616 := rfl
  omega

theorem toUsize_le {p q : Nat} (h : q ≤ p) (hp : p < wordSize) : toUsize ((p : Int) - q) = p - q := by
  unfold toUsize
  rw [show ((wordSize : Nat) : Int) = 18446744073709551616 from rfl]
  have : wordSize = 18446744073709551616 := rfl
  omega

theorem toUsize_gt {p q : Nat} (h : p < q) (hp : q < wordSize) : toUsize ((p : Int) - q) = wordSize - (q - p) := by
  unfold toUsize
  rw [show ((wordSize : Nat) : Int) = 18446744073709551616 from rfl]
  have : wordSize = 18446744073709551616 := rfl
  omega

theorem cmp_at {h : Heap α} {v v' : Vec} (hp : v.ptr = v'.ptr) (p q : Nat) :
    (itAt v p).cmp (itAt v' q) h = .ok (compare p q, h) := by
  simp only [RIter.cmp, Ptr.diff, itAt, Prog.bind_run, hp, if_true, Out.bind_ok, Prog.pure_run]
  congr 2
  rw [Int.compare_eq_ite_le, Nat.compare_eq_ite_le]
  repeat' split
  all_goals first | rfl | omega

theorem eq_at {v v' : Vec} {p q : Nat} (hp : v.ptr = v'.ptr) : (itAt v p).eq (itAt v' q) = (p == q && v.len == v'.len) := by
  simp only [RIter.eq, itAt, hp]
  rw [Bool.eq_iff_iff]
  simp

theorem stlLoop_run {h : Heap α} {v : Vec} {xs : List α} (r : Rep ty h v xs) (n : Nat) {p : Nat} (hn : p + n = xs.length) (acc : List α) :
    stlLoop (itAt v p) (itAt v v.len) acc h = .ok (acc ++ xs.drop p, h) := by
  have hle := r.le
  have hl := r.len
  induction n generalizing p acc with
  | zero =>
    rw [stlLoop, eq_at rfl]
    have : p = v.len := by omega
    simp [this, hl]
  | succ n ih =>
    rw [stlLoop, eq_at rfl, if_neg (by simp; omega)]
    simp only [Prog.bind_run, deref_at r rfl (show p ≤ v.cap by omega)]
    rw [List.getElem?_eq_getElem (by omega)]
    simp only [Out.bind_ok]
    have := apply_run r (show p ≤ v.cap by omega) .inc
    simp only [RIter.apply, Spec.Vector.move, up, if_pos (show p + 1 ≤ v.cap by omega)] at this
    rw [this]
    simp only [Out.bind_ok]
    rw [ih (by omega)]
    rw [List.append_assoc, List.singleton_append, List.getElem_cons_drop]

end Verif.Proof.Vector
