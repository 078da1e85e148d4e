import Verif.Proof.VectorIter
import Verif.Spec.VectorRange
/-! # Vectors given ranges of vectors -/
namespace Verif.Proof.Vector
open Verif Verif.Model.Mem Verif.Model.Vector Verif.Proof.Mem
open Verif.Spec.Vector hiding upd

variable {α : Type} {ty : ElemTy α}

/-- The content of slot `k` of block `b`. -/
def cellAt (h : Heap α) (b k : Nat) : Option (Option α) := (h.blocks b).bind fun blk => blk.slots[k]?

theorem cell_own {h : Heap α} {b cap owner : Nat} {sl : List (Option α)} (o : Own ty h (some b) cap owner sl) (k : Nat) :
    cellAt h b k = sl[k]? := by simp only [Own] at o; simp [cellAt, o.1]

theorem load_cell {h : Heap α} {b k : Nat} {x : α} (hc : cellAt h b k = some (some x)) : load (some b) k h = .ok (x, h) := by
  unfold cellAt at hc
  cases hb : h.blocks b with
  | none => rw [hb] at hc; cases hc
  | some blk =>
    rw [hb] at hc
    simp only [Option.bind_some] at hc
    have hset : blk.slots.set k (some x) = blk.slots := by
      apply List.ext_getElem?
      intro j
      by_cases hj : k = j
      · subst hj
        have hlt : k < blk.slots.length := by rw [List.getElem?_eq_some_iff] at hc; exact hc.1
        rw [List.getElem?_set_self hlt, hc]
      · simp [List.getElem?_set, hj]
    have hu : upd h.blocks b (some blk) = h.blocks := by
      funext b'; simp only [upd]; split
      · rename_i heq; subst heq; exact hb.symm
      · rfl
    simp only [load, access, hb, hc, Option.map_some, hset, hu]
    rfl

theorem load_raw {h : Heap α} {b k : Nat} (hc : cellAt h b k = some none ∨ cellAt h b k = none) :
    load (some b) k h = .ub := by
  unfold cellAt at hc
  cases hb : h.blocks b with
  | none => simp [load, access, hb]
  | some blk =>
    rw [hb] at hc
    simp only [Option.bind_some] at hc
    rcases hc with hc | hc <;> simp [load, access, hb, hc]

theorem cell_construct {h h' : Heap α} {p : Option Nat} {i : Nat} {x : α} {u : Unit} (e : construct p i x h = .ok (u, h'))
    (b k : Nat) : cellAt h' b k = if p = some b ∧ i = k then some (some x) else cellAt h b k := by
  cases p with
  | none => cases e
  | some b0 =>
    simp only [construct, access] at e
    cases hb : h.blocks b0 with
    | none => rw [hb] at e; cases e
    | some blk =>
      rw [hb] at e
      simp only at e
      cases hs : blk.slots[i]? with
      | none => rw [hs] at e; cases e
      | some o =>
        rw [hs] at e
        cases e
        have hlt : i < blk.slots.length := by rw [List.getElem?_eq_some_iff] at hs; exact hs.1
        by_cases hbb : b0 = b
        · subst hbb
          simp only [cellAt, upd, if_true, Option.bind_some, hb, true_and]
          rw [List.getElem?_set]
          by_cases hik : i = k
          · subst hik; simp [hlt]
          · simp [hik]
        · rw [if_neg (by simp [hbb])]
          have hbb' : b ≠ b0 := fun e => hbb e.symm
          simp [cellAt, upd, hbb']

theorem move_cell {h : Heap α} {b k : Nat} {o : Option α} (hc : cellAt h b k = some o) :
    Ptr.move ⟨some b, k⟩ 1 h = .ok (⟨some b, k + 1⟩, h) := by
  unfold cellAt at hc
  cases hb : h.blocks b with
  | none => rw [hb] at hc; cases hc
  | some blk =>
    rw [hb] at hc
    simp only [Option.bind_some] at hc
    have hlt : k < blk.slots.length := by rw [List.getElem?_eq_some_iff] at hc; exact hc.1
    simp only [Ptr.move, hb]
    rw [if_pos (by omega)]
    rfl

theorem bind_congr_safe {β γ : Type} {x : Out β} {P : β → Prop} {F G : β → Out γ} (hs : x.Safe P)
    (hFG : ∀ q, P q → F q = G q) : (x >>= F) = (x >>= G) := by
  cases x with
  | ok q => exact hFG q hs
  | oom => rfl
  | div => exact hs.elim
  | panic => exact hs.elim
  | ub => exact hs.elim

theorem out_assoc {β γ δ : Type} (x : Out β) (f : β → Out γ) (g : γ → Out δ) :
    (x >>= f >>= g) = (x >>= fun b => f b >>= g) := by cases x <;> rfl

/-- Where the copying loop finds the elements `ys`: in slots it has not written, or in slots it has written earlier. -/
def Reads (h : Heap α) (p : Option Nat) (i b lo : Nat) (ys : List α) : Prop :=
  ∀ k x, ys[k]? = some x →
    (cellAt h b (lo + k) = some (some x) ∧ (p = some b → ∀ m, m < k → i + m ≠ lo + k)) ∨
    (p = some b ∧ (∃ o, cellAt h b (lo + k) = some o) ∧ ∃ m, m < k ∧ i + m = lo + k ∧ ys[m]? = some x)

theorem Reads.head {h : Heap α} {p : Option Nat} {i b lo : Nat} {y : α} {ys : List α} (r : Reads h p i b lo (y :: ys)) :
    cellAt h b lo = some (some y) := by
  rcases r 0 y rfl with h1 | ⟨-, -, m, hm, -⟩
  · exact h1.1
  · omega

theorem Reads.tail {h h' : Heap α} {p : Option Nat} {i b lo : Nat} {y : α} {ys : List α} {u : Unit}
    (r : Reads h p i b lo (y :: ys)) (e : construct p i y h = .ok (u, h')) : Reads h' p (i + 1) b (lo + 1) ys := by
  intro k x hx
  have hc := cell_construct e b (lo + 1 + k)
  rcases r (k + 1) x (by simpa using hx) with ⟨h1, h2⟩ | ⟨h1, ⟨o, h2⟩, m, hm, h3, h4⟩
  · left
    rw [show lo + (k + 1) = lo + 1 + k by omega] at h1 h2
    refine ⟨?_, fun hp m hm => ?_⟩
    · rw [hc, if_neg, h1]
      rintro ⟨hp, hi⟩
      exact h2 hp 0 (by omega) (by omega)
    · have := h2 hp (m + 1) (by omega); omega
  · rw [show lo + (k + 1) = lo + 1 + k by omega] at h2 h3
    cases m with
    | zero =>
      left
      have hyx : y = x := by simpa using h4
      refine ⟨?_, fun _ m hm => by omega⟩
      rw [hc, if_pos ⟨h1, by omega⟩, hyx]
    | succ m =>
      right
      refine ⟨h1, ⟨o, ?_⟩, m, by omega, by omega, by simpa using h4⟩
      rw [hc, if_neg (by omega), h2]

theorem iter_eq {bg st : Ptr} {b lo hi : Nat} :
    RIter.eq ⟨bg, ⟨some b, lo⟩, st⟩ ⟨bg, ⟨some b, hi⟩, st⟩ = decide (lo = hi) := by
  by_cases hl : lo = hi <;> simp [RIter.eq, hl]

theorem fillRange_eq {b : Nat} {bg st : Ptr} {p : Option Nat} (ys : List α) {h : Heap α} {i lo hi : Nat}
    (hhi : hi = lo + ys.length) (hw : i + ys.length ≤ wordSize) (hr : Reads h p i b lo ys) :
    fillRange p i ⟨bg, ⟨some b, lo⟩, st⟩ ⟨bg, ⟨some b, hi⟩, st⟩ h = constructList p i ys h := by
  induction ys generalizing h i lo with
  | nil =>
    rw [fillRange, iter_eq, if_pos (by simp [hhi])]
    rfl
  | cons y ys ih =>
    simp only [List.length_cons] at hhi hw
    rw [fillRange, iter_eq, if_neg (by simp; omega)]
    have hwr : wrap i = i := wrap_of_lt (by omega)
    simp only [Prog.bind_run, RIter.deref, Ptr.read, load_cell hr.head, Out.bind_ok, constructList, hwr]
    cases e : construct p i y h with
    | ok q =>
      obtain ⟨u, h1⟩ := q
      have hc : cellAt h1 b lo = some (some y) := by
        rw [cell_construct e b lo]; split
        · rfl
        · exact hr.head
      simp only [Out.bind_ok, RIter.preInc, Prog.bind_run, move_cell hc, Prog.pure_run]
      exact ih (by omega) (by omega) (hr.tail e)
    | div => rfl
    | panic => rfl
    | oom => rfl
    | ub => rfl

theorem fillRange_ub {b : Nat} {bg st : Ptr} {p : Option Nat} {h : Heap α} {i lo hi : Nat} (hne : lo ≠ hi)
    (hc : cellAt h b lo = some none ∨ cellAt h b lo = none) :
    fillRange p i ⟨bg, ⟨some b, lo⟩, st⟩ ⟨bg, ⟨some b, hi⟩, st⟩ h = .ub := by
  rw [fillRange, iter_eq, if_neg (by simpa using hne)]
  simp only [Prog.bind_run, RIter.deref, Ptr.read, load_raw hc]
  rfl

theorem appendRange_eq {b : Nat} {bg st : Ptr} (ys : List α) {h : Heap α} {v : Vec} {lo hi : Nat}
    (hhi : hi = lo + ys.length) (hw : v.len + ys.length < wordSize) (hr : Reads h v.ptr v.len b lo ys) :
    appendRange v ⟨bg, ⟨some b, lo⟩, st⟩ ⟨bg, ⟨some b, hi⟩, st⟩ h =
      (constructList v.ptr v.len ys h >>= fun q => .ok ({ v with len := v.len + ys.length }, q.2)) := by
  induction ys generalizing h v lo with
  | nil =>
    rw [appendRange, iter_eq, if_pos (by simp [hhi])]
    rfl
  | cons y ys ih =>
    simp only [List.length_cons] at hhi hw
    rw [appendRange, iter_eq, if_neg (by simp; omega)]
    have hwr : wrap v.len = v.len := wrap_of_lt (by omega)
    simp only [Prog.bind_run, RIter.deref, Ptr.read, load_cell hr.head, Out.bind_ok, constructList, hwr]
    cases e : construct v.ptr v.len y h with
    | ok q =>
      obtain ⟨u, h1⟩ := q
      have hc : cellAt h1 b lo = some (some y) := by
        rw [cell_construct e b lo]; split
        · rfl
        · exact hr.head
      simp only [Out.bind_ok, RIter.postInc, Prog.bind_run, move_cell hc, Prog.pure_run]
      have hw1 : wrap (v.len + 1) = v.len + 1 := wrap_of_lt (by omega)
      rw [ih (v := { v with len := wrap (v.len + 1) }) (by omega) (by simp only [hw1]; omega) (by simpa only [hw1] using hr.tail e)]
      simp only [hw1, List.length_cons]
      rw [show v.len + 1 + ys.length = v.len + (ys.length + 1) by omega]
    | div => rfl
    | panic => rfl
    | oom => rfl
    | ub => rfl

/-! ## What the calls do before the copying loop -/

/-- Making room for `n` elements at position `pos`. -/
def makeRoom (ty : ElemTy α) (v : Vec) (pos n : Nat) : M α Vec := do
  let v ← (if wrap (v.len + n) > v.cap then allocateReserve ty v (wrap (v.len + n)) else pure v)
  moveElementsBack ty v pos n

theorem makeRoom_ok {h : Heap α} {v : Vec} {zs ts : List α} {n pos : Nat} (rp : Rep ty h v (zs ++ ts)) (hb : Bal h)
    (hz : zs ≠ []) (hn : 0 < n) (hpos : pos = zs.length) (hw : (zs.length + ts.length + n) * ty.size < wordSize) :
    (makeRoom ty v pos n h).Safe fun q => ∃ k, Gap ty h v.ptr zs ts n (max v.cap (zs.length + ts.length + n)) v.alloc k q.1 q.2 ∧
      (zs.length + ts.length + n ≤ v.cap → q.1.ptr = v.ptr) ∧
      (v.cap < zs.length + ts.length + n → ∀ b, v.ptr = some b → q.1.ptr ≠ some b) := by
  have hl : v.len = zs.length + ts.length := by simpa using rp.len
  have hlt : zs.length + ts.length + n < wordSize :=
    Nat.lt_of_le_of_lt (Nat.le_mul_of_pos_right _ ty.size_pos) hw
  have hwr : wrap (v.len + n) = zs.length + ts.length + n := by rw [hl, wrap_of_lt hlt]
  simp only [makeRoom, Prog.bind_run, hwr]
  have key : ((if zs.length + ts.length + n > v.cap then allocateReserve ty v (zs.length + ts.length + n) else pure v) h : Out _).Safe
      fun q => ∃ k, To ty h v.ptr (zs ++ ts) (max v.cap (zs.length + ts.length + n)) v.alloc k q.1 q.2 ∧
        (zs.length + ts.length + n ≤ v.cap → q.1.ptr = v.ptr) ∧
        (v.cap < zs.length + ts.length + n → ∀ b, v.ptr = some b → q.1.ptr ≠ some b) := by
    by_cases hgt : zs.length + ts.length + n > v.cap
    · rw [if_pos hgt]
      exact (allocateReserve_ok rp hb (by omega) hw).mono fun q hq =>
        ⟨_, hq.1.cast rfl (by omega) rfl rfl, fun hle => by omega, fun _ => hq.2.2⟩
    · rw [if_neg hgt]
      exact ⟨_, (To.same rp hb).cast rfl (by omega) rfl rfl, fun _ => rfl, fun hlt => absurd hlt hgt⟩
  apply key.bind
  rintro ⟨v1, h1⟩ ⟨k, t1, hp1, hp2⟩
  simp only at t1 hp1 hp2 ⊢
  have hcap : v1.cap = max v.cap (zs.length + ts.length + n) := t1.cap
  refine (moveElementsBack_ok t1.rep t1.bal hz (.inl hn) hpos hw).mono ?_
  rintro ⟨v2, h2⟩ ⟨k2, g, gp, -⟩
  simp only at g gp ⊢
  have gp := gp (by omega)
  refine ⟨_, ⟨g.own, g.len, g.fits, t1.step.trans g.step, g.bal, by rw [g.cap]; omega, by rw [g.alloc, t1.alloc]⟩, ?_, ?_⟩
  · intro hf; rw [gp, hp1 hf]
  · intro hf; rw [gp]; exact hp2 hf

theorem insertRange_run (v : Vec) (pos : Nat) (ys : List α) (h : Heap α) :
    insertRange ty v pos ys h =
      (makeRoom ty v pos ys.length h >>= fun q => constructList q.1.ptr pos ys q.2 >>= fun r => .ok ((q.1, pos), r.2)) := by
  simp only [insertRange, makeRoom, Prog.bind_run, out_assoc, Prog.pure_run]

theorem insertRangeIn_run (v : Vec) (pos n : Nat) {first last : RIter} {h : Heap α}
    (hd : absDistance first last h = .ok (n, h)) :
    insertRangeIn ty v pos first last h =
      (makeRoom ty v pos n h >>= fun q => fillRange q.1.ptr pos first last q.2 >>= fun r => .ok ((q.1, pos), r.2)) := by
  simp only [insertRangeIn, makeRoom, Prog.bind_run, hd, Out.bind_ok, out_assoc, Prog.pure_run]

theorem absDistance_itAt (v : Vec) {lo hi : Nat} (hle : lo ≤ hi) (hlt : hi < 9223372036854775808) (h : Heap α) :
    absDistance (itAt v lo) (itAt v hi) h = .ok (hi - lo, h) := by
  have hW : (wordSize : Int) = 18446744073709551616 := rfl
  have e : toUsize ((hi : Int) - lo) = hi - lo := by
    unfold toUsize
    rw [Int.emod_eq_of_lt (by omega) (by omega)]
    omega
  simp only [absDistance, RIter.dist, itAt, Ptr.diff, Prog.bind_run, if_true, Out.bind_ok, Prog.pure_run, e]
  rw [if_pos (by omega)]

/-! ## Cells around the gap -/

section cells
variable {h h' : Heap α} {p : Option Nat} {zs ts : List α} {n cap al b : Nat} {k : Cost} {v' : Vec}

theorem Gap.front (g : Gap ty h p zs ts n cap al k v' h') (hp : v'.ptr = some b) {j : Nat} {x : α} (hj : j < zs.length)
    (hx : (zs ++ ts)[j]? = some x) : cellAt h' b j = some (some x) := by
  have o := g.own
  rw [hp] at o
  rw [cell_own o, List.getElem?_append_left (by simpa using hj), List.getElem?_map]
  rw [List.getElem?_append_left hj] at hx
  rw [hx]; rfl

theorem Gap.hole (g : Gap ty h p zs ts n cap al k v' h') (hp : v'.ptr = some b) {j : Nat} (hj : zs.length ≤ j)
    (hj' : j < zs.length + n) : cellAt h' b j = some none := by
  have o := g.own
  rw [hp] at o
  rw [cell_own o, List.getElem?_append_right (by simpa using hj),
    List.getElem?_append_left (by simp [raws]; omega)]
  simp only [raws, List.getElem?_replicate, List.length_map]
  rw [if_pos (by omega)]

theorem Gap.back (g : Gap ty h p zs ts n cap al k v' h') (hp : v'.ptr = some b) {j : Nat} {x : α} (hj : zs.length + n ≤ j)
    (hx : (zs ++ ts)[j - n]? = some x) : cellAt h' b j = some (some x) := by
  have o := g.own
  rw [hp] at o
  rw [List.getElem?_append_right (by omega)] at hx
  have hlt : j - n - zs.length < ts.length := by rw [List.getElem?_eq_some_iff] at hx; exact hx.1
  rw [cell_own o, List.getElem?_append_right (by simp; omega), List.getElem?_append_right (by simp [raws]; omega),
    List.getElem?_append_left (by simp [raws]; omega), List.getElem?_map]
  simp only [raws, List.length_map, List.length_replicate]
  rw [show j - zs.length - n = j - n - zs.length by omega, hx]; rfl

end cells

theorem rep_cell {h : Heap α} {v : Vec} {xs : List α} (r : Rep ty h v xs) {b : Nat} (hp : v.ptr = some b) {j : Nat} {x : α}
    (hx : xs[j]? = some x) : cellAt h b j = some (some x) := by
  have o := r.own
  rw [hp] at o
  have hlt : j < xs.length := by rw [List.getElem?_eq_some_iff] at hx; exact hx.1
  rw [cell_own o, List.getElem?_append_left (by simpa using hlt), List.getElem?_map, hx]
  rfl

theorem cut_get {xs : List α} {lo hi k : Nat} {x : α} (hx : (cut xs lo hi)[k]? = some x) : k < hi - lo ∧ xs[lo + k]? = some x := by
  unfold cut at hx
  have hk : k < hi - lo := by
    have := (List.getElem?_eq_some_iff.1 hx).1
    simp at this; omega
  rw [List.getElem?_take_of_lt hk, List.getElem?_drop] at hx
  exact ⟨hk, hx⟩

theorem cut_length {xs : List α} {lo hi : Nat} (hle : lo ≤ hi) (hhi : hi ≤ xs.length) : (cut xs lo hi).length = hi - lo := by
  simp [cut]; omega

theorem cycle_eq {zs : List α} (hz : zs ≠ []) (n : Nat) :
    ∃ f : Nat → α, (∀ k, zs[k % zs.length]? = some (f k)) ∧ cycle zs n = (List.range n).map f := by
  have hp := List.length_pos_iff.2 hz
  refine ⟨fun k => zs[k % zs.length]'(Nat.mod_lt _ hp), fun k => List.getElem?_eq_getElem _, ?_⟩
  unfold cycle
  rw [← List.filterMap_eq_map]
  congr 1
  funext k
  exact List.getElem?_eq_getElem _

theorem cycle_length {zs : List α} (hz : zs ≠ []) (n : Nat) : (cycle zs n).length = n := by
  obtain ⟨f, -, e⟩ := cycle_eq hz n
  simp [e]

theorem cycle_get {zs : List α} (hz : zs ≠ []) {n k : Nat} {x : α} (hx : (cycle zs n)[k]? = some x) :
    k < n ∧ zs[k % zs.length]? = some x := by
  obtain ⟨f, hf, e⟩ := cycle_eq hz n
  rw [e, List.getElem?_map] at hx
  by_cases hk : k < n
  · rw [List.getElem?_range hk] at hx
    simp only [Option.map_some, Option.some.injEq] at hx
    exact ⟨hk, by rw [hf, hx]⟩
  · rw [List.getElem?_eq_none (by simp; omega)] at hx; cases hx

theorem cycle_get_of {zs : List α} (hz : zs ≠ []) {n k : Nat} {x : α} (hk : k < n) (hx : zs[k % zs.length]? = some x) :
    (cycle zs n)[k]? = some x := by
  obtain ⟨f, hf, e⟩ := cycle_eq hz n
  rw [e, List.getElem?_map, List.getElem?_range hk]
  rw [hf] at hx
  exact hx

/-! ## The calls -/

section calls
variable {h : Heap α} {v : Vec} {zs ts ys : List α} {pos : Nat} {u : Vec} {b lo hi : Nat}

theorem insertIn_eq (rp : Rep ty h v (zs ++ ts)) (hb : Bal h) (hz : zs ≠ []) (hpos : pos = zs.length)
    (hu : u.ptr = some b) (hlt : lo < hi) (hsm : hi < 9223372036854775808) (hlen : ys.length = hi - lo)
    (hw : (zs.length + ts.length + ys.length) * ty.size < wordSize)
    (H : ∀ q h2 cap k, Gap ty h v.ptr zs ts ys.length cap v.alloc k q h2 →
      (zs.length + ts.length + ys.length ≤ v.cap → q.ptr = v.ptr) →
      (v.cap < zs.length + ts.length + ys.length → ∀ b, v.ptr = some b → q.ptr ≠ some b) → Reads h2 q.ptr pos b lo ys) :
    insertRangeIn ty v pos (itAt u lo) (itAt u hi) h = insertRange ty v pos ys h := by
  rw [insertRangeIn_run v pos (hi - lo) (absDistance_itAt u (by omega) hsm h), insertRange_run, ← hlen]
  refine bind_congr_safe (makeRoom_ok rp hb hz (by omega) hpos hw) ?_
  rintro ⟨q, h2⟩ ⟨k, g, h3, h4⟩
  simp only at g h3 h4 ⊢
  have hlw : zs.length + ts.length + ys.length < wordSize := Nat.lt_of_le_of_lt (Nat.le_mul_of_pos_right _ ty.size_pos) hw
  have := fillRange_eq (b := b) (bg := ⟨some b, 0⟩) (st := ⟨some b, u.len⟩) (p := q.ptr) ys (h := h2) (i := pos) (lo := lo) (hi := hi)
    (by omega) (by omega) (H q h2 _ k g h3 h4)
  simp only [itAt, hu, this]

theorem insertIn_ub (rp : Rep ty h v (zs ++ ts)) (hb : Bal h) (hz : zs ≠ []) (hpos : pos = zs.length)
    (hu : u.ptr = some b) (hlt : lo < hi) (hsm : hi < 9223372036854775808)
    (hw : (zs.length + ts.length + (hi - lo)) * ty.size < wordSize)
    (H : ∀ q h2 cap k, Gap ty h v.ptr zs ts (hi - lo) cap v.alloc k q h2 →
      (zs.length + ts.length + (hi - lo) ≤ v.cap → q.ptr = v.ptr) →
      (v.cap < zs.length + ts.length + (hi - lo) → ∀ b, v.ptr = some b → q.ptr ≠ some b) →
      cellAt h2 b lo = some none ∨ cellAt h2 b lo = none) :
    insertRangeIn ty v pos (itAt u lo) (itAt u hi) h = (makeRoom ty v pos (hi - lo) h >>= fun _ => .ub) := by
  rw [insertRangeIn_run v pos (hi - lo) (absDistance_itAt u (by omega) hsm h)]
  refine bind_congr_safe (makeRoom_ok rp hb hz (by omega) hpos hw) ?_
  rintro ⟨q, h2⟩ ⟨k, g, h3, h4⟩
  simp only at g h3 h4 ⊢
  have := fillRange_ub (b := b) (bg := ⟨some b, 0⟩) (st := ⟨some b, u.len⟩) (p := q.ptr) (h := h2) (i := pos) (lo := lo) (hi := hi)
    (by omega) (H q h2 _ k g h3 h4)
  simp only [itAt, hu, this]
  rfl

/-- Without new memory room is made without fail. -/
theorem makeRoom_fits {n : Nat} (rp : Rep ty h v (zs ++ ts)) (hz : zs ≠ []) (hts : ts ≠ []) (hn : 0 < n) (hpos : pos = zs.length)
    (hf : zs.length + ts.length + n ≤ v.cap) : ∃ q, makeRoom ty v pos n h = .ok q := by
  have hl : v.len = zs.length + ts.length := by simpa using rp.len
  have hzp := List.length_pos_iff.2 hz
  have htp := List.length_pos_iff.2 hts
  have ho := rp.own
  have hcl := ho.cap_lt
  have hW : wordSize = 18446744073709551616 := rfl
  have hwr : ¬ wrap (v.len + n) > v.cap := by rw [wrap_of_lt (by omega)]; omega
  obtain ⟨h2, e2, o2, s2⟩ := moveBackLoop_ok (ty := ty) (h := h) (p := v.ptr) (cap := v.cap) (owner := v.alloc) (c := n)
    (post := raws (v.cap - (zs.length + n + ts.length))) zs hz hn ts.length ts [] rfl (hi := v.len - 1) (by omega) hpos (by
      simp only [List.map_append, List.append_assoc, List.length_append] at ho
      rw [show v.cap - (zs.length + ts.length) = n + (v.cap - (zs.length + n + ts.length)) by omega, ← raws_append] at ho
      simpa using ho)
  refine ⟨({ v with len := wrap (v.len + n) }, h2), ?_⟩
  simp only [makeRoom, moveElementsBack, if_neg hwr, Prog.bind_run, Prog.pure_run, Out.bind_ok]
  rw [if_neg (by omega)]
  simp only [Prog.bind_run, Prog.pure_run, Out.bind_ok, e2]

theorem newIn_eq {a : Nat} (ru : Rep ty h u zs) (hb : Bal h) (hle : lo ≤ hi) (hhi : hi ≤ zs.length)
    (hw : (hi - lo) * ty.size < wordSize) :
    newRangeIn ty (itAt u lo) (itAt u hi) a h = newRange ty (cut zs lo hi) a h := by
  have hcl := ru.own.cap_lt
  have hule := ru.le
  have hlen := cut_length (xs := zs) hle hhi
  simp only [newRangeIn, newRange, Prog.bind_run, absDistance_itAt u hle (by omega) h, Out.bind_ok, hlen]
  refine bind_congr_safe (allocate_ok hb a (hi - lo) hw) ?_
  rintro ⟨v1, h1⟩ ⟨t1, hv⟩
  simp only at t1 hv ⊢
  have hl0 : v1.len = 0 := by simpa using t1.rep.len
  cases hp : u.ptr with
  | none =>
    have ho := ru.own
    rw [hp] at ho
    have h0 := ho.2
    have : lo = hi := by omega
    subst this
    rw [appendRange, if_pos (by simp [RIter.eq])]
    have hcut : cut zs lo lo = [] := by simp [cut]
    simp only [hcut, constructList, Prog.pure_run, Out.bind_ok]
    rw [show lo - lo = 0 by omega, ← hl0]
  | some b =>
    have hne : v1.ptr ≠ some b := by
      intro e
      have := t1.step.fresh b (by simp [e]) (by simp)
      obtain ⟨blk, h3⟩ := ru.block hp
      rw [this] at h3; cases h3
    have r1 : Rep ty h1 u zs := ru.keep t1.step (by simp)
    have hr : Reads h1 v1.ptr v1.len b lo (cut zs lo hi) := by
      intro k x hx
      exact .inl ⟨rep_cell r1 hp (cut_get hx).2, fun e => absurd e hne⟩
    have hW : wordSize = 18446744073709551616 := rfl
    have := appendRange_eq (b := b) (bg := ⟨some b, 0⟩) (st := ⟨some b, u.len⟩) (cut zs lo hi) (h := h1) (v := v1) (lo := lo) (hi := hi)
      (by omega) (by omega) hr
    simp only [itAt, hp, this, hl0, hlen, Nat.zero_add, Prog.pure_run]

end calls

/-! ## Programs -/

theorem rangeOf_ok {A : Ideal α} {w : World α} (I : Inv ty A w) {j lo hi : Nat} {a : Var α} (hA : A j = some a) (hle : lo ≤ hi)
    (hhi : hi ≤ a.xs.length) : ∃ u, w.vars j = some u ∧ Rep ty w.heap u a.xs ∧ u.cap = a.cap ∧
      rangeOf j lo hi w = .ok ((itAt u lo, itAt u hi), w) := by
  obtain ⟨u, hu, ru, hc, -⟩ := I.get hA
  refine ⟨u, hu, ru, hc, ?_⟩
  have hlecap := ru.le
  have e1 : (itAt u 0).plus lo w.heap = .ok (itAt u lo, w.heap) := by
    simp only [RIter.plus, itAt, Prog.bind_run]
    rw [rep_move ru (by omega), if_pos (by omega)]
    simp
  have e2 : (itAt u 0).plus hi w.heap = .ok (itAt u hi, w.heap) := by
    simp only [RIter.plus, itAt, Prog.bind_run]
    rw [rep_move ru (by omega), if_pos (by omega)]
    simp
  simp only [rangeOf, var, hu, inHeap, Prog.bind_run, Out.bind_ok, begin_ok ru, e1, e2, Prog.pure_run]

theorem of_insertRange {A : Ideal α} {size : Nat} {dflt : α} {i p : Nat} {ys : List α}
    (hs : (specStep false size dflt (.insertRange i p ys) A).isSome = true) : ∃ a, A i = some a ∧ p ≤ a.xs.length ∧
      (1 ≤ p ∨ (a.xs = [] ∧ ys = [])) ∧ (0 < ys.length ∨ p = a.xs.length) ∧ (a.xs.length + ys.length) * size < wordSize := by
  obtain ⟨q, hq⟩ := Option.isSome_iff_exists.1 hs
  obtain ⟨a, r', a', ha, hf, hp⟩ := of_upd hq
  split at hf
  · rename_i hle
    obtain ⟨⟨h1, hn, hw⟩, hf⟩ := of_only hf
    exact ⟨a, ha, hle, h1, hn, hw⟩
  · cases hf

theorem rstep_insert {A : Ideal α} {w : World α} (I : Inv ty A w) {i p j lo hi : Nat} {a c : Var α} (hA : A i = some a)
    (hC : A j = some c) (hle : lo ≤ hi) (hhi : hi ≤ c.xs.length) : ∃ v u, w.vars i = some v ∧ w.vars j = some u ∧
      Rep ty w.heap v a.xs ∧ v.cap = a.cap ∧ Rep ty w.heap u c.xs ∧
      rstep ty (.insertRangeOf i p j lo hi) w = (insertRangeIn ty v p (itAt u lo) (itAt u hi) w.heap >>= fun q =>
        .ok (.pos (some q.1.2), ⟨q.2, bindVar w.vars i (some q.1.1)⟩)) ∧
      ∀ ys, step ty (.insertRange i p ys) w = (insertRange ty v p ys w.heap >>= fun q =>
        .ok (.pos (some q.1.2), ⟨q.2, bindVar w.vars i (some q.1.1)⟩)) := by
  obtain ⟨v, hv, rv, hc, -⟩ := I.get hA
  obtain ⟨u, hu, ru, -, e⟩ := rangeOf_ok I hC hle hhi
  refine ⟨v, u, hv, hu, rv, hc, ru, ?_, fun ys => ?_⟩
  · simp only [rstep, change', var, Prog.bind_run, e, Out.bind_ok, hv, inHeap, out_assoc, Prog.pure_run, setVar]
  · simp only [step, change', var, Prog.bind_run, Out.bind_ok, hv, inHeap, out_assoc, Prog.pure_run, setVar]

theorem of_between {A : Ideal α} {j lo hi : Nat} {ys : List α} (hb : between A j lo hi = some ys) :
    ∃ c, A j = some c ∧ lo ≤ hi ∧ hi ≤ c.xs.length ∧ ys = cut c.xs lo hi := by
  unfold between at hb
  cases hA : A j with
  | none => rw [hA] at hb; cases hb
  | some c =>
    rw [hA] at hb
    simp only [Option.bind_some] at hb
    split at hb
    · rename_i hg; cases hb; exact ⟨c, rfl, hg.1, hg.2, rfl⟩
    · cases hb

theorem rstep_same {A : Ideal α} {w : World α} (I : Inv ty A w) {o : ROp α} {o' : Op α} (hh : harmless A o = true)
    (ho : written A o = some o') (hs : (specStep false ty.size ty.dflt o' A).isSome = true) : rstep ty o w = step ty o' w := by
  cases o with
  | op o => cases ho; rfl
  | newRangeOf i j lo hi al =>
    simp only [written, Option.map_eq_some_iff] at ho
    obtain ⟨ys, hbt, rfl⟩ := ho
    obtain ⟨c, hC, hle, hhi, rfl⟩ := of_between hbt
    obtain ⟨u, hu, ru, -, e⟩ := rangeOf_ok I hC hle hhi
    obtain ⟨q, hq⟩ := Option.isSome_iff_exists.1 hs
    obtain ⟨hw, -⟩ := of_only hq
    rw [cut_length hle hhi] at hw
    simp only [rstep, step, create, Prog.bind_run, e, Out.bind_ok, inHeap, newIn_eq ru I.bal hle hhi hw]
  | insertRangeOf i p j lo hi =>
    simp only [written, Option.map_eq_some_iff] at ho
    obtain ⟨ys, hbt, rfl⟩ := ho
    obtain ⟨c, hC, hle, hhi, rfl⟩ := of_between hbt
    obtain ⟨a, hA, hp, h1, hn, hw⟩ := of_insertRange hs
    obtain ⟨v, u, hv, hu, rv, hcap, ru, e1, e2⟩ := rstep_insert (p := p) I hA hC hle hhi
    rw [e1, e2]
    congr 1
    have hcl := ru.own.cap_lt
    have hule := ru.le
    have hlen := cut_length (xs := c.xs) hle hhi
    by_cases heq : lo = hi
    · subst heq
      have hcut : cut c.xs lo lo = [] := by simp [cut]
      rw [insertRangeIn_run v p (lo - lo) (absDistance_itAt u (by omega) (by omega) _), insertRange_run, hcut]
      have hf : ∀ (q : Option Nat) (h2 : Heap α), fillRange q p (itAt u lo) (itAt u lo) h2 = constructList q p [] h2 := by
        intro q h2
        rw [fillRange, if_pos (by simp [RIter.eq])]; rfl
      simp only [hf, Nat.sub_self, List.length_nil]
    · have hlt : lo < hi := by omega
      have h1 : 1 ≤ p := by
        rcases h1 with h1 | ⟨-, h1⟩
        · exact h1
        · rw [h1] at hlen; simp at hlen; omega
      obtain ⟨hsp, hne, hpl, hll⟩ := take_drop_split hp h1
      rw [hsp] at rv
      cases hup : u.ptr with
      | none =>
        have := ru.own
        rw [hup] at this
        have := this.2
        omega
      | some b =>
        refine insertIn_eq rv I.bal hne hpl hup hlt (by omega) hlen (by rw [hll]; exact hw) ?_
        intro q h2 cap k g hg1 hg2
        by_cases hij : i = j
        · subst hij
          rw [hu] at hv; cases hv
          rw [hC] at hA; cases hA
          simp only [harmless, Bool.or_eq_true, beq_iff_eq, heq, bne_self_eq_false, Bool.false_eq_true, false_or,
            Bool.and_eq_true, decide_eq_true_eq, roomFor, hC, Option.any_some] at hh
          rw [hll, hlen] at hg1
          have hqp : q.ptr = some b := by rw [hg1 (by omega), hup]
          intro m x hx
          obtain ⟨hm, hx⟩ := cut_get hx
          left
          rw [hsp] at hx
          exact ⟨g.front hqp (by omega) hx, fun _ m' hm' => by omega⟩
        · have hvb : v.ptr ≠ some b := fun e => I.sep j i u v b (fun e => hij e.symm) hu hv hup e
          have hnb : b ∉ v.ptr.toList := by simpa using hvb
          have hqb : q.ptr ≠ some b := by
            intro e
            have := g.step.fresh b (by simp [e]) hnb
            obtain ⟨blk, h3⟩ := ru.block hup
            rw [this] at h3; cases h3
          have ru2 : Rep ty h2 u c.xs := ru.keep g.step (by intro b' hb'; rw [hup] at hb'; cases hb'; exact hnb)
          intro m x hx
          exact .inl ⟨rep_cell ru2 hup (cut_get hx).2, fun e => absurd e hqb⟩

/-- What is known about a call with an own range that is not empty. -/
theorem own_setup {A : Ideal α} {w : World α} (I : Inv ty A w) {i p lo hi : Nat} {a : Var α} (hA : A i = some a) (hlt : lo < hi)
    (hhi : hi ≤ a.xs.length) (hs : (specStep false ty.size ty.dflt (.insertRange i p (cut a.xs lo hi)) A).isSome = true) :
    ∃ v b zs ts, a.xs = zs ++ ts ∧ zs ≠ [] ∧ p = zs.length ∧ Rep ty w.heap v (zs ++ ts) ∧ v.ptr = some b ∧ v.cap = a.cap ∧
      hi < 9223372036854775808 ∧ (zs.length + ts.length + (hi - lo)) * ty.size < wordSize ∧
      rstep ty (.insertRangeOf i p i lo hi) w = (insertRangeIn ty v p (itAt v lo) (itAt v hi) w.heap >>= fun q =>
        .ok (.pos (some q.1.2), ⟨q.2, bindVar w.vars i (some q.1.1)⟩)) ∧
      ∀ ys, step ty (.insertRange i p ys) w = (insertRange ty v p ys w.heap >>= fun q =>
        .ok (.pos (some q.1.2), ⟨q.2, bindVar w.vars i (some q.1.1)⟩)) := by
  obtain ⟨a', hA', hp, h1, hn, hw⟩ := of_insertRange hs
  rw [hA] at hA'; cases hA'
  obtain ⟨v, u, hv, hu, rv, hcap, ru, e1, e2⟩ := rstep_insert (p := p) I hA hA (Nat.le_of_lt hlt) hhi
  obtain rfl : u = v := by rw [hu] at hv; injection hv
  have hlen := cut_length (xs := a.xs) (by omega : lo ≤ hi) hhi
  have h1 : 1 ≤ p := by
    rcases h1 with h1 | ⟨-, h1⟩
    · exact h1
    · rw [h1] at hlen; simp at hlen; omega
  obtain ⟨hsp, hne, hpl, hll⟩ := take_drop_split hp h1
  have hcl := ru.own.cap_lt
  have hule := ru.le
  cases hup : u.ptr with
  | none =>
    have := ru.own
    rw [hup] at this
    have := this.2
    omega
  | some b =>
    refine ⟨u, b, _, _, hsp, hne, hpl, by rw [← hsp]; exact ru, hup, hcap, by omega, ?_, e1, e2⟩
    rw [hll, ← hlen]; exact hw

theorem rstep_overlap {A : Ideal α} {w : World α} (I : Inv ty A w) {i p lo hi : Nat} {a : Var α} (hA : A i = some a)
    (hlo : lo < p) (hph : p < hi) (hhi : hi ≤ a.xs.length) (hroom : a.xs.length + (hi - lo) ≤ a.cap)
    (hs : (specStep false ty.size ty.dflt (.insertRange i p (cut a.xs lo hi)) A).isSome = true) :
    rstep ty (.insertRangeOf i p i lo hi) w = step ty (.insertRange i p (cycle (cut a.xs lo p) (hi - lo))) w := by
  obtain ⟨v, b, zs, ts, hx, hz, hp, rv, hvb, hcap, hsm, hw, e1, e2⟩ := own_setup I hA (by omega) hhi hs
  rw [e1, e2]
  congr 1
  have hcl := cut_length (xs := a.xs) (by omega : lo ≤ p) (by omega)
  have hcne : cut a.xs lo p ≠ [] := by intro e; rw [e] at hcl; simp at hcl; omega
  have hyl := cycle_length hcne (hi - lo)
  have hal : a.xs.length = zs.length + ts.length := by simp [hx]
  refine insertIn_eq rv I.bal hz hp hvb (by omega) hsm hyl (by rw [hyl]; exact hw) ?_
  intro q h2 cap k g hg1 hg2
  rw [hyl] at hg1 g
  have hqp : q.ptr = some b := by rw [hg1 (by omega), hvb]
  intro m x hm
  obtain ⟨hmn, hxm⟩ := cycle_get hcne hm
  rw [hcl] at hxm
  by_cases hmp : m < p - lo
  · left
    rw [Nat.mod_eq_of_lt hmp] at hxm
    have := (cut_get hxm).2
    rw [hx] at this
    exact ⟨g.front hqp (by omega) this, fun _ m' hm' => by omega⟩
  · right
    refine ⟨hqp, ⟨none, g.hole hqp (by omega) (by omega)⟩, m - (p - lo), by omega, by omega, ?_⟩
    apply cycle_get_of hcne (by omega)
    rw [hcl, ← Nat.mod_eq_sub_mod (by omega)]
    exact hxm

theorem rstep_behind {A : Ideal α} {w : World α} (I : Inv ty A w) {i p lo hi : Nat} {a : Var α} (hA : A i = some a)
    (hlt : lo < hi) (hpl : p + (hi - lo) ≤ lo) (hhi : hi ≤ a.xs.length) (hroom : a.xs.length + (hi - lo) ≤ a.cap)
    (hs : (specStep false ty.size ty.dflt (.insertRange i p (cut a.xs lo hi)) A).isSome = true) :
    rstep ty (.insertRangeOf i p i lo hi) w = step ty (.insertRange i p (cut a.xs (lo - (hi - lo)) lo)) w := by
  obtain ⟨v, b, zs, ts, hx, hz, hp, rv, hvb, hcap, hsm, hw, e1, e2⟩ := own_setup I hA hlt hhi hs
  rw [e1, e2]
  congr 1
  have hyl := cut_length (xs := a.xs) (by omega : lo - (hi - lo) ≤ lo) (by omega)
  have hal : a.xs.length = zs.length + ts.length := by simp [hx]
  refine insertIn_eq rv I.bal hz hp hvb hlt hsm (by omega) (by rw [hyl, show lo - (lo - (hi - lo)) = hi - lo by omega]; exact hw) ?_
  intro q h2 cap k g hg1 hg2
  rw [hyl, show lo - (lo - (hi - lo)) = hi - lo by omega] at hg1 g
  have hqp : q.ptr = some b := by rw [hg1 (by omega), hvb]
  intro m x hm
  obtain ⟨hmn, hxm⟩ := cut_get hm
  left
  rw [hx, show lo - (hi - lo) + m = lo + m - (hi - lo) by omega] at hxm
  exact ⟨g.back hqp (by omega) hxm, fun _ m' hm' => by omega⟩

theorem rstep_hole {A : Ideal α} {w : World α} (I : Inv ty A w) {i p lo hi : Nat} {a : Var α} (hA : A i = some a)
    (hlt : lo < hi) (hpl : p ≤ lo) (hlp : lo < p + (hi - lo)) (hhi : hi ≤ a.xs.length) (hroom : a.xs.length + (hi - lo) ≤ a.cap)
    (hs : (specStep false ty.size ty.dflt (.insertRange i p (cut a.xs lo hi)) A).isSome = true) :
    rstep ty (.insertRangeOf i p i lo hi) w = .ub := by
  obtain ⟨v, b, zs, ts, hx, hz, hp, rv, hvb, hcap, hsm, hw, e1, e2⟩ := own_setup I hA hlt hhi hs
  have hal : a.xs.length = zs.length + ts.length := by simp [hx]
  have hts : ts ≠ [] := by rintro rfl; simp at hal; omega
  rw [e1, insertIn_ub rv I.bal hz hp hvb hlt hsm hw]
  · obtain ⟨q, e⟩ := makeRoom_fits (n := hi - lo) rv hz hts (by omega) hp (by omega)
    rw [e]; rfl
  · intro q h2 cap k g hg1 hg2
    exact .inl (g.hole (by rw [hg1 (by omega), hvb]) (by omega) (by omega))

theorem rstep_grow {A : Ideal α} {w : World α} (I : Inv ty A w) {i p lo hi : Nat} {a : Var α} (hA : A i = some a)
    (hlt : lo < hi) (hhi : hi ≤ a.xs.length) (hroom : a.cap < a.xs.length + (hi - lo))
    (hs : (specStep false ty.size ty.dflt (.insertRange i p (cut a.xs lo hi)) A).isSome = true) :
    rstep ty (.insertRangeOf i p i lo hi) w = .ub ∨
      (rstep ty (.insertRangeOf i p i lo hi) w = .oom ∧ step ty (.insertRange i p (cut a.xs lo hi)) w = .oom) := by
  obtain ⟨v, b, zs, ts, hx, hz, hp, rv, hvb, hcap, hsm, hw, e1, e2⟩ := own_setup I hA hlt hhi hs
  have hal : a.xs.length = zs.length + ts.length := by simp [hx]
  have hyl := cut_length (xs := a.xs) (by omega : lo ≤ hi) hhi
  have hsafe := makeRoom_ok (n := hi - lo) rv I.bal hz (by omega) hp hw
  rw [e1, e2, insertRange_run, hyl, insertIn_ub rv I.bal hz hp hvb hlt hsm hw]
  · cases e : makeRoom ty v p (hi - lo) w.heap with
    | ok q => exact .inl rfl
    | oom => exact .inr ⟨rfl, rfl⟩
    | div => rw [e] at hsafe; exact hsafe.elim
    | panic => rw [e] at hsafe; exact hsafe.elim
    | ub => rw [e] at hsafe; exact hsafe.elim
  · intro q h2 cap k g hg1 hg2
    right
    have := g.step.gone b (by simp [hvb]) (by simpa using hg2 (by omega) b hvb)
    simp [cellAt, this]

theorem rrun_ok (os : List (ROp α)) {w : World α} (hr : Reach ty w) {rs : List (Res α)} {A' : Ideal α}
    (hs : rspecRun ty.size ty.dflt os (view w) = some (rs, A')) :
    (rrun ty os w).Safe fun q => q.1 = rs ∧ view q.2 = A' ∧ Reach ty q.2 := by
  induction os generalizing w rs with
  | nil => cases hs; exact ⟨rfl, rfl, hr⟩
  | cons o os ih =>
    simp only [rspecRun] at hs
    split at hs
    · rename_i hh
      cases h1 : rspecStep ty.size ty.dflt o (view w) with
      | none => rw [h1] at hs; cases hs
      | some p =>
        obtain ⟨r, A1⟩ := p
        rw [h1] at hs
        simp only at hs
        cases h2 : rspecRun ty.size ty.dflt os A1 with
        | none => rw [h2] at hs; cases hs
        | some p2 =>
          obtain ⟨rs2, A2⟩ := p2
          rw [h2] at hs
          cases hs
          unfold rspecStep at h1
          cases ho : written (view w) o with
          | none => rw [ho] at h1; cases h1
          | some o' =>
            rw [ho] at h1
            simp only [Option.bind_some] at h1
            simp only [rrun, Prog.bind_run, rstep_same (reach_inv hr) hh ho (by rw [h1]; rfl)]
            apply (reach_step hr h1).bind
            rintro ⟨r', w1⟩ ⟨hr1, hv1, hre⟩
            simp only at hr1 hv1 hre ⊢
            subst hr1
            rw [← hv1] at h2
            apply (ih hre h2).bind
            rintro ⟨rs', w2⟩ ⟨h3, h4, h5⟩
            simp only at h3 h4 h5 ⊢
            subst h3
            exact ⟨rfl, h4, h5⟩
    · cases hs

end Verif.Proof.Vector
