import Verif.Proof.VectorMoved
/-! # Histories of vectors and iterators -/
namespace Verif.Proof.Vector
open Verif Verif.Model.Mem Verif.Model.Vector Verif.Proof.Mem
open Verif.Spec.Vector hiding upd

variable {α β γ : Type} {ty : ElemTy α}

/-- The iterator at offset `p` of a block, stopping at `n`. -/
def itOf (ptr : Option Nat) (p n : Nat) : RIter := ⟨⟨ptr, 0⟩, ⟨ptr, p⟩, ⟨ptr, n⟩⟩

/-- No vector owns the block. -/
def Dead (w : World α) : Option Nat → Prop
  | none => True
  | some b => b < w.heap.next ∧ ∀ j v, w.vars j = some v → v.ptr ≠ some b

def ItOk (w : World α) : Option Place → Option RIter → Prop
  | none, none => True
  | some (.at i p n), some it => ∃ v, w.vars i = some v ∧ p ≤ v.cap ∧ it = itOf v.ptr p n
  | some .gone, some it => ∃ ptr p n, it = itOf ptr p n ∧ Dead w ptr
  | _, _ => False

structure LInv (ty : ElemTy α) (S : LIdeal α) (w : LWorld α) : Prop where
  reach : Reach ty w.base
  vecs : view w.base = S.vecs
  its : ∀ k, ItOk w.base (S.its k) (w.its k)

theorem LInv.inv {S : LIdeal α} {w : LWorld α} (I : LInv ty S w) : Inv ty S.vecs w.base := I.vecs ▸ reach_inv I.reach

theorem inBase_run (f : Prog (World α) β) (w : LWorld α) :
    inBase f w = f w.base >>= fun p => .ok (p.1, { w with base := p.2 }) := rfl

theorem heap_step {f : M α β} {b : β} {w : LWorld α} (h : f w.base.heap = .ok (b, w.base.heap)) : inBase (inHeap f) w = .ok (b, w) := by
  simp only [inBase_run, inHeap_run, h, Out.bind_ok]

theorem heap_ub {f : M α β} {w : LWorld α} (h : f w.base.heap = .ub) : inBase (inHeap f) w = .ub := by
  simp only [inBase_run, inHeap_run, h]
  rfl

theorem var_step {i : Nat} {v : Vec} {w : LWorld α} (h : w.base.vars i = some v) : inBase (var i) w = .ok (v, w) := by
  simp only [inBase_run, run_var h, Out.bind_ok]

theorem theIt_run {k : Nat} {it : RIter} {w : LWorld α} (h : w.its k = some it) : theIt k w = .ok (it, w) := by
  simp only [theIt, h]

/-! ## Iterators stay where they are, or are gone, as the storage does -/

theorem itOk_move {A : Ideal α} {op : Op α} {w w' : World α} {A0 : Ideal α} (I : Inv ty A0 w) (m : Moved A op w w')
    (hn : w.heap.next ≤ w'.heap.next) {x : Option Place} {it : Option RIter} (h : ItOk w x it) : ItOk w' (x.map (follow A op)) it := by
  match x, it, h with
  | none, none, _ => trivial
  | some (.at i p n), some it, ⟨v, hv, hp, e⟩ =>
    have m1 := m.1 i v hv
    simp only [Option.map_some, follow]
    cases ht : whereTo A op i with
    | some j =>
      rw [ht] at m1
      obtain ⟨v', h1, h2, h3⟩ := m1
      exact ⟨v', h1, by omega, by rw [h2]; exact e⟩
    | none =>
      rw [ht] at m1
      refine ⟨v.ptr, p, n, e, ?_⟩
      cases hq : v.ptr with
      | none => trivial
      | some b =>
        refine ⟨Nat.lt_of_lt_of_le (I.ptr_lt hv hq) hn, fun j v' hv' hb => ?_⟩
        have := m1 j v' hv' (hb.trans hq.symm)
        rw [hq] at this; cases this
  | some .gone, some it, ⟨ptr, p, n, e, d⟩ =>
    refine ⟨ptr, p, n, e, ?_⟩
    cases ptr with
    | none => trivial
    | some b =>
      refine ⟨Nat.lt_of_lt_of_le d.1 hn, fun j v' hv' hb => ?_⟩
      obtain ⟨i, v, h1, h2⟩ := m.2 j v' b hv' hb d.1
      exact d.2 i v h1 h2

/-- A call on the vectors. -/
theorem vec_ok {S S' : LIdeal α} {w : LWorld α} (I : LInv ty S w) {op : Op α} {r : Res α}
    (hs : vecStep false ty.size ty.dflt op S = some (r, S')) :
    (inBase (step ty op) w).Safe fun q => q.1 = r ∧ LInv ty S' q.2 ∧ q.2.its = w.its := by
  obtain ⟨p, h1, h2⟩ := Option.map_eq_some_iff.1 hs
  cases h2
  rw [← I.vecs] at h1
  have hok := reach_step I.reach h1
  simp only [inBase_run]
  cases he : step ty op w.base with
  | ok q =>
    rw [he] at hok
    refine ⟨hok.1, ⟨hok.2.2, hok.2.1, fun k => ?_⟩, rfl⟩
    have m := step_moved I.reach h1 he
    have t := (step_work I.reach h1 he).2.2
    rw [← I.vecs]
    exact itOk_move (reach_inv I.reach) m (by omega) (I.its k)
  | oom => trivial
  | _ => rw [he] at hok; exact hok.elim

/-! ## Iterator operations -/

theorem placeOf_some {S : LIdeal α} {k : Nat} {q : Nat × Nat × Nat} (h : placeOf S k = some q) : S.its k = some (.at q.1 q.2.1 q.2.2) := by
  unfold placeOf at h
  split at h
  · rename_i h1; cases h; exact h1
  · cases h

theorem LInv.place {S : LIdeal α} {w : LWorld α} (I : LInv ty S w) {k : Nat} {q : Nat × Nat × Nat} (h : placeOf S k = some q) :
    ∃ v a, w.base.vars q.1 = some v ∧ S.vecs q.1 = some a ∧ Rep ty w.base.heap v a.xs ∧ v.cap = a.cap ∧ q.2.1 ≤ v.cap ∧
      w.its k = some (itOf v.ptr q.2.1 q.2.2) := by
  have h1 := I.its k
  rw [placeOf_some h] at h1
  cases hi : w.its k with
  | none => rw [hi] at h1; exact h1.elim
  | some it =>
    rw [hi] at h1
    obtain ⟨v, hv, hp, e⟩ := h1
    obtain ⟨a, ha, r, hc, -⟩ := I.inv.rep_of hv
    exact ⟨v, a, hv, ha, r, hc, hp, by rw [e]⟩

theorem Rep.cap_word {h : Heap α} {v : Vec} {xs : List α} (r : Rep ty h v xs) : v.cap < wordSize := by
  have := r.own.cap_lt
  have : wordSize = 18446744073709551616 := rfl
  omega

theorem LInv.setIt {S : LIdeal α} {w : LWorld α} (I : LInv ty S w) (k : Nat) {x : Place} {it : RIter} (h : ItOk w.base (some x) (some it)) :
    LInv ty (putIt S k x) { w with its := fun k' => if k' = k then some it else w.its k' } := by
  refine ⟨I.reach, I.vecs, fun k' => ?_⟩
  simp only [putIt]
  by_cases hk : k' = k
  · simp only [hk, if_true]; exact h
  · simp only [hk, if_false]; exact I.its k'

theorem itOf_eq (v : Vec) (p n : Nat) : itOf v.ptr p n = itAt { v with len := n } p := rfl

theorem apply_of {h : Heap α} {v : Vec} {xs : List α} (r : Rep ty h v xs) {p : Nat} (hp : p ≤ v.cap) (n : Nat) (m : Move) :
    (itOf v.ptr p n).apply m h = match Spec.Vector.move v.cap m p with | some q => .ok (itOf v.ptr q n, h) | none => .ub := by
  have u1 := up_run r hp 1
  have d1 := down_run r hp 1
  cases m with
  | inc =>
    simp only [RIter.apply, RIter.preInc, Prog.bind_run, itOf, Spec.Vector.move]
    rw [show (1 : Int) = ((1 : Nat) : Int) from rfl, u1]
    cases up v.cap p 1 <;> rfl
  | dec =>
    simp only [RIter.apply, RIter.preDec, Prog.bind_run, itOf, Spec.Vector.move]
    rw [show (-1 : Int) = -((1 : Nat) : Int) from rfl, d1]
    cases down p 1 <;> rfl
  | postInc old =>
    simp only [RIter.apply, RIter.postInc, Prog.bind_run, itOf, Spec.Vector.move]
    rw [show (1 : Int) = ((1 : Nat) : Int) from rfl, u1]
    cases up v.cap p 1 <;> cases old <;> rfl
  | postDec old =>
    simp only [RIter.apply, RIter.postDec, Prog.bind_run, itOf, Spec.Vector.move]
    rw [show (-1 : Int) = -((1 : Nat) : Int) from rfl, d1]
    cases down p 1 <;> cases old <;> rfl
  | plus k =>
    simp only [RIter.apply, RIter.plus, Prog.bind_run, itOf, Spec.Vector.move]
    rw [up_run r hp k]
    cases up v.cap p k <;> rfl
  | minus k =>
    simp only [RIter.apply, RIter.minus, Prog.bind_run, itOf, Spec.Vector.move]
    rw [down_run r hp k]
    cases down p k <;> rfl

theorem deref_of {h : Heap α} {v : Vec} {xs : List α} (r : Rep ty h v xs) {p : Nat} (hp : p ≤ v.cap) (n : Nat) :
    (itOf v.ptr p n).deref h = match xs[p]? with | some x => .ok (x, h) | none => .ub := by
  rw [itOf_eq]; exact deref_at r rfl hp

theorem next_of {h : Heap α} {v : Vec} {xs : List α} (r : Rep ty h v xs) {p n : Nat} (hp : p ≤ v.cap) :
    (itOf v.ptr p n).next h = if p = n then .ok ((none, itOf v.ptr p n), h) else
      match xs[p]? with | some x => .ok ((some x, itOf v.ptr (p + 1) n), h) | none => .ub := by
  by_cases hpn : p = n
  · subst hpn
    simp [RIter.next, itOf]
  · rw [if_neg hpn]
    have hle := r.le
    have u1 := up_run r hp 1
    have d := deref_of r hp n
    simp only [RIter.deref, itOf] at d
    have hne : (itOf v.ptr p n).cur ≠ (itOf v.ptr p n).stop := by
      intro h; exact hpn (congrArg Ptr.off h)
    rw [RIter.next, if_pos hne]
    simp only [Prog.bind_run, itOf]
    rw [show (1 : Int) = ((1 : Nat) : Int) from rfl, u1]
    cases hx : xs[p]? with
    | some x =>
      have hlt : p < xs.length := by rw [List.getElem?_eq_some_iff] at hx; exact hx.1
      rw [hx] at d
      simp only [up, if_pos (show p + 1 ≤ v.cap by omega), Out.bind_ok, d, Prog.pure_run]
    | none =>
      rw [hx] at d
      unfold up
      split
      · rename_i heq
        split at heq
        · simp only [Out.bind_ok, d]; rfl
        · cases heq
      · rfl

theorem pos_of {h : Heap α} {ptr : Option Nat} {p : Nat} (hp : p < wordSize) (n : Nat) : (itOf ptr p n).pos h = .ok (p, h) := by
  have := pos_at (h := h) (v := ⟨n, 0, ptr, 0⟩) hp
  exact this

theorem dist_of {h : Heap α} {ptr : Option Nat} {p q n m : Nat} (hp : p < wordSize) (hq : q < wordSize) :
    (itOf ptr p n).dist (itOf ptr q m) h = .ok (if q ≤ p then p - q else wordSize - (q - p), h) := by
  have e := dist_at (h := h) (v := ⟨n, 0, ptr, 0⟩) (v' := ⟨m, 0, ptr, 0⟩) rfl p q
  refine Eq.trans e ?_
  split
  · rw [toUsize_le ‹_› hp]
  · rw [toUsize_gt (by omega) hq]

theorem cmp_of {h : Heap α} {ptr : Option Nat} {p q n m : Nat} :
    (itOf ptr p n).cmp (itOf ptr q m) h = .ok (compare p q, h) :=
  cmp_at (h := h) (v := ⟨n, 0, ptr, 0⟩) (v' := ⟨m, 0, ptr, 0⟩) rfl p q

theorem eq_of {ptr : Option Nat} {p q n m : Nat} : (itOf ptr p n).eq (itOf ptr q m) = (p == q && n == m) :=
  eq_at (v := ⟨n, 0, ptr, 0⟩) (v' := ⟨m, 0, ptr, 0⟩) rfl

theorem LInv.view_eq {S : LIdeal α} {w : LWorld α} (I : LInv ty S w) {i : Nat} {a : Var α} (h : S.vecs i = some a) :
    ∃ v, w.base.vars i = some v ∧ Rep ty w.base.heap v a.xs ∧ v.cap = a.cap := by
  obtain ⟨v, h1, h2, h3, -⟩ := I.inv.get h
  exact ⟨v, h1, h2, h3⟩

/-- The iterator a member gives back. -/
theorem giveBack_ok {S : LIdeal α} {w : LWorld α} (I : LInv ty S w) (m i : Nat) {p : Nat} {a : Var α} (ha : S.vecs i = some a)
    (hp : p ≤ a.xs.length) : ∃ w', giveBack m i (.pos (some p)) w = .ok (.unit, w') ∧ LInv ty (putIt S m (.at i p (lenOf S.vecs i))) w' := by
  obtain ⟨v, hv, r, hc⟩ := I.view_eq ha
  have hle := r.le
  have hl := r.len
  have hb := begin_ok r
  have hpl : (itAt v 0).plus p w.base.heap = .ok (itAt v p, w.base.heap) := by
    have := apply_run r (Nat.zero_le v.cap) (.plus p)
    simp only [RIter.apply, Spec.Vector.move, up, Nat.zero_add, if_pos (show p ≤ v.cap by omega)] at this
    exact this
  refine ⟨{ w with its := fun k' => if k' = m then some (itAt v p) else w.its k' }, ?_, I.setIt m ?_⟩
  · simp only [giveBack, Prog.bind_run, var_step hv, Out.bind_ok, heap_step hb, heap_step hpl]
    rfl
  · refine ⟨v, hv, by omega, ?_⟩
    rw [lenOf_eq ha, ← hl]
    rfl

theorem vecTo_ok {S S' : LIdeal α} {w : LWorld α} (I : LInv ty S w) {op : Op α} {m i p : Nat} {r : Res α}
    (hs : vecStepTo false ty.size ty.dflt op m i p S = some (r, S'))
    (hr : ∀ r' A', specStep false ty.size ty.dflt op S.vecs = some (r', A') → r' = .pos (some p) ∧ ∃ a, A' i = some a ∧ p ≤ a.xs.length) :
    (do let res ← inBase (step ty op); giveBack m i res : Prog (LWorld α) (Res α)) w |>.Safe fun q => q.1 = r ∧ LInv ty S' q.2 := by
  obtain ⟨x, h1, h2⟩ := Option.map_eq_some_iff.1 hs
  cases h2
  obtain ⟨y, h3, h4⟩ := Option.map_eq_some_iff.1 h1
  obtain ⟨hr1, a, ha, hp⟩ := hr y.1 y.2 h3
  simp only [Prog.bind_run]
  refine (vec_ok I h1).bind ?_
  rintro ⟨r', w1⟩ ⟨e1, I1, -⟩
  dsimp only at e1 I1
  subst e1
  have e : x.1 = .pos (some p) := by rw [← h4]; exact hr1
  rw [e]
  obtain ⟨w', e2, I2⟩ := giveBack_ok I1 m i (p := p) (a := a) (by rw [← h4]; exact ha) hp
  rw [e2]
  exact ⟨rfl, I2⟩

theorem lstep_ok {S S' : LIdeal α} {w : LWorld α} (I : LInv ty S w) {op : LOp α} {r : Res α}
    (hs : lspecStep false ty.size ty.dflt op S = some (r, S')) : (lstep ty op w).Safe fun q => q.1 = r ∧ LInv ty S' q.2 := by
  cases op with
  | vec op => exact (vec_ok I hs).mono fun q h => ⟨h.1, h.2.1⟩
  | start k i =>
    obtain ⟨a, ha, h2⟩ := Option.map_eq_some_iff.1 hs
    cases h2
    obtain ⟨v, hv, rp, hc⟩ := I.view_eq ha
    simp only [lstep, Prog.bind_run, var_step hv, Out.bind_ok, heap_step (begin_ok rp), Model.Vector.setIt, Prog.pure_run]
    exact ⟨rfl, I.setIt k ⟨v, hv, Nat.zero_le _, by rw [← rp.len]; rfl⟩⟩
  | stop k i =>
    obtain ⟨a, ha, h2⟩ := Option.map_eq_some_iff.1 hs
    cases h2
    obtain ⟨v, hv, rp, hc⟩ := I.view_eq ha
    simp only [lstep, Prog.bind_run, var_step hv, Out.bind_ok, heap_step (end_ok rp), Model.Vector.setIt, Prog.pure_run]
    exact ⟨rfl, I.setIt k ⟨v, hv, rp.le, by rw [← rp.len]; rfl⟩⟩
  | copy k l =>
    obtain ⟨x, hx, h2⟩ := Option.map_eq_some_iff.1 hs
    cases h2
    have h1 := I.its l
    rw [hx] at h1
    cases hi : w.its l with
    | none => rw [hi] at h1; cases x <;> exact h1.elim
    | some it =>
      rw [hi] at h1
      simp only [lstep, Prog.bind_run, theIt_run hi, Out.bind_ok, Model.Vector.setIt, Prog.pure_run]
      exact ⟨rfl, I.setIt k h1⟩
  | move k m =>
    obtain ⟨q, hq, h2⟩ := bind_some' hs
    obtain ⟨p, hp, h3⟩ := Option.map_eq_some_iff.1 h2
    cases h3
    obtain ⟨v, a, hv, ha, rp, hc, hle, hi⟩ := I.place hq
    rw [capOf_eq ha, ← hc] at hp
    have e := apply_of rp hle q.2.2 m
    rw [hp] at e
    simp only [lstep, Prog.bind_run, theIt_run hi, Out.bind_ok, heap_step e, Model.Vector.setIt, Prog.pure_run]
    exact ⟨rfl, I.setIt k ⟨v, hv, move_le hle hp, rfl⟩⟩
  | next k =>
    obtain ⟨q, hq, h2⟩ := bind_some' hs
    obtain ⟨v, a, hv, ha, rp, hc, hle, hi⟩ := I.place hq
    have e := next_of rp (n := q.2.2) hle
    by_cases hpn : q.2.1 = q.2.2
    · rw [if_pos hpn] at h2 e
      cases h2
      simp only [lstep, Prog.bind_run, theIt_run hi, Out.bind_ok, heap_step e, Model.Vector.setIt, Prog.pure_run]
      refine ⟨rfl, I.reach, I.vecs, fun k' => ?_⟩
      by_cases hk : k' = k
      · simp only [hk, if_true]
        have := I.its k
        rw [hi] at this
        exact this
      · simp only [hk, if_false]; exact I.its k'
    · rw [if_neg hpn] at h2 e
      obtain ⟨x, hx, h3⟩ := Option.map_eq_some_iff.1 h2
      cases h3
      simp only [elemAt, ha, Option.bind_some] at hx
      have hlt : q.2.1 < a.xs.length := by rw [List.getElem?_eq_some_iff] at hx; exact hx.1
      have := rp.le
      rw [hx] at e
      simp only [lstep, Prog.bind_run, theIt_run hi, Out.bind_ok, heap_step e, Model.Vector.setIt, Prog.pure_run]
      exact ⟨rfl, I.setIt k ⟨v, hv, by omega, rfl⟩⟩
  | read k =>
    obtain ⟨q, hq, h2⟩ := bind_some' hs
    obtain ⟨x, hx, h3⟩ := Option.map_eq_some_iff.1 h2
    cases h3
    obtain ⟨v, a, hv, ha, rp, hc, hle, hi⟩ := I.place hq
    simp only [elemAt, ha, Option.bind_some] at hx
    have e := deref_of rp hle q.2.2
    rw [hx] at e
    simp only [lstep, Prog.bind_run, theIt_run hi, Out.bind_ok, heap_step e, Prog.pure_run]
    exact ⟨rfl, I⟩
  | write k x =>
    obtain ⟨q, hq, h2⟩ := bind_some' hs
    obtain ⟨y, hy, h3⟩ := Option.map_eq_some_iff.1 h2
    cases h3
    obtain ⟨v, a, hv, ha, rp, hc, hle, hi⟩ := I.place hq
    have hstep : step ty (.set q.1 q.2.1 x) w.base =
        inHeap (store v.ptr q.2.1 x) w.base >>= fun p => .ok (.unit, p.2) := by
      simp only [step, look, Prog.bind_run, run_var hv, Out.bind_ok, inHeap_run, indexSet, Prog.pure_run]
      cases store v.ptr q.2.1 x w.base.heap <;> rfl
    have hvs : vecStep false ty.size ty.dflt (.set q.1 q.2.1 x) S = some (y.1, ⟨y.2, fun k => (S.its k).map (follow S.vecs (.set q.1 q.2.1 x))⟩) := by
      simp only [vecStep, hy, Option.map_some]
    have hsame : (fun k => (S.its k).map (follow S.vecs (.set q.1 q.2.1 x))) = S.its := by
      funext k'
      cases S.its k' with
      | none => rfl
      | some x => cases x <;> rfl
    rw [hsame] at hvs
    have hok := vec_ok I hvs
    have hm : lstep ty (.write k x) w = inBase (step ty (.set q.1 q.2.1 x)) w >>= fun p => .ok (.unit, p.2) := by
      simp only [lstep, Prog.bind_run, theIt_run hi, Out.bind_ok, inBase_run, hstep, itOf]
      cases inHeap (store v.ptr q.2.1 x) w.base <;> rfl
    rw [hm]
    refine hok.bind ?_
    rintro ⟨r', w1⟩ ⟨-, I1, -⟩
    exact ⟨rfl, I1⟩
  | pos k =>
    obtain ⟨q, hq, h2⟩ := Option.map_eq_some_iff.1 hs
    cases h2
    obtain ⟨v, a, hv, ha, rp, hc, hle, hi⟩ := I.place hq
    have := rp.cap_word
    simp only [lstep, Prog.bind_run, theIt_run hi, Out.bind_ok, heap_step (pos_of (show q.2.1 < wordSize by omega) q.2.2), Prog.pure_run]
    exact ⟨rfl, I⟩
  | dist k l =>
    obtain ⟨q, hq, h2⟩ := bind_some' hs
    obtain ⟨s, hs', h3⟩ := bind_some' h2
    obtain ⟨v, a, hv, ha, rp, hc, hle, hi⟩ := I.place hq
    obtain ⟨v', a', hv', ha', rp', hc', hle', hi'⟩ := I.place hs'
    split at h3
    case isFalse => cases h3
    rename_i he
    cases h3
    rw [he, hv'] at hv; cases hv
    have := rp.cap_word
    simp only [lstep, Prog.bind_run, theIt_run hi, theIt_run hi', Out.bind_ok, heap_step (dist_of (show q.2.1 < wordSize by omega)
      (show s.2.1 < wordSize by omega)), Prog.pure_run]
    exact ⟨rfl, I⟩
  | eq k l =>
    obtain ⟨q, hq, h2⟩ := bind_some' hs
    obtain ⟨s, hs', h3⟩ := bind_some' h2
    obtain ⟨v, a, hv, ha, rp, hc, hle, hi⟩ := I.place hq
    obtain ⟨v', a', hv', ha', rp', hc', hle', hi'⟩ := I.place hs'
    split at h3
    case isFalse => cases h3
    rename_i he
    cases h3
    rw [he, hv'] at hv; cases hv
    simp only [lstep, Prog.bind_run, theIt_run hi, theIt_run hi', Out.bind_ok, Prog.pure_run, eq_of]
    exact ⟨rfl, I⟩
  | cmp k l =>
    obtain ⟨q, hq, h2⟩ := bind_some' hs
    obtain ⟨s, hs', h3⟩ := bind_some' h2
    obtain ⟨v, a, hv, ha, rp, hc, hle, hi⟩ := I.place hq
    obtain ⟨v', a', hv', ha', rp', hc', hle', hi'⟩ := I.place hs'
    split at h3
    case isFalse => cases h3
    rename_i he
    cases h3
    rw [he, hv'] at hv; cases hv
    simp only [lstep, Prog.bind_run, theIt_run hi, theIt_run hi', Out.bind_ok, heap_step cmp_of, Prog.pure_run]
    exact ⟨rfl, I⟩
  | insertAt m i k rf =>
    obtain ⟨q, hq, h2⟩ := bind_some' hs
    obtain ⟨v, a, hv, ha, rp, hc, hle, hi⟩ := I.place hq
    split at h2
    case isFalse => cases h2
    rename_i he
    have := rp.cap_word
    have hok := vecTo_ok I h2 (fun r' A' h => ?_)
    · simp only [lstep, Prog.bind_run, theIt_run hi, Out.bind_ok, heap_step (pos_of (show q.2.1 < wordSize by omega) q.2.2)]
      simpa only [Prog.bind_run] using hok
    · obtain ⟨x, -, h2⟩ := bind_some' h
      obtain ⟨a, ha, h2⟩ := bind_some' h2
      obtain ⟨p', h3, h4⟩ := Option.map_eq_some_iff.1 h2
      dsimp only at h3
      split at h3
      case isFalse => cases h3
      rename_i hp
      have h3 := (only_false h3).2
      cases h3; cases h4
      exact ⟨rfl, _, put_same _ _ _, by simp; omega⟩
  | eraseAt m i k =>
    obtain ⟨q, hq, h2⟩ := bind_some' hs
    obtain ⟨v, a, hv, ha, rp, hc, hle, hi⟩ := I.place hq
    split at h2
    case isFalse => cases h2
    rename_i he
    have := rp.cap_word
    have hok := vecTo_ok I h2 (fun r' A' h => ?_)
    · simp only [lstep, Prog.bind_run, theIt_run hi, Out.bind_ok, heap_step (pos_of (show q.2.1 < wordSize by omega) q.2.2)]
      simpa only [Prog.bind_run] using hok
    · obtain ⟨a, ha, h2⟩ := bind_some' h
      obtain ⟨p', h3, h4⟩ := Option.map_eq_some_iff.1 h2
      dsimp only at h3
      split at h3
      case isFalse => cases h3
      rename_i hp
      cases h3; cases h4
      exact ⟨rfl, _, put_same _ _ _, by simp; omega⟩
  | eraseBetween m i k l =>
    obtain ⟨q, hq, h2⟩ := bind_some' hs
    obtain ⟨s, hs', h2⟩ := bind_some' h2
    obtain ⟨v, a, hv, ha, rp, hc, hle, hi⟩ := I.place hq
    obtain ⟨v', a', hv', ha', rp', hc', hle', hi'⟩ := I.place hs'
    split at h2
    case isFalse => cases h2
    rename_i he
    have := rp.cap_word
    have := rp'.cap_word
    have hok := vecTo_ok I h2 (fun r' A' h => ?_)
    · simp only [lstep, Prog.bind_run, theIt_run hi, theIt_run hi', Out.bind_ok, heap_step (pos_of (show q.2.1 < wordSize by omega) q.2.2),
        heap_step (pos_of (show s.2.1 < wordSize by omega) s.2.2)]
      simpa only [Prog.bind_run] using hok
    · obtain ⟨a, ha, h2⟩ := bind_some' h
      obtain ⟨p', h3, h4⟩ := Option.map_eq_some_iff.1 h2
      dsimp only at h3
      split at h3
      case isFalse => cases h3
      rename_i hp
      have h3 := (only_false h3).2
      cases h3; cases h4
      exact ⟨rfl, _, put_same _ _ _, by simp; omega⟩

theorem linv_init : LInv ty ({} : LIdeal α) {} := by
  have hr : Reach ty ({} : World α) := ⟨[], [], _, [], rfl, rfl⟩
  refine ⟨hr, ?_, fun _ => trivial⟩
  exact Inv.view (ty := ty) inv_init

theorem lrun_ok (ops : List (LOp α)) {S S' : LIdeal α} {w : LWorld α} (I : LInv ty S w) {rs : List (Res α)}
    (hs : lspecRun false ty.size ty.dflt ops S = some (rs, S')) : (lrun ty ops w).Safe fun q => q.1 = rs ∧ LInv ty S' q.2 := by
  induction ops generalizing S w rs with
  | nil => cases hs; exact ⟨rfl, I⟩
  | cons op ops ih =>
    simp only [lspecRun] at hs
    cases h1 : lspecStep false ty.size ty.dflt op S with
    | none => rw [h1] at hs; cases hs
    | some p =>
      rw [h1] at hs
      dsimp only at hs
      cases h2 : lspecRun false ty.size ty.dflt ops p.2 with
      | none => rw [h2] at hs; cases hs
      | some q =>
        rw [h2] at hs
        cases hs
        simp only [lrun, Prog.bind_run]
        refine (lstep_ok I h1).bind ?_
        rintro ⟨r', w1⟩ ⟨e1, I1⟩
        dsimp only at e1 I1 ⊢
        refine (ih I1 h2).bind ?_
        rintro ⟨rs', w2⟩ ⟨e2, I2⟩
        dsimp only at e2 I2 ⊢
        subst e1 e2
        exact ⟨rfl, I2⟩

/-- Where an iterator reads. -/
def target (S : LIdeal α) (k : Nat) : Option α := (placeOf S k).bind fun q => elemAt S q.1 q.2.1

theorem load_exact {S : LIdeal α} {w : LWorld α} (I : LInv ty S w) {k : Nat} {x : Place} (hk : S.its k = some x) :
    ∃ it, w.its k = some it ∧ it.deref w.base.heap = match target S k with | none => .ub | some y => .ok (y, w.base.heap) := by
  cases x with
  | «at» i p n =>
    have hq : placeOf S k = some (i, p, n) := by simp [placeOf, hk]
    obtain ⟨v, a, hv, ha, rp, hc, hle, hi⟩ := I.place hq
    dsimp only at hv ha hle hi
    refine ⟨_, hi, ?_⟩
    rw [deref_of rp hle n]
    simp only [target, hq, Option.bind_some, elemAt, ha]
    cases a.xs[p]? <;> rfl
  | gone =>
    have hq : placeOf S k = none := by simp [placeOf, hk]
    have h1 := I.its k
    rw [hk] at h1
    cases hi : w.its k with
    | none => rw [hi] at h1; exact h1.elim
    | some it =>
      rw [hi] at h1
      obtain ⟨ptr, p, n, e, d⟩ := h1
      refine ⟨it, rfl, ?_⟩
      simp only [target, hq, Option.bind_none]
      rw [e]
      cases ptr with
      | none => rfl
      | some b =>
        have hb : w.base.heap.blocks b = none := by
          cases hb : w.base.heap.blocks b with
          | none => rfl
          | some blk =>
            obtain ⟨i, v, h1, h2⟩ := I.inv.cover b blk hb
            exact (d.2 i v h1 h2).elim
        simp only [RIter.deref, itOf, Ptr.read, load, access, hb]

/-- Reading through an iterator, whatever became of it. -/
theorem read_exact {S : LIdeal α} {w : LWorld α} (I : LInv ty S w) {k : Nat} {x : Place} (hk : S.its k = some x) :
    lstep ty (.read k) w = match target S k with | none => .ub | some y => .ok (.val y, w) := by
  obtain ⟨it, hi, e⟩ := load_exact I hk
  cases ht : target S k with
  | none =>
    rw [ht] at e
    simp only [lstep, Prog.bind_run, theIt_run hi, Out.bind_ok, heap_ub e]
    rfl
  | some y =>
    rw [ht] at e
    simp only [lstep, Prog.bind_run, theIt_run hi, Out.bind_ok, heap_step e, Prog.pure_run]

theorem store_ub_of_load {h : Heap α} {p : Option Nat} {i : Nat} (x : α) (hl : (load p i : M α α) h = .ub) : store p i x h = .ub := by
  unfold load access at hl
  unfold store access
  cases p with
  | none => rfl
  | some b =>
    dsimp only at hl ⊢
    cases hb : h.blocks b with
    | none => rfl
    | some blk =>
      rw [hb] at hl
      dsimp only at hl ⊢
      cases hs : blk.slots[i]? with
      | none => rfl
      | some o =>
        rw [hs] at hl
        cases o with
        | none => rfl
        | some y => cases hl

/-- Writing through an iterator that designates no element. -/
theorem write_ub {S : LIdeal α} {w : LWorld α} (I : LInv ty S w) {k : Nat} {x : Place} (hk : S.its k = some x) (ht : target S k = none)
    (y : α) : lstep ty (.write k y) w = .ub := by
  obtain ⟨it, hi, e⟩ := load_exact I hk
  rw [ht] at e
  simp only [lstep, Prog.bind_run, theIt_run hi, Out.bind_ok]
  rw [heap_ub (store_ub_of_load y e)]
  rfl

end Verif.Proof.Vector
