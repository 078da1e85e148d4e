import Verif.Proof.VectorMoveThrow
/-! # Vector: element moves that throw, the members -/
namespace Verif.Proof.Vector
open Verif Verif.Model.Mem Verif.Model.Vector Verif.Proof.Mem
open Verif.Spec.Vector hiding upd

variable {α : Type} {ty : ElemTy α} {bad : α → Bool}

/-! ## Insertion -/

/-- the space for one more element -/
theorem emplace_space {h : Heap α} {v : Vec} {xs : List α} (rp : Rep ty h v xs) (hb : Bal h) :
    ((if v.len = v.cap then extendSpace ty v else pure v) h : Out _).Safe fun q =>
      ∃ k, To ty h v.ptr xs (pushCap xs.length v.cap) v.alloc k q.1 q.2 ∧ xs.length + 1 ≤ q.1.cap := by
  have hl := rp.len
  have hle := rp.le
  by_cases he : v.len = v.cap
  · rw [if_pos he]
    simp only [pushCap, show ¬ (xs.length < v.cap) by omega, if_false]
    refine (extendSpace_ok rp hb).mono fun q hq => ⟨_, hq.1, ?_⟩
    rw [hq.1.cap]; simp only [grown]; split <;> omega
  · rw [if_neg he]
    simp only [pushCap, show xs.length < v.cap by omega, if_true]
    exact ⟨_, To.same rp hb, by simp only; omega⟩

theorem emplace_space_at {h : Heap α} {v : Vec} {xs : List α} (rp : Rep ty h v xs) (hb : Bal h)
    (hg : v.cap ≤ xs.length → xs.any bad = false) :
    ((if v.len = v.cap then extendSpaceM ty bad v else pure v) h : Out _) = (if v.len = v.cap then extendSpace ty v else pure v) h := by
  have hl := rp.len
  split
  · exact extendSpaceM_at rp hb (hg (by omega))
  · rfl

theorem fits_word {h : Heap α} {v : Vec} {xs : List α} {n : Nat} (rp : Rep ty h v xs) (hn : n ≤ v.cap) : n * ty.size < wordSize := by
  have hsm := rp.own.small
  have hW : wordSize = 18446744073709551616 := rfl
  have : n * ty.size ≤ v.cap * ty.size := Nat.mul_le_mul_right _ hn
  omega

theorem emplaceM_at {h : Heap α} {v : Vec} {zs ts : List α} {x : α} {pos : Nat} (rp : Rep ty h v (zs ++ ts)) (hb : Bal h)
    (hz : zs ≠ []) (hpos : pos = zs.length) (hg1 : v.cap ≤ (zs ++ ts).length → (zs ++ ts).any bad = false) (hg2 : ts.any bad = false)
    (hx : bad x = false) : QAt (emplace ty v pos x) (emplaceM ty bad v pos x) h := by
  simp only [QAt, emplace, emplaceM, Prog.bind_run]
  rw [emplace_space_at rp hb hg1]
  have key := emplace_space rp hb
  cases he : ((if v.len = v.cap then extendSpace ty v else pure v) h : Out _) with
  | ok q =>
    rw [he] at key
    obtain ⟨k, t1, hc⟩ := key
    obtain ⟨v1, h1⟩ := q
    simp only at t1 hc
    simp only [List.length_append] at hc
    simp only [Out.bind_ok]
    have e2 := moveElementsBackM_at (bad := bad) t1.rep t1.bal hz (.inl Nat.one_pos) hpos (fits_word t1.rep hc) (fun h => by omega) hg2
    rw [QAt] at e2
    simp only [e2, Out.assoc, Out.bind_ok, Bool.false_eq_true, if_false, hx, Prog.bind_run, Prog.pure_run]
  | _ => rfl

theorem emplaceM_ends {h : Heap α} {v : Vec} {xs : List α} {x : α} {pos : Nat} (rp : Rep ty h v xs) (hb : Bal h)
    (hc : v.cap ≤ xs.length) (hg : xs.any bad = true) : Ends (emplaceM ty bad v pos x h) := by
  have hl := rp.len
  have hle := rp.le
  simp only [emplaceM, Prog.bind_run]
  rw [if_pos (by omega)]
  exact (extendSpaceM_ends rp hb hg).bind

theorem emplaceM_bad {h : Heap α} {v : Vec} {zs rest ts : List α} {x y : α} {pos : Nat} (rp : Rep ty h v (zs ++ (rest ++ x :: ts)))
    (hz : zs ≠ []) (hpos : pos = zs.length) (hc : (zs ++ (rest ++ x :: ts)).length < v.cap) (hg : ∀ y ∈ ts, bad y = false)
    (hx : bad x = true) :
    ∃ h', emplaceM ty bad v pos y h = .ok ((true, v), h') ∧ (ts = [] → h' = h) ∧ (ts ≠ [] → Hurt ty h v.ptr v h') := by
  have hl := rp.len
  simp only [List.length_append] at hc hl
  obtain ⟨h1, e1, h2, h3⟩ := moveElementsBackM_bad (bad := bad) (c := 1) rp hz Nat.one_pos hpos (by simp only [List.length_append]; omega) hg hx
  refine ⟨h1, ?_, h2, h3⟩
  simp only [emplaceM, Prog.bind_run]
  rw [if_neg (by omega)]
  simp only [Prog.pure_run, Out.bind_ok, e1, if_true]

theorem emplaceM_hurt {h : Heap α} {v : Vec} {zs ts : List α} {x : α} {pos : Nat} (rp : Rep ty h v (zs ++ ts)) (hb : Bal h)
    (hz : zs ≠ []) (hpos : pos = zs.length) (hg1 : v.cap ≤ (zs ++ ts).length → (zs ++ ts).any bad = false) (hg2 : ts.any bad = false)
    (hx : bad x = true) : (emplaceM ty bad v pos x h).Safe fun q => q.1.1 = true ∧ Hurt ty h v.ptr q.1.2 q.2 := by
  simp only [emplaceM, Prog.bind_run]
  rw [emplace_space_at rp hb hg1]
  apply (emplace_space rp hb).bind
  rintro ⟨v1, h1⟩ ⟨k, t1, hc⟩
  simp only at t1 hc ⊢
  simp only [List.length_append] at hc
  have e2 := moveElementsBackM_at (bad := bad) t1.rep t1.bal hz (.inl Nat.one_pos) hpos (fits_word t1.rep hc) (fun h => by omega) hg2
  rw [QAt] at e2
  rw [e2, Out.assoc]
  apply (moveElementsBack_ok t1.rep t1.bal hz (.inl Nat.one_pos) hpos (fits_word t1.rep hc)).bind
  rintro ⟨v2, h2⟩ ⟨k2, g, _⟩
  simp only at g ⊢
  simp only [Out.bind_ok, Bool.false_eq_true, if_false, hx, if_true, Prog.pure_run, Out.safe_ok, true_and]
  have hl := g.len
  have hf := g.fits
  exact ⟨⟨zs, _, g.own, by omega, by intro y; simp [raws, List.replicate_succ]⟩, ⟨_, t1.step.trans g.step⟩, by omega⟩

theorem insertFillM_at {h : Heap α} {v : Vec} {zs ts : List α} {r : Ref α} {pos n : Nat} (rp : Rep ty h v (zs ++ ts)) (hb : Bal h)
    (hz : zs ≠ []) (hn : 0 < n ∨ ts = []) (hpos : pos = zs.length) (hw : (zs.length + ts.length + n) * ty.size < wordSize)
    (hg1 : v.cap < zs.length + ts.length + n → (zs ++ ts).any bad = false) (hg2 : ts.any bad = false) :
    insertFillM ty bad v pos n r h = (insertFill ty v pos n r h >>= fun q => .ok ((false, q.1.1), q.2)) := by
  have e2 := moveElementsBackM_at (bad := bad) rp hb hz hn hpos hw hg1 hg2
  rw [QAt] at e2
  simp only [insertFillM, insertFill, Prog.bind_run, e2, Out.assoc, Out.bind_ok, Bool.false_eq_true, if_false, Prog.pure_run]

/-- an empty vector has nothing to move -/
theorem moveElementsBackM_nil {h : Heap α} {v : Vec} (hl : v.len = 0) (pos n : Nat) :
    moveElementsBackM ty bad v pos n h = .ok ((false, v), h) ∧ moveElementsBack ty v pos n h = .ok (v, h) := by
  constructor
  · unfold moveElementsBackM; rw [if_pos hl]; rfl
  · unfold moveElementsBack; rw [if_pos hl]; rfl

theorem insertFillM_nil {h : Heap α} {v : Vec} (hl : v.len = 0) {r : Ref α} {pos n : Nat} :
    insertFillM ty bad v pos n r h = (insertFill ty v pos n r h >>= fun q => .ok ((false, q.1.1), q.2)) := by
  obtain ⟨e1, e2⟩ := moveElementsBackM_nil (ty := ty) (bad := bad) (h := h) hl pos n
  simp only [insertFillM, insertFill, Prog.bind_run, e1, e2, Out.assoc, Out.bind_ok, Bool.false_eq_true, if_false, Prog.pure_run]

theorem insertFillM_ends {h : Heap α} {v : Vec} {xs : List α} {r : Ref α} {pos n : Nat} (rp : Rep ty h v xs) (hb : Bal h)
    (hw : (xs.length + n) * ty.size < wordSize) (hc : v.cap < xs.length + n) (hg : xs.any bad = true) :
    Ends (insertFillM ty bad v pos n r h) := by
  simp only [insertFillM, Prog.bind_run]
  exact (moveElementsBackM_ends rp hb hw hc hg).bind

theorem insertFillM_bad {h : Heap α} {v : Vec} {zs rest ts : List α} {x : α} {r : Ref α} {pos n : Nat}
    (rp : Rep ty h v (zs ++ (rest ++ x :: ts))) (hz : zs ≠ []) (hn : 0 < n) (hpos : pos = zs.length)
    (hfit : zs.length + (rest ++ x :: ts).length + n ≤ v.cap) (hg : ∀ y ∈ ts, bad y = false) (hx : bad x = true) :
    ∃ h', insertFillM ty bad v pos n r h = .ok ((true, v), h') ∧ (ts = [] → h' = h) ∧ (ts ≠ [] → Hurt ty h v.ptr v h') := by
  obtain ⟨h1, e1, h2, h3⟩ := moveElementsBackM_bad (bad := bad) rp hz hn hpos hfit hg hx
  refine ⟨h1, ?_, h2, h3⟩
  simp only [insertFillM, Prog.bind_run, e1, Out.bind_ok, if_true, Prog.pure_run]

theorem range_space_at {h : Heap α} {v : Vec} {xs : List α} {n : Nat} (rp : Rep ty h v xs) (hb : Bal h)
    (hw : (xs.length + n) * ty.size < wordSize) (hg : v.cap < xs.length + n → xs.any bad = false) :
    wrap (v.len + n) = xs.length + n ∧
    ((if xs.length + n > v.cap then allocateReserveM ty bad v (xs.length + n) else pure v) h : Out _) =
      (if xs.length + n > v.cap then allocateReserve ty v (xs.length + n) else pure v) h ∧
    ((if xs.length + n > v.cap then allocateReserve ty v (xs.length + n) else pure v) h : Out _).Safe fun q =>
      Rep ty q.2 q.1 xs ∧ Bal q.2 ∧ xs.length + n ≤ q.1.cap := by
  have hlt : xs.length + n < wordSize := Nat.lt_of_le_of_lt (Nat.le_mul_of_pos_right _ ty.size_pos) hw
  have hl := rp.len
  refine ⟨by rw [hl, wrap_of_lt hlt], ?_, ?_⟩
  · split
    · exact allocateReserveM_at rp hb (by omega) hw (hg (by omega))
    · rfl
  · split
    · exact (allocateReserve_ok rp hb (by omega) hw).mono fun q hq => ⟨hq.1.rep, hq.1.bal, by rw [hq.1.cap]; omega⟩
    · exact ⟨rp, hb, by simp only; omega⟩

theorem insertRangeM_at {h : Heap α} {v : Vec} {zs ts ys : List α} {pos : Nat} (rp : Rep ty h v (zs ++ ts)) (hb : Bal h)
    (hz : zs ≠ []) (hn : 0 < ys.length ∨ ts = []) (hpos : pos = zs.length) (hw : (zs.length + ts.length + ys.length) * ty.size < wordSize)
    (hg1 : v.cap < zs.length + ts.length + ys.length → (zs ++ ts).any bad = false) (hg2 : ts.any bad = false) :
    insertRangeM ty bad v pos ys h = (insertRange ty v pos ys h >>= fun q => .ok ((false, q.1.1), q.2)) := by
  obtain ⟨h1, h2, h3⟩ := range_space_at (bad := bad) rp hb (n := ys.length) (by simpa using hw) (by simpa using hg1)
  simp only [insertRangeM, insertRange, Prog.bind_run, h1, h2]
  cases he : ((if (zs ++ ts).length + ys.length > v.cap then allocateReserve ty v ((zs ++ ts).length + ys.length) else pure v) h : Out _) with
  | ok q =>
    rw [he] at h3
    obtain ⟨r1, b1, hc⟩ := h3
    obtain ⟨v1, h1⟩ := q
    simp only [List.length_append] at hc
    have e2 := moveElementsBackM_at (bad := bad) r1 b1 hz hn hpos hw (fun h => by simp only at r1 h hc; omega) hg2
    rw [QAt] at e2
    simp only [Out.bind_ok, e2, Out.assoc, Bool.false_eq_true, if_false, Prog.pure_run, Prog.bind_run]
  | _ => rfl

theorem insertRangeM_nil {h : Heap α} {v : Vec} {pos : Nat} (rp : Rep ty h v []) :
    insertRangeM ty bad v pos ([] : List α) h = (insertRange ty v pos [] h >>= fun q => .ok ((false, q.1.1), q.2)) := by
  have hl : v.len = 0 := rp.len
  obtain ⟨e1, e2⟩ := moveElementsBackM_nil (ty := ty) (bad := bad) (h := h) hl pos 0
  have : ¬ (wrap (v.len + 0) > v.cap) := by rw [hl]; simp [wrap]
  simp only [insertRangeM, insertRange, Prog.bind_run, List.length_nil, if_neg this, Prog.pure_run, e1, e2, Out.assoc, Out.bind_ok,
    Bool.false_eq_true, if_false]

theorem insertRangeM_ends {h : Heap α} {v : Vec} {xs ys : List α} {pos : Nat} (rp : Rep ty h v xs) (hb : Bal h)
    (hw : (xs.length + ys.length) * ty.size < wordSize) (hc : v.cap < xs.length + ys.length) (hg : xs.any bad = true) :
    Ends (insertRangeM ty bad v pos ys h) := by
  have hlt : xs.length + ys.length < wordSize := Nat.lt_of_le_of_lt (Nat.le_mul_of_pos_right _ ty.size_pos) hw
  have hl := rp.len
  simp only [insertRangeM, Prog.bind_run]
  rw [hl, wrap_of_lt hlt, if_pos hc]
  exact (allocateReserveM_ends rp hb (by omega) hw hg).bind

theorem insertRangeM_bad {h : Heap α} {v : Vec} {zs rest ts ys : List α} {x : α} {pos : Nat}
    (rp : Rep ty h v (zs ++ (rest ++ x :: ts))) (hz : zs ≠ []) (hn : 0 < ys.length) (hpos : pos = zs.length)
    (hfit : zs.length + (rest ++ x :: ts).length + ys.length ≤ v.cap) (hg : ∀ y ∈ ts, bad y = false) (hx : bad x = true) :
    ∃ h', insertRangeM ty bad v pos ys h = .ok ((true, v), h') ∧ (ts = [] → h' = h) ∧ (ts ≠ [] → Hurt ty h v.ptr v h') := by
  obtain ⟨h1, e1, h2, h3⟩ := moveElementsBackM_bad (bad := bad) rp hz hn hpos hfit hg hx
  refine ⟨h1, ?_, h2, h3⟩
  have hl : v.len = zs.length + (rest ++ x :: ts).length := by rw [rp.len, List.length_append]
  have hcl := rp.own.cap_lt
  have hW : wordSize = 18446744073709551616 := rfl
  have hwr : ¬ (wrap (v.len + ys.length) > v.cap) := by rw [wrap_of_lt (by omega)]; omega
  simp only [insertRangeM, Prog.bind_run, if_neg hwr, Prog.pure_run, e1, Out.bind_ok, if_true]

/-! ## Erasure -/

theorem stdMoveLoopM_at {h : Heap α} {p : Option Nat} {cap owner : Nat} {pre post : List (Option α)} (ts : List α) (G : List α)
    (hG : G ≠ []) {first dest k : Nat} (ho : Own ty h p cap owner (pre ++ (G.map some ++ (ts.map some ++ post))))
    (hd : dest + k = pre.length) (hf : first + k = pre.length + G.length) (hg : ∀ x ∈ ts, bad x = false) :
    QAtU (forUp k ts.length (fun k => do
        let x ← take ty p (first + k)
        store p (dest + k) x)) (stdMoveLoopM ty bad p first dest k ts.length) h := by
  induction ts generalizing h pre G k with
  | nil => rfl
  | cons t ts ih =>
    cases G with
    | nil => exact absurd rfl hG
    | cons g G =>
      obtain ⟨h1, e1, o1, s1⟩ := take_ok (ty := ty) (h := h) (ptr := p) (i := first + k) (cap := cap) (owner := owner)
        (pre := pre ++ (some g :: G.map some)) (x := t) (post := ts.map some ++ post) (by simpa using ho) (by simp [hf])
      have e1' := takeM_good (bad := bad) (h := h) (ptr := p) (i := first + k) (cap := cap) (owner := owner)
        (pre := pre ++ (some g :: G.map some)) (x := t) (post := ts.map some ++ post) (by simpa using ho) (by simp [hf])
        (hg t (by simp))
      rw [e1, Out.bind_ok] at e1'
      obtain ⟨h2, e2, o2, s2⟩ := store_ok (ty := ty) (h := h1) (ptr := p) (i := dest + k) (cap := cap) (owner := owner)
        (pre := pre) (x := g) (y := t) (post := G.map some ++ (some (ty.mv t) :: (ts.map some ++ post))) (by simpa using o1) hd
      have := ih (h := h2) (pre := pre ++ [some t]) (k := k + 1) (G ++ [ty.mv t]) (by simp)
        (by simpa using o2) (by simp; omega) (by simp at hf ⊢; omega) (fun y hy => hg y (by simp [hy]))
      simp only [QAtU, List.length_cons, forUp, stdMoveLoopM, Prog.bind_run, e1, e1', e2, Out.bind_ok]
      exact this

theorem stdMoveLoopM_bad {h : Heap α} {p : Option Nat} {cap owner : Nat} {pre post : List (Option α)} (ts us : List α) {x : α}
    (G : List α) (hG : G ≠ []) {first dest k n : Nat}
    (ho : Own ty h p cap owner (pre ++ (G.map some ++ (ts.map some ++ some x :: post))))
    (hd : dest + k = pre.length) (hf : first + k = pre.length + G.length) (hn : n = ts.length + (us.length + 1))
    (hg : ∀ x ∈ ts, bad x = false) (hx : bad x = true) :
    ∃ h', stdMoveLoopM ty bad p first dest k n h = .ok (true, h') ∧
      Own ty h' p cap owner (pre ++ (ts.map some ++ (((G ++ ts.map ty.mv).drop ts.length).map some ++ some x :: post))) ∧
      Step h p.toList h' p.toList 0 := by
  induction ts generalizing h pre G k n with
  | nil =>
    obtain ⟨n, rfl⟩ : ∃ m, n = m + 1 := ⟨n - 1, by simp at hn; omega⟩
    have e1' := takeM_bad (bad := bad) (h := h) (ptr := p) (i := first + k) (cap := cap) (owner := owner)
      (pre := pre ++ G.map some) (x := x) (post := post) (by simpa using ho) (by simp [hf]) hx
    refine ⟨h, ?_, by simpa using ho, Step.refl _ _⟩
    simp only [stdMoveLoopM, Prog.bind_run, e1', Out.bind_ok]
    rfl
  | cons t ts ih =>
    cases G with
    | nil => exact absurd rfl hG
    | cons g G =>
      obtain ⟨n, rfl⟩ : ∃ m, n = m + 1 := ⟨n - 1, by simp at hn; omega⟩
      obtain ⟨h1, e1, o1, s1⟩ := take_ok (ty := ty) (h := h) (ptr := p) (i := first + k) (cap := cap) (owner := owner)
        (pre := pre ++ (some g :: G.map some)) (x := t) (post := ts.map some ++ some x :: post) (by simpa using ho) (by simp [hf])
      have e1' := takeM_good (bad := bad) (h := h) (ptr := p) (i := first + k) (cap := cap) (owner := owner)
        (pre := pre ++ (some g :: G.map some)) (x := t) (post := ts.map some ++ some x :: post) (by simpa using ho) (by simp [hf])
        (hg t (by simp))
      rw [e1, Out.bind_ok] at e1'
      obtain ⟨h2, e2, o2, s2⟩ := store_ok (ty := ty) (h := h1) (ptr := p) (i := dest + k) (cap := cap) (owner := owner)
        (pre := pre) (x := g) (y := t) (post := G.map some ++ (some (ty.mv t) :: (ts.map some ++ some x :: post))) (by simpa using o1) hd
      obtain ⟨h3, e3, o3, s3⟩ := ih (h := h2) (pre := pre ++ [some t]) (k := k + 1) (n := n) (G ++ [ty.mv t]) (by simp)
        (by simpa using o2) (by simp; omega) (by simp at hf ⊢; omega) (by simp at hn; omega) (fun y hy => hg y (by simp [hy]))
      refine ⟨h3, ?_, by simpa using o3, s1.trans (s2.trans s3)⟩
      simp only [stdMoveLoopM, Prog.bind_run, e1', e2, Out.bind_ok, e3]

theorem stdMoveM_at {h : Heap α} {v : Vec} {xs ys ts : List α} {lo hi : Nat} (rp : Rep ty h v (xs ++ (ys ++ ts)))
    (hlo : lo = xs.length) (hhi : hi = xs.length + ys.length) (hne : ys ≠ [] ∨ ts = []) (hg : ts.any bad = false) :
    QAtU (stdMove ty v.ptr hi v.len lo) (stdMoveM ty bad v.ptr hi v.len lo) h := by
  have hl : v.len = xs.length + ys.length + ts.length := by simpa [Nat.add_assoc] using rp.len
  by_cases hy : ys = []
  · have ht : ts = [] := hne.resolve_left (by simp [hy])
    subst hy ht
    simp only [List.length_nil, Nat.add_zero] at hl hhi
    unfold QAtU stdMove stdMoveM
    rw [if_neg (by omega), if_neg (by omega), show v.len - hi = 0 by omega]
    rfl
  · have hyp := List.length_pos_iff.2 hy
    unfold QAtU stdMove stdMoveM
    rw [if_neg (by omega), if_neg (by omega), show v.len - hi = ts.length by omega]
    exact stdMoveLoopM_at ts ys hy (pre := xs.map some) (by simpa using rp.own) (by simp [hlo]) (by simp [hhi]) (any_false hg)

theorem stdMoveM_bad {h : Heap α} {v : Vec} {xs ys ts us : List α} {x : α} {lo hi : Nat} (rp : Rep ty h v (xs ++ (ys ++ (ts ++ x :: us))))
    (hlo : lo = xs.length) (hhi : hi = xs.length + ys.length) (hne : ys ≠ []) (hg : ∀ y ∈ ts, bad y = false) (hx : bad x = true) :
    ∃ h', stdMoveM ty bad v.ptr hi v.len lo h = .ok (true, h') ∧
      Rep ty h' v (xs ++ (ts ++ ((ys ++ ts.map ty.mv).drop ts.length ++ x :: us))) ∧ Step h v.ptr.toList h' v.ptr.toList 0 := by
  have hl : v.len = xs.length + (ys.length + (ts.length + (us.length + 1))) := by simpa using rp.len
  have hyp := List.length_pos_iff.2 hne
  obtain ⟨h1, e1, o1, s1⟩ := stdMoveLoopM_bad (ty := ty) (bad := bad) (h := h) (p := v.ptr) (cap := v.cap) (owner := v.alloc) (k := 0)
    (pre := xs.map some) (post := us.map some ++ raws (v.cap - (xs ++ (ys ++ (ts ++ x :: us))).length)) (first := hi) (dest := lo)
    (n := v.len - hi) ts us (x := x) ys hne (by simpa using rp.own) (by simp [hlo]) (by simp [hhi]) (by omega) hg hx
  refine ⟨h1, ?_, ⟨?_, ?_⟩, s1⟩
  · unfold stdMoveM
    rw [if_neg (by omega)]
    exact e1
  · rw [hl]; simp; omega
  · have hlen : (xs ++ (ys ++ (ts ++ x :: us))).length = (xs ++ (ts ++ ((ys ++ ts.map ty.mv).drop ts.length ++ x :: us))).length := by
      simp; omega
    rw [← hlen]
    simpa using o1

theorem unless_thrown {β γ : Type} {m : M α Bool} {m0 : M α Unit} {f : M α β} {k : Bool × γ} {F : β → γ} {h : Heap α}
    (e : m h = (m0 h >>= fun q => .ok (false, q.2))) :
    (m >>= fun t => if t = true then pure k else f >>= fun v => pure (false, F v)) h =
      ((m0 >>= fun _ => f >>= fun v => pure (F v)) h >>= fun q => .ok ((false, q.1), q.2)) := by
  rw [Prog.bind_run, e, Prog.bind_run]
  cases m0 h with
  | ok q =>
    rw [Out.bind_ok, Out.bind_ok, Out.bind_ok, Prog.bind_run]
    rw [if_neg (by simp), Prog.bind_run]
    cases f q.2 <;> rfl
  | _ => rfl

theorem eraseRangeM_at {h : Heap α} {v : Vec} {xs ys ts : List α} {lo hi : Nat} (rp : Rep ty h v (xs ++ (ys ++ ts)))
    (hlo : lo = xs.length) (hhi : hi = xs.length + ys.length) (hne : ys ≠ [] ∨ ts = []) (hg : ts.any bad = false) :
    eraseRangeM ty bad v lo hi h = (eraseRange ty v lo hi h >>= fun q => .ok ((false, q.1), q.2)) := by
  have hl : v.len = xs.length + ys.length + ts.length := by simpa [Nat.add_assoc] using rp.len
  have e := stdMoveM_at (bad := bad) rp hlo hhi hne hg
  rw [QAtU] at e
  have hn : ¬ hi > v.len := by omega
  unfold eraseRangeM eraseRange
  generalize wsub hi lo = n
  rw [if_neg hn, if_neg hn]
  exact unless_thrown e

theorem eraseRangeM_bad {h : Heap α} {v : Vec} {xs ys ts us : List α} {x : α} {lo hi : Nat}
    (rp : Rep ty h v (xs ++ (ys ++ (ts ++ x :: us))))
    (hlo : lo = xs.length) (hhi : hi = xs.length + ys.length) (hne : ys ≠ []) (hg : ∀ y ∈ ts, bad y = false) (hx : bad x = true) :
    ∃ h', eraseRangeM ty bad v lo hi h = .ok ((true, v, none), h') ∧
      Rep ty h' v (xs ++ (ts ++ ((ys ++ ts.map ty.mv).drop ts.length ++ x :: us))) ∧ Step h v.ptr.toList h' v.ptr.toList 0 := by
  have hl : v.len = xs.length + (ys.length + (ts.length + (us.length + 1))) := by simpa using rp.len
  obtain ⟨h1, e1, r1, s1⟩ := stdMoveM_bad (bad := bad) rp hlo hhi hne hg hx
  refine ⟨h1, ?_, r1, s1⟩
  have hn : ¬ hi > v.len := by omega
  unfold eraseRangeM
  generalize wsub hi lo = n
  rw [if_neg hn, Prog.bind_run, e1, Out.bind_ok, if_pos rfl]
  rfl

theorem eraseM_at {h : Heap α} {v : Vec} {xs ts : List α} {y : α} {p : Nat} (rp : Rep ty h v (xs ++ y :: ts)) (hp : p = xs.length)
    (hg : ts.any bad = false) : eraseM ty bad v p h = (erase ty v p h >>= fun q => .ok ((false, q.1), q.2)) := by
  have e := stdMoveM_at (bad := bad) (ys := [y]) (lo := p) (hi := p + 1) (by simpa using rp) hp (by simp [hp]) (.inl (by simp)) hg
  rw [QAtU] at e
  unfold eraseM erase
  generalize wsub v.len 1 = n
  split
  · rw [Prog.bind_run, Prog.bind_run]
    cases popBack v h <;> rfl
  · split
    · exact unless_thrown e
    · rfl

theorem eraseM_bad {h : Heap α} {v : Vec} {xs ts us : List α} {x y : α} {p : Nat} (rp : Rep ty h v (xs ++ y :: (ts ++ x :: us)))
    (hp : p = xs.length) (hg : ∀ y ∈ ts, bad y = false) (hx : bad x = true) :
    ∃ h', eraseM ty bad v p h = .ok ((true, v, none), h') ∧
      Rep ty h' v (xs ++ (ts ++ (([y] ++ ts.map ty.mv).drop ts.length ++ x :: us))) ∧ Step h v.ptr.toList h' v.ptr.toList 0 := by
  have hl : v.len = xs.length + (ts.length + (us.length + 1) + 1) := by simpa using rp.len
  have hcl := rp.own.cap_lt
  have hle := rp.le
  have hW : wordSize = 18446744073709551616 := rfl
  have hws : wsub v.len 1 = xs.length + (ts.length + (us.length + 1)) := by
    simp only [List.length_append, List.length_cons] at hle
    rw [wsub_of_le (by omega) (by omega)]; omega
  obtain ⟨h1, e1, r1, s1⟩ := stdMoveM_bad (bad := bad) (ys := [y]) (lo := p) (hi := p + 1) (by simpa using rp) hp (by simp [hp]) (by simp) hg hx
  refine ⟨h1, ?_, r1, s1⟩
  unfold eraseM
  rw [hws, if_neg (by omega), if_pos (by omega), Prog.bind_run, e1, Out.bind_ok, if_pos rfl]
  rfl

/-! ## `resize` and copy assignment -/

theorem resizeFillM_at {h : Heap α} {v : Vec} {xs : List α} {r : Ref α} {n : Nat} (rp : Rep ty h v xs) (hb : Bal h)
    (hw : n * ty.size < wordSize) (hg : v.cap < n → xs.any bad = false) : resizeFillM ty bad v n r h = resizeFill ty v n r h := by
  unfold resizeFillM resizeFill
  split
  · rfl
  · split
    · simp only [Prog.bind_run]
      split
      · rw [reserveM_at rp hb hw hg]
      · rfl
    · rfl

theorem resizeFillM_ends {h : Heap α} {v : Vec} {xs : List α} {r : Ref α} {n : Nat} (rp : Rep ty h v xs) (hb : Bal h)
    (hw : n * ty.size < wordSize) (hc : v.cap < n) (hg : xs.any bad = true) : Ends (resizeFillM ty bad v n r h) := by
  have hl := rp.len
  have hle := rp.le
  unfold resizeFillM
  rw [if_neg (by omega), if_pos (by omega)]
  simp only [Prog.bind_run, if_pos hc]
  exact (reserveM_ends rp hb hw hc hg).bind

theorem copyAssignM_at {h : Heap α} {v w : Vec} {xs ys : List α} (rv : Rep ty h v xs) (rw' : Rep ty h w ys) (hb : Bal h)
    (hg : v.alloc = w.alloc → v.cap < w.cap → xs.any bad = false) : copyAssignM ty bad v w h = copyAssign ty v w h := by
  have hw : w.cap * ty.size < wordSize := fits_word rw' (Nat.le_refl _)
  unfold copyAssignM copyAssign
  split
  · rename_i ha
    simp only [Prog.bind_run]
    rw [reserveM_at rv hb hw (hg ha)]
  · rfl

theorem copyAssignM_ends {h : Heap α} {v w : Vec} {xs ys : List α} (rv : Rep ty h v xs) (rw' : Rep ty h w ys) (hb : Bal h)
    (ha : v.alloc = w.alloc) (hc : v.cap < w.cap) (hg : xs.any bad = true) : Ends (copyAssignM ty bad v w h) := by
  have hw : w.cap * ty.size < wordSize := fits_word rw' (Nat.le_refl _)
  unfold copyAssignM
  rw [if_pos ha]
  simp only [Prog.bind_run]
  exact (reserveM_ends rv hb hw hc hg).bind

/-! ## `from_iter` -/

theorem fromIterLoopM_at {h : Heap α} {v : Vec} {xs : List α} (ys : List α) (rp : Rep ty h v xs) (hb : Bal h)
    (hx : xs.any bad = false) (hy : ys.any bad = false) :
    fromIterLoopM ty bad v ys h = (pushList ty v ys h >>= fun q => .ok (some q.1, q.2)) := by
  induction ys generalizing h v xs with
  | nil => rfl
  | cons y ys ih =>
    simp only [List.any_cons, Bool.or_eq_false_iff] at hy
    have e := pushBackM_at (bad := bad) (own := true) rp hb (r := .tmp y) (x := y) (by simp [hy.1]) (fun _ => hx)
      (.inl (stable_tmp h v.ptr y))
    rw [QAt] at e
    simp only [fromIterLoopM, pushList, hy.1, Bool.false_eq_true, if_false, Prog.bind_run, e, Out.assoc, Out.bind_ok]
    have := pushBack_ok rp hb (.inl (stable_tmp h v.ptr y))
    cases he : pushBack ty v (.tmp y) h with
    | ok q =>
      rw [he] at this
      exact ih this.rep this.bal (by simp [hx, hy.1]) hy.2
    | _ => rfl

theorem fromIterLoopM_bad {h : Heap α} {v : Vec} {xs : List α} (ys : List α) (rp : Rep ty h v xs) (hb : Bal h)
    (hx : xs.any bad = false) (hy : ys.any bad = true) :
    (fromIterLoopM ty bad v ys h).Safe fun q => q.1 = none ∧ ∃ k, Step h v.ptr.toList q.2 [] k := by
  induction ys generalizing h v xs with
  | nil => simp at hy
  | cons y ys ih =>
    cases hb1 : bad y with
    | true =>
      obtain ⟨h1, e1, t1⟩ := clear_ok rp hb
      simp only [fromIterLoopM, hb1, if_true, Prog.bind_run, e1, Out.bind_ok, Prog.pure_run, Out.safe_ok, true_and]
      exact ⟨_, t1.step⟩
    | false =>
      have e := pushBackM_at (bad := bad) (own := true) rp hb (r := .tmp y) (x := y) (by simp [hb1]) (fun _ => hx)
        (.inl (stable_tmp h v.ptr y))
      rw [QAt] at e
      simp only [fromIterLoopM, hb1, Bool.false_eq_true, if_false, Prog.bind_run, e, Out.assoc, Out.bind_ok]
      apply (pushBack_ok rp hb (.inl (stable_tmp h v.ptr y))).bind
      rintro ⟨v1, h1⟩ t1
      simp only at t1 ⊢
      refine (ih t1.rep t1.bal (by simp [hx, hb1]) (by simpa [hb1] using hy)).mono ?_
      rintro q ⟨h2, k, s⟩
      exact ⟨h2, _, t1.step.trans s⟩

/-! ## Draining -/

theorem intoRep_rep {h : Heap α} {it : IntoIter} {ts : List α} (r : IntoRep ty h it ts) : ∃ zs, Rep ty h it.vec zs := by
  rcases r.rep with ⟨_, _, h⟩ | ⟨_, zs, _, _, h⟩
  · exact ⟨_, h⟩
  · exact ⟨_, h⟩

theorem intoNextM_end {h : Heap α} {it : IntoIter} (r : IntoRep ty h it []) : it.nextM ty bad h = .ok (some (none, it), h) := by
  rcases r.rep with ⟨_, hp, _⟩ | ⟨hne, _⟩
  · simp only [IntoIter.nextM, hp, Nat.lt_irrefl, if_false]; rfl
  · exact absurd rfl hne

theorem intoNextM_at {h : Heap α} {it : IntoIter} {t : α} {ts : List α} (r : IntoRep ty h it (t :: ts)) (ht : bad t = false) :
    it.nextM ty bad h = (it.next ty h >>= fun q => .ok (some q.1, q.2)) := by
  rcases r.rep with ⟨hne, _⟩ | ⟨_, zs, hp, hl, rp⟩
  · cases hne
  · have e := takeM_good (bad := bad) (ty := ty) (h := h) (ptr := it.vec.ptr) (i := it.pos) (cap := it.vec.cap)
      (owner := it.vec.alloc) (pre := zs.map some) (x := t) (post := ts.map some ++ raws (it.vec.cap - (zs ++ t :: ts).length))
      (by simpa using rp.own) (by simp [hp]) ht
    simp only [List.length_cons] at hl
    simp only [IntoIter.nextM, IntoIter.next, show it.pos < it.len by omega, if_true, Prog.bind_run, e, Out.assoc, Out.bind_ok]
    rfl

theorem intoNextM_bad {h : Heap α} {it : IntoIter} {t : α} {ts : List α} (r : IntoRep ty h it (t :: ts)) (ht : bad t = true) :
    it.nextM ty bad h = .ok (none, h) := by
  rcases r.rep with ⟨hne, _⟩ | ⟨_, zs, hp, hl, rp⟩
  · cases hne
  · have e := takeM_bad (bad := bad) (ty := ty) (h := h) (ptr := it.vec.ptr) (i := it.pos) (cap := it.vec.cap)
      (owner := it.vec.alloc) (pre := zs.map some) (x := t) (post := ts.map some ++ raws (it.vec.cap - (zs ++ t :: ts).length))
      (by simpa using rp.own) (by simp [hp]) ht
    simp only [List.length_cons] at hl
    simp only [IntoIter.nextM, show it.pos < it.len by omega, if_true, Prog.bind_run, e, Out.bind_ok]
    rfl

theorem drainNM_at (n : Nat) {h : Heap α} {it : IntoIter} {ts : List α} (r : IntoRep ty h it ts) (hb : Bal h)
    (hg : (ts.take n).any bad = false) : drainNM ty bad it n h = (drainN ty it n h >>= fun q => .ok (some q.1, q.2)) := by
  induction n generalizing h it ts with
  | zero =>
    simp only [drainNM, drainN, Prog.bind_run, Out.assoc]
    rfl
  | succ n ih =>
    cases ts with
    | nil =>
      have := ih r hb (by simp)
      simp only [drainNM, drainN, Prog.bind_run, intoNextM_end r, intoNext_end r, Out.bind_ok, this, Out.assoc]
      rfl
    | cons t ts =>
      simp only [List.take_succ_cons, List.any_cons, Bool.or_eq_false_iff] at hg
      obtain ⟨it', h1, k1, e1, r1, b1, s1⟩ := intoNext_ok r hb
      have e2 := intoNextM_at (bad := bad) r hg.1
      rw [e1, Out.bind_ok] at e2
      have := ih r1 b1 hg.2
      simp only [drainNM, drainN, Prog.bind_run, e1, e2, Out.bind_ok, this, Out.assoc]
      rfl

theorem drainNM_bad (n : Nat) {h : Heap α} {it : IntoIter} {ts : List α} (r : IntoRep ty h it ts) (hb : Bal h)
    (hg : (ts.take n).any bad = true) : ∃ h' k, drainNM ty bad it n h = .ok (none, h') ∧ Step h it.vec.ptr.toList h' [] k := by
  induction n generalizing h it ts with
  | zero => simp at hg
  | succ n ih =>
    cases ts with
    | nil => simp at hg
    | cons t ts =>
      cases ht : bad t with
      | true =>
        obtain ⟨zs, rp⟩ := intoRep_rep r
        obtain ⟨h1, e1, t1⟩ := clear_ok rp hb
        refine ⟨h1, _, ?_, t1.step⟩
        simp only [drainNM, Prog.bind_run, intoNextM_bad r ht, Out.bind_ok, e1]
        rfl
      | false =>
        obtain ⟨it', h1, k1, e1, r1, b1, s1⟩ := intoNext_ok r hb
        have e2 := intoNextM_at (bad := bad) r ht
        rw [e1, Out.bind_ok] at e2
        obtain ⟨h2, k, e3, s2⟩ := ih r1 b1 (by simpa [ht] using hg)
        refine ⟨h2, _, ?_, s1.trans s2⟩
        simp only [drainNM, Prog.bind_run, e2, Out.bind_ok, e3]
        rfl

theorem intoNextReversedM_end {h : Heap α} {v : Vec} (rp : Rep ty h v []) :
    intoNextReversedM ty bad v h = .ok (some (none, v), h) := by
  simp only [intoNextReversedM, rp.len, List.length_nil, ne_eq, not_true_eq_false, if_false]; rfl

theorem intoNextReversedM_at {h : Heap α} {v : Vec} {xs : List α} {x : α} (rp : Rep ty h v (xs ++ [x])) (hx : bad x = false) :
    intoNextReversedM ty bad v h = (intoNextReversed ty v h >>= fun q => .ok (some q.1, q.2)) := by
  have hl : v.len = xs.length + 1 := by simpa using rp.len
  have e := takeM_good (bad := bad) (ty := ty) (h := h) (ptr := v.ptr) (i := v.len - 1) (cap := v.cap)
    (owner := v.alloc) (pre := xs.map some) (x := x) (post := raws (v.cap - (xs ++ [x]).length))
    (by simpa using rp.own) (by simp [hl]) hx
  simp only [intoNextReversedM, intoNextReversed, show v.len ≠ 0 by omega, ne_eq, not_false_eq_true, if_true, Prog.bind_run, e,
    Out.assoc, Out.bind_ok]
  rfl

theorem intoNextReversedM_bad {h : Heap α} {v : Vec} {xs : List α} {x : α} (rp : Rep ty h v (xs ++ [x])) (hx : bad x = true) :
    intoNextReversedM ty bad v h = .ok (none, h) := by
  have hl : v.len = xs.length + 1 := by simpa using rp.len
  have e := takeM_bad (bad := bad) (ty := ty) (h := h) (ptr := v.ptr) (i := v.len - 1) (cap := v.cap)
    (owner := v.alloc) (pre := xs.map some) (x := x) (post := raws (v.cap - (xs ++ [x]).length))
    (by simpa using rp.own) (by simp [hl]) hx
  simp only [intoNextReversedM, show v.len ≠ 0 by omega, ne_eq, not_false_eq_true, if_true, Prog.bind_run, e, Out.bind_ok]
  rfl

theorem drainRevNM_at (n : Nat) {h : Heap α} {v : Vec} {ts : List α} (rp : Rep ty h v ts) (hb : Bal h)
    (hg : (ts.reverse.take n).any bad = false) :
    drainRevNM ty bad v n h = (drainRevN ty v n h >>= fun q => .ok (some q.1, q.2)) := by
  induction n generalizing h v ts with
  | zero =>
    simp only [drainRevNM, drainRevN, Prog.bind_run, Out.assoc]
    rfl
  | succ n ih =>
    rcases List.eq_nil_or_concat ts with rfl | ⟨ts, t, rfl⟩
    · have := ih rp hb (by simp)
      simp only [drainRevNM, drainRevN, Prog.bind_run, intoNextReversedM_end rp, intoNextReversed_end rp, Out.bind_ok, this, Out.assoc]
      rfl
    · simp only [List.concat_eq_append] at rp hg
      simp only [List.reverse_append, List.reverse_cons, List.reverse_nil, List.nil_append, List.cons_append, List.take_succ_cons,
        List.any_cons, Bool.or_eq_false_iff] at hg
      obtain ⟨v', h1, k1, e1, t1⟩ := intoNextReversed_ok rp hb
      have e2 := intoNextReversedM_at (bad := bad) rp hg.1
      rw [e1, Out.bind_ok] at e2
      have := ih t1.rep t1.bal hg.2
      simp only [drainRevNM, drainRevN, Prog.bind_run, e1, e2, Out.bind_ok, this, Out.assoc]
      rfl

theorem drainRevNM_bad (n : Nat) {h : Heap α} {v : Vec} {ts : List α} (rp : Rep ty h v ts) (hb : Bal h)
    (hg : (ts.reverse.take n).any bad = true) :
    ∃ h' k, drainRevNM ty bad v n h = .ok (none, h') ∧ Step h v.ptr.toList h' [] k := by
  induction n generalizing h v ts with
  | zero => simp at hg
  | succ n ih =>
    rcases List.eq_nil_or_concat ts with rfl | ⟨ts, t, rfl⟩
    · simp at hg
    · simp only [List.concat_eq_append] at rp hg
      cases ht : bad t with
      | true =>
        obtain ⟨h1, e1, t1⟩ := clear_ok rp hb
        refine ⟨h1, _, ?_, t1.step⟩
        simp only [drainRevNM, Prog.bind_run, intoNextReversedM_bad rp ht, Out.bind_ok, e1]
        rfl
      | false =>
        obtain ⟨v', h1, k1, e1, t1⟩ := intoNextReversed_ok rp hb
        have e2 := intoNextReversedM_at (bad := bad) rp ht
        rw [e1, Out.bind_ok] at e2
        obtain ⟨h2, k, e3, s2⟩ := ih t1.rep t1.bal (by simpa [ht] using hg)
        refine ⟨h2, _, ?_, t1.step.trans s2⟩
        simp only [drainRevNM, Prog.bind_run, e2, Out.bind_ok, e3]
        rfl

end Verif.Proof.Vector
