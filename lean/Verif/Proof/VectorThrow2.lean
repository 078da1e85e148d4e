import Verif.Proof.VectorThrow
/-! # Vector: what a throwing element copy leaves behind -/
namespace Verif.Proof.Vector
open Verif Verif.Model.Mem Verif.Model.Vector Verif.Proof.Mem
open Verif.Spec.Vector hiding upd

variable {α : Type} {ty : ElemTy α} {bad : α → Bool}

/-- The object counts an element that does not exist. -/
structure Hurt (ty : ElemTy α) (h : Heap α) (p : Option Nat) (v' : Vec) (h' : Heap α) : Prop where
  own : ∃ (xs : List α) (post : List (Option α)), Own ty h' v'.ptr v'.cap v'.alloc (xs.map some ++ post) ∧ xs.length < v'.len ∧ ∀ x, post.head? ≠ some (some x)
  step : ∃ k, Step h p.toList h' v'.ptr.toList k
  cap : 0 < v'.cap

theorem Hurt.after {h h1 h' : Heap α} {p : Option Nat} {v v' : Vec} {k : Cost} (s : Step h p.toList h1 v.ptr.toList k)
    (t : Hurt ty h1 v.ptr v' h') : Hurt ty h p v' h' := by
  obtain ⟨k', s'⟩ := t.step
  exact ⟨t.own, ⟨_, s.trans s'⟩, t.cap⟩

theorem pushBackT_hurt {h : Heap α} {v : Vec} {xs : List α} (rp : Rep ty h v xs) (hb : Bal h) {r : Ref α} {x : α} (hx : bad x = true)
    (hr : Stable h v.ptr r x ∨ (xs.length < v.cap ∧ RefIs h v xs r x)) :
    (pushBackT ty bad v r h).Safe fun q => q.1.1 = true ∧ Hurt ty h v.ptr q.1.2 q.2 := by
  simp only [pushBackT, Prog.bind_run]
  have hl := rp.len
  by_cases hlt : xs.length < v.cap
  · have e : deref r h = .ok (x, h) := by
      rcases hr with s | ⟨_, s⟩
      · exact s.now
      · exact s.now rp
    rw [if_neg (by omega)]
    simp only [Prog.pure_run, Out.bind_ok, e, hx, if_true, Out.safe_ok, true_and]
    exact ⟨⟨xs, _, rp.own, by simp; omega, raws_head _⟩, ⟨_, Step.refl _ _⟩, by simp only; omega⟩
  · have s : Stable h v.ptr r x := by
      rcases hr with s | ⟨hh, _⟩
      · exact s
      · exact absurd hh hlt
    rw [if_pos (by omega)]
    apply (extendSpace_ok rp hb).bind
    rintro ⟨v1, h1⟩ ⟨t1, _⟩
    simp only at t1
    simp only [(s.step t1.step).now, Out.bind_ok, hx, if_true, Prog.pure_run, Out.safe_ok, true_and]
    have hl1 := t1.rep.len
    refine ⟨⟨xs, _, t1.rep.own, by simp; omega, raws_head _⟩, ⟨_, t1.step⟩, ?_⟩
    simp only [t1.cap, grown]; split <;> omega

theorem pushListT_hurt {h : Heap α} {v : Vec} {xs : List α} (ys : List α) (rp : Rep ty h v xs) (hb : Bal h) {x : α} {zs : List α}
    (hg : ∀ y ∈ ys, bad y = false) (hx : bad x = true) :
    (pushListT ty bad v (ys ++ x :: zs) h).Safe fun q => q.1.1 = true ∧ Hurt ty h v.ptr q.1.2 q.2 := by
  induction ys generalizing h v xs with
  | nil =>
    simp only [List.nil_append, pushListT, Prog.bind_run]
    apply (pushBackT_hurt rp hb hx (.inl (stable_tmp h _ x))).bind
    rintro ⟨⟨t, v1⟩, h1⟩ ⟨rfl, h3⟩
    simp only [if_true, Prog.pure_run, Out.safe_ok]
    exact ⟨trivial, h3⟩
  | cons y ys ih =>
    simp only [List.cons_append, pushListT, Prog.bind_run]
    rw [pushBackT_good v (hg y (by simp)) (fun _ => rfl)]
    have := pushBack_ok rp hb (.inl (stable_tmp h v.ptr y))
    cases he : pushBack ty v (.tmp y) h with
    | ok p =>
      rw [he] at this
      simp only [Out.safe_ok] at this
      simp only [Out.bind_ok, Bool.false_eq_true, if_false]
      exact (ih (xs := xs ++ [y]) this.rep this.bal (fun z hz => hg z (by simp [hz]))).mono fun q hq => ⟨hq.1, hq.2.after this.step⟩
    | oom => trivial
    | _ => rw [he] at this; exact this.elim

theorem pushLoopT_hurt {h : Heap α} {v : Vec} {xs : List α} (rp : Rep ty h v xs) (hb : Bal h) {r : Ref α} {x : α} (hx : bad x = true)
    (hr : Stable h v.ptr r x ∨ (xs.length < v.cap ∧ RefIs h v xs r x)) {n : Nat} (hn : 0 < n) :
    (pushLoopT ty bad r v n h).Safe fun q => q.1.1 = true ∧ Hurt ty h v.ptr q.1.2 q.2 := by
  obtain ⟨n, rfl⟩ : ∃ m, n = m + 1 := ⟨n - 1, by omega⟩
  simp only [pushLoopT, Prog.bind_run]
  apply (pushBackT_hurt rp hb hx hr).bind
  rintro ⟨⟨t, v1⟩, h1⟩ ⟨rfl, h3⟩
  simp only [if_true, Prog.pure_run, Out.safe_ok]
  exact ⟨trivial, h3⟩

theorem assignFillT_hurt {h : Heap α} {v : Vec} {xs : List α} {r : Ref α} {x : α} {n : Nat} (rp : Rep ty h v xs) (hb : Bal h)
    (hn : 0 < n) (ri : Stable h v.ptr r x) (hx : bad x = true) (hw : n * ty.size < wordSize) :
    (assignFillT ty bad v n r h).Safe fun q => q.1.1 = true ∧ Hurt ty h v.ptr q.1.2 q.2 := by
  obtain ⟨h1, e1, t1⟩ := destroyAll_ok rp hb
  simp only [assignFillT, Prog.bind_run, e1, Out.bind_ok]
  apply (reserve_ok t1.rep t1.bal hw).bind
  rintro ⟨v2, h2⟩ ⟨t2, _⟩
  exact (pushLoopT_hurt t2.rep t2.bal hx (.inl ((ri.step t1.step).step t2.step)) hn).mono fun q hq =>
    ⟨hq.1, hq.2.after (t1.step.trans t2.step)⟩

theorem assignListT_hurt {h : Heap α} {v : Vec} {xs : List α} (rp : Rep ty h v xs) (hb : Bal h) {ys zs : List α} {x : α}
    (hw : (ys ++ x :: zs).length * ty.size < wordSize) (hg : ∀ y ∈ ys, bad y = false) (hx : bad x = true) :
    (assignListT ty bad v (ys ++ x :: zs) h).Safe fun q => q.1.1 = true ∧ Hurt ty h v.ptr q.1.2 q.2 := by
  simp only [assignListT, Prog.bind_run]
  obtain ⟨h1, e1, t1⟩ := destroyAll_ok rp hb
  rw [e1, Out.bind_ok]
  apply (reserve_ok t1.rep t1.bal hw).bind
  rintro ⟨v2, h2⟩ ⟨t2, _⟩
  exact (pushListT_hurt ys t2.rep t2.bal hg hx).mono fun q hq => ⟨hq.1, hq.2.after (t1.step.trans t2.step)⟩

theorem resizeFillT_hurt {h : Heap α} {v : Vec} {xs : List α} {r : Ref α} {x : α} {n : Nat} (rp : Rep ty h v xs) (hb : Bal h)
    (hn : xs.length < n) (ri : Stable h v.ptr r x ∨ (n ≤ v.cap ∧ RefIs h v xs r x)) (hx : bad x = true) (hw : n * ty.size < wordSize) :
    (resizeFillT ty bad v n r h).Safe fun q => q.1.1 = true ∧ Hurt ty h v.ptr q.1.2 q.2 := by
  have hl := rp.len
  unfold resizeFillT
  rw [if_neg (by omega), if_pos (by omega)]
  simp only [Prog.bind_run]
  by_cases hc : n > v.cap
  · rw [if_pos hc]
    have s : Stable h v.ptr r x := ri.resolve_right (by omega)
    apply (reserve_ok rp hb hw).bind
    rintro ⟨v2, h2⟩ ⟨t2, _⟩
    have hl2 := t2.rep.len
    exact (pushLoopT_hurt t2.rep t2.bal hx (.inl (s.step t2.step)) (by simp only at hl2 ⊢; omega)).mono fun q hq =>
      ⟨hq.1, hq.2.after t2.step⟩
  · rw [if_neg hc]
    simp only [Prog.pure_run, Out.bind_ok]
    refine pushLoopT_hurt rp hb hx ?_ (by omega)
    rcases ri with hh | hh
    · exact .inl hh
    · exact .inr ⟨by omega, hh.2⟩

theorem insertFillT_hurt {h : Heap α} {v : Vec} {zs ts : List α} {x : α} {r : Ref α} {pos n : Nat} (rp : Rep ty h v (zs ++ ts))
    (hb : Bal h) (hz : zs ≠ []) (hn : 0 < n) (hpos : pos = zs.length) (hx : bad x = true)
    (ri : Stable h v.ptr r x ∨ (zs.length + ts.length + n ≤ v.cap ∧ ∃ i, r = .slot v.ptr i ∧ zs[i]? = some x))
    (hw : (zs.length + ts.length + n) * ty.size < wordSize) :
    (insertFillT ty bad v pos n r h).Safe fun q => q.1.1 = true ∧ Hurt ty h v.ptr q.1.2 q.2 := by
  simp only [insertFillT, Prog.bind_run]
  apply (moveElementsBack_ok rp hb hz (.inl hn) hpos hw).bind
  rintro ⟨v1, h1⟩ ⟨k1, g, hp⟩
  simp only at g hp ⊢
  have hd : deref r h1 = .ok (x, h1) := by
    rcases ri with hh | ⟨hle, i, hr, hi⟩
    · exact hh _ _ _ g.step
    · subst hr
      rw [← hp.1 hle]
      apply load_ok g.own
      have hlt : i < zs.length := by rw [List.getElem?_eq_some_iff] at hi; exact hi.1
      rw [List.getElem?_append_left (by simpa using hlt), List.getElem?_map, hi]; rfl
  obtain ⟨n, rfl⟩ : ∃ m, n = m + 1 := ⟨n - 1, by omega⟩
  simp only [fillT, Prog.bind_run, hd, Out.bind_ok, hx, if_true, Prog.pure_run, Out.safe_ok, true_and]
  have hl := g.len
  have hf := g.fits
  exact ⟨⟨zs, _, g.own, by omega, by intro y; simp [raws, List.replicate_succ]⟩, ⟨_, g.step⟩, by omega⟩

theorem insertRangeT_hurt {h : Heap α} {v : Vec} {zs ts : List α} (rp : Rep ty h v (zs ++ ts)) (hb : Bal h) (hz : zs ≠ [])
    {ys us : List α} {x : α} {pos : Nat} (hpos : pos = zs.length)
    (hw : (zs.length + ts.length + (ys ++ x :: us).length) * ty.size < wordSize) (hg : ∀ y ∈ ys, bad y = false)
    (hx : bad x = true) :
    (insertRangeT ty bad v pos (ys ++ x :: us) h).Safe fun q => q.1.1 = true ∧ Hurt ty h v.ptr q.1.2 q.2 := by
  have hl : v.len = zs.length + ts.length := by simpa using rp.len
  have hlt : zs.length + ts.length + (ys ++ x :: us).length < wordSize :=
    Nat.lt_of_le_of_lt (Nat.le_mul_of_pos_right _ ty.size_pos) hw
  simp only [insertRangeT, Prog.bind_run]
  rw [hl, wrap_of_lt hlt]
  have key : ((if zs.length + ts.length + (ys ++ x :: us).length > v.cap then
      allocateReserve ty v (zs.length + ts.length + (ys ++ x :: us).length) else pure v) h : Out _).Safe fun q =>
      Rep ty q.2 q.1 (zs ++ ts) ∧ Bal q.2 ∧ ∃ k, Step h v.ptr.toList q.2 q.1.ptr.toList k := by
    split
    · exact (allocateReserve_ok rp hb (by simp; omega) hw).mono fun q hq => ⟨hq.1.rep, hq.1.bal, _, hq.1.step⟩
    · exact ⟨rp, hb, _, Step.refl _ _⟩
  apply key.bind
  rintro ⟨v1, h1⟩ ⟨r1, b1, k1, s1⟩
  simp only at r1 b1 s1 ⊢
  apply (moveElementsBack_ok r1 b1 hz (.inl (by simp; omega)) hpos hw).bind
  rintro ⟨v2, h2⟩ ⟨k2, g, _⟩
  simp only at g ⊢
  obtain ⟨h3, e3, o3, s3⟩ := constructListT_bad (ty := ty) (bad := bad) (h := h2) (q := v2.ptr) (cap := v2.cap) (owner := v2.alloc)
    (pre := zs.map some) (post := raws (us.length + 1) ++ (ts.map some ++ raws (v2.cap - (zs.length + (ys ++ x :: us).length + ts.length))))
    (x := x) (zs := us) (i := pos) ys (by
      have := g.own
      rw [← List.append_assoc (raws ys.length), raws_append]
      rw [show ys.length + (us.length + 1) = (ys ++ x :: us).length by simp]
      simpa using this) (by simp [hpos]) hg hx
  simp only [e3, Out.bind_ok, Prog.pure_run, Out.safe_ok, true_and]
  have hl2 := g.len
  have hf := g.fits
  simp only [List.length_append, List.length_cons] at hl2 hf
  refine ⟨⟨zs ++ ys, _, by simpa using o3, by simp; omega, ?_⟩, ⟨_, s1.trans (g.step.trans s3)⟩, by omega⟩
  intro y; simp [raws, List.replicate_succ]

theorem copyImplT_hurt {h : Heap α} {r : Vec} {ys us : List α} {x : α} (a : Nat) (hr : Rep ty h r (ys ++ x :: us)) (hb : Bal h)
    (hg : ∀ y ∈ ys, bad y = false) (hx : bad x = true) :
    (copyImplT ty bad (Vec.blank a) r h).Safe fun q => q.1.1 = true ∧ Hurt ty h none q.1.2 q.2 := by
  refine (copyImplT_bad a hr hb hg hx).mono ?_
  rintro q ⟨h1, h2, h3, h4⟩
  refine ⟨h1, ⟨ys, _, h3, by rw [h2]; simp, raws_head _⟩, ⟨_, h4⟩, ?_⟩
  have := h3.length
  simp at this
  omega

/-! ## Constructors -/

/-- A block that nobody owns stays behind. -/
def Leak (h h' : Heap α) : Prop := ∃ b k, h'.blocks b ≠ none ∧ Step h [] h' [b] k

theorem Hurt.leak {h h' : Heap α} {v' : Vec} (t : Hurt ty h none v' h') : Leak h h' := by
  obtain ⟨xs, post, o, _, _⟩ := t.own
  obtain ⟨k, s⟩ := t.step
  have hc := t.cap
  cases hp : v'.ptr with
  | none => rw [hp] at o; simp only [Own] at o; omega
  | some b =>
    rw [hp] at o s
    simp only [Own] at o
    exact ⟨b, k, by rw [o.1]; simp, s⟩

theorem newListT_leak {h : Heap α} (hb : Bal h) {ys zs : List α} {x : α} {a : Nat} (hw : (ys ++ x :: zs).length * ty.size < wordSize)
    (hg : ∀ y ∈ ys, bad y = false) (hx : bad x = true) :
    (newListT ty bad (ys ++ x :: zs) a h).Safe fun q => q.1 = none ∧ Leak h q.2 := by
  simp only [newListT, Prog.bind_run]
  apply (allocate_ok hb a _ hw).bind
  rintro ⟨v1, h1⟩ ⟨t1, hv⟩
  have hcap : v1.cap = ys.length + (zs.length + 1) := by have := t1.cap; simpa using this
  obtain ⟨h2, e2, o2, s2⟩ := constructListT_bad (ty := ty) (bad := bad) (h := h1) (q := v1.ptr) (cap := v1.cap) (owner := v1.alloc)
    (pre := []) (post := raws (zs.length + 1)) (x := x) (zs := zs) (i := 0) ys
    (by have := t1.rep.own; simp only [List.nil_append, raws_append]; simpa [hcap] using this) rfl hg hx
  simp only [e2, Out.bind_ok, if_true, Prog.pure_run, Out.safe_ok, true_and]
  cases hp : v1.ptr with
  | none => rw [hp] at o2; simp only [Own] at o2; omega
  | some b =>
    have s := t1.step.trans s2
    rw [hp] at o2 s
    simp only [Own] at o2
    exact ⟨b, _, by rw [o2.1]; simp, s⟩

/-! ## Copy assignment -/

theorem stdCopyT_bad {h : Heap α} {q : Option Nat} {cap owner : Nat} {pre post : List (Option α)} {r : Vec} {rs : List α}
    (hr : Rep ty h r rs) (hpq : ∀ b, q = some b → r.ptr ≠ some b) (zs ys us old : List α) {x : α} {i n : Nat}
    (hrs : rs = zs ++ (ys ++ x :: us)) (ho : Own ty h q cap owner (pre ++ (old.map some ++ post))) (hi : i = zs.length)
    (hi' : i = pre.length) (hn : ys.length < n) (hold : ys.length = old.length) (hg : ∀ y ∈ ys, bad y = false) (hx : bad x = true) :
    ∃ h', stdCopyT bad r.ptr q i n h = .ok (true, h') ∧
      Own ty h' q cap owner (pre ++ (ys.map some ++ post)) ∧ Step h q.toList h' q.toList 0 := by
  obtain ⟨n, rfl⟩ : ∃ m, n = m + 1 := ⟨n - 1, by omega⟩
  induction ys generalizing h i zs pre n old with
  | nil =>
    have : old = [] := by cases old <;> simp_all
    subst this
    have e1 : load r.ptr i h = .ok (x, h) := hr.slot (by rw [hrs]; exact focus_get _ _ _ hi)
    exact ⟨h, by simp only [stdCopyT, Prog.bind_run, e1, Out.bind_ok, hx, if_true, Prog.pure_run], by simpa using ho, Step.refl _ _⟩
  | cons y ys ih =>
    cases old with
    | nil => simp at hold
    | cons o old =>
      obtain ⟨n, rfl⟩ : ∃ m, n = m + 1 := ⟨n - 1, by simp at hn; omega⟩
      have e1 : load r.ptr i h = .ok (y, h) := hr.slot (by rw [hrs]; exact focus_get _ _ _ hi)
      obtain ⟨h2, e2, o2, s2⟩ := store_ok (pre := pre) (y := y) (by simpa using ho) hi'
      obtain ⟨h3, e3, o3, s3⟩ := ih (h := h2) (i := i + 1) (zs := zs ++ [y]) (pre := pre ++ [some y]) (old := old)
        (hr.keep s2 (by intro b hb hm; simp at hm; exact hpq b hm hb)) (by simp [hrs]) (by simpa using o2) (by simp [hi])
        (by simp [hi']) (by simpa using hold) (fun z hz => hg z (by simp [hz])) n (by simp at hn; omega)
      refine ⟨h3, ?_, by simpa using o3, s2.trans s3⟩
      rw [stdCopyT]
      simp only [Prog.bind_run, e1, Out.bind_ok, hg y (by simp), Bool.false_eq_true, if_false, e2, e3]

/-- equal allocators, a copy throws: the state of the target -/
theorem copyAssignT_left {h : Heap α} {v w : Vec} {xs ys us : List α} {x : α} (rv : Rep ty h v xs) (rw' : Rep ty h w (ys ++ x :: us))
    (hb : Bal h) (hne : ∀ b, v.ptr = some b → w.ptr ≠ some b) (ha : v.alloc = w.alloc)
    (hg : ∀ y ∈ ys, bad y = false) (hx : bad x = true) :
    (copyAssignT ty bad v w h).Safe fun q => q.1.1 = true ∧ q.1.2.len = xs.length ∧ q.1.2.cap = max v.cap w.cap ∧
      q.1.2.alloc = v.alloc ∧ (∃ k, Step h v.ptr.toList q.2 q.1.2.ptr.toList k) ∧
      Own ty q.2 q.1.2.ptr q.1.2.cap q.1.2.alloc
        ((ys ++ xs.drop ys.length).map some ++ raws (q.1.2.cap - (ys ++ xs.drop ys.length).length)) := by
  unfold copyAssignT
  rw [if_pos ha]
  simp only [Prog.bind_run]
  have hw : w.cap * ty.size < wordSize := by
    have := rw'.own.small; have : wordSize = 18446744073709551616 := rfl; omega
  apply (reserve_ok rv hb hw).bind
  rintro ⟨v1, h1⟩ ⟨t1, hlow, hhigh⟩
  simp only at t1
  have rw1 := rw'.keep t1.step (by intro b hb1 hm; simp at hm; exact hne b hm hb1)
  have hne1 : ∀ b, v1.ptr = some b → w.ptr ≠ some b := by
    intro b hb1 hb2
    by_cases hp : v.ptr = some b
    · exact hne b hp hb2
    · have h3 := t1.step.fresh b (by simp [hb1]) (by simp [hp])
      obtain ⟨blk, h4⟩ := rw'.block hb2
      rw [h3] at h4; cases h4
  have hl1 := t1.rep.len
  have hl2 : w.len = ys.length + (us.length + 1) := by simpa using rw1.len
  have hcap : v1.cap = max v.cap w.cap := t1.cap
  have hle2 : ys.length + (us.length + 1) ≤ w.cap := by simpa using rw1.le
  have hle1 := t1.rep.le
  by_cases hlt : ys.length < xs.length
  · -- the throw is among the elements the target has
    obtain ⟨h2, e2, o2, s2⟩ := stdCopyT_bad (bad := bad) (pre := []) (post := (xs.drop ys.length).map some ++ raws (v1.cap - xs.length))
      rw1 hne1 [] ys us (xs.take ys.length) (x := x) (i := 0) (n := min v1.len w.len) rfl
      (by have := t1.rep.own
          simp only [List.nil_append, ← List.append_assoc, ← List.map_append, List.take_append_drop]; exact this)
      rfl rfl (by omega) (by simp; omega) hg hx
    rw [e2, Out.bind_ok]
    simp only [if_true, Prog.pure_run, Out.safe_ok]
    refine ⟨trivial, hl1, hcap, t1.alloc, ⟨_, t1.step.trans s2⟩, ?_⟩
    rw [show v1.cap - (ys ++ xs.drop ys.length).length = v1.cap - xs.length by simp; omega]
    simpa using o2
  · have hys : ys = ys.take xs.length ++ ys.drop xs.length := (List.take_append_drop _ _).symm
    have hmin : min v1.len w.len = xs.length := by omega
    obtain ⟨h2, e2, o2, s2⟩ := stdCopyT_good (bad := bad) (pre := []) rw1 hne1 [] (ys.take xs.length) (ys.drop xs.length ++ x :: us) xs
      (i := 0) (n := xs.length) (by rw [List.nil_append, ← List.append_assoc, ← hys]) t1.rep.own rfl rfl
      (by simp; omega) rfl (fun y hy => hg y (List.mem_of_mem_take hy))
    rw [hmin, e2, Out.bind_ok]
    simp only [Bool.false_eq_true, if_false, Prog.bind_run]
    rw [if_neg (by omega), if_pos (by omega)]
    have rw2 := rw1.keep s2 (by intro b hb1 hm; simp at hm; exact hne1 b hm hb1)
    obtain ⟨h3, e3, o3, s3⟩ := constructFromT_bad (ty := ty) (bad := bad) (h := h2) (q := v1.ptr) (cap := v1.cap) (owner := v1.alloc)
      (pre := (ys.take xs.length).map some) rw2 hne1 (ys.take xs.length) (ys.drop xs.length) us (x := x) (i := xs.length)
      (n := w.len - xs.length) (m := v1.cap - ys.length) (by rw [← List.append_assoc, ← hys])
      (by
        rw [show (ys.drop xs.length).length + (v1.cap - ys.length) = v1.cap - xs.length by simp; omega]
        simpa using o2)
      (by simp; omega) (by simp; omega) (by simp; omega)
      (fun y hy => hg y (List.mem_of_mem_drop hy)) hx
    rw [e3, Out.bind_ok]
    simp only [if_true, Prog.pure_run, Out.safe_ok]
    refine ⟨trivial, hl1, hcap, t1.alloc, ⟨_, t1.step.trans (s2.trans s3)⟩, ?_⟩
    rw [List.drop_of_length_le (by omega : xs.length ≤ ys.length), List.append_nil]
    rw [← List.append_assoc, ← List.map_append, ← hys] at o3
    exact o3

end Verif.Proof.Vector
