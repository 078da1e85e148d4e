import Verif.Proof.Vector
import Verif.Spec.Vector
/-! # Vector: assignment, construction, insertion, erasure, resize, iteration -/
namespace Verif.Proof.Vector
open Verif Verif.Model.Mem Verif.Model.Vector Verif.Proof.Mem
open Verif.Spec.Vector (eqSeq lexSeq joinSeq)

variable {α : Type} {ty : ElemTy α}

theorem rep_blank (h : Heap α) (a : Nat) : Rep ty h (Vec.blank a) [] := ⟨rfl, by simp [Vec.blank, Own, raws]⟩

theorem to_blank {h : Heap α} (hb : Bal h) (a : Nat) : To ty h none [] 0 a 0 (Vec.blank a) h :=
  ⟨rep_blank h a, Step.refl _ _, hb, rfl, rfl⟩

/-! ## assign -/

theorem assignFill_ok {h : Heap α} {v : Vec} {xs : List α} {r : Ref α} {x : α} {n : Nat} (rp : Rep ty h v xs) (hb : Bal h)
    (ri : n = 0 ∨ Stable h v.ptr r x) (hw : n * ty.size < wordSize) :
    (assignFill ty v n r h).Safe fun q =>
      ∃ k, To ty h v.ptr (List.replicate n x) (max v.cap n) v.alloc k q.1 q.2 ∧ k.c = n ∧ k.d = xs.length := by
  obtain ⟨h1, e1, t1⟩ := destroyAll_ok rp hb
  simp only [assignFill, Prog.bind_run, e1, Out.bind_ok]
  apply (reserve_ok t1.rep t1.bal hw).bind
  rintro ⟨v2, h2⟩ ⟨t2, _⟩
  have hcap : v2.cap = max v.cap n := t2.cap
  obtain ⟨v3, h3, e3, t3, _⟩ := pushLoop_fit (r := r) (x := x) n t2.rep t2.bal
    (ri.imp_right fun s => .stable ((s.step t1.step).step t2.step)) (by rw [hcap]; simp; omega)
  simp only [e3, Out.safe_ok]
  refine ⟨_, ((t1.trans t2).trans t3).cast (by simp) hcap t2.alloc rfl, ?_, ?_⟩
  · split <;> simp [Cost.zero_def]
  · split <;> simp [Cost.zero_def]

theorem assignList_ok {h : Heap α} {v : Vec} {xs : List α} (ys : List α) (rp : Rep ty h v xs) (hb : Bal h)
    (hw : ys.length * ty.size < wordSize) :
    (assignList ty v ys h).Safe fun q =>
      ∃ k, To ty h v.ptr ys (max v.cap ys.length) v.alloc k q.1 q.2 ∧ k.c = ys.length ∧ k.d = xs.length := by
  obtain ⟨h1, e1, t1⟩ := destroyAll_ok rp hb
  simp only [assignList, Prog.bind_run, e1, Out.bind_ok]
  apply (reserve_ok t1.rep t1.bal hw).bind
  rintro ⟨v2, h2⟩ ⟨t2, _⟩
  have hcap : v2.cap = max v.cap ys.length := t2.cap
  obtain ⟨v3, h3, e3, t3, _⟩ := pushList_fit ys t2.rep t2.bal (by rw [hcap]; simp; omega)
  simp only [e3, Out.safe_ok]
  refine ⟨_, ((t1.trans t2).trans t3).cast (by simp) hcap t2.alloc rfl, ?_, ?_⟩
  · split <;> simp [Cost.zero_def]
  · split <;> simp [Cost.zero_def]

/-! ## Constructors -/

theorem allocate_ok {h : Heap α} (hb : Bal h) (a n : Nat) (hw : n * ty.size < wordSize) :
    (allocate ty (Vec.blank a) n h).Safe fun q =>
      To ty h none [] n a ⟨0, 0, 1⟩ q.1 q.2 ∧ q.1 = ⟨0, n, q.1.ptr, a⟩ := by
  simp only [allocate, Prog.bind_run, Vec.blank]
  apply (alloc_ok ty h a n hb hw).bind
  rintro ⟨b, h1⟩ ⟨hblk, hlim, s1⟩
  simp only at hblk s1
  simp only [Prog.pure_run, Out.safe_ok, and_true]
  refine ⟨⟨rfl, ?_⟩, s1, s1.bal hb, rfl, rfl⟩
  simp only [Own]
  exact ⟨by simpa [raws] using hblk, by simp, hlim⟩

theorem newDefault_ok {h : Heap α} (hb : Bal h) :
    (newDefault ty h).Safe fun q => To ty h none [] 2 dfltAlloc ⟨0, 0, 1⟩ q.1 q.2 := by
  have := ty.size_lt
  exact (allocate_ok hb dfltAlloc 2 (by have : wordSize = 18446744073709551616 := rfl; omega)).mono fun _ h => h.1

theorem newFill_ok {h : Heap α} {n a : Nat} {r : Ref α} {x : α} (hb : Bal h) (ri : n = 0 ∨ Stable h none r x)
    (hw : n * ty.size < wordSize) :
    (newFill ty n r a h).Safe fun q => ∃ k, To ty h none (List.replicate n x) n a k q.1 q.2 := by
  apply (assignFill_ok (rep_blank h a) hb ri hw).mono
  rintro q ⟨k, t, _⟩
  exact ⟨k, t.cast rfl (by simp [Vec.blank]) rfl rfl⟩

theorem newList_ok {h : Heap α} (xs : List α) (a : Nat) (hb : Bal h) (hw : xs.length * ty.size < wordSize) :
    (newList ty xs a h).Safe fun q => To ty h none xs xs.length a ⟨xs.length, 0, 1⟩ q.1 q.2 := by
  simp only [newList, Prog.bind_run]
  apply (allocate_ok hb a xs.length hw).bind
  rintro ⟨v1, h1⟩ ⟨t1, hv⟩
  have hcap : v1.cap = xs.length := t1.cap
  have ho := t1.rep.own
  obtain ⟨h2, e2, o2, s2⟩ := constructList_loop (ty := ty) (h := h1) (q := v1.ptr) (cap := v1.cap) (owner := v1.alloc) (pre := [])
    (post := []) xs (i := 0) (by simpa [hcap] using ho) rfl
  simp only [e2, Out.bind_ok, Prog.pure_run, Out.safe_ok]
  have s := t1.step.trans s2
  refine ⟨⟨rfl, ?_⟩, by simpa using s, s.bal hb, hcap, t1.alloc⟩
  simpa [hcap, raws] using o2

theorem newRange_ok {h : Heap α} (xs : List α) (a : Nat) (hb : Bal h) (hw : xs.length * ty.size < wordSize) :
    (newRange ty xs a h).Safe fun q => To ty h none xs xs.length a ⟨xs.length, 0, 1⟩ q.1 q.2 := by
  have := newList_ok xs a hb hw
  simpa only [newList, newRange] using this

theorem copyImpl_ok {h : Heap α} {r : Vec} {ys : List α} (a : Nat) (hr : Rep ty h r ys) (hb : Bal h) :
    (copyImpl ty (Vec.blank a) r h).Safe fun q => To ty h none ys ys.length a ⟨ys.length, 0, 1⟩ q.1 q.2 := by
  simp only [copyImpl, Prog.bind_run]
  have hle := hr.le
  have hw : r.len * ty.size < wordSize := by
    have h1 := hr.own.small
    have h2 : r.len * ty.size ≤ r.cap * ty.size := Nat.mul_le_mul_right _ (by rw [hr.len]; exact hle)
    have : wordSize = 18446744073709551616 := rfl
    omega
  apply (allocate_ok hb a r.len hw).bind
  rintro ⟨v1, h1⟩ ⟨t1, hv⟩
  have hcap : v1.cap = ys.length := by rw [← hr.len]; exact t1.cap
  have r1 : Rep ty h1 r ys := hr.keep t1.step (by simp)
  have hne : ∀ b, v1.ptr = some b → r.ptr ≠ some b := by
    intro b hb1 hb2
    have h3 := t1.step.fresh b (by simp [hb1]) (by simp)
    have h4 := hr.own
    rw [hb2] at h4; simp only [Own] at h4
    rw [h3] at h4; simp at h4
  obtain ⟨h2, e2, o2, s2⟩ := copy_loop (ty := ty) (h := h1) (q := v1.ptr) (cap' := v1.cap) (owner' := v1.alloc) (pre' := []) r1 hne
    [] ys (i := 0) (n := ys.length) (m := 0) rfl (by simpa [hcap] using t1.rep.own) rfl rfl rfl
  simp only [hr.len, e2, Out.bind_ok, Prog.pure_run, Out.safe_ok]
  have s := t1.step.trans s2
  refine ⟨⟨rfl, ?_⟩, by simpa using s, s.bal hb, hcap, t1.alloc⟩
  simpa [hcap] using o2

theorem fromIter_ok {h : Heap α} (xs : List α) (hb : Bal h) :
    (fromIter ty xs h).Safe fun q => ∃ k, To ty h none xs (growCap xs.length 0 2) dfltAlloc k q.1 q.2 := by
  simp only [fromIter, Prog.bind_run]
  apply (newDefault_ok hb).bind
  rintro ⟨v1, h1⟩ t1
  apply (pushList_ok xs t1.rep t1.bal).mono
  rintro ⟨v2, h2⟩ t2
  have hc : v1.cap = 2 := t1.cap
  exact ⟨_, (t1.trans t2).cast (by simp) (by simp [hc]) t1.alloc rfl⟩

/-! ## Assignment operators -/

theorem copyAssign_ok {h : Heap α} {v w : Vec} {xs ys : List α} (rv : Rep ty h v xs) (rw' : Rep ty h w ys) (hb : Bal h)
    (hne : ∀ b, v.ptr = some b → w.ptr ≠ some b) :
    (copyAssign ty v w h).Safe fun q =>
      ∃ k, To ty h v.ptr ys (if v.alloc = w.alloc then max v.cap w.cap else ys.length) v.alloc k q.1 q.2 := by
  unfold copyAssign
  by_cases ha : v.alloc = w.alloc
  · rw [if_pos ha, if_pos ha]
    simp only [Prog.bind_run]
    have hw : w.cap * ty.size < wordSize := by
      have := rw'.own.small; have : wordSize = 18446744073709551616 := rfl; omega
    apply (reserve_ok rv hb hw).bind
    rintro ⟨v1, h1⟩ ⟨t1, _⟩
    simp only at t1
    have rw1 : Rep ty h1 w ys := rw'.keep t1.step (by intro b hb1 hm; simp at hm; exact hne b hm hb1)
    have hne1 : ∀ b, v1.ptr = some b → w.ptr ≠ some b := by
      intro b hb1 hb2
      by_cases hp : v.ptr = some b
      · exact hne b hp hb2
      · have h3 := t1.step.fresh b (by simp [hb1]) (by simp [hp])
        have h4 := rw'.own
        rw [hb2] at h4; simp only [Own] at h4
        rw [h3] at h4; simp at h4
    have hl1 := t1.rep.len
    have hl2 := rw1.len
    have hcap : v1.cap = max v.cap w.cap := t1.cap
    have hle1 := t1.rep.le
    have hle2 := rw1.le
    have hsl := t1.rep.own
    simp only [stdCopy]
    by_cases hgt : xs.length > ys.length
    · -- shrink
      have hxs : xs = xs.take ys.length ++ xs.drop ys.length := (List.take_append_drop _ _).symm
      rw [hxs, List.map_append, List.append_assoc] at hsl
      obtain ⟨h2, e2, o2, s2⟩ := stdCopy_loop (pre' := []) rw1 hne1 [] ys [] (xs.take ys.length) (i := 0) (n := ys.length) (by simp)
        hsl rfl rfl rfl (by simp; omega)
      have hmin : min v1.len w.len = ys.length := by rw [hl1, hl2]; omega
      rw [hmin, e2, Out.bind_ok, if_pos (by rw [hl1, hl2]; exact hgt)]
      obtain ⟨h3, e3, o3, s3⟩ := destroy_loop (pre := ys.map some) (i := ys.length) (n := v1.len - ys.length) (xs.drop ys.length) o2
        (by simp) (by simp [hl1])
      simp only [e3, Out.bind_ok, Prog.pure_run, Out.safe_ok]
      have s := t1.step.trans (s2.trans s3)
      refine ⟨_, ⟨⟨hl2, ?_⟩, s, s.bal hb, hcap, t1.alloc⟩⟩
      simp only
      rw [raws_append] at o3
      have : v1.len - ys.length + (v1.cap - (xs.take ys.length ++ xs.drop ys.length).length) = v1.cap - ys.length := by
        rw [← hxs, hl1]; omega
      rw [this] at o3
      exact o3
    · -- equal or grow
      have hys : ys = ys.take xs.length ++ ys.drop xs.length := (List.take_append_drop _ _).symm
      obtain ⟨h2, e2, o2, s2⟩ := stdCopy_loop (pre' := []) rw1 hne1 [] (ys.take xs.length) (ys.drop xs.length) xs (i := 0)
        (n := xs.length) (by simp) hsl rfl rfl (by simp; omega) rfl
      have hmin : min v1.len w.len = xs.length := by rw [hl1, hl2]; omega
      rw [hmin, e2, Out.bind_ok, if_neg (by rw [hl1, hl2]; exact hgt)]
      by_cases hlt : xs.length < ys.length
      · rw [if_pos (by rw [hl1, hl2]; exact hlt)]
        have rw2 : Rep ty h2 w ys := rw1.keep s2 (by intro b hb1 hm; simp at hm; exact hne1 b hm hb1)
        obtain ⟨h3, e3, o3, s3⟩ := copy_loop (ty := ty) (h := h2) (q := v1.ptr) (cap' := v1.cap) (owner' := v1.alloc)
          (pre' := (ys.take xs.length).map some) rw2 hne1 (ys.take xs.length) (ys.drop xs.length) (i := xs.length)
          (n := w.len - xs.length) (m := v1.cap - ys.length) hys (by
            rw [hl2, show ys.length - xs.length + (v1.cap - ys.length) = v1.cap - xs.length by omega]; exact o2)
          (by simp; omega) (by simp; omega) (by simp [hl2])
        simp only [e3, Out.bind_ok, Prog.pure_run, Out.safe_ok]
        have s := t1.step.trans (s2.trans s3)
        refine ⟨_, ⟨⟨hl2, ?_⟩, s, s.bal hb, hcap, t1.alloc⟩⟩
        simp only
        rw [← List.append_assoc, ← List.map_append, ← hys] at o3
        exact o3
      · rw [if_neg (by rw [hl1, hl2]; exact hlt)]
        simp only [Prog.pure_run, Out.bind_ok, Out.safe_ok]
        have s := t1.step.trans s2
        have he : xs.length = ys.length := by omega
        refine ⟨_, ⟨⟨hl2, ?_⟩, s, s.bal hb, hcap, t1.alloc⟩⟩
        simpa [he] using o2
  · rw [if_neg ha, if_neg ha]
    obtain ⟨h1, e1, t1⟩ := clear_ok rv hb
    simp only [Prog.bind_run, e1, Out.bind_ok]
    have rw1 : Rep ty h1 w ys := rw'.keep t1.step (by intro b hb1 hm; simp at hm; exact hne b hm hb1)
    apply (copyImpl_ok v.alloc rw1 t1.bal).mono
    rintro ⟨v2, h2⟩ t2
    exact ⟨_, t1.trans t2⟩

/-! ## operator=(initializer_list) -/

theorem copyFromList_loop {h : Heap α} {q : Option Nat} {cap owner : Nat} {pre post : List (Option α)} (xs rest old : List α) {i n : Nat}
    (ho : Own ty h q cap owner (pre ++ (old.map some ++ post))) (hi : i = pre.length) (hn : n = xs.length) (hold : n = old.length) :
    ∃ h', copyFromList q i n (xs ++ rest) h = .ok ((), h') ∧
      Own ty h' q cap owner (pre ++ (xs.map some ++ post)) ∧ Step h q.toList h' q.toList 0 := by
  induction xs generalizing h i pre n old with
  | nil =>
    subst hn
    have : old = [] := by cases old <;> simp_all
    subst this
    exact ⟨h, by simp [copyFromList], by simpa using ho, Step.refl _ _⟩
  | cons x xs ih =>
    subst hn
    cases old with
    | nil => simp at hold
    | cons o old =>
      obtain ⟨h2, e2, o2, s2⟩ := store_ok (pre := pre) (y := x) (by simpa using ho) hi
      obtain ⟨h3, e3, o3, s3⟩ := ih (h := h2) (i := i + 1) (pre := pre ++ [some x]) (old := old) (by simpa using o2)
        (by simp [hi]) rfl (by simpa using hold)
      refine ⟨h3, ?_, by simpa using o3, s2.trans s3⟩
      simp only [List.length_cons, List.cons_append, copyFromList, Prog.bind_run, e2, Out.bind_ok, e3]

theorem constructFromList_loop {h : Heap α} {q : Option Nat} {cap owner : Nat} {pre post : List (Option α)} (xs rest : List α) {i n : Nat}
    (ho : Own ty h q cap owner (pre ++ (raws n ++ post))) (hi : i = pre.length) (hn : n = xs.length) :
    ∃ h', constructFromList q i n (xs ++ rest) h = .ok ((), h') ∧
      Own ty h' q cap owner (pre ++ (xs.map some ++ post)) ∧ Step h q.toList h' q.toList ⟨n, 0, 0⟩ := by
  induction xs generalizing h i pre n with
  | nil =>
    subst hn
    exact ⟨h, by simp [constructFromList], by simpa [raws] using ho, Step.refl _ _⟩
  | cons x xs ih =>
    subst hn
    obtain ⟨h2, e2, o2, s2⟩ := construct_ok (pre := pre) (x := x) (by simpa [raws_succ] using ho) hi
    obtain ⟨h3, e3, o3, s3⟩ := ih (h := h2) (i := i + 1) (pre := pre ++ [some x]) (by simpa using o2) (by simp [hi]) rfl
    refine ⟨h3, ?_, by simpa using o3, ?_⟩
    · simp only [List.length_cons, List.cons_append, constructFromList, Prog.bind_run, e2, Out.bind_ok, e3]
    · have := s2.trans s3
      simp only [Cost.add_mk] at this
      simpa [Nat.add_comm] using this

/-- what `operator=(initializer_list)` has done when it reaches its end -/
theorem listAssignBody_ok {h : Heap α} {v : Vec} {xs : List α} (ys : List α) (rv : Rep ty h v xs) (hb : Bal h)
    (hw : ys.length * ty.size < wordSize) :
    (listAssignBody ty v ys h).Safe fun q =>
      ∃ k, To ty h v.ptr (ys.take xs.length ++ ys.take (ys.length - xs.length)) (max v.cap ys.length) v.alloc k q.1 q.2 := by
  unfold listAssignBody
  simp only [Prog.bind_run]
  apply (reserve_ok rv hb hw).bind
  rintro ⟨v1, h1⟩ ⟨t1, _⟩
  simp only at t1
  have hl1 := t1.rep.len
  have hcap : v1.cap = max v.cap ys.length := t1.cap
  have hle1 := t1.rep.le
  have hsl := t1.rep.own
  by_cases hgt : xs.length > ys.length
  · have hxs : xs = xs.take ys.length ++ xs.drop ys.length := (List.take_append_drop _ _).symm
    rw [hxs, List.map_append, List.append_assoc] at hsl
    have hmin : min v1.len ys.length = ys.length := by rw [hl1]; omega
    obtain ⟨h2, e2, o2, s2⟩ := copyFromList_loop (pre := []) ys [] (xs.take ys.length) (i := 0) (n := ys.length) hsl rfl rfl (by simp; omega)
    rw [List.append_nil] at e2
    rw [hmin, e2, Out.bind_ok, if_pos (by rw [hl1]; exact hgt)]
    obtain ⟨h3, e3, o3, s3⟩ := destroy_loop (pre := ys.map some) (i := ys.length) (n := v1.len - ys.length) (xs.drop ys.length) o2
      (by simp) (by simp [hl1])
    simp only [e3, Out.bind_ok, Prog.pure_run, Out.safe_ok]
    have s := t1.step.trans (s2.trans s3)
    have hz : ys.take xs.length ++ ys.take (ys.length - xs.length) = ys := by
      rw [List.take_of_length_le (by omega), show ys.length - xs.length = 0 by omega]; simp
    rw [hz]
    refine ⟨_, ⟨⟨rfl, ?_⟩, s, s.bal hb, hcap, t1.alloc⟩⟩
    simp only
    rw [raws_append] at o3
    have : v1.len - ys.length + (v1.cap - (xs.take ys.length ++ xs.drop ys.length).length) = v1.cap - ys.length := by
      rw [← hxs, hl1]; omega
    rw [this] at o3
    exact o3
  · have hmin : min v1.len ys.length = xs.length := by rw [hl1]; omega
    obtain ⟨h2, e2, o2, s2⟩ := copyFromList_loop (pre := []) (ys.take xs.length) (ys.drop xs.length) xs (i := 0) (n := xs.length) hsl rfl
      (by simp; omega) rfl
    rw [List.take_append_drop] at e2
    rw [hmin, e2, Out.bind_ok, if_neg (by rw [hl1]; exact hgt)]
    have hz : (ys.take xs.length ++ ys.take (ys.length - xs.length)).length = ys.length := by simp; omega
    by_cases hlt : xs.length < ys.length
    · rw [if_pos (by rw [hl1]; exact hlt)]
      obtain ⟨h3, e3, o3, s3⟩ := constructFromList_loop (ty := ty) (h := h2) (q := v1.ptr) (cap := v1.cap) (owner := v1.alloc)
        (pre := (ys.take xs.length).map some) (post := raws (v1.cap - ys.length)) (ys.take (ys.length - xs.length))
        (ys.drop (ys.length - xs.length)) (i := xs.length) (n := ys.length - xs.length) (by
          rw [raws_append, show ys.length - xs.length + (v1.cap - ys.length) = v1.cap - xs.length by omega]; exact o2)
        (by simp; omega) (by simp)
      rw [List.take_append_drop] at e3
      simp only [e3, Out.bind_ok, Prog.pure_run, Out.safe_ok]
      have s := t1.step.trans (s2.trans s3)
      refine ⟨_, ⟨⟨hz.symm, ?_⟩, s, s.bal hb, hcap, t1.alloc⟩⟩
      simp only
      rw [hz, List.map_append, List.append_assoc]
      exact o3
    · rw [if_neg (by rw [hl1]; exact hlt)]
      simp only [Prog.pure_run, Out.bind_ok, Out.safe_ok]
      have s := t1.step.trans s2
      have he : xs.length = ys.length := by omega
      refine ⟨_, ⟨⟨hz.symm, ?_⟩, s, s.bal hb, hcap, t1.alloc⟩⟩
      simp only
      rw [hz]
      simpa [he] using o2

/-! ## resize -/

theorem resizeFill_ok {h : Heap α} {v : Vec} {xs : List α} {r : Ref α} {x : α} {n : Nat} (rp : Rep ty h v xs) (hb : Bal h)
    (ri : n ≤ xs.length ∨ Stable h v.ptr r x ∨ (n ≤ v.cap ∧ RefIs h v xs r x)) (hw : n * ty.size < wordSize) :
    (resizeFill ty v n r h).Safe fun q =>
      ∃ k, To ty h v.ptr (xs.take n ++ List.replicate (n - xs.length) x) (max v.cap n) v.alloc k q.1 q.2 := by
  unfold resizeFill
  have hl := rp.len
  have hle := rp.le
  by_cases hlt : n < v.len
  · rw [if_pos hlt]
    obtain ⟨h1, e1, t1⟩ := popLoop_ok (xs := xs.take n) (xs.drop n) (by simpa using rp) hb (n := v.len - n) (by simp [hl])
    rw [e1]
    simp only [Out.safe_ok]
    exact ⟨_, t1.cast (by simp [show n - xs.length = 0 by omega]) (by omega) rfl rfl⟩
  · rw [if_neg hlt]
    by_cases hgt : n > v.len
    · rw [if_pos hgt]
      simp only [Prog.bind_run]
      rw [hl] at hgt
      by_cases hc : n > v.cap
      · rw [if_pos hc]
        have s : Stable h v.ptr r x := by
          rcases ri with hh | hh | hh
          · omega
          · exact hh
          · omega
        apply (reserve_ok rp hb hw).bind
        rintro ⟨v1, h1⟩ ⟨t1, _⟩
        have hcap : v1.cap = max v.cap n := t1.cap
        have hl1 : v1.len = xs.length := t1.rep.len
        obtain ⟨v2, h2, e2, t2, _⟩ := pushLoop_fit (n - xs.length) t1.rep t1.bal (.inr (.stable (s.step t1.step)))
          (by simp only [hcap]; omega)
        simp only [hl1, e2, Out.safe_ok]
        exact ⟨_, (t1.trans t2).cast (by rw [List.take_of_length_le (by omega)]) hcap t1.alloc rfl⟩
      · rw [if_neg hc]
        have s : RefIs h v xs r x := by
          rcases ri with hh | hh | hh
          · omega
          · exact .stable hh
          · exact hh.2
        obtain ⟨v2, h2, e2, t2, _⟩ := pushLoop_fit (n - xs.length) rp hb (.inr s) (by omega)
        simp only [Prog.pure_run, Out.bind_ok, hl, e2, Out.safe_ok]
        exact ⟨_, t2.cast (by rw [List.take_of_length_le (by omega)]) (by omega) rfl rfl⟩
    · rw [if_neg hgt]
      have : n = xs.length := by omega
      subst this
      exact ⟨_, (To.same rp hb).cast (by simp) (by omega) rfl rfl⟩

/-! ## Insertion -/

theorem raws_last (c : Nat) : (raws (c + 1) : List (Option α)) = raws c ++ [none] := by
  simp [raws, List.replicate_succ']

theorem moveBackLoop_ok {h : Heap α} {p : Option Nat} {cap owner c pos : Nat} {post : List (Option α)} (zs : List α) (hz : zs ≠ [])
    (hc : 0 < c) (n : Nat) (rest moved : List α) (hn : n = rest.length) {hi : Nat} (hhi : hi + 1 = zs.length + rest.length)
    (hpos : pos = zs.length)
    (ho : Own ty h p cap owner (zs.map some ++ (rest.map some ++ (raws c ++ (moved.map some ++ post))))) :
    ∃ h', moveBackLoop ty p c pos hi h = .ok ((), h') ∧
      Own ty h' p cap owner (zs.map some ++ (raws c ++ ((rest ++ moved).map some ++ post))) ∧
      Step h p.toList h' p.toList ⟨rest.length, rest.length, 0⟩ := by
  induction n generalizing h rest moved hi with
  | zero =>
    have : rest = [] := List.length_eq_zero_iff.1 hn.symm
    subst this
    refine ⟨h, ?_, by simpa using ho, Step.refl _ _⟩
    rw [moveBackLoop, if_neg (by have := List.length_pos_iff.2 hz; simp at hhi; omega)]
    rfl
  | succ n ih =>
    rcases List.eq_nil_or_concat rest with rfl | ⟨rest', x, rfl⟩
    · simp at hn
    · simp only [List.concat_eq_append] at *
      simp only [List.length_append, List.length_cons, List.length_nil] at hhi
      have hhi2 : hi = zs.length + rest'.length := by omega
      have hzp := List.length_pos_iff.2 hz
      have hlen := ho.length
      have hcl := ho.cap_lt
      have hW : wordSize = 18446744073709551616 := rfl
      simp only [List.length_append, List.length_map, raws_length, List.length_cons, List.length_nil] at hlen
      obtain ⟨h1, e1, o1, s1⟩ := take_ok (ty := ty) (h := h) (ptr := p) (i := hi) (cap := cap) (owner := owner)
        (pre := zs.map some ++ rest'.map some) (x := x) (post := raws c ++ (moved.map some ++ post))
        (by simpa using ho) (by simp [hhi2])
      obtain ⟨h2, e2, o2, s2⟩ := construct_ok (ty := ty) (h := h1) (ptr := p) (i := wrap (hi + c)) (cap := cap) (owner := owner)
        (pre := zs.map some ++ rest'.map some ++ some (ty.mv x) :: raws (c - 1)) (x := x) (post := moved.map some ++ post)
        (by
          rw [show c = c - 1 + 1 by omega, raws_last] at o1
          simpa using o1)
        (by rw [wrap_of_lt (by omega)]; simp [hhi2]; omega)
      obtain ⟨h3, e3, o3, s3⟩ := destroy_ok (ty := ty) (h := h2) (ptr := p) (i := hi) (cap := cap) (owner := owner)
        (pre := zs.map some ++ rest'.map some) (x := ty.mv x) (post := raws (c - 1) ++ (some x :: (moved.map some ++ post)))
        (by simpa using o2) (by simp [hhi2])
      obtain ⟨h4, e4, o4, s4⟩ := ih (h := h3) rest' (x :: moved) (by simpa using hn) (hi := wsub hi 1)
        (by rw [wsub_of_le (by omega) (by omega)]; omega) (by
          have : (none : Option α) :: raws (c - 1) = raws c := by rw [← raws_succ]; congr 1; omega
          rw [List.append_assoc, ← List.cons_append, this] at o3
          simpa using o3)
      refine ⟨h4, ?_, by simpa using o4, ?_⟩
      · rw [moveBackLoop, if_pos (by omega)]
        simp only [Prog.bind_run, e1, e2, e3, Out.bind_ok, e4]
      · have := s1.trans (s2.trans (s3.trans s4))
        simp only [Cost.zero_def, Cost.add_mk] at this
        simpa [Nat.add_comm] using this

/-- A vector with a gap of `c` raw slots after the first elements `zs`. -/
structure Gap (ty : ElemTy α) (h : Heap α) (p : Option Nat) (zs ts : List α) (c cap alloc : Nat) (k : Cost) (v' : Vec)
    (h' : Heap α) : Prop where
  own : Own ty h' v'.ptr v'.cap v'.alloc (zs.map some ++ (raws c ++ (ts.map some ++ raws (v'.cap - (zs.length + c + ts.length)))))
  len : v'.len = zs.length + c + ts.length
  fits : zs.length + c + ts.length ≤ v'.cap
  step : Step h p.toList h' v'.ptr.toList k
  bal : Bal h'
  cap : v'.cap = cap
  alloc : v'.alloc = alloc

theorem moveElementsBack_ok {h : Heap α} {v : Vec} {zs ts : List α} {c pos : Nat} (rp : Rep ty h v (zs ++ ts)) (hb : Bal h)
    (hz : zs ≠ []) (hc : 0 < c ∨ ts = []) (hpos : pos = zs.length)
    (hw : (zs.length + ts.length + c) * ty.size < wordSize) :
    (moveElementsBack ty v pos c h).Safe fun q =>
      ∃ k, Gap ty h v.ptr zs ts c (max v.cap (zs.length + ts.length + c)) v.alloc k q.1 q.2 ∧
        (zs.length + ts.length + c ≤ v.cap → q.1.ptr = v.ptr) ∧
        (v.cap < zs.length + ts.length + c → ∀ b, v.ptr = some b → q.1.ptr ≠ some b) := by
  have hl : v.len = zs.length + ts.length := by simpa using rp.len
  have hzp := List.length_pos_iff.2 hz
  have hlt : zs.length + ts.length + c < wordSize :=
    Nat.lt_of_le_of_lt (Nat.le_mul_of_pos_right _ ty.size_pos) hw
  unfold moveElementsBack
  rw [if_neg (by omega)]
  simp only [Prog.bind_run]
  have hwr : wrap (v.len + c) = zs.length + ts.length + c := by rw [hl, wrap_of_lt hlt]
  rw [hwr]
  have key : ((if zs.length + ts.length + c > v.cap then reserve ty v (zs.length + ts.length + c) else pure v) h : Out _).Safe
      fun q => ∃ k, To ty h v.ptr (zs ++ ts) (max v.cap (zs.length + ts.length + c)) v.alloc k q.1 q.2 ∧
        (zs.length + ts.length + c ≤ v.cap → q.1.ptr = v.ptr) ∧
        (v.cap < zs.length + ts.length + c → ∀ b, v.ptr = some b → q.1.ptr ≠ some b) := by
    by_cases hgt : zs.length + ts.length + c > v.cap
    · rw [if_pos hgt]
      exact (reserve_ok rp hb hw).mono fun q hq => ⟨_, hq.1, fun hle => by omega, hq.2.2⟩
    · rw [if_neg hgt]
      exact ⟨_, (To.same rp hb).cast rfl (by omega) rfl rfl, fun _ => rfl, fun hlt => absurd hlt hgt⟩
  apply key.bind
  rintro ⟨v1, h1⟩ ⟨k, t1, hp1⟩
  simp only at t1 hp1 ⊢
  have hcap : v1.cap = max v.cap (zs.length + ts.length + c) := t1.cap
  have hl1 : v1.len = zs.length + ts.length := by simpa using t1.rep.len
  have hcl := t1.rep.own.cap_lt
  have hwr1 : wrap (v1.len + c) = zs.length + c + ts.length := by
    rw [hl1, wrap_of_lt hlt]; omega
  have ho := t1.rep.own
  by_cases hts : ts = []
  · subst hts
    have e2 : moveBackLoop ty v1.ptr c pos (v1.len - 1) h1 = .ok ((), h1) := by
      rw [moveBackLoop, if_neg (by simp at hl1; omega)]; rfl
    simp only [e2, Out.bind_ok, Prog.pure_run, Out.safe_ok, hwr1]
    refine ⟨k, ⟨?_, rfl, by simp only [hcap]; simp; omega, t1.step, t1.bal, hcap, t1.alloc⟩, hp1⟩
    simp only [List.append_nil, List.map_nil, List.nil_append, List.length_nil, Nat.add_zero] at ho hcap ⊢
    rw [raws_append, show c + (v1.cap - (zs.length + c)) = v1.cap - zs.length by omega]
    exact ho
  · have hc' : 0 < c := hc.resolve_right hts
    obtain ⟨h2, e2, o2, s2⟩ := moveBackLoop_ok (ty := ty) (h := h1) (p := v1.ptr) (cap := v1.cap) (owner := v1.alloc) (c := c)
      (post := raws (v1.cap - (zs.length + c + ts.length))) zs hz hc' ts.length ts [] rfl (hi := v1.len - 1) (by omega) hpos (by
        simp only [List.map_append, List.append_assoc, List.length_append] at ho
        rw [show v1.cap - (zs.length + ts.length) = c + (v1.cap - (zs.length + c + ts.length)) by omega, ← raws_append] at ho
        simpa using ho)
    simp only [e2, Out.bind_ok, Prog.pure_run, Out.safe_ok, hwr1]
    have s := t1.step.trans s2
    exact ⟨_, ⟨by simpa using o2, rfl, by simp only [hcap]; omega, s, s.bal hb, hcap, t1.alloc⟩, hp1⟩

theorem emplace_ok {h : Heap α} {v : Vec} {zs ts : List α} {x : α} {pos : Nat} (rp : Rep ty h v (zs ++ ts)) (hb : Bal h)
    (hz : zs ≠ []) (hpos : pos = zs.length) :
    (emplace ty v pos x h).Safe fun q =>
      ∃ k, To ty h v.ptr (zs ++ x :: ts) (pushCap (zs.length + ts.length) v.cap) v.alloc k q.1 q.2 := by
  have hl : v.len = zs.length + ts.length := by simpa using rp.len
  have hle : zs.length + ts.length ≤ v.cap := by simpa using rp.le
  simp only [emplace, Prog.bind_run]
  have key : ((if v.len = v.cap then extendSpace ty v else pure v) h : Out _).Safe fun q =>
      ∃ k, To ty h v.ptr (zs ++ ts) (pushCap (zs.length + ts.length) v.cap) v.alloc k q.1 q.2 := by
    by_cases he : v.len = v.cap
    · rw [if_pos he]
      simp only [pushCap, show ¬ (zs.length + ts.length < v.cap) by omega, if_false]
      exact (extendSpace_ok rp hb).mono fun q hq => ⟨_, hq.1⟩
    · rw [if_neg he]
      simp only [pushCap, show zs.length + ts.length < v.cap by omega, if_true]
      exact ⟨_, To.same rp hb⟩
  apply key.bind
  rintro ⟨v1, h1⟩ ⟨k1, t1⟩
  simp only at t1 ⊢
  have hlt : zs.length + ts.length + 1 ≤ v1.cap := by
    rw [t1.cap]; simp only [pushCap, grown]; split
    · omega
    · split <;> omega
  have hsm := t1.rep.own.small
  have hW : wordSize = 18446744073709551616 := rfl
  apply (moveElementsBack_ok t1.rep t1.bal hz (.inl Nat.one_pos) hpos (by
    have : (zs.length + ts.length + 1) * ty.size ≤ v1.cap * ty.size := Nat.mul_le_mul_right _ hlt
    omega)).bind
  rintro ⟨v2, h2⟩ ⟨k2, g, _⟩
  simp only at g ⊢
  have hcap2 : v2.cap = v1.cap := by rw [g.cap]; omega
  obtain ⟨h3, e3, o3, s3⟩ := construct_ok (ty := ty) (h := h2) (ptr := v2.ptr) (i := pos) (cap := v2.cap) (owner := v2.alloc)
    (pre := zs.map some) (x := x) (post := ts.map some ++ raws (v2.cap - (zs.length + 1 + ts.length)))
    (by simpa [raws_succ, raws_zero] using g.own) (by simp [hpos])
  simp only [e3, Out.bind_ok, Prog.pure_run, Out.safe_ok]
  have s := t1.step.trans (g.step.trans s3)
  refine ⟨_, ⟨⟨by rw [g.len]; simp; omega, ?_⟩, s, s.bal hb, by rw [hcap2, t1.cap], by rw [g.alloc, t1.alloc]⟩⟩
  have : zs.length + 1 + ts.length = (zs ++ x :: ts).length := by simp; omega
  rw [this] at o3
  simpa using o3

/-- filling the gap with copies of one element -/
theorem fill_loop {h : Heap α} {p : Option Nat} {cap owner : Nat} {pre0 post : List (Option α)} {r : Ref α} {x : α} (n m : Nat)
    {pos : Nat} (ho : Own ty h p cap owner (pre0 ++ ((List.replicate m x).map some ++ (raws n ++ post)))) (hpos : pos = pre0.length)
    (hd : ∀ h' k, Step h p.toList h' p.toList k → (∃ mid, mid.length = m + n ∧ Own ty h' p cap owner (pre0 ++ (mid ++ post))) →
      deref r h' = .ok (x, h')) :
    ∃ h', forUp m n (fun i => do
        let x ← deref r
        construct p (wrap (pos + i)) x) h = .ok ((), h') ∧
      Own ty h' p cap owner (pre0 ++ ((List.replicate (m + n) x).map some ++ post)) ∧
      Step h p.toList h' p.toList ⟨n, 0, 0⟩ := by
  induction n generalizing h m with
  | zero => exact ⟨h, rfl, by simpa [raws_zero] using ho, Step.refl _ _⟩
  | succ n ih =>
    have hcl := ho.cap_lt
    have hlen := ho.length
    have hW : wordSize = 18446744073709551616 := rfl
    simp only [List.length_append, List.length_map, List.length_replicate, raws_length] at hlen
    have e1 := hd h 0 (Step.refl _ _) ⟨(List.replicate m x).map some ++ raws (n + 1), by simp, by simpa using ho⟩
    obtain ⟨h2, e2, o2, s2⟩ := construct_ok (ty := ty) (h := h) (ptr := p) (i := wrap (pos + m)) (cap := cap) (owner := owner)
      (pre := pre0 ++ (List.replicate m x).map some) (x := x) (post := raws n ++ post)
      (by simpa [raws_succ] using ho) (by rw [wrap_of_lt (by omega)]; simp [hpos])
    obtain ⟨h3, e3, o3, s3⟩ := ih (h := h2) (m + 1) (by
        rw [List.replicate_succ']; simpa using o2) (fun h' k s ⟨mid, hm, o⟩ => hd h' _ (s2.trans s) ⟨mid, by omega, o⟩)
    refine ⟨h3, ?_, ?_, ?_⟩
    · simp only [forUp, Prog.bind_run, e1, e2, Out.bind_ok, e3]
    · rw [show m + 1 + n = m + (n + 1) by omega] at o3; exact o3
    · have := s2.trans s3
      simp only [Cost.add_mk] at this
      simpa [Nat.add_comm] using this

theorem insertFill_ok {h : Heap α} {v : Vec} {zs ts : List α} {x : α} {r : Ref α} {pos n : Nat} (rp : Rep ty h v (zs ++ ts))
    (hb : Bal h) (hz : zs ≠ []) (hn : 0 < n ∨ ts = []) (hpos : pos = zs.length)
    (ri : n = 0 ∨ Stable h v.ptr r x ∨ (zs.length + ts.length + n ≤ v.cap ∧ ∃ i, r = .slot v.ptr i ∧ (zs[i]? = some x ∨ (zs.length + n ≤ i ∧ ts[i - zs.length - n]? = some x))))
    (hw : (zs.length + ts.length + n) * ty.size < wordSize) :
    (insertFill ty v pos n r h).Safe fun q =>
      ∃ k, To ty h v.ptr (zs ++ (List.replicate n x ++ ts)) (max v.cap (zs.length + ts.length + n)) v.alloc k q.1.1 q.2 ∧
        q.1.2 = pos := by
  simp only [insertFill, Prog.bind_run]
  apply (moveElementsBack_ok rp hb hz hn hpos hw).bind
  rintro ⟨v1, h1⟩ ⟨k1, g, hp⟩
  simp only at g hp ⊢
  have hdone : ∃ h2, forUp 0 n (fun i => do
        let x ← deref r
        construct v1.ptr (wrap (pos + i)) x) h1 = .ok ((), h2) ∧
      Own ty h2 v1.ptr v1.cap v1.alloc (zs.map some ++ ((List.replicate (0 + n) x).map some ++
        (ts.map some ++ raws (v1.cap - (zs.length + n + ts.length))))) ∧
      Step h1 v1.ptr.toList h2 v1.ptr.toList ⟨n, 0, 0⟩ := by
    by_cases hn0 : n = 0
    · subst hn0
      exact ⟨h1, rfl, by simpa [raws_zero] using g.own, Step.refl _ _⟩
    refine fill_loop n 0 (by simpa using g.own) (by simp [hpos]) ?_
    intro h' k s ⟨mid, hm, om⟩
    rcases ri with hh | hh | ⟨hle, i, hr, hi⟩
    · exact absurd hh hn0
    · exact hh _ _ _ (g.step.trans s)
    · subst hr
      rw [← hp.1 hle]
      apply load_ok om
      rcases hi with hi | ⟨hge, hi⟩
      · have hlt : i < zs.length := by rw [List.getElem?_eq_some_iff] at hi; exact hi.1
        rw [List.getElem?_append_left (by simpa using hlt), List.getElem?_map, hi]; rfl
      · have hlt : i - zs.length - n < ts.length := by rw [List.getElem?_eq_some_iff] at hi; exact hi.1
        rw [List.getElem?_append_right (by simp; omega), List.getElem?_append_right (by simp; omega),
          List.getElem?_append_left (by simp; omega), List.getElem?_map]
        simp only [List.length_map, hm, Nat.zero_add, hi, Option.map_some]
  obtain ⟨h2, e2, o2, s2⟩ := hdone
  simp only [e2, Out.bind_ok, Prog.pure_run, Out.safe_ok, and_true]
  have s := g.step.trans s2
  refine ⟨_, ⟨⟨by rw [g.len]; simp; omega, ?_⟩, s, s.bal hb, g.cap, g.alloc⟩⟩
  have : zs.length + n + ts.length = (zs ++ (List.replicate n x ++ ts)).length := by simp; omega
  rw [this] at o2
  simpa using o2

theorem insertRange_ok {h : Heap α} {v : Vec} {zs ts ys : List α} {pos : Nat} (rp : Rep ty h v (zs ++ ts)) (hb : Bal h)
    (hz : zs ≠ []) (hn : 0 < ys.length ∨ ts = []) (hpos : pos = zs.length)
    (hw : (zs.length + ts.length + ys.length) * ty.size < wordSize) :
    (insertRange ty v pos ys h).Safe fun q =>
      ∃ k, To ty h v.ptr (zs ++ (ys ++ ts)) (max v.cap (zs.length + ts.length + ys.length)) v.alloc k q.1.1 q.2 ∧
        q.1.2 = pos := by
  have hl : v.len = zs.length + ts.length := by simpa using rp.len
  have hlt : zs.length + ts.length + ys.length < wordSize :=
    Nat.lt_of_le_of_lt (Nat.le_mul_of_pos_right _ ty.size_pos) hw
  have hwr : wrap (v.len + ys.length) = zs.length + ts.length + ys.length := by rw [hl, wrap_of_lt hlt]
  simp only [insertRange, Prog.bind_run, hwr]
  have key : ((if zs.length + ts.length + ys.length > v.cap then
        allocateReserve ty v (zs.length + ts.length + ys.length) else pure v) h : Out _).Safe
      fun q => ∃ k, To ty h v.ptr (zs ++ ts) (max v.cap (zs.length + ts.length + ys.length)) v.alloc k q.1 q.2 := by
    by_cases hgt : zs.length + ts.length + ys.length > v.cap
    · rw [if_pos hgt]
      exact (allocateReserve_ok rp hb (by omega) hw).mono fun q hq => ⟨_, hq.1.cast rfl (by omega) rfl rfl⟩
    · rw [if_neg hgt]
      exact ⟨_, (To.same rp hb).cast rfl (by omega) rfl rfl⟩
  apply key.bind
  rintro ⟨v1, h1⟩ ⟨k1, t1⟩
  simp only at t1 ⊢
  have hcap1 : v1.cap = max v.cap (zs.length + ts.length + ys.length) := t1.cap
  apply (moveElementsBack_ok t1.rep t1.bal hz hn hpos hw).bind
  rintro ⟨v2, h2⟩ ⟨k2, g, _⟩
  simp only at g ⊢
  obtain ⟨h3, e3, o3, s3⟩ := constructList_loop (i := pos) ys g.own (by simp [hpos])
  simp only [e3, Out.bind_ok, Prog.pure_run, Out.safe_ok, and_true]
  have s := t1.step.trans (g.step.trans s3)
  refine ⟨_, ⟨⟨by rw [g.len]; simp; omega, ?_⟩, s, s.bal hb, by rw [g.cap, hcap1]; omega, by rw [g.alloc, t1.alloc]⟩⟩
  have : zs.length + ys.length + ts.length = (zs ++ (ys ++ ts)).length := by simp; omega
  rw [this] at o3
  simpa using o3

/-! ## Erasure -/

/-- the loop of `std::move` to the left over a gap `G` -/
theorem stdMove_loop {h : Heap α} {p : Option Nat} {cap owner : Nat} {pre post : List (Option α)} (ts : List α) (G : List α)
    (hG : G ≠ []) {first dest k : Nat} (ho : Own ty h p cap owner (pre ++ (G.map some ++ (ts.map some ++ post))))
    (hd : dest + k = pre.length) (hf : first + k = pre.length + G.length) :
    ∃ h', ∃ G' : List α, forUp k ts.length (fun k => do
        let x ← take ty p (first + k)
        store p (dest + k) x) h = .ok ((), h') ∧ G'.length = G.length ∧
      Own ty h' p cap owner (pre ++ (ts.map some ++ (G'.map some ++ post))) ∧ Step h p.toList h' p.toList 0 := by
  induction ts generalizing h pre G k with
  | nil => exact ⟨h, G, rfl, rfl, by simpa using ho, Step.refl _ _⟩
  | cons t ts ih =>
    cases G with
    | nil => exact absurd rfl hG
    | cons g G =>
      obtain ⟨h1, e1, o1, s1⟩ := take_ok (ty := ty) (h := h) (ptr := p) (i := first + k) (cap := cap) (owner := owner)
        (pre := pre ++ (some g :: G.map some)) (x := t) (post := ts.map some ++ post) (by simpa using ho) (by simp [hf])
      obtain ⟨h2, e2, o2, s2⟩ := store_ok (ty := ty) (h := h1) (ptr := p) (i := dest + k) (cap := cap) (owner := owner)
        (pre := pre) (x := g) (y := t) (post := G.map some ++ (some (ty.mv t) :: (ts.map some ++ post))) (by simpa using o1) hd
      obtain ⟨h3, G', e3, hl, o3, s3⟩ := ih (h := h2) (pre := pre ++ [some t]) (k := k + 1) (G ++ [ty.mv t]) (by simp)
        (by simpa using o2) (by simp; omega) (by simp at hf ⊢; omega)
      refine ⟨h3, G', ?_, by simpa using hl, by simpa using o3, s1.trans (s2.trans s3)⟩
      simp only [List.length_cons, forUp, Prog.bind_run, e1, e2, Out.bind_ok, e3]

theorem eraseRange_ok {h : Heap α} {v : Vec} {xs ys ts : List α} {lo hi : Nat} (rp : Rep ty h v (xs ++ (ys ++ ts))) (hb : Bal h)
    (hlo : lo = xs.length) (hhi : hi = xs.length + ys.length) (hne : ys ≠ [] ∨ ts = []) :
    ∃ h', eraseRange ty v lo hi h = .ok (({ v with len := xs.length + ts.length }, some lo), h') ∧
      To ty h v.ptr (xs ++ ts) v.cap v.alloc ⟨0, ys.length, 0⟩ { v with len := xs.length + ts.length } h' := by
  have hl : v.len = xs.length + ys.length + ts.length := by simpa [Nat.add_assoc] using rp.len
  have hcl := rp.own.cap_lt
  have hle := rp.le
  have hW : wordSize = 18446744073709551616 := rfl
  simp only [List.length_append] at hle
  have hws : wsub hi lo = ys.length := by rw [wsub_of_le (by omega) (by omega)]; omega
  unfold eraseRange
  rw [if_neg (by omega)]
  simp only [Prog.bind_run]
  have hmv : ∃ h1, ∃ G' : List α, stdMove ty v.ptr hi v.len lo h = .ok ((), h1) ∧ G'.length = ys.length ∧
      Own ty h1 v.ptr v.cap v.alloc (xs.map some ++ (ts.map some ++ (G'.map some ++ raws (v.cap - (xs ++ (ys ++ ts)).length)))) ∧
      Step h v.ptr.toList h1 v.ptr.toList 0 := by
    by_cases hy : ys = []
    · have ht : ts = [] := hne.resolve_left (by simp [hy])
      subst hy ht
      simp only [List.length_nil, Nat.add_zero] at hl hhi
      refine ⟨h, [], ?_, rfl, by simpa using rp.own, Step.refl _ _⟩
      unfold stdMove
      rw [if_neg (by omega), show v.len - hi = 0 by omega]
      rfl
    · have hyp := List.length_pos_iff.2 hy
      unfold stdMove
      rw [if_neg (by omega), show v.len - hi = ts.length by omega]
      exact stdMove_loop ts ys hy (pre := xs.map some) (by simpa using rp.own) (by simp [hlo]) (by simp [hhi])
  obtain ⟨h1, G', e1, hG, o1, s1⟩ := hmv
  have r1 : Rep ty h1 v ((xs ++ ts) ++ G') := by
    refine ⟨by simp [hG, hl]; omega, ?_⟩
    have hlen : (xs ++ (ys ++ ts)).length = ((xs ++ ts) ++ G').length := by simp [hG]; omega
    rw [hlen] at o1
    simpa using o1
  obtain ⟨h2, e2, t2⟩ := popLoop_ok G' r1 (s1.bal hb) hG.symm
  refine ⟨h2, ?_, ⟨?_, by simpa [Cost.zero_def] using s1.trans t2.step, t2.bal, rfl, rfl⟩⟩
  · simp only [e1, Out.bind_ok, hws, e2, Prog.pure_run, List.length_append]
  · simpa using t2.rep

theorem erase_ok {h : Heap α} {v : Vec} {xs ts : List α} {y : α} {p : Nat} (rp : Rep ty h v (xs ++ y :: ts)) (hb : Bal h)
    (hp : p = xs.length) :
    ∃ h', erase ty v p h = .ok (({ v with len := xs.length + ts.length }, some p), h') ∧
      To ty h v.ptr (xs ++ ts) v.cap v.alloc ⟨0, 1, 0⟩ { v with len := xs.length + ts.length } h' := by
  have hl : v.len = xs.length + 1 + ts.length := by have := rp.len; simp at this; omega
  have hcl := rp.own.cap_lt
  have hle := rp.le
  have hW : wordSize = 18446744073709551616 := rfl
  simp only [List.length_append, List.length_cons] at hle
  have hws : wsub v.len 1 = xs.length + ts.length := by rw [wsub_of_le (by omega) (by omega)]; omega
  unfold erase
  rw [hws]
  by_cases ht : ts = []
  · subst ht
    obtain ⟨h1, e1, t1⟩ := popBack_ok rp hb
    rw [if_pos (by simp [hp])]
    refine ⟨h1, ?_, t1.cast (by simp) rfl rfl rfl⟩
    simp only [Prog.bind_run, e1, Out.bind_ok, Prog.pure_run]
    rw [hp]; simp
  · have htp := List.length_pos_iff.2 ht
    rw [if_neg (by omega), if_pos (by omega)]
    obtain ⟨h1, G', e1, hG, o1, s1⟩ := stdMove_loop (ty := ty) (h := h) (p := v.ptr) (cap := v.cap) (owner := v.alloc) (k := 0)
      (pre := xs.map some) (post := raws (v.cap - (xs ++ y :: ts).length)) (first := p + 1) (dest := p) ts [y] (by simp)
      (by simpa using rp.own) (by simp [hp]) (by simp [hp])
    have em : stdMove ty v.ptr (p + 1) v.len p h = .ok ((), h1) := by
      unfold stdMove
      rw [if_neg (by omega), show v.len - (p + 1) = ts.length by omega]
      exact e1
    obtain ⟨g, rfl⟩ : ∃ g, G' = [g] := by
      cases G' with
      | nil => simp at hG
      | cons g G' => cases G' with
        | nil => exact ⟨g, rfl⟩
        | cons _ _ => simp at hG
    have r1 : Rep ty h1 v ((xs ++ ts) ++ [g]) := by
      refine ⟨by simp [hl]; omega, ?_⟩
      have hlen : (xs ++ y :: ts).length = ((xs ++ ts) ++ [g]).length := by simp
      rw [hlen] at o1
      simpa using o1
    obtain ⟨h2, e2, t2⟩ := popBack_ok r1 (s1.bal hb)
    refine ⟨h2, ?_, ⟨?_, by simpa [Cost.zero_def] using s1.trans t2.step, t2.bal, rfl, rfl⟩⟩
    · simp only [Prog.bind_run, em, Out.bind_ok, e2, Prog.pure_run, List.length_append]
    · simpa using t2.rep

/-! ## Access -/

theorem indexSet_ok {h : Heap α} {v : Vec} {xs : List α} {i : Nat} {x : α} (rp : Rep ty h v xs) (hb : Bal h) (hi : i < xs.length) :
    ∃ h', indexSet v i x h = .ok ((), h') ∧ To ty h v.ptr (xs.set i x) v.cap v.alloc 0 v h' := by
  have hx : xs = xs.take i ++ xs[i] :: xs.drop (i + 1) := by simp
  obtain ⟨h1, e1, o1, s1⟩ := store_ok (ty := ty) (h := h) (ptr := v.ptr) (i := i) (cap := v.cap) (owner := v.alloc)
    (pre := (xs.take i).map some) (x := xs[i]) (y := x) (post := (xs.drop (i + 1)).map some ++ raws (v.cap - xs.length))
    (by
      have := rp.own
      rw [show xs.map some = (xs.take i).map some ++ some xs[i] :: (xs.drop (i + 1)).map some by
        rw [← List.map_cons, ← List.map_append, ← hx]] at this
      rw [List.append_assoc] at this
      exact this)
    (by simp; omega)
  refine ⟨h1, e1, ⟨⟨by simp [rp.len], ?_⟩, s1, s1.bal hb, rfl, rfl⟩⟩
  have hs : xs.set i x = xs.take i ++ x :: xs.drop (i + 1) := List.set_eq_take_append_cons_drop .. |>.trans (by simp [hi])
  rw [hs]
  have : (xs.take i ++ x :: xs.drop (i + 1)).length = xs.length := by simp; omega
  rw [this]
  simpa using o1

theorem index_ok {h : Heap α} {v : Vec} {xs : List α} {i : Nat} {x : α} (rp : Rep ty h v xs) (hi : xs[i]? = some x) :
    index v i h = .ok (x, h) := rp.slot hi

theorem getAt_ok {h : Heap α} {v : Vec} {xs : List α} (rp : Rep ty h v xs) (i : Nat) : getAt v i h = .ok (xs[i]?, h) := by
  unfold getAt
  rw [rp.len]
  by_cases hi : i < xs.length
  · rw [if_pos hi]
    simp only [Prog.bind_run, rp.slot (List.getElem?_eq_getElem hi), Out.bind_ok, Prog.pure_run, List.getElem?_eq_getElem hi]
  · rw [if_neg hi, List.getElem?_eq_none (by omega)]; rfl

theorem front_ok {h : Heap α} {v : Vec} {xs : List α} (rp : Rep ty h v xs) : front v h = .ok (xs.head?, h) := by
  unfold front
  rw [rp.len]
  cases xs with
  | nil => rfl
  | cons x xs =>
    rw [if_pos (by simp)]
    simp only [Prog.bind_run, rp.slot (show (x :: xs)[0]? = some x from rfl), Out.bind_ok, Prog.pure_run, List.head?_cons]

theorem back_ok {h : Heap α} {v : Vec} {xs : List α} (rp : Rep ty h v xs) : back v h = .ok (xs.getLast?, h) := by
  unfold back
  rw [rp.len]
  rcases List.eq_nil_or_concat xs with rfl | ⟨ys, y, rfl⟩
  · rfl
  · simp only [List.concat_eq_append] at *
    rw [if_pos (by simp)]
    have hs : (ys ++ [y])[(ys ++ [y]).length - 1]? = some y := by simp
    simp only [Prog.bind_run, rp.slot hs, Out.bind_ok, Prog.pure_run, List.getLast?_append, List.getLast?_singleton,
      Option.some_or]

/-! ## Iteration -/

theorem drain_ok {h : Heap α} {v : Vec} {xs : List α} (rp : Rep ty h v xs) (zs ts acc : List α) (hx : xs = zs ++ ts) :
    Iter.drain ⟨v.ptr, zs.length, v.len⟩ acc h = .ok (acc ++ ts, h) := by
  induction ts generalizing zs acc with
  | nil =>
    rw [Iter.drain]
    have : v.len = zs.length := by rw [rp.len, hx]; simp
    simp [Iter.next, Prog.bind_run, this]
  | cons t ts ih =>
    rw [Iter.drain]
    have hne : zs.length ≠ v.len := by rw [rp.len, hx]; simp
    have e1 : load v.ptr zs.length h = .ok (t, h) := rp.slot (by rw [hx]; exact focus_get _ _ _ rfl)
    have := ih (zs ++ [t]) (acc ++ [t]) (by simp [hx])
    simp only [List.length_append, List.length_cons, List.length_nil] at this
    simp only [Iter.next, Prog.bind_run, if_pos hne, e1, Out.bind_ok, Prog.pure_run, this, List.append_assoc, List.cons_append,
      List.nil_append]

/-- A draining iterator that still has to hand out `ts`: its slots before `pos` hold moved-from elements. -/
structure IntoRep (ty : ElemTy α) (h : Heap α) (it : IntoIter) (ts : List α) : Prop where
  rep : (ts = [] ∧ it.pos = it.len ∧ Rep ty h it.vec []) ∨
    (ts ≠ [] ∧ ∃ zs, it.pos = zs.length ∧ it.len = zs.length + ts.length ∧ Rep ty h it.vec (zs ++ ts))

theorem intoIter_rep {h : Heap α} {v : Vec} {xs : List α} (rp : Rep ty h v xs) :
    IntoRep ty h (intoIter v).1 xs ∧ (intoIter v).2 = Vec.blank v.alloc ∧ (intoIter v).1.vec.ptr = v.ptr := by
  have hv : (intoIter v).1.vec = v := rfl
  refine ⟨⟨?_⟩, rfl, rfl⟩
  by_cases hx : xs = []
  · subst hx
    exact .inl ⟨rfl, by have := rp.len; simpa [intoIter, newMove, moveImpl] using this.symm, rp⟩
  · exact .inr ⟨hx, [], rfl, by simpa [intoIter, newMove, moveImpl] using rp.len, rp⟩

theorem intoNext_end {h : Heap α} {it : IntoIter} (r : IntoRep ty h it []) : it.next ty h = .ok ((none, it), h) := by
  rcases r.rep with ⟨_, hp, _⟩ | ⟨hne, _⟩
  · simp only [IntoIter.next, hp, Nat.lt_irrefl, if_false]; rfl
  · exact absurd rfl hne

theorem intoNext_ok {h : Heap α} {it : IntoIter} {t : α} {ts : List α} (r : IntoRep ty h it (t :: ts)) (hb : Bal h) :
    ∃ it' h' k, it.next ty h = .ok ((some t, it'), h') ∧ IntoRep ty h' it' ts ∧ Bal h' ∧
      Step h it.vec.ptr.toList h' it'.vec.ptr.toList k := by
  rcases r.rep with ⟨hne, _⟩ | ⟨_, zs, hp, hl, rp⟩
  · cases hne
  · obtain ⟨h1, e1, o1, s1⟩ := take_ok (ty := ty) (h := h) (ptr := it.vec.ptr) (i := it.pos) (cap := it.vec.cap)
      (owner := it.vec.alloc) (pre := zs.map some) (x := t) (post := ts.map some ++ raws (it.vec.cap - (zs ++ t :: ts).length))
      (by simpa using rp.own) (by simp [hp])
    have r1 : Rep ty h1 it.vec ((zs ++ [ty.mv t]) ++ ts) := by
      refine ⟨by rw [rp.len]; simp, ?_⟩
      have : (zs ++ t :: ts).length = ((zs ++ [ty.mv t]) ++ ts).length := by simp
      rw [this] at o1
      simpa using o1
    simp only [List.length_cons] at hl
    by_cases ht : ts = []
    · subst ht
      obtain ⟨h2, e2, t2⟩ := clear_ok r1 (s1.bal hb)
      refine ⟨{ it with vec := Vec.blank it.vec.alloc, pos := it.pos + 1 }, h2, _, ?_, ⟨.inl ⟨rfl, by simp [hp, hl], t2.rep⟩⟩,
        t2.bal, s1.trans t2.step⟩
      simp only [IntoIter.next, show it.pos < it.len by omega, if_true, Prog.bind_run, e1, Out.bind_ok,
        show it.pos + 1 = it.len by simp at hl; omega, e2, Prog.pure_run]
    · have htp := List.length_pos_iff.2 ht
      refine ⟨{ it with pos := it.pos + 1 }, h1, _, ?_, ⟨.inr ⟨ht, zs ++ [ty.mv t], by simp [hp], by simp [hl]; omega, r1⟩⟩,
        s1.bal hb, s1⟩
      simp only [IntoIter.next, show it.pos < it.len by omega, if_true, Prog.bind_run, e1, Out.bind_ok,
        show ¬ it.pos + 1 = it.len by omega, if_false, Prog.pure_run]

theorem intoNextReversed_ok {h : Heap α} {v : Vec} {xs : List α} {x : α} (rp : Rep ty h v (xs ++ [x])) (hb : Bal h) :
    ∃ v' h' k, intoNextReversed ty v h = .ok ((some x, v'), h') ∧ To ty h v.ptr xs v.cap v.alloc k v' h' := by
  have hl : v.len = xs.length + 1 := by simpa using rp.len
  obtain ⟨h1, e1, o1, s1⟩ := take_ok (ty := ty) (h := h) (ptr := v.ptr) (i := v.len - 1) (cap := v.cap)
    (owner := v.alloc) (pre := xs.map some) (x := x) (post := raws (v.cap - (xs ++ [x]).length))
    (by simpa using rp.own) (by simp [hl])
  have r1 : Rep ty h1 v (xs ++ [ty.mv x]) := ⟨by rw [rp.len]; simp, by simpa using o1⟩
  obtain ⟨h2, e2, t2⟩ := popBack_ok r1 (s1.bal hb)
  refine ⟨_, h2, _, ?_, ⟨t2.rep, s1.trans t2.step, t2.bal, t2.cap, t2.alloc⟩⟩
  simp only [intoNextReversed, show v.len ≠ 0 by omega, ne_eq, not_false_eq_true, if_true, Prog.bind_run, e1, Out.bind_ok, e2,
    Prog.pure_run]

theorem intoNextReversed_end {h : Heap α} {v : Vec} (rp : Rep ty h v []) : intoNextReversed ty v h = .ok ((none, v), h) := by
  simp only [intoNextReversed, rp.len, List.length_nil, ne_eq, not_true_eq_false, if_false]; rfl

/-! ## Comparison and printing -/

theorem eqSeq_length {eq : α → α → Bool} {xs ys : List α} (h : eqSeq eq xs ys = true) : xs.length = ys.length := by
  induction xs generalizing ys with
  | nil => cases ys <;> simp_all [eqSeq]
  | cons x xs ih => cases ys with
    | nil => simp [eqSeq] at h
    | cons y ys => simp only [eqSeq, Bool.and_eq_true] at h; simp [ih h.2]

theorem equalLoop_ok {h : Heap α} {l r : Vec} {xs ys : List α} (eq : α → α → Bool) (rl : Rep ty h l xs) (rr : Rep ty h r ys)
    (zs ts zs' ts' : List α) (hx : xs = zs ++ ts) (hy : ys = zs' ++ ts') (hz : zs.length = zs'.length) (ht : ts.length = ts'.length) :
    equalLoop eq l r zs.length ts.length h = .ok (eqSeq eq ts ts', h) := by
  induction ts generalizing zs zs' ts' with
  | nil =>
    have : ts' = [] := List.length_eq_zero_iff.1 ht.symm
    subst this
    rfl
  | cons t ts ih =>
    cases ts' with
    | nil => simp at ht
    | cons t' ts' =>
      have e1 : load l.ptr zs.length h = .ok (t, h) := rl.slot (by rw [hx]; exact focus_get _ _ _ rfl)
      have e2 : load r.ptr zs.length h = .ok (t', h) := rr.slot (by rw [hy]; exact focus_get _ _ _ hz)
      simp only [List.length_cons, equalLoop, Prog.bind_run, e1, e2, Out.bind_ok, eqSeq]
      have := ih (zs ++ [t]) (zs' ++ [t']) ts' (by simp [hx]) (by simp [hy]) (by simp [hz]) (by simpa using ht)
      simp only [List.length_append, List.length_cons, List.length_nil, Nat.zero_add] at this
      cases eq t t' with
      | true => simpa using this
      | false => simp

theorem equal_ok {h : Heap α} {l r : Vec} {xs ys : List α} (eq : α → α → Bool) (rl : Rep ty h l xs) (rr : Rep ty h r ys) :
    equal eq l r h = .ok (eqSeq eq xs ys, h) := by
  unfold equal
  rw [rl.len, rr.len]
  by_cases hl : xs.length = ys.length
  · rw [if_neg (by simp [hl])]
    exact equalLoop_ok eq rl rr [] xs [] ys rfl rfl rfl hl
  · rw [if_pos hl]
    have : eqSeq eq xs ys = false := by
      cases he : eqSeq eq xs ys with
      | false => rfl
      | true => exact absurd (eqSeq_length he) hl
    rw [this]; rfl

theorem compareLoop_ok {h : Heap α} {l r : Vec} {xs ys : List α} (cmp : α → α → Option Ordering) (rl : Rep ty h l xs)
    (rr : Rep ty h r ys) (zs ts zs' ts' : List α) (hx : xs = zs ++ ts) (hy : ys = zs' ++ ts') (hz : zs.length = zs'.length) :
    compareLoop cmp l r zs.length (min ts.length ts'.length) h = .ok (lexSeq cmp ts ts', h) := by
  induction ts generalizing zs zs' ts' with
  | nil =>
    have h1 : l.len = zs.length := by rw [rl.len, hx]; simp
    have h2 : r.len = zs'.length + ts'.length := by rw [rr.len, hy]; simp
    simp only [List.length_nil, Nat.zero_min, compareLoop, Prog.pure_run, h1, h2, hz]
    cases ts' with
    | nil => simp [lexSeq]
    | cons t' ts' =>
      simp only [lexSeq]
      rw [Nat.compare_eq_lt.2 (by simp)]
  | cons t ts ih =>
    cases ts' with
    | nil =>
      have h1 : l.len = zs.length + (ts.length + 1) := by rw [rl.len, hx]; simp
      have h2 : r.len = zs'.length := by rw [rr.len, hy]; simp
      simp only [List.length_nil, Nat.min_zero, compareLoop, Prog.pure_run, h1, h2, hz, lexSeq]
      rw [Nat.compare_eq_gt.2 (by omega)]
    | cons t' ts' =>
      have e1 : load l.ptr zs.length h = .ok (t, h) := rl.slot (by rw [hx]; exact focus_get _ _ _ rfl)
      have e2 : load r.ptr zs.length h = .ok (t', h) := rr.slot (by rw [hy]; exact focus_get _ _ _ hz)
      have := ih (zs ++ [t]) (zs' ++ [t']) ts' (by simp [hx]) (by simp [hy]) (by simp [hz])
      simp only [List.length_append, List.length_cons, List.length_nil, Nat.zero_add] at this
      rw [show min (t :: ts).length (t' :: ts').length = min ts.length ts'.length + 1 by simp]
      simp only [compareLoop, Prog.bind_run, e1, e2, Out.bind_ok, lexSeq]
      by_cases hc : cmp t t' = some .eq
      · rw [if_pos hc, if_pos hc]; exact this
      · rw [if_neg hc, if_neg hc]; rfl

theorem threeWay_ok {h : Heap α} {l r : Vec} {xs ys : List α} (cmp : α → α → Option Ordering) (rl : Rep ty h l xs)
    (rr : Rep ty h r ys) : threeWay cmp l r h = .ok (lexSeq cmp xs ys, h) := by
  unfold threeWay
  rw [rl.len, rr.len]
  exact compareLoop_ok cmp rl rr [] xs [] ys rfl rfl rfl

theorem printLoop_ok {h : Heap α} {v : Vec} {xs : List α} (shw : α → String) (rp : Rep ty h v xs) (zs ts : List α)
    (hx : xs = zs ++ ts) : printLoop shw v zs.length ts.length h = .ok (joinSeq (ts.map shw), h) := by
  induction ts generalizing zs with
  | nil => rfl
  | cons t ts ih =>
    have e1 : load v.ptr zs.length h = .ok (t, h) := rp.slot (by rw [hx]; exact focus_get _ _ _ rfl)
    have := ih (zs ++ [t]) (by simp [hx])
    simp only [List.length_append, List.length_cons, List.length_nil, Nat.zero_add] at this
    have hl : v.len = zs.length + 1 + ts.length := by rw [rp.len, hx]; simp; omega
    have hcl := rp.own.cap_lt
    have hle := rp.le
    rw [← rp.len] at hle
    have hW : wordSize = 18446744073709551616 := rfl
    have hw : wsub v.len 1 = zs.length + ts.length := by rw [wsub_of_le (by omega) (by omega)]; omega
    simp only [List.length_cons, printLoop, Prog.bind_run, e1, Out.bind_ok, this, Prog.pure_run, List.map_cons, hw]
    cases ts with
    | nil => simp [joinSeq]
    | cons t' ts' =>
      rw [if_pos (by simp)]
      simp [joinSeq]

theorem print_ok {h : Heap α} {v : Vec} {xs : List α} (shw : α → String) (rp : Rep ty h v xs) :
    print shw v h = .ok ("Vec [" ++ joinSeq (xs.map shw) ++ "]", h) := by
  have e := printLoop_ok shw rp [] xs rfl
  simp only [List.length_nil] at e
  simp only [print, Prog.bind_run, rp.len, e, Out.bind_ok, Prog.pure_run]

end Verif.Proof.Vector
