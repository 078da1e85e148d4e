import Verif.Proof.Nested
/-! # Nested vectors: members -/
namespace Verif.Proof.Nested
open Verif Verif.Model.Mem Verif.Proof.Mem Verif.Model.Nested Verif.Spec.Nested
open Verif.Model.Vector (Vec Vec.blank dfltAlloc moveImpl bindVar)
open Verif.Spec.Vector (Var)

variable {S : Sig} {σ V : Type} {C : Cls S σ} {μ : Meaning S V} {L : Law C μ} {ty : ElemTy Unit}

section
variable {s : St σ} {A : Nat → Option V} {v : Vec} {xs : List V}

theorem popLoop_ok (d : Nat) {ys : List V} (n : NS L s A) (r : NRep ty s A v (xs ++ ys)) (hd : d = ys.length) :
    (popLoop C v d s).Safe fun q => ∃ A', NTo L ty s A v.ptr xs v.cap v.alloc q.1 q.2 A' [] := by
  induction d generalizing s A v ys with
  | zero =>
    have : ys = [] := List.length_eq_zero_iff.1 hd.symm
    subst this
    exact ⟨A, (NTo.same r n).cast (by simp) rfl rfl⟩
  | succ d ih =>
    rcases List.eq_nil_or_concat ys with h | ⟨zs, x, h⟩
    · subst h; simp at hd
    · subst h
      simp only [popLoop, Prog.bind_run]
      apply (popBack_ok n (xs := xs ++ zs) (x := x) (by simpa using r)).bind
      rintro ⟨v1, s1⟩ ⟨A1, t1, _⟩
      simp only at t1 ⊢
      apply (ih t1.ns t1.rep (by simpa using hd)).mono
      rintro ⟨v2, s2⟩ ⟨A2, t2⟩
      have hc := t1.cap
      have ha := t1.alloc
      exact ⟨A2, by simpa using (t1.trans n t2).cast rfl hc ha⟩

theorem pushLoop_ok (d : Nat) {j : Nat} {x : V} (n : NS L s A) (r : NRep ty s A v xs) (hx : A (temp j) = some x) (hok : μ.cpOk x = true)
    (hroom : xs.length + d ≤ v.cap) :
    (pushLoop ty C (temp j) v d s).Safe fun q => ∃ A',
      NTo L ty s A v.ptr (xs ++ List.replicate d (μ.cp x)) v.cap v.alloc q.1 q.2 A' [] := by
  induction d generalizing s A v xs with
  | zero => exact ⟨A, (NTo.same r n).cast (by simp) rfl rfl⟩
  | succ d ih =>
    simp only [pushLoop, Prog.bind_run]
    apply (pushCopy_ok n r hx hok (.inl ⟨j, rfl⟩)).bind
    rintro ⟨v1, s1⟩ ⟨A1, t1⟩
    simp only at t1 ⊢
    have hc : v1.cap = v.cap := by rw [t1.cap, Spec.Vector.afterPush, if_pos (by omega)]
    apply (ih t1.ns t1.rep (by rw [frame_temp t1.step (by simp)]; exact hx) (by rw [hc]; simp; omega)).mono
    rintro ⟨v2, s2⟩ ⟨A2, t2⟩
    exact ⟨A2, by simpa using (t1.trans n t2).cast (by simp [List.replicate_succ]) hc t1.alloc⟩

theorem assignFill_ok {j m : Nat} {x : V} (n : NS L s A) (r : NRep ty s A v xs) (hx : A (temp j) = some x) (hok : μ.cpOk x = true)
    (hw : m * ty.size < wordSize) :
    (assignFill ty C v m (temp j) s).Safe fun q => ∃ A',
      NTo L ty s A v.ptr (List.replicate m (μ.cp x)) (max v.cap m) v.alloc q.1 q.2 A' [] := by
  simp only [assignFill, Prog.bind_run]
  apply (destroyAll_ok n r).bind
  rintro ⟨v1, s1⟩ ⟨e1, A1, t1⟩
  simp only at e1 t1 ⊢
  apply (reserve_ok t1.ns t1.rep hw).bind
  rintro ⟨v2, s2⟩ ⟨A2, t2, _⟩
  simp only at t2 ⊢
  have t12 := t1.trans n t2
  apply (pushLoop_ok m t2.ns t2.rep (by rw [frame_temp t12.step (by simp)]; exact hx) hok (by rw [t2.cap]; simp)).mono
  rintro ⟨v3, s3⟩ ⟨A3, t3⟩
  exact ⟨A3, by simpa using (t12.trans n t3).cast (by simp) (by rw [t2.cap, t1.cap]) (by rw [t2.alloc, t1.alloc])⟩

theorem resizeFill_ok {j m : Nat} {x : V} (n : NS L s A) (r : NRep ty s A v xs) (hx : A (temp j) = some x) (hok : μ.cpOk x = true)
    (hw : m * ty.size < wordSize) :
    (resizeFill ty C v m (temp j) s).Safe fun q => ∃ A',
      NTo L ty s A v.ptr (xs.take m ++ List.replicate (m - xs.length) (μ.cp x)) (max v.cap m) v.alloc q.1 q.2 A' [] := by
  have hl := r.len
  have hle := r.le
  unfold resizeFill
  by_cases h1 : m < v.len
  · rw [if_pos h1]
    apply (popLoop_ok (v.len - m) n (xs := xs.take m) (ys := xs.drop m) (by simpa using r) (by simp; omega)).mono
    rintro ⟨v1, s1⟩ ⟨A1, t1⟩
    exact ⟨A1, t1.cast (by rw [show m - xs.length = 0 by omega]; simp) (by omega) rfl⟩
  · rw [if_neg h1]
    by_cases h2 : m > v.len
    · rw [if_pos h2]
      simp only [Prog.bind_run]
      have e : (if m > v.cap then reserve ty C v m else pure v : Prog (St σ) Vec) = reserve ty C v m := by
        unfold reserve; split <;> rfl
      rw [e]
      apply (reserve_ok n r hw).bind
      rintro ⟨v2, s2⟩ ⟨A2, t2, _⟩
      simp only at t2 ⊢
      have hl2 := t2.rep.len
      apply (pushLoop_ok (m - v2.len) t2.ns t2.rep (by rw [frame_temp t2.step (by simp)]; exact hx) hok (by rw [t2.cap]; omega)).mono
      rintro ⟨v3, s3⟩ ⟨A3, t3⟩
      exact ⟨A3, by simpa using (t2.trans n t3).cast (by rw [hl2, List.take_of_length_le (by omega)]) t2.cap t2.alloc⟩
    · rw [if_neg h2]
      have : m = xs.length := by omega
      exact ⟨A, (NTo.same r n).cast (by subst this; simp) (by omega) rfl⟩

/-! ## Objects changed in place -/

theorem NS.objs {t : σ} {A' : Nat → Option V} (n : NS L s A) (hi : L.Inv A' t)
    (hf : ∀ b k, s.heap.blocks b = none → A' (slot b k) = A (slot b k)) : NS L { s with objs := t } A' :=
  ⟨hi, n.bal, fun b k hb => by rw [hf b k hb]; exact n.housed b k hb⟩

/-- one object of a buffer changed -/
theorem place_ok {b i cap al : Nat} {pre post : List (Option V)} {x y : V} {t : σ} (n : NS L s A)
    (o : NOwn ty s.heap A (some b) cap al (pre ++ some x :: post)) (hi : i = pre.length)
    (it : L.Inv (place A (slot b i) (some y)) t) :
    NS L { s with objs := t } (place A (slot b i) (some y)) ∧
      NOwn ty s.heap (place A (slot b i) (some y)) (some b) cap al (pre ++ some y :: post) ∧
      NStep s A [b] { s with objs := t } (place A (slot b i) (some y)) [b] [] := by
  refine ⟨n.objs it ?_, ⟨by simpa using o.own, cells_set o.cells hi⟩, ⟨⟨0, Step.refl _ _⟩, fun m hm _ => ?_⟩⟩
  · intro b' k hb
    exact place_ne _ _ (fun e => o.block (by obtain ⟨rfl, _⟩ := slot_inj e; exact hb))
  · exact place_ne _ _ (fun e => (hm b i e).1 (by simp))

theorem set_split {X : Type} {l : List X} {k : Nat} {x : X} (hk : l[k]? = some x) (y : X) :
    ∃ pre post, l = pre ++ x :: post ∧ k = pre.length ∧ l.set k y = pre ++ y :: post := by
  have hlt : k < l.length := by rw [List.getElem?_eq_some_iff] at hk; exact hk.1
  have hx : l[k] = x := by rw [List.getElem?_eq_getElem hlt] at hk; injection hk
  refine ⟨l.take k, l.drop (k + 1), ?_, by simp; omega, ?_⟩
  · rw [← hx, List.getElem_cons_drop, List.take_append_drop]
  · rw [List.set_eq_take_append_cons_drop, if_pos hlt]

/-- element `k` changed in place -/
theorem elem_ok {b k : Nat} {x y : V} {t : σ} (n : NS L s A) (r : NRep ty s A v xs) (hb : v.ptr = some b)
    (hk : xs[k]? = some x) (it : L.Inv (place A (slot b k) (some y)) t) :
    NTo L ty s A v.ptr (xs.set k y) v.cap v.alloc v { s with objs := t } (place A (slot b k) (some y)) [] := by
  obtain ⟨pre, post, e1, e2, e3⟩ := set_split hk y
  have o := r.own
  rw [hb, e1] at o
  obtain ⟨n1, o1, t1⟩ := place_ok (pre := pre.map some) (post := post.map some ++ _) n (by simpa using o) (by simpa using e2) it
  refine ⟨⟨by simp [r.len], ?_⟩, n1, by rw [hb]; exact t1, rfl, rfl⟩
  rw [hb, e3]
  simpa [e1] using o1

/-- one step of `std::move` in `erase` -/
theorem shift_one {b cap al : Nat} {pre post : List (Option V)} {t y : V} {i : Nat} (n : NS L s A)
    (o : NOwn ty s.heap A (some b) cap al (pre ++ some t :: (some y :: post))) (hi : i = pre.length) (hin : μ.mvInto t y = true) :
    (inObjs (C.moveAssign (slot b i) (slot b (i + 1))) s).Safe fun q => ∃ A', NS L q.2 A' ∧
      NOwn ty q.2.heap A' (some b) cap al ((pre ++ [some y]) ++ some (μ.leftInto t y) :: post) ∧ NStep s A [b] q.2 A' [b] [] := by
  have hd : A (slot b i) = some t := o.at (focus_get _ _ _ hi)
  have he : A (slot b (i + 1)) = some y := o.at (by
    subst hi
    rw [List.getElem?_append_right (by omega), show pre.length + 1 - pre.length = 1 by omega]; rfl)
  rw [run_inObjs]
  refine (L.moveAssign n.inv (by intro e; have := (slot_inj e).2; omega) hd he hin).bind fun q i1 => Out.safe_ok.2 ?_
  have c1 : Cells (place (place A (slot b i) (some y)) (slot b (i + 1)) (some (μ.leftInto t y))) (some b)
      ((pre ++ [some y]) ++ some (μ.leftInto t y) :: post) :=
    cells_set (o := some y) (by simpa using cells_set (o' := some y) o.cells hi) (by simp [hi])
  have hf : ∀ m, (∀ b' k, m = slot b' k → b' ≠ b) →
      place (place A (slot b i) (some y)) (slot b (i + 1)) (some (μ.leftInto t y)) m = A m := by
    intro m hm
    rw [place_ne _ _ (fun e => hm b (i + 1) e rfl), place_ne _ _ (fun e => hm b i e rfl)]
  refine ⟨place (place A (slot b i) (some y)) (slot b (i + 1)) (some (μ.leftInto t y)), ⟨i1, n.bal, fun b' k hb => ?_⟩,
    ⟨by simpa using o.own, c1⟩, ⟨⟨0, Step.refl _ _⟩, fun m hm _ => hf m (fun b' k e e' => (hm b' k e).1 (by simp [e']))⟩⟩
  simp only at hb
  rw [hf _ (by rintro b2 k2 e rfl; obtain ⟨rfl, _⟩ := slot_inj e; exact o.block hb)]
  exact n.housed b' k hb

/-- the loop of `std::move` in `erase`, seen from the object it destroys -/
theorem shiftLoop_ok {b cap al : Nat} {pre post : List (Option V)} (ys : List V) {t : V} {i m : Nat} (n : NS L s A)
    (o : NOwn ty s.heap A (some b) cap al (pre ++ some t :: (ys.map some ++ post))) (hi : i = pre.length) (hm : m = ys.length)
    (hgo : shiftOk.go μ t ys = true) :
    (loopUp i m (fun k => do
        let src ← address (some b) (k + 1)
        let dst ← address (some b) k
        inObjs (C.moveAssign dst src)) s).Safe fun q => ∃ A' t', NS L q.2 A' ∧
      NOwn ty q.2.heap A' (some b) cap al (pre ++ (ys.map some ++ some t' :: post)) ∧ NStep s A [b] q.2 A' [b] [] := by
  induction ys generalizing s A i pre m t with
  | nil => subst hm; exact ⟨A, t, n, by simpa using o, NStep.refl _ _ _ _⟩
  | cons y ys ih =>
    subst hm
    simp only [shiftOk.go, Bool.and_eq_true] at hgo
    simp only [List.length_cons, loopUp, Prog.bind_run, address, Prog.pure_run, Out.bind_ok]
    refine (shift_one n (post := ys.map some ++ post) (by simpa using o) hi hgo.1).bind ?_
    rintro ⟨_, s1⟩ ⟨A1, n1, o1, t1⟩
    apply (ih (s := s1) (i := i + 1) (pre := pre ++ [some y]) n1 o1 (by simp [hi]) rfl hgo.2).mono
    rintro ⟨_, s2⟩ ⟨A2, t', n2, o2, t2⟩
    exact ⟨A2, t', n2, by simpa using o2, t1.trans n n2 t2⟩

theorem erase_ok {p : Nat} (n : NS L s A) (r : NRep ty s A v xs) (hp : p < xs.length)
    (hsh : shiftOk μ (xs.drop p) = true) :
    (erase C v p s).Safe fun q => q.1.2 = some p ∧
      ∃ A', NTo L ty s A v.ptr (xs.eraseIdx p) v.cap v.alloc q.1.1 q.2 A' [] := by
  have hl := r.len
  have hle := r.le
  have hc := r.own.own.cap_lt
  have hsub : wsub v.len 1 = xs.length - 1 := by
    rw [hl, wsub_of_le (by omega) (by have : wordSize = 18446744073709551616 := rfl; omega)]
  have hxp : xs[p]? = some xs[p] := List.getElem?_eq_getElem hp
  have hcut : xs = xs.take p ++ xs[p] :: xs.drop (p + 1) := by
    rw [List.getElem_cons_drop, List.take_append_drop]
  have hgo : shiftOk.go μ xs[p] (xs.drop (p + 1)) = true := by
    rw [← List.getElem_cons_drop hp] at hsh; exact hsh
  unfold erase
  rw [hsub]
  by_cases h1 : p = xs.length - 1
  · rw [if_pos h1]
    have hlast : xs = xs.take p ++ [xs[p]] := by
      have : xs.drop (p + 1) = [] := List.drop_eq_nil_of_le (by omega)
      rw [this] at hcut; exact hcut
    simp only [Prog.bind_run]
    apply (popBack_ok n (xs := xs.take p) (x := xs[p]) (by rw [← hlast]; exact r)).bind
    rintro ⟨v1, s1⟩ ⟨A1, t1, e1⟩
    simp only at t1 e1 ⊢
    refine ⟨?_, A1, t1.cast ?_ rfl rfl⟩
    · rw [e1]; simp; omega
    · rw [List.eraseIdx_eq_take_drop_succ, List.drop_eq_nil_of_le (by omega)]; simp
  · rw [if_neg h1, if_pos (by omega)]
    obtain ⟨b, hb, _⟩ := r.elem hxp
    have o : NOwn ty s.heap A (some b) v.cap v.alloc ((xs.take p).map some ++ some xs[p] ::
        ((xs.drop (p + 1)).map some ++ List.replicate (v.cap - xs.length) none)) := by
      have h := r.own
      rw [hb] at h
      have e : xs.map some = (xs.take p).map some ++ some xs[p] :: (xs.drop (p + 1)).map some := by
        conv_lhs => rw [hcut]
        simp only [List.map_append, List.map_cons]
      rw [e] at h
      simpa only [List.append_assoc, List.cons_append] using h
    simp only [Prog.bind_run]
    rw [hb]
    apply (shiftLoop_ok (xs.drop (p + 1)) (m := v.len - (p + 1)) n (pre := (xs.take p).map some) (t := xs[p])
      (post := List.replicate (v.cap - xs.length) none) o (by simp; omega) (by simp; omega) hgo).bind
    rintro ⟨_, s1⟩ ⟨A1, t', n1, o1, t1⟩
    simp only at n1 o1 t1 ⊢
    have r1 : NRep ty s1 A1 v (xs.eraseIdx p ++ [t']) := by
      refine ⟨by rw [hl]; simp [List.length_eraseIdx, hp]; omega, ?_⟩
      rw [hb]
      have : v.cap - (xs.eraseIdx p ++ [t']).length = v.cap - xs.length := by simp [List.length_eraseIdx, hp]; omega
      rw [this, List.eraseIdx_eq_take_drop_succ]
      simpa using o1
    apply (popBack_ok n1 r1).bind
    rintro ⟨v2, s2⟩ ⟨A2, t2, e2⟩
    simp only at t2 e2 ⊢
    refine ⟨rfl, A2, ⟨t2.rep, t2.ns, ?_, t2.cap, t2.alloc⟩⟩
    have := t2.step
    rw [hb] at this
    simpa using t1.trans n t2.ns this

/-! ## Constructors and assignments -/

theorem newDefault_ok (n : NS L s A) :
    (newDefault ty s : Out (Vec × St σ)).Safe fun q => ∃ A', NTo L ty s A none [] 2 0 q.1 q.2 A' [] := by
  simp only [newDefault, allocate, Prog.bind_run, run_inBuf]
  have hw : 2 * ty.size < wordSize := by have := ty.size_lt; have : wordSize = 18446744073709551616 := rfl; omega
  refine Out.Safe.bind (P := fun q => NS L q.2 A ∧ NOwn ty q.2.heap A (some q.1) 2 0 (List.replicate 2 none) ∧
    NStep s A [] q.2 A [q.1] []) ((alloc_ok' n hw).bind fun q hq => ⟨hq.1, hq.2.1, hq.2.2.1⟩) ?_
  rintro ⟨b, s1⟩ ⟨n1, o1, t1⟩
  exact ⟨A, ⟨⟨rfl, by simpa [Vec.blank, dfltAlloc] using o1⟩, n1, t1, rfl, rfl⟩⟩

theorem blank_rep (a : Nat) : NRep ty s A (Vec.blank a) ([] : List V) :=
  ⟨rfl, by simp [Vec.blank, Own], fun b hb => by cases hb⟩

/-- construction of `m` objects in a fresh buffer -/
theorem fresh_ok {v : Vec} {m : Nat} {f : Nat → Nat → Prop} {g : Option Nat → Nat → Prog (St σ) Unit} (n : NS L s A)
    (hv : v.ptr = none) (hw : m * ty.size < wordSize)
    (hg : ∀ p j s a, f j a → g p j s = copyTo C p j a s) (hm : m = xs.length)
    (hl : ∀ j a, f j a → ∀ b k, a = slot b k → s.heap.blocks b ≠ none)
    (hx : ∀ k x, xs[k]? = some x → ∃ a, f k a ∧ A a = some x) (hok : ∀ x ∈ xs, μ.cpOk x = true) :
    ((do
      let v ← allocate ty v m
      let v := { v with len := m }
      loopUp 0 v.len fun i => g v.ptr i
      return v : Prog (St σ) Vec) s).Safe fun q => ∃ A', NTo L ty s A v.ptr (xs.map μ.cp) m v.alloc q.1 q.2 A' [] := by
  simp only [allocate, Prog.bind_run, run_inBuf]
  refine Out.Safe.bind (P := fun q => ∃ b, q.1 = ⟨0, m, some b, v.alloc⟩ ∧ NS L q.2 A ∧
    NOwn ty q.2.heap A (some b) m v.alloc (List.replicate m none) ∧
    NStep s A [] q.2 A [b] [] ∧ s.heap.blocks b = none) (Out.Safe.bind (P := fun q => NS L q.2 A ∧
    NOwn ty q.2.heap A (some q.1) m v.alloc (List.replicate m none) ∧
    NStep s A [] q.2 A [q.1] [] ∧ s.heap.blocks q.1 = none) ((alloc_ok' n hw).bind fun q hq => ⟨hq.1, hq.2⟩)
      fun q hq => ⟨q.1, rfl, hq⟩) ?_
  rintro ⟨v1, s1⟩ ⟨b, e1, n1, o1, t1, hf⟩
  simp only at e1 n1 o1 t1 ⊢
  subst e1
  obtain ⟨k1, st1⟩ := t1.step
  have live : ∀ j a, f j a → ∀ b' k, a = slot b' k → b' ≠ b := by
    rintro j a h b' k e rfl
    exact hl j a h b' k e hf
  apply (copyLoop_ok (p := some b) (f := f) (g := fun i => g (some b) i) (hg (some b))
    (by intro j a b' k h e e'; cases e; exact live j a h b k e' rfl) xs n1
    (by
      intro j a h b' k e
      rw [st1.frame b' (by simp) (by simpa using live j a h b' k e)]
      exact hl j a h b' k e)
    (by simpa using hx) hok (pre := []) (post := []) (m := m) (i := 0) (by simpa using o1) rfl hm).bind
  rintro ⟨_, s2⟩ ⟨A2, n2, o2, t2⟩
  simp only [Prog.pure_run, Out.safe_ok]
  refine ⟨A2, ⟨⟨by simpa using hm, ?_⟩, n2, ?_, rfl, rfl⟩⟩
  · simpa [hm] using o2
  · rw [hv]; simpa using t1.trans n n2 t2

theorem copyImpl_ok {w : Vec} {ys : List V} (n : NS L s A) (hv : v.ptr = none) (r : NRep ty s A w ys)
    (hok : ∀ x ∈ ys, μ.cpOk x = true) :
    (copyImpl ty C v w s).Safe fun q => ∃ A', NTo L ty s A v.ptr (ys.map μ.cp) ys.length v.alloc q.1 q.2 A' [] := by
  have hl := r.len
  have hle := r.le
  have hsm := r.own.own.small
  have hw : w.len * ty.size < wordSize := by
    have h1 : w.len * ty.size ≤ w.cap * ty.size := Nat.mul_le_mul_right _ (by omega)
    have : wordSize = 18446744073709551616 := rfl
    omega
  unfold copyImpl
  rw [← hl]
  refine fresh_ok (f := fun j a => ∃ b, w.ptr = some b ∧ a = slot b j) (g := fun p i => do
    let src ← address w.ptr i
    copyTo C p i src) n hv hw ?_ hl ?_ ?_ hok
  · rintro p j s a ⟨b, hb, rfl⟩
    simp only [hb, address, Prog.bind_run, Prog.pure_run, Out.bind_ok]
  · rintro j a ⟨b, hb, rfl⟩ b' k e
    obtain ⟨rfl, _⟩ := slot_inj e
    have o := r.own; rw [hb] at o
    exact o.block
  · intro k x hk
    obtain ⟨b, hb, h⟩ := r.elem hk
    exact ⟨_, ⟨b, hb, rfl⟩, h⟩

theorem newList_ok {m a : Nat} (n : NS L s A) (hm : m = xs.length) (hw : m * ty.size < wordSize)
    (hx : ∀ k x, xs[k]? = some x → A (temp k) = some x) (hok : ∀ x ∈ xs, μ.cpOk x = true) :
    (newList ty C m a s).Safe fun q => ∃ A', NTo L ty s A none (xs.map μ.cp) m a q.1 q.2 A' [] := by
  unfold newList
  exact fresh_ok (v := Vec.blank a) (f := fun j a => a = temp j) (g := fun p i => copyTo C p i (temp i)) n rfl hw
    (by rintro p j s a rfl; rfl) hm (by rintro j a rfl b k e; exact absurd e (temp_ne_slot _ _ _))
    (fun k x hk => ⟨_, rfl, hx k x hk⟩) hok

theorem assigned_eq (xs ys : List V) : assigned μ xs ys = List.zipWith μ.cpAssign xs ys ++ (ys.drop xs.length).map μ.cp := by
  induction xs generalizing ys with
  | nil => simp [assigned]
  | cons x xs ih => cases ys with
    | nil => simp [assigned]
    | cons y ys => simp [assigned, ih]

theorem assignedOk_take (xs ys : List V) (m : Nat) (h : min xs.length ys.length ≤ m) :
    assignedOk μ (xs.take m) (ys.take m) = assignedOk μ xs ys := by
  induction xs generalizing ys m with
  | nil => simp [assignedOk]
  | cons x xs ih =>
    cases ys with
    | nil => cases m <;> simp [assignedOk]
    | cons y ys =>
      cases m with
      | zero => simp at h
      | succ m => simp only [List.take_succ_cons, assignedOk]; rw [ih] <;> simp at h ⊢ <;> omega

/-- element-wise assignment -/
theorem assignLoop_ok {p q : Option Nat} {cap al : Nat} {pre post : List (Option V)} (hpq : ∀ b, q = some b → p ≠ some b)
    (olds xs : List V) {s : St σ} {A : Nat → Option V} {i m : Nat} (n : NS L s A)
    (hx : ∀ k x, xs[k]? = some x → ∃ b', q = some b' ∧ A (slot b' (i + k)) = some x)
    (o : NOwn ty s.heap A p cap al (pre ++ (olds.map some ++ post))) (hi : i = pre.length) (hm : m = xs.length)
    (hold : m = olds.length) (hok : ∀ x ∈ xs, μ.cpOk x = true) (hinto : assignedOk μ olds xs = true) :
    (loopUp i m (fun i => do
        let src ← address q i
        let dst ← address p i
        inObjs (C.copyAssign dst src)) s).Safe fun r => ∃ A', NS L r.2 A' ∧
      NOwn ty r.2.heap A' p cap al (pre ++ ((List.zipWith μ.cpAssign olds xs).map some ++ post)) ∧
      NStep s A p.toList r.2 A' p.toList [] := by
  induction xs generalizing s A i pre m olds with
  | nil =>
    subst hm
    have : olds = [] := List.length_eq_zero_iff.1 hold.symm
    subst this
    exact ⟨A, n, by simpa using o, NStep.refl _ _ _ _⟩
  | cons x xs ih =>
    subst hm
    cases olds with
    | nil => simp at hold
    | cons t olds =>
      obtain ⟨b, rfl⟩ := nown_some (o := some t) (by simpa using o)
      simp only [assignedOk, Bool.and_eq_true] at hinto
      obtain ⟨b', rfl, he⟩ := hx 0 x rfl
      have hbb : b' ≠ b := fun e => hpq b' rfl (by rw [e])
      simp only [List.length_cons, loopUp, Prog.bind_run, address, Prog.pure_run, Out.bind_ok, run_inObjs]
      have hd : A (slot b i) = some t := o.at (by simpa using focus_get _ _ _ hi)
      refine Out.Safe.bind (P := fun q => NS L q.2 (place A (slot b i) (some (μ.cpAssign t x))) ∧
        NOwn ty q.2.heap (place A (slot b i) (some (μ.cpAssign t x))) (some b) cap al
          (pre ++ some (μ.cpAssign t x) :: (olds.map some ++ post)) ∧
        NStep s A [b] q.2 (place A (slot b i) (some (μ.cpAssign t x))) [b] [])
        ((L.copyAssign n.inv (fun e => hbb (slot_inj e).1.symm) hd he (hok x (by simp)) hinto.1).bind fun q hq =>
          Out.safe_ok.2 (place_ok n (by simpa using o) hi hq)) ?_
      rintro ⟨_, s1⟩ ⟨n1, o1, t1⟩
      apply (ih olds (s := s1) (i := i + 1) (pre := pre ++ [some (μ.cpAssign t x)]) n1 ?_ (by simpa using o1) (by simp [hi])
        rfl (by simpa using hold) (fun y hy => hok y (by simp [hy])) hinto.2).mono
      · rintro ⟨_, s2⟩ ⟨A2, n2, o2, t2⟩
        exact ⟨A2, n2, by simpa using o2, t1.trans n n2 t2⟩
      · intro k y hk
        obtain ⟨b2, e2, h2⟩ := hx (k + 1) y (by simpa using hk)
        refine ⟨b2, e2, ?_⟩
        cases e2
        rw [place_ne _ _ (fun e => hbb (slot_inj e).1), ← h2]
        congr 2; omega

theorem copyAssign_ok {w : Vec} {ys : List V} (n : NS L s A) (r : NRep ty s A v xs) (rw' : NRep ty s A w ys)
    (hvw : ∀ b, w.ptr = some b → v.ptr ≠ some b) (hok : ∀ x ∈ ys, μ.cpOk x = true)
    (hinto : v.alloc = w.alloc → assignedOk μ xs ys = true) :
    (copyAssign ty C v w s).Safe fun q => ∃ A', NTo L ty s A v.ptr
      (if v.alloc = w.alloc then assigned μ xs ys else ys.map μ.cp)
      (if v.alloc = w.alloc then max v.cap w.cap else ys.length) v.alloc q.1 q.2 A' [] := by
  unfold copyAssign
  have hl := r.len
  have hlw := rw'.len
  have hle := r.le
  have hlew := rw'.le
  have keep : ∀ {v1 : Vec} {s1 : St σ} {A1 : Nat → Option V} {zs : List V} {c a : Nat},
      NTo L ty s A v.ptr zs c a v1 s1 A1 [] →
      NRep ty s1 A1 w ys ∧ ∀ b, w.ptr = some b → v1.ptr ≠ some b := by
    intro v1 s1 A1 zs c a t1
    refine ⟨rw'.keep t1.step (by intro b hb hm; simp at hm; exact hvw b hb hm) (by simp), fun b hb e => ?_⟩
    obtain ⟨k1, st1⟩ := t1.step.step
    have o := rw'.own; rw [hb] at o
    exact o.block (st1.fresh b (by simp [e]) (by simp [hvw b hb]))
  by_cases ha : v.alloc = w.alloc
  · rw [if_pos ha, if_pos ha, if_pos ha]
    have hw : w.cap * ty.size < wordSize := by
      have := rw'.own.own.small; have : wordSize = 18446744073709551616 := rfl; omega
    simp only [Prog.bind_run]
    apply (reserve_ok n r hw).bind
    rintro ⟨v1, s1⟩ ⟨A1, t1, _⟩
    simp only at t1 ⊢
    obtain ⟨rw1, hvw1⟩ := keep t1
    have hl1 := t1.rep.len
    have hc1 := t1.cap
    have hle1 := t1.rep.le
    have hsplit : xs = xs.take (min v1.len w.len) ++ xs.drop (min v1.len w.len) := (List.take_append_drop _ _).symm
    have o1 : NOwn ty s1.heap A1 v1.ptr v1.cap v1.alloc
        ([] ++ ((xs.take (min v1.len w.len)).map some ++ ((xs.drop (min v1.len w.len)).map some ++ List.replicate (v1.cap - xs.length) none))) := by
      have := t1.rep.own
      rw [hsplit] at this
      simp only [List.map_append, List.append_assoc, List.nil_append] at this ⊢
      rw [← hsplit] at this
      exact this
    apply (assignLoop_ok hvw1 (xs.take (min v1.len w.len)) (ys.take (min v1.len w.len)) (i := 0) t1.ns
      (by
        intro k x hk
        obtain ⟨b, hb, h⟩ := rw1.elem (k := k) (x := x) (by
          rw [List.getElem?_take] at hk; split at hk
          · exact hk
          · cases hk)
        exact ⟨b, hb, by simpa using h⟩) o1 rfl (by simp; omega) (by simp; omega)
      (fun x hx => hok x (List.mem_of_mem_take hx)) (by rw [assignedOk_take _ _ _ (by omega)]; exact hinto ha)).bind
    rintro ⟨_, s2⟩ ⟨A2, n2, o2, t2⟩
    simp only at n2 o2 t2 ⊢
    have tt := t1.step.trans n n2 t2
    have hcz : (List.zipWith μ.cpAssign (xs.take (min v1.len w.len)) (ys.take (min v1.len w.len))) = List.zipWith μ.cpAssign xs ys := by
      rw [← List.take_zipWith, List.take_of_length_le]; simp; omega
    rw [hcz] at o2
    rw [assigned_eq]
    by_cases h1 : v1.len > w.len
    · rw [if_pos h1]
      have hmin : min v1.len w.len = ys.length := by omega
      rw [hmin] at o2 ⊢
      apply (destroyLoop_ok (xs.drop ys.length) n2 (pre := (List.zipWith μ.cpAssign xs ys).map some)
        (by simpa using o2) (by simp; omega) (by simp; omega)).bind
      rintro ⟨_, s3⟩ ⟨A3, n3, o3, t3⟩
      simp only [Prog.pure_run, Out.safe_ok] at n3 o3 t3 ⊢
      refine ⟨A3, ⟨⟨by simp; omega, ?_⟩, n3, by simpa using tt.trans n n3 t3, t1.cap, t1.alloc⟩⟩
      have : ys.drop xs.length = [] := List.drop_eq_nil_of_le (by omega)
      rw [this]
      simp only [List.map_nil, List.append_nil]
      rw [List.replicate_append_replicate] at o3
      rw [show v1.cap - (List.zipWith μ.cpAssign xs ys).length = v1.len - ys.length + (v1.cap - xs.length) by simp; omega]
      exact o3
    · rw [if_neg h1]
      by_cases h2 : v1.len < w.len
      · rw [if_pos h2]
        have hmin : min v1.len w.len = xs.length := by omega
        rw [hmin] at o2 ⊢
        have rw2 : NRep ty s2 A2 w ys := rw1.keep t2 (by intro b hb hm; simp at hm; exact hvw1 b hb hm) (by simp)
        simp only [List.drop_length, List.map_nil, List.nil_append] at o2
        refine Out.Safe.bind (copyLoop_ok (ty := ty) (cap := v1.cap) (al := v1.alloc) (p := v1.ptr) (f := fun j a => ∃ b, w.ptr = some b ∧ a = slot b j)
          (pre := (List.zipWith μ.cpAssign xs ys).map some) (post := List.replicate (v1.cap - ys.length) none)
          ?_ ?_ (ys.drop xs.length) n2 ?_ ?_ (fun x hx => hok x (List.mem_of_mem_drop hx)) ?_ (by simp; omega) (by simp; omega)) ?_
        · rintro j s a ⟨b, hb, rfl⟩
          simp only [hb, address, Prog.bind_run, Prog.pure_run, Out.bind_ok]
        · rintro j a b k ⟨b', hb', rfl⟩ hp e
          obtain ⟨rfl, _⟩ := slot_inj e
          exact hvw1 _ hb' hp
        · rintro j a ⟨b, hb, rfl⟩ b' k e
          obtain ⟨rfl, _⟩ := slot_inj e
          have o := rw2.own; rw [hb] at o
          exact o.block
        · intro k x hk
          rw [List.getElem?_drop] at hk
          obtain ⟨b, hb, h⟩ := rw2.elem hk
          exact ⟨_, ⟨b, hb, rfl⟩, h⟩
        · rw [List.replicate_append_replicate, show w.len - xs.length + (v1.cap - ys.length) = v1.cap - xs.length by omega]
          exact o2
        · rintro ⟨_, s3⟩ ⟨A3, n3, o3, t3⟩
          simp only [Prog.pure_run, Out.safe_ok] at n3 o3 t3 ⊢
          refine ⟨A3, ⟨⟨by simp; omega, ?_⟩, n3, by simpa using tt.trans n n3 t3, t1.cap, t1.alloc⟩⟩
          rw [show v1.cap - (List.zipWith μ.cpAssign xs ys ++ (ys.drop xs.length).map μ.cp).length = v1.cap - ys.length by simp; omega]
          simpa using o3
      · rw [if_neg h2]
        simp only [Prog.pure_run, Out.bind_ok, Out.safe_ok]
        have hmin : min v1.len w.len = xs.length := by omega
        rw [hmin] at o2
        have : ys.drop xs.length = [] := List.drop_eq_nil_of_le (by omega)
        refine ⟨A2, ⟨⟨by simp; omega, ?_⟩, n2, by simpa using tt, t1.cap, t1.alloc⟩⟩
        rw [this]
        simp only [List.map_nil, List.append_nil, List.drop_length, List.nil_append] at o2 ⊢
        rw [show v1.cap - (List.zipWith μ.cpAssign xs ys).length = v1.cap - xs.length by simp; omega]
        exact o2
  · rw [if_neg ha, if_neg ha, if_neg ha]
    simp only [Prog.bind_run]
    apply (clear_ok n r).bind
    rintro ⟨v1, s1⟩ ⟨e1, A1, t1⟩
    simp only at e1 t1 ⊢
    obtain ⟨rw1, _⟩ := keep t1
    apply (copyImpl_ok t1.ns (by rw [e1]; rfl) rw1 hok).mono
    rintro ⟨v2, s2⟩ ⟨A2, t2⟩
    exact ⟨A2, by simpa using (t1.trans n t2).cast rfl rfl t1.alloc⟩

/-! ## Temporaries -/

theorem makeTemps_ok (ms : List S.Make) {xs : List V} {s : St σ} {A : Nat → Option V} {k : Nat} (n : NS L s A)
    (hx : ms.mapM μ.val = some xs) (hfree : ∀ j, k ≤ j → A (temp j) = none) :
    (makeTemps C k ms s).Safe fun q => ∃ A', NS L q.2 A' ∧ q.2.heap = s.heap ∧
      (∀ j x, xs[j]? = some x → A' (temp (k + j)) = some x) ∧
      (∀ m, (∀ j, k ≤ j → j < k + ms.length → m ≠ temp j) → A' m = A m) := by
  induction ms generalizing s A k xs with
  | nil =>
    simp only [List.mapM_nil, Option.pure_def, Option.some.injEq] at hx
    subst hx
    exact ⟨A, n, rfl, by simp, fun _ _ => rfl⟩
  | cons m ms ih =>
    simp only [List.mapM_cons, Option.bind_eq_bind, Option.bind_eq_some_iff, Option.pure_def, Option.some.injEq] at hx
    obtain ⟨x, hm, ys, hys, rfl⟩ := hx
    simp only [makeTemps, Prog.bind_run, run_inObjs]
    refine Out.Safe.bind (P := fun q => NS L q.2 (place A (temp k) (some x)) ∧ q.2.heap = s.heap)
      ((L.make n.inv (hfree k (Nat.le_refl _)) hm).bind fun q hq =>
        ⟨n.objs hq fun b j _ => place_ne _ _ (fun e => temp_ne_slot _ _ _ e.symm), rfl⟩) ?_
    rintro ⟨_, s1⟩ ⟨n1, h1⟩
    apply (ih (k := k + 1) n1 hys (by
      intro j hj
      rw [place_ne _ _ (fun e => by have := temp_inj e; omega)]
      exact hfree j (by omega))).mono
    rintro ⟨_, s2⟩ ⟨A2, n2, h2, hv, hf⟩
    refine ⟨A2, n2, by rw [h2]; exact h1, ?_, ?_⟩
    · intro j y hj
      cases j with
      | zero =>
        simp only [List.getElem?_cons_zero, Option.some.injEq] at hj
        subst hj
        rw [Nat.add_zero, hf _ (by intro j hj _ e; have := temp_inj e; omega), place_same]
      | succ j =>
        have := hv j y (by simpa using hj)
        rw [show k + (j + 1) = k + 1 + j by omega]; exact this
    · intro m hm
      rw [hf m (fun j h1 h2 => hm j (by omega) (by simp; omega)), place_ne _ _ (hm k (Nat.le_refl _) (by simp))]

theorem dropTemps_ok (m : Nat) {s : St σ} {A : Nat → Option V} (n : NS L s A) (hx : ∀ j, j < m → A (temp j) ≠ none) :
    (dropTemps C m s).Safe fun q => ∃ A', NS L q.2 A' ∧ q.2.heap = s.heap ∧
      (∀ j, j < m → A' (temp j) = none) ∧ (∀ k, (∀ j, j < m → k ≠ temp j) → A' k = A k) := by
  induction m generalizing s A with
  | zero => exact ⟨A, n, rfl, by simp, fun _ _ => rfl⟩
  | succ m ih =>
    obtain ⟨x, hm⟩ := Option.ne_none_iff_exists'.1 (hx m (by omega))
    simp only [dropTemps, Prog.bind_run, run_inObjs]
    refine Out.Safe.bind (P := fun q => NS L q.2 (place A (temp m) none) ∧ q.2.heap = s.heap)
      ((L.drop n.inv hm).bind fun q hq =>
        ⟨n.objs hq fun b j _ => place_ne _ _ (fun e => temp_ne_slot _ _ _ e.symm), rfl⟩) ?_
    rintro ⟨_, s1⟩ ⟨n1, h1⟩
    apply (ih n1 (by
      intro j hj
      rw [place_ne _ _ (fun e => by have := temp_inj e; omega)]
      exact hx j (by omega))).mono
    rintro ⟨_, s2⟩ ⟨A2, n2, h2, hv, hf⟩
    refine ⟨A2, n2, by rw [h2]; exact h1, ?_, ?_⟩
    · intro j hj
      by_cases e : j = m
      · subst e
        rw [hf _ (by intro j' hj' e; have := temp_inj e; omega), place_same]
      · exact hv j (by omega)
    · intro k hk
      rw [hf k (fun j hj => hk j (by omega)), place_ne _ _ (hk m (by omega))]


end
end Verif.Proof.Nested
