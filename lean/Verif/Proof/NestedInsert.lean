import Verif.Proof.NestedOps
/-! # Nested vectors: inserting in the middle -/
namespace Verif.Proof.Nested
open Verif Verif.Model.Mem Verif.Proof.Mem Verif.Model.Nested Verif.Spec.Nested
open Verif.Model.Vector (Vec Vec.blank dfltAlloc moveImpl)

variable {S : Sig} {σ V : Type} {C : Cls S σ} {μ : Meaning S V} {L : Law C μ} {ty : ElemTy Unit}
variable {s : St σ} {A : Nat → Option V} {v : Vec} {xs : List V}

theorem out_assoc {X Y Z : Type} (x : Out X) (f : X → Out Y) (g : Y → Out Z) : (x >>= f) >>= g = x >>= fun a => f a >>= g := by
  cases x <;> rfl

/-- one object is moved to a free place further back -/
theorem shiftBack_ok {b cap al i j : Nat} {pre mid post : List (Option V)} {x : V} (n : NS L s A)
    (o : NOwn ty s.heap A (some b) cap al (pre ++ some x :: (mid ++ none :: post))) (hj : j = pre.length)
    (hi : i = j + 1 + mid.length) :
    ((do
      let src ← address (some b) j
      moveTo C (some b) i src
      destroyAt C (some b) j : Prog (St σ) Unit) s).Safe fun q => ∃ A', NS L q.2 A' ∧
      NOwn ty q.2.heap A' (some b) cap al (pre ++ none :: (mid ++ some x :: post)) ∧ NStep s A [b] q.2 A' [b] [] := by
  have ho := o.own
  obtain ⟨h1, e1, o1, s1⟩ := construct_ok (x := ()) (i := i) (pre := (pre ++ some x :: mid).map unit?) (post := post.map unit?)
    (by simpa using ho) (by simp [hi, hj]; omega)
  have hd : A (slot b i) = none := o.at (by
    rw [show pre ++ some x :: (mid ++ none :: post) = (pre ++ some x :: mid) ++ none :: post by simp]
    exact focus_get _ _ _ (by simp [hi, hj]; omega))
  have he : A (slot b j) = some x := o.at (focus_get _ _ _ hj)
  have hne : slot b j ≠ slot b i := by intro e; have := (slot_inj e).2; omega
  simp only [address, Prog.bind_run, Prog.pure_run, Out.bind_ok]
  refine Out.Safe.bind (P := fun q => ∃ A', NS L q.2 A' ∧
      NOwn ty q.2.heap A' (some b) cap al (pre ++ some (μ.left x) :: (mid ++ some x :: post)) ∧ NStep s A [b] q.2 A' [b] []) ?_ ?_
  · simp only [moveTo, address, Prog.bind_run, Prog.pure_run, run_inBuf, run_inObjs, e1, Out.bind_ok]
    apply (L.move n.inv hd he).bind
    rintro ⟨_, t⟩ it
    simp only [Out.safe_ok] at it ⊢
    have c1 : Cells (place A (slot b i) (some x)) (some b) ((pre ++ some x :: mid) ++ some x :: post) :=
      cells_set (o := none) (by simpa using o.cells) (by simp [hi, hj]; omega)
    have c2 : Cells (place (place A (slot b i) (some x)) (slot b j) (some (μ.left x))) (some b)
        (pre ++ some (μ.left x) :: (mid ++ some x :: post)) :=
      cells_set (o := some x) (by simpa using c1) hj
    have o' : NOwn ty h1 (place (place A (slot b i) (some x)) (slot b j) (some (μ.left x))) (some b) cap al
        (pre ++ some (μ.left x) :: (mid ++ some x :: post)) := ⟨by simpa using o1, c2⟩
    have hf : ∀ m, (∀ b' k, m = slot b' k → b' ∉ [b]) →
        place (place A (slot b i) (some x)) (slot b j) (some (μ.left x)) m = A m := by
      intro m hm
      rw [place_ne _ _ (fun e => (hm b j e) (by simp)), place_ne _ _ (fun e => (hm b i e) (by simp))]
    refine ⟨_, n.set (b := b) it s1 ?_ fun m hm => .inl (hf m (by simpa using hm)), o',
      ⟨⟨_, s1⟩, fun m hm _ => hf m (fun b' k e => by simpa using (hm b' k e).1)⟩⟩
    intro b' hb'
    simp at hb'; subst hb'
    exact o'.block
  · rintro ⟨_, s2⟩ ⟨A2, n2, o2, t2⟩
    simp only at n2 o2 t2 ⊢
    apply (destroyAt_ok n2 o2 hj).mono
    rintro ⟨_, s3⟩ ⟨A3, n3, o3, t3⟩
    exact ⟨A3, n3, o3, t2.trans n n3 t3⟩

theorem snoc_cases {X : Type} (l : List X) : l = [] ∨ ∃ l' x, l = l' ++ [x] := by
  rcases List.eq_nil_or_concat l with h | ⟨l', x, h⟩
  · exact .inl h
  · exact .inr ⟨l', x, by simpa using h⟩

/-- the objects from `pos` on are moved `c` places back -/
theorem moveBackLoop_ok (m : Nat) {b cap al c pos hi : Nat} {pre post : List (Option V)} (ys : List V) (hm : m = ys.length)
    {s : St σ} {A : Nat → Option V} (n : NS L s A)
    (o : NOwn ty s.heap A (some b) cap al (pre ++ (ys.map some ++ (List.replicate c none ++ post)))) (hp : pos = pre.length)
    (hpos : 1 ≤ pos) (hc : 1 ≤ c) (hh : hi + 1 = pos + ys.length) :
    (moveBackLoop C (some b) c pos hi s).Safe fun q => ∃ A', NS L q.2 A' ∧
      NOwn ty q.2.heap A' (some b) cap al (pre ++ (List.replicate c none ++ (ys.map some ++ post))) ∧ NStep s A [b] q.2 A' [b] [] := by
  induction m generalizing ys hi post s A with
  | zero =>
    obtain rfl : ys = [] := List.length_eq_zero_iff.1 hm.symm
    have hlt : ¬ pos ≤ hi := by simp at hh; omega
    cases hi with
    | zero => rw [moveBackLoop, if_neg hlt]; exact ⟨A, n, by simpa using o, NStep.refl _ _ _ _⟩
    | succ hi => rw [moveBackLoop, if_neg hlt]; exact ⟨A, n, by simpa using o, NStep.refl _ _ _ _⟩
  | succ m ih =>
    rcases snoc_cases ys with rfl | ⟨zs, y, rfl⟩
    · cases hm
    · simp only [List.length_append, List.length_singleton] at hm hh
      cases hi with
      | zero => omega
      | succ hi =>
        rw [moveBackLoop, if_pos (by omega)]
        obtain ⟨c', rfl⟩ : ∃ c', c = c' + 1 := ⟨c - 1, by omega⟩
        have hcap : hi + 1 + (c' + 1) < wordSize := by
          have h1 := o.length
          have h2 := o.own.cap_lt
          have hW : wordSize = 18446744073709551616 := rfl
          simp at h1
          omega
        rw [wrap_of_lt hcap]
        have hsh := shiftBack_ok (C := C) (L := L) (ty := ty) (i := hi + 1 + (c' + 1)) (j := hi + 1) (pre := pre ++ zs.map some)
          (mid := List.replicate c' none) (post := post) (x := y) n
          (by rw [List.replicate_succ'] at o; simpa using o) (by simp; omega) (by simp; omega)
        have e : ((do
            let src ← address (some b) (hi + 1)
            moveTo C (some b) (hi + 1 + (c' + 1)) src
            destroyAt C (some b) (hi + 1)
            moveBackLoop C (some b) (c' + 1) pos hi : Prog (St σ) Unit) s) =
          (((do
            let src ← address (some b) (hi + 1)
            moveTo C (some b) (hi + 1 + (c' + 1)) src
            destroyAt C (some b) (hi + 1) : Prog (St σ) Unit) s) >>= fun q => moveBackLoop C (some b) (c' + 1) pos hi q.2) := by
          simp only [Prog.bind_run, out_assoc]
        rw [e]
        apply hsh.bind
        rintro ⟨_, s1⟩ ⟨A1, n1, o1, t1⟩
        simp only at n1 o1 t1 ⊢
        apply (ih zs (by omega) n1 (post := some y :: post) (by
          rw [List.replicate_succ]; simpa using o1) (by omega)).mono
        rintro ⟨_, s2⟩ ⟨A2, n2, o2, t2⟩
        exact ⟨A2, n2, by simpa using o2, t1.trans n n2 t2⟩

/-- room for `c` more, and the objects from `pos` on moved back -/
theorem moveElementsBack_ok {pos c : Nat} (n : NS L s A) (r : NRep ty s A v xs) (hpos : 1 ≤ pos) (hpl : pos ≤ xs.length) (hc : 1 ≤ c)
    (hw : xs.length + c ≤ v.cap ∨ (xs.length + c) * ty.size < wordSize) :
    (moveElementsBack ty C v pos c s).Safe fun q => ∃ A', NS L q.2 A' ∧ q.1.len = xs.length + c ∧
      q.1.cap = max v.cap (xs.length + c) ∧ q.1.alloc = v.alloc ∧
      NOwn ty q.2.heap A' q.1.ptr q.1.cap q.1.alloc ((xs.take pos).map some ++ (List.replicate c none ++ ((xs.drop pos).map some ++
        List.replicate (q.1.cap - (xs.length + c)) none))) ∧
      NStep s A v.ptr.toList q.2 A' q.1.ptr.toList [] := by
  have hlen := r.len
  have hW : wordSize = 18446744073709551616 := rfl
  have hsz := ty.size_pos
  have hlt : xs.length + c < wordSize := by
    rcases hw with h | h
    · have := r.own.own.cap_lt; omega
    · exact Nat.lt_of_le_of_lt (Nat.le_mul_of_pos_right _ hsz) h
  unfold moveElementsBack
  rw [if_neg (by omega)]
  simp only [Prog.bind_run, hlen, wrap_of_lt hlt]
  have hroom : ((if xs.length + c > v.cap then reserve ty C v (xs.length + c) else pure v : Prog (St σ) Vec) s).Safe fun q =>
      ∃ A', NTo L ty s A v.ptr xs (max v.cap (xs.length + c)) v.alloc q.1 q.2 A' [] := by
    by_cases h : xs.length + c > v.cap
    · rw [if_pos h]
      apply (reserve_ok n r (m := xs.length + c) (by rcases hw with h' | h'; · omega
                                                     · exact h')).mono
      rintro q ⟨A', t, _⟩
      exact ⟨A', t⟩
    · rw [if_neg h]
      exact ⟨A, (NTo.same r n).cast rfl (by omega) rfl⟩
  apply hroom.bind
  rintro ⟨v1, s1⟩ ⟨A1, t1⟩
  simp only at t1 ⊢
  have hl1 := t1.rep.len
  have o1 := t1.rep.own
  rw [t1.cap, show max v.cap (xs.length + c) - xs.length = c + (max v.cap (xs.length + c) - (xs.length + c)) by omega,
    ← List.replicate_append_replicate, ← List.take_append_drop pos xs, List.map_append, List.append_assoc] at o1
  obtain ⟨b, hb⟩ : ∃ b, v1.ptr = some b := by
    cases h : v1.ptr with
    | some b => exact ⟨b, rfl⟩
    | none =>
      have := t1.rep.own.own; rw [h] at this; simp only [Own] at this
      have := t1.rep.le; omega
  rw [hb] at o1 ⊢
  simp only [List.take_append_drop] at o1
  apply (moveBackLoop_ok (xs.drop pos).length (C := C) (c := c) (pos := pos) (hi := v1.len - 1) (xs.drop pos) rfl t1.ns o1
    (by simp; omega) hpos hc (by simp; omega)).bind
  rintro ⟨_, s2⟩ ⟨A2, n2, o2, t2⟩
  simp only [Prog.pure_run, Out.safe_ok] at n2 o2 t2 ⊢
  refine ⟨A2, n2, by rw [hl1, wrap_of_lt hlt], t1.cap, t1.alloc, ?_, ?_⟩
  · rw [t1.cap]; exact o2
  · have := t1.step
    rw [hb] at this
    simpa using this.trans n n2 t2

/-- `emplace` with a parameter at a temporary -/
theorem emplace_ok {pos j : Nat} {x : V} (n : NS L s A) (r : NRep ty s A v xs) (hpos : 1 ≤ pos) (hpl : pos ≤ xs.length)
    (hx : A (temp j) = some x) :
    (emplace ty C v pos (temp j) s).Safe fun q => ∃ A',
      NTo L ty s A v.ptr (xs.take pos ++ x :: xs.drop pos) (Spec.Vector.afterPush xs.length v.cap) v.alloc q.1 q.2 A' [temp j] ∧
      A' (temp j) = some (μ.left x) := by
  simp only [emplace, Prog.bind_run]
  have hlen := r.len
  have hle := r.le
  have hroom : ((if v.len = v.cap then extendSpace ty C v else pure v : Prog (St σ) Vec) s).Safe fun q =>
      ∃ A', NTo L ty s A v.ptr xs (Spec.Vector.afterPush xs.length v.cap) v.alloc q.1 q.2 A' [] ∧ xs.length < q.1.cap := by
    have := room_ok n r
    by_cases h : v.len = v.cap
    · rw [if_pos (show v.len ≥ v.cap by omega)] at this
      rw [if_pos h]
      exact this.mono fun q ⟨A', t, h', _⟩ => ⟨A', t, h'⟩
    · rw [if_neg (show ¬ v.len ≥ v.cap by omega)] at this
      rw [if_neg h]
      exact this.mono fun q ⟨A', t, h', _⟩ => ⟨A', t, h'⟩
  apply hroom.bind
  rintro ⟨v1, s1⟩ ⟨A1, t1, hlt⟩
  simp only at t1 hlt ⊢
  apply (moveElementsBack_ok (C := C) (c := 1) t1.ns t1.rep hpos hpl (by omega) (.inl (by omega))).bind
  rintro ⟨v2, s2⟩ ⟨A2, n2, hl2, hc2, ha2, o2, t2⟩
  simp only at n2 hl2 hc2 ha2 o2 t2 ⊢
  have hx2 : A2 (temp j) = some x := by
    rw [frame_temp t2 (by simp), frame_temp t1.step (by simp)]; exact hx
  apply (moveTo_ok n2 (by simpa using o2) (by simp; omega) hx2 (fun b k _ => temp_ne_slot _ _ _)
    (fun b k e => absurd e (temp_ne_slot _ _ _))).bind
  rintro ⟨_, s3⟩ ⟨A3, n3, hl, o3, t3⟩
  simp only [Prog.pure_run, Out.safe_ok] at n3 hl o3 t3 ⊢
  refine ⟨A3, ⟨⟨?_, ?_⟩, n3, ?_, ?_, ?_⟩, hl⟩
  · simp; omega
  · have : v2.cap - (xs.take pos ++ x :: xs.drop pos).length = v2.cap - (xs.length + 1) := by
      congr 1; simp; omega
    rw [this]
    simpa using o3
  · simpa using (t1.step.trans n n2 t2).trans n n3 t3
  · rw [hc2, t1.cap]; have := t1.cap; omega
  · rw [ha2, t1.alloc]

/-- `insert(pos, count, val)` with an argument at a temporary -/
theorem insertFill_ok {pos c j : Nat} {x : V} (n : NS L s A) (r : NRep ty s A v xs) (hpos : 1 ≤ pos) (hpl : pos ≤ xs.length)
    (hc : 1 ≤ c) (hw : (xs.length + c) * ty.size < wordSize) (hx : A (temp j) = some x)
    (hok : μ.cpOk x = true) :
    (insertFill ty C v pos c (temp j) s).Safe fun q => ∃ A',
      NTo L ty s A v.ptr (xs.take pos ++ (List.replicate c (μ.cp x) ++ xs.drop pos)) (max v.cap (xs.length + c)) v.alloc q.1 q.2 A' [] := by
  simp only [insertFill, Prog.bind_run]
  apply (moveElementsBack_ok (C := C) n r hpos hpl hc (.inr hw)).bind
  rintro ⟨v2, s2⟩ ⟨A2, n2, hl2, hc2, ha2, o2, t2⟩
  simp only at n2 hl2 hc2 ha2 o2 t2 ⊢
  have hx2 : A2 (temp j) = some x := by rw [frame_temp t2 (by simp)]; exact hx
  have hlt : xs.length + c < wordSize := Nat.lt_of_le_of_lt (Nat.le_mul_of_pos_right _ ty.size_pos) hw
  have hloop : ∀ d i (s3 : St σ) (A3 : Nat → Option V), i + d = c → NS L s3 A3 → A3 (temp j) = some x →
      NOwn ty s3.heap A3 v2.ptr v2.cap v2.alloc ((xs.take pos).map some ++ (List.replicate i (some (μ.cp x)) ++ (List.replicate d none ++
        ((xs.drop pos).map some ++ List.replicate (v2.cap - (xs.length + c)) none)))) →
      (loopUp i d (fun i => copyTo C v2.ptr (wrap (pos + i)) (temp j)) s3).Safe fun q => ∃ A', NS L q.2 A' ∧
        NOwn ty q.2.heap A' v2.ptr v2.cap v2.alloc ((xs.take pos).map some ++ (List.replicate c (some (μ.cp x)) ++
          ((xs.drop pos).map some ++ List.replicate (v2.cap - (xs.length + c)) none))) ∧
        NStep s3 A3 v2.ptr.toList q.2 A' v2.ptr.toList [] := by
    intro d
    induction d with
    | zero =>
      intro i s3 A3 hd n3 _ o3
      obtain rfl : i = c := by omega
      exact ⟨A3, n3, by simpa using o3, NStep.refl _ _ _ _⟩
    | succ d ih =>
      intro i s3 A3 hd n3 hx3 o3
      simp only [loopUp, Prog.bind_run]
      apply (copyTo_ok (pre := (xs.take pos).map some ++ List.replicate i (some (μ.cp x))) n3
        (by rw [List.replicate_succ] at o3; simpa using o3) (by rw [wrap_of_lt (by omega)]; simp; omega) hx3 hok).bind
      rintro ⟨_, s4⟩ ⟨A4, n4, o4, t4⟩
      apply (ih (i + 1) s4 A4 (by omega) n4 (by rw [frame_temp t4 (by simp)]; exact hx3)
        (by rw [List.replicate_succ']; simpa using o4)).mono
      rintro ⟨_, s5⟩ ⟨A5, n5, o5, t5⟩
      exact ⟨A5, n5, o5, t4.trans n3 n5 t5⟩
  apply (hloop c 0 s2 A2 (by omega) n2 hx2 (by simpa using o2)).bind
  rintro ⟨_, s3⟩ ⟨A3, n3, o3, t3⟩
  simp only [Prog.pure_run, Out.safe_ok] at n3 o3 t3 ⊢
  refine ⟨A3, ⟨⟨by simp; omega, ?_⟩, n3, by simpa using t2.trans n n3 t3, hc2, ha2⟩⟩
  have : v2.cap - (xs.take pos ++ (List.replicate c (μ.cp x) ++ xs.drop pos)).length = v2.cap - (xs.length + c) := by
    congr 1; simp; omega
  rw [this]
  simpa using o3

/-! ## At the front -/

theorem bad_bind {X Y : Type} {x : Out X} {f : X → Out Y} {P : X → Prop} (h : x.Safe P) (hf : ∀ q, P q → f q = .ub ∨ f q = .oom) :
    (x >>= f) = .ub ∨ (x >>= f) = .oom := by
  cases x with
  | ok q => exact hf q h
  | oom => exact .inr rfl
  | div => cases h
  | panic => cases h
  | ub => cases h

theorem bad_then {X Y : Type} {x : Out X} {f : X → Out Y} (h : x = .ub ∨ x = .oom) : (x >>= f) = .ub ∨ (x >>= f) = .oom := by
  rcases h with rfl | rfl
  · exact .inl rfl
  · exact .inr rfl

/-- the loop counter wraps -/
theorem moveBackLoop_front (m : Nat) {b cap al c hi : Nat} {post : List (Option V)} (ys : List V) (hm : m + 1 = ys.length)
    {s : St σ} {A : Nat → Option V} (n : NS L s A)
    (o : NOwn ty s.heap A (some b) cap al (ys.map some ++ (List.replicate c none ++ post))) (hc : 1 ≤ c) (hh : hi = m) :
    moveBackLoop C (some b) c 0 hi s = .ub ∨ moveBackLoop C (some b) c 0 hi s = .oom := by
  induction m generalizing ys hi post s A with
  | zero =>
    subst hh
    rcases snoc_cases ys with rfl | ⟨zs, y, rfl⟩
    · cases hm
    · obtain rfl : zs = [] := List.length_eq_zero_iff.1 (by simpa using hm.symm)
      rw [moveBackLoop, if_pos (Nat.le_refl 0)]
      obtain ⟨c', rfl⟩ : ∃ c', c = c' + 1 := ⟨c - 1, by omega⟩
      have hcap : 0 + (c' + 1) < wordSize := by
        have h1 := o.length
        have h2 := o.own.cap_lt
        have hW : wordSize = 18446744073709551616 := rfl
        simp at h1
        omega
      rw [wrap_of_lt hcap]
      have hsh := shiftBack_ok (C := C) (L := L) (ty := ty) (i := 0 + (c' + 1)) (j := 0) (pre := [])
        (mid := List.replicate c' none) (post := post) (x := y) n
        (by rw [List.replicate_succ'] at o; simpa using o) rfl (by simp; omega)
      have e : ((do
          let src ← address (some b) 0
          moveTo C (some b) (0 + (c' + 1)) src
          destroyAt C (some b) 0
          Prog.ub : Prog (St σ) Unit) s) =
        (((do
          let src ← address (some b) 0
          moveTo C (some b) (0 + (c' + 1)) src
          destroyAt C (some b) 0 : Prog (St σ) Unit) s) >>= fun q => (Prog.ub : Prog (St σ) Unit) q.2) := by
        simp only [Prog.bind_run, out_assoc]
      rw [e]
      exact bad_bind hsh fun q _ => .inl rfl
  | succ m ih =>
    subst hh
    rcases snoc_cases ys with rfl | ⟨zs, y, rfl⟩
    · cases hm
    · simp only [List.length_append, List.length_singleton] at hm
      rw [moveBackLoop, if_pos (Nat.zero_le _)]
      obtain ⟨c', rfl⟩ : ∃ c', c = c' + 1 := ⟨c - 1, by omega⟩
      have hcap : m + 1 + (c' + 1) < wordSize := by
        have h1 := o.length
        have h2 := o.own.cap_lt
        have hW : wordSize = 18446744073709551616 := rfl
        simp at h1
        omega
      rw [wrap_of_lt hcap]
      have hsh := shiftBack_ok (C := C) (L := L) (ty := ty) (i := m + 1 + (c' + 1)) (j := m + 1) (pre := zs.map some)
        (mid := List.replicate c' none) (post := post) (x := y) n
        (by rw [List.replicate_succ'] at o; simpa using o) (by simp; omega) (by simp; omega)
      have e : ((do
          let src ← address (some b) (m + 1)
          moveTo C (some b) (m + 1 + (c' + 1)) src
          destroyAt C (some b) (m + 1)
          moveBackLoop C (some b) (c' + 1) 0 m : Prog (St σ) Unit) s) =
        (((do
          let src ← address (some b) (m + 1)
          moveTo C (some b) (m + 1 + (c' + 1)) src
          destroyAt C (some b) (m + 1) : Prog (St σ) Unit) s) >>= fun q => moveBackLoop C (some b) (c' + 1) 0 m q.2) := by
        simp only [Prog.bind_run, out_assoc]
      rw [e]
      refine bad_bind hsh ?_
      rintro ⟨_, s1⟩ ⟨A1, n1, o1, t1⟩
      exact ih zs (by omega) n1 (post := some y :: post) (by rw [List.replicate_succ]; simpa using o1) rfl

/-- `emplace` at the front of a vector that is not empty -/
theorem emplace_front {src : Nat} (n : NS L s A) (r : NRep ty s A v xs) (hne : xs ≠ []) :
    emplace ty C v 0 src s = .ub ∨ emplace ty C v 0 src s = .oom := by
  simp only [emplace, Prog.bind_run]
  have hlen := r.len
  have hle := r.le
  have hpos : 0 < xs.length := List.length_pos_iff.2 hne
  have hroom : ((if v.len = v.cap then extendSpace ty C v else pure v : Prog (St σ) Vec) s).Safe fun q =>
      ∃ A', NTo L ty s A v.ptr xs (Spec.Vector.afterPush xs.length v.cap) v.alloc q.1 q.2 A' [] ∧ xs.length < q.1.cap := by
    have := room_ok n r
    by_cases h : v.len = v.cap
    · rw [if_pos (show v.len ≥ v.cap by omega)] at this
      rw [if_pos h]
      exact this.mono fun q ⟨A', t, h', _⟩ => ⟨A', t, h'⟩
    · rw [if_neg (show ¬ v.len ≥ v.cap by omega)] at this
      rw [if_neg h]
      exact this.mono fun q ⟨A', t, h', _⟩ => ⟨A', t, h'⟩
  refine bad_bind hroom ?_
  rintro ⟨v1, s1⟩ ⟨A1, t1, hlt⟩
  simp only at t1 hlt ⊢
  apply bad_then
  have hl1 := t1.rep.len
  have hW : wordSize = 18446744073709551616 := rfl
  have hcl := t1.rep.own.own.cap_lt
  unfold moveElementsBack
  rw [if_neg (by omega)]
  simp only [Prog.bind_run, wrap_of_lt (show v1.len + 1 < wordSize by omega)]
  rw [if_neg (show ¬ v1.len + 1 > v1.cap by omega)]
  simp only [Prog.pure_run, Out.bind_ok]
  apply bad_then
  have o1 := t1.rep.own
  rw [show v1.cap - xs.length = 1 + (v1.cap - xs.length - 1) by omega, ← List.replicate_append_replicate] at o1
  obtain ⟨b, hb⟩ : ∃ b, v1.ptr = some b := by
    cases h : v1.ptr with
    | some b => exact ⟨b, rfl⟩
    | none =>
      have := t1.rep.own.own; rw [h] at this; simp only [Own] at this
      have := t1.rep.le; omega
  rw [hb] at o1 ⊢
  exact moveBackLoop_front (xs.length - 1) xs (by omega) t1.ns o1 (Nat.le_refl 1) (by omega)

end Verif.Proof.Nested
