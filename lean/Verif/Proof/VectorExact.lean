import Verif.Proof.VectorReach
/-! # Vector: what the calls left out of the restricted histories do -/
namespace Verif.Proof.Vector
open Verif Verif.Model.Mem Verif.Model.Vector Verif.Proof.Mem
open Verif.Spec.Vector hiding upd

variable {α : Type} {ty : ElemTy α}

theorem of_bind {β γ : Type} {x : Out β} {f : β → Out γ} {c : γ} (h : (x >>= f) = .ok c) : ∃ b, x = .ok b ∧ f b = .ok c := by
  cases x with
  | ok b => exact ⟨b, rfl, h⟩
  | _ => cases h

theorem access_inv {β : Type} {p : Option Nat} {i c d : Nat} {k : Option α → Option (β × Option α)} {h h' : Heap α} {r : β}
    (e : access p i c d k h = .ok (r, h')) :
    ∃ b blk o, p = some b ∧ h.blocks b = some blk ∧ i < blk.slots.length ∧
      h'.blocks b = some { blk with slots := blk.slots.set i o } := by
  unfold access at e
  cases p with
  | none => cases e
  | some b =>
    simp only at e
    cases hb : h.blocks b with
    | none => rw [hb] at e; cases e
    | some blk =>
      rw [hb] at e
      simp only at e
      cases hs : blk.slots[i]? with
      | none => rw [hs] at e; cases e
      | some o =>
        rw [hs] at e
        simp only at e
        cases hk : k o with
        | none => rw [hk] at e; cases e
        | some q =>
          rw [hk] at e
          cases e
          exact ⟨b, blk, q.2, rfl, hb, (List.getElem?_eq_some_iff.1 hs).1, by simp [Model.Mem.upd]⟩

/-- the block has fewer slots than there are machine words -/
def Thin (h : Heap α) (p : Option Nat) : Prop := ∀ b blk, p = some b → h.blocks b = some blk → blk.slots.length < wordSize

theorem thin_of_own {h : Heap α} {p : Option Nat} {cap owner : Nat} {sl : List (Option α)} (ho : Own ty h p cap owner sl) :
    Thin h p := by
  intro b blk hp hb
  have h1 := ho.length
  have h2 := ho.cap_lt
  subst hp
  simp only [Own] at ho
  rw [ho.1] at hb
  cases hb
  have hW : wordSize = 18446744073709551616 := rfl
  simp only
  omega

theorem Thin.access {β : Type} {p : Option Nat} {i c d : Nat} {k : Option α → Option (β × Option α)} {h h' : Heap α} {r : β}
    (e : access p i c d k h = .ok (r, h')) (ht : Thin h p) : Thin h' p ∧ i < wordSize - 1 := by
  obtain ⟨b, blk, o, rfl, hb, hi, hb'⟩ := access_inv e
  have := ht b blk rfl hb
  refine ⟨?_, by omega⟩
  intro b2 blk2 hp h2
  cases hp
  rw [hb'] at h2
  cases h2
  simpa using this

/-- shifting everything, down to index 0, never returns -/
theorem moveBackLoop_never {p : Option Nat} {c : Nat} (hi : Nat) {h : Heap α} (ht : Thin h p) (hh : hi < wordSize)
    (q : Unit × Heap α) : moveBackLoop ty p c 0 hi h ≠ .ok q := by
  have hW : wordSize = 18446744073709551616 := rfl
  have once : ∀ {hi : Nat} {h : Heap α}, Thin h p → moveBackLoop ty p c 0 hi h = .ok q →
      hi < wordSize - 1 ∧ ∃ h', Thin h' p ∧ moveBackLoop ty p c 0 (wsub hi 1) h' = .ok q := by
    intro hi h ht e
    rw [moveBackLoop, if_pos (Nat.zero_le _)] at e
    simp only [Prog.bind_run] at e
    obtain ⟨⟨x, h1⟩, e1, e⟩ := of_bind e
    obtain ⟨⟨y, h2⟩, e2, e⟩ := of_bind e
    obtain ⟨⟨z, h3⟩, e3, e⟩ := of_bind e
    obtain ⟨t1, l1⟩ := ht.access e1
    exact ⟨l1, h3, ((t1.access e2).1.access e3).1, e⟩
  induction hi generalizing h with
  | zero =>
    intro e
    obtain ⟨_, h', ht', e'⟩ := once ht e
    obtain ⟨hl, _⟩ := once ht' e'
    have : wsub 0 1 = 18446744073709551615 := rfl
    omega
  | succ n ih =>
    intro e
    obtain ⟨_, h', ht', e'⟩ := once ht e
    rw [wsub_of_le (by omega) (by omega)] at e'
    exact ih ht' (by omega) e'

/-- the vector after `reserve`, if it returns -/
theorem room_ok {h : Heap α} {v : Vec} {xs : List α} {c : Nat} (rp : Rep ty h v xs) (hb : Bal h)
    (hw : (xs.length + c) * ty.size < wordSize) :
    ((if wrap (v.len + c) > v.cap then reserve ty v (wrap (v.len + c)) else pure v) h : Out _).Safe fun q =>
      ∃ k, To ty h v.ptr xs (max v.cap (xs.length + c)) v.alloc k q.1 q.2 := by
  have hlt : xs.length + c < wordSize := Nat.lt_of_le_of_lt (Nat.le_mul_of_pos_right _ ty.size_pos) hw
  rw [rp.len, wrap_of_lt hlt]
  split
  · exact (reserve_ok rp hb hw).mono fun q hq => ⟨_, hq.1⟩
  · exact ⟨_, (To.same rp hb).cast rfl (by omega) rfl rfl⟩

theorem moveElementsBack_never {h : Heap α} {v : Vec} {xs : List α} {c : Nat} (rp : Rep ty h v xs) (hb : Bal h) (hne : xs ≠ [])
    (hw : (xs.length + c) * ty.size < wordSize) (q : Vec × Heap α) : moveElementsBack ty v 0 c h ≠ .ok q := by
  intro e
  have hpos := List.length_pos_iff.2 hne
  have hl := rp.len
  unfold moveElementsBack at e
  rw [if_neg (by omega)] at e
  simp only [Prog.bind_run] at e
  obtain ⟨⟨v1, h1⟩, e1, e⟩ := of_bind e
  obtain ⟨⟨_, h2⟩, e2, e⟩ := of_bind e
  obtain ⟨k, t⟩ := Safe.of_ok (room_ok rp hb hw) e1
  simp only at t e2
  refine moveBackLoop_never _ (thin_of_own t.rep.own) ?_ _ e2
  have := t.rep.le
  have := t.rep.len
  have := t.rep.own.cap_lt
  have hW : wordSize = 18446744073709551616 := rfl
  omega

theorem emplace_never {h : Heap α} {v : Vec} {xs : List α} {x : α} (rp : Rep ty h v xs) (hb : Bal h) (hne : xs ≠ [])
    (q : Vec × Heap α) : emplace ty v 0 x h ≠ .ok q := by
  intro e
  rcases emplace_begin (x := x) rp hb hne with h | h <;> rw [h] at e <;> cases e

theorem insertFill_never {h : Heap α} {v : Vec} {xs : List α} {n : Nat} {r : Ref α} (rp : Rep ty h v xs) (hb : Bal h) (hne : xs ≠ [])
    (hw : (xs.length + n) * ty.size < wordSize) (q : (Vec × Nat) × Heap α) : insertFill ty v 0 n r h ≠ .ok q := by
  intro e
  simp only [insertFill, Prog.bind_run] at e
  obtain ⟨q1, e1, _⟩ := of_bind e
  exact moveElementsBack_never rp hb hne hw _ e1

theorem spare_ok {h : Heap α} {v : Vec} {xs : List α} {c : Nat} (rp : Rep ty h v xs) (hb : Bal h)
    (hw : (xs.length + c) * ty.size < wordSize) :
    ((if wrap (v.len + c) > v.cap then allocateReserve ty v (wrap (v.len + c)) else pure v) h : Out _).Safe fun q =>
      ∃ k, To ty h v.ptr xs (max v.cap (xs.length + c)) v.alloc k q.1 q.2 := by
  have hlt : xs.length + c < wordSize := Nat.lt_of_le_of_lt (Nat.le_mul_of_pos_right _ ty.size_pos) hw
  have hl := rp.len
  rw [rp.len, wrap_of_lt hlt]
  split
  · exact (allocateReserve_ok rp hb (by omega) hw).mono fun q hq => ⟨_, hq.1.cast rfl (by omega) rfl rfl⟩
  · exact ⟨_, (To.same rp hb).cast rfl (by omega) rfl rfl⟩

theorem insertRange_never {h : Heap α} {v : Vec} {xs ys : List α} (rp : Rep ty h v xs) (hb : Bal h) (hne : xs ≠ [])
    (hw : (xs.length + ys.length) * ty.size < wordSize) (q : (Vec × Nat) × Heap α) : insertRange ty v 0 ys h ≠ .ok q := by
  intro e
  simp only [insertRange, Prog.bind_run] at e
  obtain ⟨⟨v1, h1⟩, e1, e⟩ := of_bind e
  obtain ⟨q2, e2, _⟩ := of_bind e
  obtain ⟨k, t⟩ := Safe.of_ok (spare_ok rp hb hw) e1
  exact moveElementsBack_never t.rep t.bal hne hw _ e2

/-- insertions into an empty vector are not counted -/
theorem emplace_uncounted {h : Heap α} {v : Vec} {x : α} {p : Nat} (rp : Rep ty h v []) (hb : Bal h) {q : Vec × Heap α}
    (e : emplace ty v p x h = .ok q) : q.1.len = 0 := by
  have hl : v.len = 0 := rp.len
  simp only [emplace, Prog.bind_run] at e
  obtain ⟨⟨v1, h1⟩, e1, e⟩ := of_bind e
  obtain ⟨⟨v2, h2⟩, e2, e⟩ := of_bind e
  obtain ⟨⟨_, h3⟩, e3, e⟩ := of_bind e
  have hl1 : v1.len = 0 := by
    by_cases he : v.len = v.cap
    · rw [if_pos he] at e1
      exact (Safe.of_ok (extendSpace_ok rp hb) e1).1.rep.len
    · rw [if_neg he] at e1
      cases e1; exact hl
  simp only [moveElementsBack, if_pos hl1] at e2
  cases e2
  cases e
  exact hl1

theorem insertFill_uncounted {h : Heap α} {v : Vec} {r : Ref α} {p n : Nat} (hl : v.len = 0) {q : (Vec × Nat) × Heap α}
    (e : insertFill ty v p n r h = .ok q) : q.1.1.len = 0 := by
  simp only [insertFill, Prog.bind_run] at e
  obtain ⟨⟨v2, h2⟩, e2, e⟩ := of_bind e
  obtain ⟨⟨_, h3⟩, e3, e⟩ := of_bind e
  simp only [moveElementsBack, if_pos hl] at e2
  cases e2
  cases e
  exact hl

theorem insertRange_uncounted {h : Heap α} {v : Vec} {ys : List α} {p : Nat} (rp : Rep ty h v []) (hb : Bal h)
    (hw : ys.length * ty.size < wordSize) {q : (Vec × Nat) × Heap α} (e : insertRange ty v p ys h = .ok q) : q.1.1.len = 0 := by
  simp only [insertRange, Prog.bind_run] at e
  obtain ⟨⟨v1, h1⟩, e1, e⟩ := of_bind e
  obtain ⟨⟨v2, h2⟩, e2, e⟩ := of_bind e
  obtain ⟨⟨_, h3⟩, e3, e⟩ := of_bind e
  obtain ⟨k, t⟩ := Safe.of_ok (spare_ok rp hb (by simpa using hw)) e1
  have hl1 : v1.len = 0 := t.rep.len
  simp only [moveElementsBack, if_pos hl1] at e2
  cases e2
  cases e
  exact hl1

theorem construct_over {h : Heap α} {p : Option Nat} {cap owner i : Nat} {pre post : List (Option α)} {x y : α}
    (ho : Own ty h p cap owner (pre ++ some x :: post)) (hi : i = pre.length) :
    ∃ h', construct p i y h = .ok ((), h') ∧ Own ty h' p cap owner (pre ++ some y :: post) := by
  cases p with
  | none => simp [Own] at ho
  | some b =>
    simp only [Own] at ho ⊢
    obtain ⟨h1, h2, h3⟩ := ho
    have hs : (pre ++ some x :: post)[i]? = some (some x) := by simp [hi]
    refine ⟨_, by simp only [construct, access, h1, hs]; rfl, by simp [Model.Mem.upd, hi], by simpa using h2, h3⟩

/-- shifting by nothing destroys what it shifts -/
theorem moveBackLoop_none {h : Heap α} {p : Option Nat} {cap owner pos : Nat} {post : List (Option α)} (zs : List α) (hz : zs ≠ [])
    (n : Nat) (rest : List α) (m : Nat) (hn : n = rest.length) {hi : Nat} (hhi : hi + 1 = zs.length + rest.length)
    (hpos : pos = zs.length)
    (ho : Own ty h p cap owner (zs.map some ++ (rest.map some ++ (raws m ++ post)))) :
    ∃ h', moveBackLoop ty p 0 pos hi h = .ok ((), h') ∧
      Own ty h' p cap owner (zs.map some ++ (raws (rest.length + m) ++ post)) := by
  induction n generalizing h rest m hi with
  | zero =>
    have : rest = [] := List.length_eq_zero_iff.1 hn.symm
    subst this
    refine ⟨h, ?_, by simpa using ho⟩
    rw [moveBackLoop, if_neg (by have := List.length_pos_iff.2 hz; simp at hhi; omega)]
    rfl
  | succ n ih =>
    rcases List.eq_nil_or_concat rest with rfl | ⟨rest', x, rfl⟩
    · simp at hn
    · simp only [List.concat_eq_append] at *
      simp only [List.length_append, List.length_cons, List.length_nil] at hhi
      have hhi2 : hi = zs.length + rest'.length := by omega
      have hzp := List.length_pos_iff.2 hz
      have hlen := ho.length
      have hcl := ho.cap_lt
      have hW : wordSize = 18446744073709551616 := rfl
      simp only [List.length_append, List.length_map, raws_length, List.length_cons, List.length_nil] at hlen
      obtain ⟨h1, e1, o1, s1⟩ := take_ok (ty := ty) (h := h) (ptr := p) (i := hi) (cap := cap) (owner := owner)
        (pre := zs.map some ++ rest'.map some) (x := x) (post := raws m ++ post)
        (by simpa using ho) (by simp [hhi2])
      obtain ⟨h2, e2, o2⟩ := construct_over (i := hi) (y := x) o1 (by simp [hhi2])
      obtain ⟨h3, e3, o3, s3⟩ := destroy_ok (ty := ty) (h := h2) (ptr := p) (i := hi) (cap := cap) (owner := owner)
        (pre := zs.map some ++ rest'.map some) (x := x) (post := raws m ++ post)
        (by simpa using o2) (by simp [hhi2])
      obtain ⟨h4, e4, o4⟩ := ih (h := h3) rest' (m + 1) (by simpa using hn) (hi := wsub hi 1)
        (by rw [wsub_of_le (by omega) (by omega)]; omega) (by simpa [raws_succ] using o3)
      refine ⟨h4, ?_, ?_⟩
      · rw [moveBackLoop, if_pos (by omega)]
        simp only [Prog.bind_run, e1, Out.bind_ok]
        rw [wrap_of_lt (by omega), Nat.add_zero]
        simp only [e2, e3, Out.bind_ok, e4]
      · simp only [List.length_append, List.length_cons, List.length_nil]
        rw [show rest'.length + (0 + 1) + m = rest'.length + (m + 1) by omega]
        exact o4

/-- a raw slot among the elements -/
theorem elemsFrom_raw {h : Heap α} {p : Option Nat} {k : Nat} (hk : Spec.Vector.slotAt h p k = none) (n i : Nat) (h1 : i ≤ k) (h2 : k < i + n) :
    elemsFrom h p i n = none := by
  induction n generalizing i with
  | zero => omega
  | succ n ih =>
    simp only [elemsFrom]
    by_cases he : i = k
    · subst he; rw [hk]; rfl
    · rw [ih (i + 1) (by omega) (by omega)]
      cases Spec.Vector.slotAt h p i <;> rfl

/-- shifting by nothing in front of an element leaves a vector without readable contents -/
theorem moveElementsBack_none {h : Heap α} {v : Vec} {zs ts : List α} (rp : Rep ty h v (zs ++ ts)) (hz : zs ≠ []) (ht : ts ≠ []) :
    ∃ h', moveElementsBack ty v zs.length 0 h = .ok (v, h') ∧ elems h' v = none := by
  have hzp := List.length_pos_iff.2 hz
  have htp := List.length_pos_iff.2 ht
  have hl : v.len = zs.length + ts.length := by simpa using rp.len
  have hle : zs.length + ts.length ≤ v.cap := by simpa using rp.le
  have hcl := rp.own.cap_lt
  have hW : wordSize = 18446744073709551616 := rfl
  have ho := rp.own
  simp only [List.map_append, List.append_assoc] at ho
  obtain ⟨h2, e2, o2⟩ := moveBackLoop_none (ty := ty) (h := h) (p := v.ptr) (cap := v.cap) (owner := v.alloc) zs hz ts.length ts 0 rfl
    (hi := v.len - 1) (by omega) rfl (by simpa [raws_zero] using ho)
  have hwr : wrap (v.len + 0) = v.len := by rw [wrap_of_lt (by omega)]; rfl
  refine ⟨h2, ?_, ?_⟩
  · unfold moveElementsBack
    rw [if_neg (by omega)]
    simp only [Prog.bind_run, hwr]
    rw [if_neg (by omega)]
    simp only [Prog.pure_run, Out.bind_ok, e2, hwr]
  · refine elemsFrom_raw (k := zs.length) ?_ _ _ (Nat.zero_le _) (by omega)
    cases hp : v.ptr with
    | none => rfl
    | some b =>
      rw [hp] at o2
      simp only [Own] at o2
      simp only [Spec.Vector.slotAt, o2.1]
      rw [List.getElem?_append_right (by simp), List.getElem?_append_left (by simp; omega)]
      simp only [List.length_map, Nat.sub_self, raws]
      rw [List.getElem?_replicate, if_pos (by omega)]

theorem insertFill_none {h : Heap α} {v : Vec} {zs ts : List α} {r : Ref α} (rp : Rep ty h v (zs ++ ts)) (hz : zs ≠ []) (ht : ts ≠ []) :
    ∃ h', insertFill ty v zs.length 0 r h = .ok ((v, zs.length), h') ∧ elems h' v = none := by
  obtain ⟨h', e, hn⟩ := moveElementsBack_none rp hz ht
  exact ⟨h', by simp only [insertFill, Prog.bind_run, e, Out.bind_ok, forUp, Prog.pure_run], hn⟩

theorem insertRange_none {h : Heap α} {v : Vec} {zs ts : List α} (rp : Rep ty h v (zs ++ ts)) (hz : zs ≠ []) (ht : ts ≠ []) :
    ∃ h', insertRange ty v zs.length [] h = .ok ((v, zs.length), h') ∧ elems h' v = none := by
  obtain ⟨h', e, hn⟩ := moveElementsBack_none rp hz ht
  have hle := rp.le
  have hl := rp.len
  have hcl := rp.own.cap_lt
  have hW : wordSize = 18446744073709551616 := rfl
  refine ⟨h', ?_, hn⟩
  simp only [insertRange, Prog.bind_run, List.length_nil]
  rw [wrap_of_lt (by omega), if_neg (by omega)]
  simp only [Prog.pure_run, Out.bind_ok, e, constructList]

/-- the value of a reference into the vector, when it is read after the shift -/
theorem insertFill_alias {h : Heap α} {v : Vec} {zs ts : List α} {n k : Nat} (rp : Rep ty h v (zs ++ ts)) (hb : Bal h) (hz : zs ≠ [])
    (hn : 0 < n) (hk : k < (zs ++ ts).length) (hw : (zs.length + ts.length + n) * ty.size < wordSize)
    (hc : v.cap < zs.length + ts.length + n ∨ (zs.length ≤ k ∧ k < zs.length + n)) (q : (Vec × Nat) × Heap α) :
    insertFill ty v zs.length n (.slot v.ptr k) h ≠ .ok q := by
  intro e
  simp only [insertFill, Prog.bind_run] at e
  obtain ⟨⟨v1, h1⟩, e1, e⟩ := of_bind e
  obtain ⟨⟨_, h2⟩, e2, e⟩ := of_bind e
  obtain ⟨c, g, hp1, hp2⟩ := Safe.of_ok (moveElementsBack_ok rp hb hz (.inl hn) rfl hw) e1
  simp only at g hp1 hp2 e2
  obtain ⟨m, rfl⟩ : ∃ m, n = m + 1 := ⟨n - 1, by omega⟩
  have hd : deref (.slot v.ptr k) h1 = .ub := by
    by_cases hgt : v.cap < zs.length + ts.length + (m + 1)
    · cases hp : v.ptr with
      | none => rfl
      | some b =>
        refine access_gone (g.step.gone b (by simp [hp]) ?_)
        intro hm; simp at hm
        exact hp2 hgt b hp hm
    · obtain ⟨hk1, hk2⟩ := hc.resolve_left hgt
      rw [← hp1 (by omega)]
      refine access_raw g.own ?_ rfl
      rw [List.getElem?_append_right (by simpa using hk1), List.getElem?_append_left (by simp; omega)]
      simp only [List.length_map, raws]
      rw [List.getElem?_replicate, if_pos (by omega)]
  simp only [forUp, Prog.bind_run, hd] at e2
  cases e2

end Verif.Proof.Vector
