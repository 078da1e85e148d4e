import Verif.Proof.VectorFault
import Verif.Spec.VectorThrow
/-! # Vector: programs that catch the exceptions of element copies -/
namespace Verif.Proof.Vector
open Verif Verif.Model.Mem Verif.Model.Vector Verif.Proof.Mem
open Verif.Spec.Vector hiding upd

variable {α : Type} {ty : ElemTy α} {bad : α → Bool}

/-! ## Calls that copy only good values -/

/-- started in `h`, `p'` does what `p` does and reports that nothing was thrown -/
def QAt {β : Type} (p : M α β) (p' : M α (Bool × β)) (h : Heap α) : Prop := p' h = (p h >>= fun q => .ok ((false, q.1), q.2))

/-- the same for steps that return nothing -/
def QAtU (p : M α Unit) (p' : M α Bool) (h : Heap α) : Prop := p' h = (p h >>= fun q => .ok (false, q.2))

theorem pushBackT_at {h : Heap α} {v : Vec} {xs : List α} {r : Ref α} {x : α} (rp : Rep ty h v xs) (hb : Bal h) (hx : bad x = false)
    (ri : Stable h v.ptr r x ∨ (xs.length < v.cap ∧ RefIs h v xs r x)) : QAt (pushBack ty v r) (pushBackT ty bad v r) h := by
  simp only [QAt, pushBackT, pushBack, Prog.bind_run]
  have hl := rp.len
  by_cases hlt : xs.length < v.cap
  · have e : deref r h = .ok (x, h) := by
      rcases ri with s | ⟨_, s⟩
      · exact s.now
      · exact s.now rp
    rw [if_neg (by omega)]
    simp only [Prog.pure_run, Out.bind_ok, e, hx, Bool.false_eq_true, if_false, Prog.bind_run]
    cases construct v.ptr v.len x h <;> rfl
  · have s : Stable h v.ptr r x := by
      rcases ri with s | ⟨hh, _⟩
      · exact s
      · exact absurd hh hlt
    rw [if_pos (by omega)]
    have := extendSpace_ok rp hb
    cases he : extendSpace ty v h with
    | ok p =>
      rw [he] at this
      simp only [Out.bind_ok, (s.step this.1.step).now, hx, Bool.false_eq_true, if_false, Prog.bind_run]
      cases construct p.1.ptr p.1.len x p.2 <;> rfl
    | _ => rfl

theorem pushLoopT_at {h : Heap α} {v : Vec} {xs : List α} {r : Ref α} {x : α} (n : Nat) (rp : Rep ty h v xs) (hb : Bal h)
    (ri : n = 0 ∨ (RefIs h v xs r x ∧ bad x = false)) (hfit : xs.length + n ≤ v.cap) :
    QAt (pushLoop ty r v n) (pushLoopT ty bad r v n) h := by
  induction n generalizing h v xs with
  | zero => rfl
  | succ n ih =>
    obtain ⟨ri, hx⟩ := ri.resolve_left (by simp)
    obtain ⟨h1, e1, t1, ri1⟩ := pushBack_fit rp hb ri (by omega)
    have e2 := pushBackT_at (bad := bad) rp hb hx (.inr ⟨by omega, ri⟩)
    rw [QAt, e1, Out.bind_ok] at e2
    have := ih t1.rep t1.bal (.inr ⟨ri1, hx⟩) (by simp; omega)
    simp only [QAt, pushLoopT, pushLoop, Prog.bind_run, e1, e2, Out.bind_ok, Bool.false_eq_true, if_false]
    exact this

theorem pushListT_at (ys : List α) (hg : ∀ y ∈ ys, bad y = false) (v : Vec) (h : Heap α) :
    QAt (pushList ty v ys) (pushListT ty bad v ys) h := by
  induction ys generalizing v h with
  | nil => rfl
  | cons y ys ih =>
    simp only [QAt, pushListT, pushList, Prog.bind_run]
    rw [pushBackT_good v (hg y (by simp)) (fun _ => rfl)]
    cases he : pushBack ty v (.tmp y) h with
    | ok p =>
      simp only [Out.bind_ok, Bool.false_eq_true, if_false]
      exact ih (fun z hz => hg z (by simp [hz])) p.1 p.2
    | _ => rfl

theorem constructListT_at (ys : List α) (hg : ∀ y ∈ ys, bad y = false) (p : Option Nat) (i : Nat) (h : Heap α) :
    QAtU (constructList p i ys) (constructListT bad p i ys) h := by
  induction ys generalizing i h with
  | nil => rfl
  | cons y ys ih =>
    simp only [QAtU, constructListT, constructList, hg y (by simp), Bool.false_eq_true, if_false, Prog.bind_run]
    cases he : construct p (wrap i) y h with
    | ok p => exact ih (fun z hz => hg z (by simp [hz])) (i + 1) p.2
    | _ => rfl

theorem access_frame {β : Type} {p : Option Nat} {i c d : Nat} {k : Option α → Option (β × Option α)} {h h' : Heap α} {r : β}
    (e : access p i c d k h = .ok (r, h')) {b : Nat} (hb : p ≠ some b) : h'.blocks b = h.blocks b := by
  unfold access at e
  split at e
  · cases e
  · split at e
    · cases e
    · split at e
      · cases e
      · split at e
        · cases e
        · cases e
          simp only [Model.Mem.upd]
          rw [if_neg]
          rintro rfl
          exact hb rfl

theorem Rep.frame {h h' : Heap α} {v : Vec} {xs : List α} (r : Rep ty h v xs) (hb : ∀ b, v.ptr = some b → h'.blocks b = h.blocks b) :
    Rep ty h' v xs := by
  refine ⟨r.len, ?_⟩
  have := r.own
  cases hp : v.ptr with
  | none => rw [hp] at this; exact this
  | some b => rw [hp] at this; simp only [Own] at this ⊢; rw [hb b hp]; exact this

theorem constructFromT_at {h : Heap α} {q : Option Nat} {r : Vec} {rs : List α} (hr : Rep ty h r rs)
    (hpq : ∀ b, q = some b → r.ptr ≠ some b) (hg : ∀ y ∈ rs, bad y = false) (n i : Nat) (hn : i + n ≤ rs.length) :
    QAtU (forUp i n fun i => do let x ← load r.ptr i; construct q i x) (constructFromT bad r.ptr q i n) h := by
  induction n generalizing h i with
  | zero => rfl
  | succ n ih =>
    have hi : rs[i]? = some rs[i] := List.getElem?_eq_getElem (by omega)
    have e1 := hr.slot hi
    simp only [QAtU, forUp, constructFromT, Prog.bind_run, e1, Out.bind_ok, hg _ (List.getElem_mem _), Bool.false_eq_true, if_false]
    cases he : construct q i rs[i] h with
    | ok p =>
      simp only [Out.bind_ok]
      exact ih (hr.frame fun b hb => access_frame he (fun e => hpq b e hb)) (i + 1) (by omega)
    | _ => rfl

theorem stdCopyT_at {h : Heap α} {q : Option Nat} {r : Vec} {rs : List α} (hr : Rep ty h r rs)
    (hpq : ∀ b, q = some b → r.ptr ≠ some b) (hg : ∀ y ∈ rs, bad y = false) (n : Nat) (hn : n ≤ rs.length) :
    QAtU (stdCopy r.ptr q n) (stdCopyT bad r.ptr q 0 n) h := by
  unfold stdCopy
  have key : ∀ (n i : Nat) (h : Heap α), Rep ty h r rs → i + n ≤ rs.length →
      QAtU (forUp i n fun i => do let x ← load r.ptr i; store q i x) (stdCopyT bad r.ptr q i n) h := by
    intro n
    induction n with
    | zero => intro i h _ _; rfl
    | succ n ih =>
      intro i h hr hn
      have hi : rs[i]? = some rs[i] := List.getElem?_eq_getElem (by omega)
      have e1 := hr.slot hi
      simp only [QAtU, forUp, stdCopyT, Prog.bind_run, e1, Out.bind_ok, hg _ (List.getElem_mem _), Bool.false_eq_true, if_false]
      cases he : store q i rs[i] h with
      | ok p =>
        simp only [Out.bind_ok]
        exact ih (i + 1) p.2 (hr.frame fun b hb => access_frame he (fun e => hpq b e hb)) (by omega)
      | _ => rfl
  exact key n 0 h hr (by omega)

theorem fillT_at {h : Heap α} {p : Option Nat} {cap owner : Nat} {pre0 post : List (Option α)} {r : Ref α} {x : α} (n m : Nat)
    {pos : Nat} (ho : Own ty h p cap owner (pre0 ++ ((List.replicate m x).map some ++ (raws n ++ post)))) (hpos : pos = pre0.length)
    (hx : n = 0 ∨ bad x = false)
    (hd : ∀ h' k, Step h p.toList h' p.toList k → (∃ mid, mid.length = m + n ∧ Own ty h' p cap owner (pre0 ++ (mid ++ post))) →
      deref r h' = .ok (x, h')) :
    QAtU (forUp m n (fun i => do
        let x ← deref r
        construct p (wrap (pos + i)) x)) (fillT bad p pos r m n) h := by
  induction n generalizing h m with
  | zero => rfl
  | succ n ih =>
    have hx := hx.resolve_left (by simp)
    have hcl := ho.cap_lt
    have hlen := ho.length
    have hW : wordSize = 18446744073709551616 := rfl
    simp only [List.length_append, List.length_map, List.length_replicate, raws_length] at hlen
    have e1 := hd h 0 (Step.refl _ _) ⟨(List.replicate m x).map some ++ raws (n + 1), by simp, by simpa using ho⟩
    obtain ⟨h2, e2, o2, s2⟩ := construct_ok (ty := ty) (h := h) (ptr := p) (i := wrap (pos + m)) (cap := cap) (owner := owner)
      (pre := pre0 ++ (List.replicate m x).map some) (x := x) (post := raws n ++ post)
      (by simpa [raws_succ] using ho) (by rw [wrap_of_lt (by omega)]; simp [hpos])
    have := ih (h := h2) (m + 1) (by
        rw [List.replicate_succ']; simpa using o2) (.inr hx) (fun h' k s ⟨mid, hm, o⟩ => hd h' _ (s2.trans s) ⟨mid, by omega, o⟩)
    simp only [QAtU, forUp, fillT, Prog.bind_run, e1, e2, Out.bind_ok, hx, Bool.false_eq_true, if_false]
    exact this

theorem assignFillT_at {h : Heap α} {v : Vec} {xs : List α} {r : Ref α} {x : α} {n : Nat} (rp : Rep ty h v xs) (hb : Bal h)
    (ri : n = 0 ∨ (Stable h v.ptr r x ∧ bad x = false)) (hw : n * ty.size < wordSize) :
    QAt (assignFill ty v n r) (assignFillT ty bad v n r) h := by
  obtain ⟨h1, e1, t1⟩ := destroyAll_ok rp hb
  simp only [QAt, assignFill, assignFillT, Prog.bind_run, e1, Out.bind_ok]
  have := reserve_ok t1.rep t1.bal hw
  cases he : reserve ty { v with len := 0 } n h1 with
  | ok p =>
    rw [he] at this
    obtain ⟨t2, _⟩ := this
    simp only [Out.bind_ok]
    exact pushLoopT_at n t2.rep t2.bal (ri.imp_right fun s => ⟨.stable ((s.1.step t1.step).step t2.step), s.2⟩)
      (by rw [t2.cap]; simp; omega)
  | _ => rfl

theorem resizeFillT_at {h : Heap α} {v : Vec} {xs : List α} {r : Ref α} {x : α} {n : Nat} (rp : Rep ty h v xs) (hb : Bal h)
    (ri : n ≤ xs.length ∨ ((Stable h v.ptr r x ∨ (n ≤ v.cap ∧ RefIs h v xs r x)) ∧ bad x = false)) (hw : n * ty.size < wordSize) :
    QAt (resizeFill ty v n r) (resizeFillT ty bad v n r) h := by
  have hl := rp.len
  simp only [QAt, resizeFill, resizeFillT]
  by_cases hlt : n < v.len
  · rw [if_pos hlt, if_pos hlt]; rfl
  · rw [if_neg hlt, if_neg hlt]
    by_cases hgt : n > v.len
    · rw [if_pos hgt, if_pos hgt]
      simp only [Prog.bind_run]
      obtain ⟨ri, hx⟩ := ri.resolve_left (by omega)
      by_cases hc : n > v.cap
      · rw [if_pos hc]
        have s : Stable h v.ptr r x := ri.resolve_right (by omega)
        have := reserve_ok rp hb hw
        cases he : reserve ty v n h with
        | ok p =>
          rw [he] at this
          obtain ⟨t2, _⟩ := this
          simp only [Out.bind_ok]
          exact pushLoopT_at _ t2.rep t2.bal (.inr ⟨.stable (s.step t2.step), hx⟩) (by rw [t2.cap, t2.rep.len]; omega)
        | _ => rfl
      · rw [if_neg hc]
        have s : RefIs h v xs r x := by
          rcases ri with hh | hh
          · exact .stable hh
          · exact hh.2
        simp only [Prog.pure_run, Out.bind_ok]
        exact pushLoopT_at _ rp hb (.inr ⟨s, hx⟩) (by omega)
    · rw [if_neg hgt, if_neg hgt]; rfl

theorem copyImplT_at {h : Heap α} {r : Vec} {rs : List α} (a : Nat) (hr : Rep ty h r rs) (hb : Bal h) (hg : ∀ y ∈ rs, bad y = false) :
    QAt (copyImpl ty (Vec.blank a) r) (copyImplT ty bad (Vec.blank a) r) h := by
  simp only [QAt, copyImplT, copyImpl, Prog.bind_run]
  have hw : r.len * ty.size < wordSize := by
    have h1 := hr.own.small
    have h2 : r.len * ty.size ≤ r.cap * ty.size := Nat.mul_le_mul_right _ (by rw [hr.len]; exact hr.le)
    have : wordSize = 18446744073709551616 := rfl
    omega
  have := allocate_ok hb a r.len hw
  cases he : allocate ty (Vec.blank a) r.len h with
  | ok p =>
    rw [he] at this
    obtain ⟨t1, _⟩ := this
    have hne : ∀ b, p.1.ptr = some b → r.ptr ≠ some b := by
      intro b hb1 hb2
      have h3 := t1.step.fresh b (by simp [hb1]) (by simp)
      obtain ⟨blk, h4⟩ := hr.block hb2
      rw [h3] at h4; cases h4
    have := constructFromT_at (bad := bad) (h := p.2) (q := p.1.ptr) (hr.keep t1.step (by simp)) hne hg r.len 0 (by rw [hr.len]; omega)
    rw [QAtU] at this
    simp only [Out.bind_ok, this, Out.assoc, Prog.pure_run]
  | _ => rfl

theorem copyAssignT_at {h : Heap α} {v w : Vec} {xs ys : List α} (rv : Rep ty h v xs) (rw' : Rep ty h w ys) (hb : Bal h)
    (hne : ∀ b, v.ptr = some b → w.ptr ≠ some b) (hg : ∀ y ∈ ys, bad y = false) :
    QAt (copyAssign ty v w) (copyAssignT ty bad v w) h := by
  unfold QAt copyAssign copyAssignT
  split
  · simp only [Prog.bind_run]
    have hw : w.cap * ty.size < wordSize := by
      have := rw'.own.small; have : wordSize = 18446744073709551616 := rfl; omega
    have := reserve_ok rv hb hw
    cases he : reserve ty v w.cap h with
    | ok p =>
      rw [he] at this
      obtain ⟨t1, _⟩ := this
      obtain ⟨v1, h1⟩ := p
      simp only at t1
      have rw1 := rw'.keep t1.step (by intro b hb1 hm; simp at hm; exact hne b hm hb1)
      have hne1 : ∀ b, v1.ptr = some b → w.ptr ≠ some b := by
        intro b hb1 hb2
        by_cases hp : v.ptr = some b
        · exact hne b hp hb2
        · have h3 := t1.step.fresh b (by simp [hb1]) (by simp [hp])
          obtain ⟨blk, h4⟩ := rw'.block hb2
          rw [h3] at h4; cases h4
      have hl2 := rw1.len
      have hl1 := t1.rep.len
      have e2 := stdCopyT_at (bad := bad) rw1 hne1 hg (min v1.len w.len) (by omega)
      rw [QAtU] at e2
      simp only [Out.bind_ok, e2, Out.assoc]
      obtain ⟨h2, e3, o3, s3⟩ := stdCopy_loop (pre' := []) rw1 hne1 [] (ys.take (min v1.len w.len)) (ys.drop (min v1.len w.len))
        (xs.take (min v1.len w.len)) (i := 0) (n := min v1.len w.len)
        (post := (xs.drop (min v1.len w.len)).map some ++ raws (v1.cap - xs.length))
        (by simp) (by have := t1.rep.own; simp only [List.nil_append, ← List.append_assoc, ← List.map_append, List.take_append_drop]; exact this)
        rfl rfl (by simp; omega) (by simp; omega)
      have e3' : stdCopy w.ptr v1.ptr (min v1.len w.len) h1 = .ok ((), h2) := e3
      simp only [e3', Out.bind_ok, Bool.false_eq_true, if_false, Prog.bind_run]
      have rw2 := rw1.keep s3 (by intro b hb1 hm; simp at hm; exact hne1 b hm hb1)
      by_cases hgt : v1.len > w.len
      · rw [if_pos hgt, if_pos hgt]
        simp only [Prog.bind_run, Out.assoc]
        rfl
      · rw [if_neg hgt, if_neg hgt]
        by_cases hlt : v1.len < w.len
        · rw [if_pos hlt, if_pos hlt]
          have e4 := constructFromT_at (bad := bad) rw2 hne1 hg (w.len - min v1.len w.len) (min v1.len w.len) (by omega)
          rw [QAtU] at e4
          simp only [e4, Out.assoc, Out.bind_ok, Bool.false_eq_true, if_false, Prog.pure_run]
        · rw [if_neg hlt, if_neg hlt]
          rfl
    | _ => rfl
  · simp only [Prog.bind_run]
    obtain ⟨h1, e1, t1⟩ := clear_ok rv hb
    simp only [e1, Out.bind_ok]
    exact copyImplT_at _ (rw'.keep t1.step (by intro b hb1 hm; simp at hm; exact hne b hm hb1)) t1.bal hg

theorem insertFillT_at {h : Heap α} {v : Vec} {zs ts : List α} {x : α} {r : Ref α} {pos n : Nat} (rp : Rep ty h v (zs ++ ts))
    (hb : Bal h) (hz : zs ≠ []) (hn : 0 < n ∨ ts = []) (hpos : pos = zs.length) (hx : n = 0 ∨ bad x = false)
    (ri : n = 0 ∨ Stable h v.ptr r x ∨ (zs.length + ts.length + n ≤ v.cap ∧ ∃ i, r = .slot v.ptr i ∧ zs[i]? = some x))
    (hw : (zs.length + ts.length + n) * ty.size < wordSize) :
    insertFillT ty bad v pos n r h = (insertFill ty v pos n r h >>= fun q => .ok ((false, q.1.1), q.2)) := by
  simp only [insertFill, insertFillT, Prog.bind_run]
  have := moveElementsBack_ok rp hb hz hn hpos hw
  cases he : moveElementsBack ty v pos n h with
  | ok p =>
    rw [he] at this
    obtain ⟨k1, g, hp⟩ := this
    obtain ⟨v1, h1⟩ := p
    simp only at g hp
    simp only [Out.bind_ok]
    have e : QAtU (forUp 0 n (fun i => do
        let x ← deref r
        construct v1.ptr (wrap (pos + i)) x)) (fillT bad v1.ptr pos r 0 n) h1 := by
      by_cases hn0 : n = 0
      · subst hn0; rfl
      refine fillT_at n 0 (by simpa using g.own) (by simp [hpos]) hx ?_
      intro h' k s ⟨mid, hm, om⟩
      rcases ri with hh | hh | ⟨hle, i, hr, hi⟩
      · exact absurd hh hn0
      · exact hh _ _ _ (g.step.trans s)
      · subst hr
        rw [← hp.1 hle]
        apply load_ok om
        have hlt : i < zs.length := by rw [List.getElem?_eq_some_iff] at hi; exact hi.1
        rw [List.getElem?_append_left (by simpa using hlt), List.getElem?_map, hi]; rfl
    rw [QAtU] at e
    simp only [e, Out.assoc, Out.bind_ok, Prog.pure_run]
  | _ => rfl

theorem insertRangeT_at (ys : List α) (hg : ∀ y ∈ ys, bad y = false) (v : Vec) (pos : Nat) (h : Heap α) :
    insertRangeT ty bad v pos ys h = (insertRange ty v pos ys h >>= fun q => .ok ((false, q.1.1), q.2)) := by
  have e := fun p i h => constructListT_at (bad := bad) ys hg p i h
  simp only [QAtU] at e
  simp only [insertRangeT, insertRange, Prog.bind_run, e, Out.assoc, Out.bind_ok, Prog.pure_run]

/-! ## One call, nothing thrown -/

/-- `m'` does what `m` does and throws nothing -/
def Same (m : Out (Res α × World α)) (m' : Out (Option (Res α) × World α)) : Prop := m' = (m >>= fun p => .ok (some p.1, p.2))

theorem same_create {w : World α} {i : Nat} {f : M α Vec} {f' : M α (Option Vec)}
    (hf : f' w.heap = (f w.heap >>= fun q => .ok (some q.1, q.2))) : Same (create i f w) (createT i f' w) := by
  simp only [Same, create, createT, Prog.bind_run, inHeap_run, hf, Out.assoc, Out.bind_ok]
  congr 1

theorem same_change {w : World α} {i : Nat} {v : Vec} (hv : w.vars i = some v) {f : Vec → M α Vec} {f' : Vec → M α (Bool × Vec)}
    (hf : QAt (f v) (f' v) w.heap) : Same (change i f w) (changeT i f' .unit w) := by
  rw [QAt] at hf
  simp only [Same, change, changeT, Prog.bind_run, run_var hv, inHeap_run, hf, Out.assoc, Out.bind_ok]
  congr 1

theorem same_change' {w : World α} {i p : Nat} {v : Vec} (hv : w.vars i = some v) {f : Vec → M α (Vec × Nat)} {f' : Vec → M α (Bool × Vec)}
    (hf : f' v w.heap = (f v w.heap >>= fun q => .ok ((false, q.1.1), q.2))) (hp : ∀ q h, f v w.heap = .ok (q, h) → q.2 = p) :
    Same (change' i (fun v => do let q ← f v; return (q.1, some q.2)) w) (changeT i f' (.pos (some p)) w) := by
  simp only [Same, change', changeT, Prog.bind_run, run_var hv, inHeap_run, hf, Out.assoc, Out.bind_ok]
  cases he : f v w.heap with
  | ok q =>
    have := hp q.1 q.2 he
    simp only [Out.bind_ok, Prog.pure_run, setVar, this, Bool.false_eq_true, if_false]
  | _ => rfl

theorem push_refs {A : Ideal α} {w : World α} (I : Inv ty A w) {i : Nat} {v : Vec} {a : Var α} (ha : A i = some a)
    (hv : w.vars i = some v) {rf : Arg α} {x : α} {ref : Ref α} {n : Nat} (hc : v.cap = a.cap)
    (st : ∀ p, (∀ b, p = some b → ∀ j k, rf = .elem j k → ∀ v, w.vars j = some v → v.ptr ≠ some b) → Stable w.heap p ref x)
    (ins : ∀ i k, rf = .elem i k → ∃ v a, w.vars i = some v ∧ A i = some a ∧ ref = .slot v.ptr k ∧ a.xs[k]? = some x)
    (hg : inside i rf = false ∨ n ≤ a.cap) : Stable w.heap v.ptr ref x ∨ (n ≤ v.cap ∧ RefIs w.heap v a.xs ref x) := by
  cases hin : inside i rf with
  | false => exact .inl (arg_outside I hv st hin)
  | true =>
    obtain ⟨k, _, h1, h2⟩ := arg_inside hv ha ins hin
    exact .inr ⟨by rw [hc]; simpa [hin] using hg, .self k h1 h2⟩

theorem stepT_quiet (op : Op α) {A : Ideal α} {w : World α} (I : Inv ty A w) {r : Res α} {A' : Ideal α}
    (hs : specStep false ty.size ty.dflt op A = some (r, A')) (hg : ∀ x ∈ copied ty.dflt A op, bad x = false) :
    Same (step ty op w) (stepT ty bad op w) := by
  cases op with
  | newFill i n rf a =>
    simp only [specStep, Option.bind_eq_some_iff] at hs
    obtain ⟨x, hx, hs⟩ := hs
    obtain ⟨hw, hs⟩ := of_only hs
    obtain ⟨ref, e1, st, _⟩ := arg_ok I hx
    simp only [step, stepT, Prog.bind_run, e1, Out.bind_ok]
    simp only [copied, hx, Option.getD_some, List.mem_replicate] at hg
    refine same_create ?_
    have := assignFillT_at (bad := bad) (r := ref) (x := x) (n := n) (rep_blank w.heap a) I.bal
      (by rcases Nat.eq_zero_or_pos n with h | h
          · exact .inl h
          · exact .inr ⟨st none (by simp), hg x ⟨by omega, rfl⟩⟩) hw
    rw [QAt] at this
    simp only [newFillT, newFill, Prog.bind_run, this, Out.assoc, Out.bind_ok, Prog.pure_run, Bool.false_eq_true, if_false]
  | newCount i n a =>
    obtain ⟨hw, hs⟩ := of_only hs
    simp only [copied, List.mem_replicate] at hg
    refine same_create ?_
    have := assignFillT_at (bad := bad) (r := .tmp ty.dflt) (x := ty.dflt) (n := n) (rep_blank w.heap a) I.bal
      (by rcases Nat.eq_zero_or_pos n with h | h
          · exact .inl h
          · exact .inr ⟨stable_tmp _ _ _, hg _ ⟨by omega, rfl⟩⟩) hw
    rw [QAt] at this
    simp only [newFillT, newCount, newFill, Prog.bind_run, this, Out.assoc, Out.bind_ok, Prog.pure_run, Bool.false_eq_true, if_false]
  | newList i xs a =>
    refine same_create ?_
    have e := fun p i h => constructListT_at (bad := bad) xs hg p i h
    simp only [QAtU] at e
    simp only [newListT, newList, Prog.bind_run, e, Out.assoc, Out.bind_ok, Prog.pure_run, Bool.false_eq_true, if_false]
  | newRange i xs a =>
    refine same_create ?_
    have e := fun p i h => constructListT_at (bad := bad) xs hg p i h
    simp only [QAtU] at e
    simp only [newRangeT, newRange, Prog.bind_run, e, Out.assoc, Out.bind_ok, Prog.pure_run, Bool.false_eq_true, if_false]
  | newCopy i j =>
    simp only [specStep, Option.bind_eq_some_iff] at hs
    obtain ⟨a, ha, hs⟩ := hs
    obtain ⟨v, hv, rv, _⟩ := I.get ha
    simp only [step, stepT, Prog.bind_run, run_var hv, Out.bind_ok]
    simp only [copied, ha, Option.map_some, Option.getD_some] at hg
    refine same_create ?_
    have := copyImplT_at dfltAlloc rv I.bal hg
    rw [QAt] at this
    simp only [newCopyT, newCopy, Prog.bind_run, this, Out.assoc, Out.bind_ok, Prog.pure_run, Bool.false_eq_true, if_false]
  | newCopyAlloc i j al =>
    simp only [specStep, Option.bind_eq_some_iff] at hs
    obtain ⟨a, ha, hs⟩ := hs
    obtain ⟨v, hv, rv, _⟩ := I.get ha
    simp only [step, stepT, Prog.bind_run, run_var hv, Out.bind_ok]
    simp only [copied, ha, Option.map_some, Option.getD_some] at hg
    refine same_create ?_
    have := copyImplT_at al rv I.bal hg
    rw [QAt] at this
    simp only [newCopyT, newCopyAlloc, Prog.bind_run, this, Out.assoc, Out.bind_ok, Prog.pure_run, Bool.false_eq_true, if_false]
  | copyAssign i j =>
    simp only [specStep, Option.bind_eq_some_iff] at hs
    obtain ⟨b, hb, hs⟩ := hs
    obtain ⟨a, r', a', ha, hf, hp⟩ := of_upd hs; cases hp
    obtain ⟨v, hv, rv, hc, hl⟩ := I.get ha
    by_cases hij : i = j
    · simp only [stepT, if_pos hij]; rfl
    · obtain ⟨u, hu, ru, hc', hl'⟩ := I.get hb
      simp only [copied, hij, if_false, hb, Option.map_some, Option.getD_some] at hg
      simp only [step, stepT, hij, if_false, Prog.bind_run, run_var hu, Out.bind_ok]
      exact same_change hv (copyAssignT_at rv ru I.bal (fun b hb => I.sep i j v u b hij hv hu hb) hg)
  | push i rf =>
    simp only [specStep, Option.bind_eq_some_iff] at hs
    obtain ⟨x, hx, hs⟩ := hs
    obtain ⟨a, r', a', ha, hf, hp⟩ := of_upd hs; cases hp
    obtain ⟨hg', hf⟩ := of_only hf; cases hf
    obtain ⟨v, hv, rv, hc, hl⟩ := I.get ha
    obtain ⟨ref, e1, st, ins⟩ := arg_ok I hx
    simp only [step, stepT, Prog.bind_run, e1, Out.bind_ok]
    simp only [copied, hx, Option.getD_some, List.mem_singleton, forall_eq] at hg
    exact same_change hv (pushBackT_at rv I.bal hg (push_refs I ha hv (n := a.xs.length + 1) hc st ins (by simpa [Nat.succ_le_iff] using hg')))
  | assignFill i n rf =>
    simp only [specStep, Option.bind_eq_some_iff] at hs
    obtain ⟨x, hx, hs⟩ := hs
    obtain ⟨a, r', a', ha, hf, hp⟩ := of_upd hs; cases hp
    obtain ⟨hg', hf⟩ := of_only hf; cases hf
    obtain ⟨v, hv, rv, hc, hl⟩ := I.get ha
    obtain ⟨ref, e1, st, ins⟩ := arg_ok I hx
    simp only [step, stepT, Prog.bind_run, e1, Out.bind_ok]
    simp only [copied, hx, Option.getD_some, List.mem_replicate] at hg
    refine same_change hv (assignFillT_at (x := x) rv I.bal ?_ hg'.1)
    rcases Nat.eq_zero_or_pos n with h | h
    · exact .inl h
    · exact .inr ⟨arg_outside I hv st (hg'.2.resolve_left (by omega)), hg x ⟨by omega, rfl⟩⟩
  | assignList i xs =>
    obtain ⟨a, r', a', ha, hf, hp⟩ := of_upd hs; cases hp
    obtain ⟨v, hv, rv, hc, hl⟩ := I.get ha
    refine same_change hv ?_
    have e := fun v h => pushListT_at (ty := ty) (bad := bad) xs hg v h
    simp only [QAt] at e
    simp only [QAt, assignListT, assignList, Prog.bind_run, e, Out.assoc]
  | set i k x =>
    simp only [copied, List.mem_singleton, forall_eq] at hg
    simp only [stepT, hg, Bool.false_eq_true, if_false]
    rfl
  | insert i p rf =>
    simp only [specStep, Option.bind_eq_some_iff] at hs
    obtain ⟨x, hx, hs⟩ := hs
    obtain ⟨a, r', a', ha, hf, hp⟩ := of_upd hs; cases hp
    obtain ⟨v, hv, rv, hc, hl⟩ := I.get ha
    obtain ⟨ref, e1, st, ins⟩ := arg_ok I hx
    have rd : deref ref w.heap = .ok (x, w.heap) := (st none (fun b h => by cases h)).now
    simp only [copied, hx, Option.getD_some, List.mem_singleton, forall_eq] at hg
    simp only [step, stepT, Prog.bind_run, e1, Out.bind_ok]
    refine same_change' hv (f := fun v => Model.Vector.insert ty v p ref) ?_ ?_
    · simp only [insertT, Model.Vector.insert, Prog.bind_run, rd, Out.bind_ok, hg, Bool.false_eq_true, if_false, Out.assoc, Prog.pure_run]
    · intro q h
      simp only [Model.Vector.insert, Prog.bind_run, rd, Out.bind_ok]
      cases emplace ty v p x w.heap with
      | ok p => intro e; cases e; rfl
      | _ => intro e; cases e
  | insertFill i p n rf =>
    simp only [specStep, Option.bind_eq_some_iff] at hs
    obtain ⟨x, hx, hs⟩ := hs
    obtain ⟨a, r', a', ha, hf, hp⟩ := of_upd hs; cases hp
    split at hf
    · rename_i hle
      obtain ⟨⟨h1, hn, hw, hal⟩, hf⟩ := of_only hf; cases hf
      obtain ⟨v, hv, rv, hc, hl⟩ := I.get ha
      obtain ⟨ref, e1, st, ins⟩ := arg_ok I hx
      simp only [copied, hx, Option.getD_some, List.mem_replicate] at hg
      simp only [step, stepT, Prog.bind_run, e1, Out.bind_ok]
      refine same_change' hv (f := fun v => insertFill ty v p n ref) ?_ ?_
      · by_cases h0 : a.xs = [] ∧ n = 0
        · obtain ⟨hx0, rfl⟩ := h0
          simp only [insertFill, insertFillT, fillT, forUp, Prog.bind_run, Prog.pure_run, Out.bind_ok, Out.assoc]
        replace h1 : 1 ≤ p := h1.resolve_right h0
        obtain ⟨hsp, hne, hpl, hll⟩ := take_drop_split hle h1
        rw [hsp] at rv
        refine insertFillT_at (x := x) rv I.bal hne ?_ hpl ?_ ?_ (by rw [hll]; exact hw)
        · rcases hn with hn | hn
          · exact .inl hn
          · right; rw [hn]; simp
        · rcases Nat.eq_zero_or_pos n with h | h
          · exact .inl h
          · exact .inr (hg x ⟨by omega, rfl⟩)
        · rcases hal with hal | hal | ⟨hcp, hal⟩
          · exact .inl hal
          · exact .inr (.inl (arg_outside I hv st hal))
          · right; right
            refine ⟨by rw [hll, hc]; exact hcp, ?_⟩
            cases rf with
            | val => cases hal
            | elem j k =>
              simp only [insideBefore, Bool.and_eq_true, beq_iff_eq, decide_eq_true_eq] at hal
              obtain ⟨rfl, hk⟩ := hal
              obtain ⟨k', hk', h3, h4⟩ := arg_inside hv ha ins (by simp [inside])
              cases hk'
              exact ⟨k, h3, by rw [List.getElem?_take_of_lt hk]; exact h4⟩
      · intro q h
        simp only [insertFill, Prog.bind_run]
        cases moveElementsBack ty v p n w.heap with
        | ok p1 =>
          simp only [Out.bind_ok]
          cases (forUp 0 n fun i => do let x ← deref ref; construct p1.1.ptr (wrap (p + i)) x) p1.2 with
          | ok p => intro e; cases e; rfl
          | _ => intro e; cases e
        | _ => intro e; cases e
    · cases hf
  | insertRange i p ys =>
    obtain ⟨a, r', a', ha, hf, hp⟩ := of_upd hs; cases hp
    obtain ⟨v, hv, rv, hc, hl⟩ := I.get ha
    refine same_change' hv (f := fun v => insertRange ty v p ys) (insertRangeT_at ys hg v p w.heap) ?_
    intro q h
    simp only [insertRange, Prog.bind_run]
    cases (if wrap (v.len + ys.length) > v.cap then allocateReserve ty v (wrap (v.len + ys.length)) else pure v : M α Vec) w.heap with
    | ok p1 =>
      simp only [Out.bind_ok]
      cases moveElementsBack ty p1.1 p ys.length p1.2 with
      | ok p2 =>
        simp only [Out.bind_ok]
        cases constructList p2.1.ptr p ys p2.2 with
        | ok p => intro e; cases e; rfl
        | _ => intro e; cases e
      | _ => intro e; cases e
    | _ => intro e; cases e
  | resizeFill i n rf =>
    simp only [specStep, Option.bind_eq_some_iff] at hs
    obtain ⟨x, hx, hs⟩ := hs
    obtain ⟨a, r', a', ha, hf, hp⟩ := of_upd hs; cases hp
    obtain ⟨hg', hf⟩ := of_only hf; cases hf
    obtain ⟨v, hv, rv, hc, hl⟩ := I.get ha
    obtain ⟨ref, e1, st, ins⟩ := arg_ok I hx
    simp only [step, stepT, Prog.bind_run, e1, Out.bind_ok]
    simp only [copied, hx, ha, Option.map_some, Option.getD_some, List.mem_replicate] at hg
    refine same_change hv (resizeFillT_at (x := x) rv I.bal ?_ hg'.1)
    by_cases hle : n ≤ a.xs.length
    · exact .inl hle
    · exact .inr ⟨push_refs I ha hv hc st ins (hg'.2.resolve_left hle), hg x ⟨by omega, rfl⟩⟩
  | _ => rfl

end Verif.Proof.Vector
