import Verif.Proof.LLFault
/-! # Linked lists: constructors that throw in resize, in the list constructors and in from_iter -/
namespace Verif.Proof.LL
open Verif Verif.Model.LL
open Verif.Proof.Mem (Cost)

variable {α : Type} {cfg : Cfg α} {thr : Nat → Bool} {h : Heap α} {hd tl own a : Nat} {cs : Cells α} {x : α}

/-- The call ends with `o`, unless memory is refused. -/
def EndsIn {β : Type} (cfg : Cfg α) (x o : Out β) : Prop := x = o ∨ (x = .oom ∧ Refuses cfg)

theorem endsIn_bind {β γ : Type} {x : Out β} {f : β → Out γ} {o : Out γ} {P : β → Prop} (hx : x.SafeIf (Refuses cfg) P)
    (hf : ∀ b, P b → EndsIn cfg (f b) o) : EndsIn cfg (x >>= f) o := by
  cases x with
  | ok b => exact hf b hx
  | oom => exact .inr ⟨rfl, hx⟩
  | _ => exact absurd hx (by simp)

/-! ## resize -/

theorem extendLoopT_bad (hb : Bal h) (r : Rep cfg h hd tl cs own) {n m : Nat} (hm : m < n) {ref : Ref α} (hr : RefIs cfg ref x h)
    (ht : thr (h.ctors + m) = true) :
    EndsIn cfg (extendLoopT cfg thr own (some tl) ref n (some (lastOf hd cs)) h) .panic := by
  induction n generalizing h cs m with
  | zero => omega
  | succ n ih =>
    have r' : Rep cfg h hd tl (cs ++ []) own := by simpa using r
    simp only [extendLoopT, Prog.bind_run, hr.deref, Out.bind_ok, constructNodeT_eq]
    by_cases hf : cfg.refuse h.next cfg.dsize = true
    · rw [if_pos hf]; exact .inr ⟨rfl, _, _, hf⟩
    · rw [if_neg hf]
      by_cases h0 : thr h.ctors = true
      · rw [if_pos h0]; exact .inl rfl
      · rw [if_neg h0]
        have hm0 : m ≠ 0 := by rintro rfl; exact h0 ht
        obtain ⟨m, rfl⟩ := Nat.exists_eq_succ_of_ne_zero hm0
        simp only [Out.bind_ok, Prog.bind_run]
        rw [setNext_run (mk_live (h := h) r'.live_lastOf) (isElem_mk (h := h)).live]
        simp only [Out.bind_ok]
        rw [setNext_run (h := link cfg.dbl (newElem cfg own x h) (lastOf hd cs) h.next) (isElem_mk (h := h)).live (mk_live r.vtl.live)]
        simp only [Out.bind_ok]
        have ed := Rep.insertOne (x := x) hb r'
        simp only [headOf_nil, List.append_nil] at ed
        have := ih (m := m) ed.bal ed.rep (by omega) ((hr.mk hb).same rfl) (by
          rw [ed.step.ctors]
          simp only
          rw [← ht]; congr 1; omega)
        simpa only [lastOf_append, lastOf_cons, lastOf_nil] using this

theorem resizeFillT_bad (hb : Bal h) (r : Rep cfg h hd tl cs own) {n m : Nat} (hm : cs.length + m < n) {ref : Ref α} (hr : RefIs cfg ref x h)
    (ht : thr (h.ctors + m) = true) : EndsIn cfg (resizeFillT cfg thr (lst hd tl cs own) n ref h) .panic := by
  unfold resizeFillT
  rw [if_neg (by omega), if_neg (by simp only [lst]; omega), if_pos (by simp only [lst]; omega)]
  have fin : EndsIn cfg ((do
      extendLoopT cfg thr own (some tl) ref (n - cs.length) (some (lastOf hd cs))
      return (⟨some hd, some tl, n, own⟩ : Lst) : M α Lst) h) .panic := by
    rw [Prog.bind_run]
    rcases extendLoopT_bad hb r (n := n - cs.length) (m := m) (by omega) hr ht with e | ⟨e, e2⟩
    · rw [e]; exact .inl rfl
    · rw [e]; exact .inr ⟨rfl, e2⟩
  split
  · rename_i hc
    rw [Prog.bind_run, show (lst hd tl cs own).tail = some tl from rfl, r.getPrev_tl hc]
    exact fin
  · have ha : advance cs.length (some hd) h = .ok (some (lastOf hd cs), h) := by
      have := iterAt_ok (c1 := cs) (c2 := []) (by simpa using r)
      rw [List.append_nil] at this
      exact this
    rw [Prog.bind_run, show (lst hd tl cs own).head = some hd from rfl, show (lst hd tl cs own).len = cs.length from rfl, ha]
    exact fin

/-! ## Constructors -/

/-- the heap after a list constructor threw at its `m`-th element: two virtual nodes, `m + 1` nodes and `m` elements nobody owns -/
def Leaked (cfg : Cfg α) (h h' : Heap α) (m : Nat) : Prop :=
  h'.ctors = h.ctors + m ∧ h'.dtors = h.dtors ∧ h'.newBytes = h.newBytes + 2 * cfg.vsize + (m + 1) * cfg.dsize ∧ h'.freeBytes = h.freeBytes

theorem newFillT_bad (hb : Bal h) {ref : Ref α} (hr : RefIs cfg ref x h) {n m : Nat} (hm : m < n)
    (hg : ∀ j < m, thr (h.ctors + j) = false) (ht : thr (h.ctors + m) = true) (a : Nat) :
    (newFillT cfg thr n ref a h).SafeIf (Refuses cfg) fun q => q.1 = none ∧ Leaked cfg h q.2 m ∧ ∃ l' k, Step h [] q.2 l' k := by
  unfold newFillT
  rw [if_neg (by omega)]
  refine virtuals_ok hb a ?_
  obtain ⟨s, v1, v2, p1, n2⟩ := two_virtuals (cfg := cfg) hb a
  have hr2 : RefIs cfg ref x (mkVirt cfg a (mkVirt cfg a h)) := hr.stable s fun b hb' => (s.live (by simp) hb').2.2
  simp only [Prog.bind_run]
  rw [fillLoopT_eq s.bal hr2 v1.live n 0, out_assoc]
  refine (rangeLoopT_bad (own := a) (xs := List.replicate n x) s.bal v1.live (by simpa using hm) hg ht 0).bind ?_
  rintro _ ⟨ns, h1, -, e2, rfl, bt, -, -, e5, e6⟩
  have hc : h1.ctors = h.ctors + m := by rw [bt.step.ctors, ← e2]; rfl
  obtain ⟨l', k, t⟩ := bt.touch (l := [h.next, h.next + 1]) (by simp) a
  refine ⟨rfl, ⟨hc, bt.step.dtors, ?_, e6⟩, _, _, s.trans t⟩
  show h1.newBytes + cfg.dsize = _
  have hv : (mkVirt cfg a (mkVirt cfg a h)).newBytes = h.newBytes + cfg.vsize + cfg.vsize := rfl
  rw [e5, hv, Nat.add_mul m 1]
  omega

/-- `copy_impl` on an object `l`: it counts the copies made and has no nodes yet -/
theorem copyImplT_bad (hb : Bal h) (r : Rep cfg h hd tl cs own) {m : Nat} (hm : m < cs.length)
    (hg : ∀ j < m, thr (h.ctors + j) = false) (ht : thr (h.ctors + m) = true) (l : Lst) :
    (copyImplT cfg thr l (lst hd tl cs own) h).SafeIf (Refuses cfg) fun q =>
      q.1 = (true, { l with len := m }) ∧ Leaked cfg h q.2 m ∧ ∃ l' k, Step h [] q.2 l' k := by
  simp only [copyImplT, Prog.bind_run]
  rw [dbgAssert_run (by simp [lst])]
  simp only [Out.bind_ok]
  rw [if_neg (by simp only [lst]; omega)]
  rw [Prog.bind_run, show (lst hd tl cs own).head = some hd from rfl, r.getNext_hd]
  simp only [Out.bind_ok]
  refine virtuals_ok hb l.alloc ?_
  obtain ⟨s, v1, v2, p1, n2⟩ := two_virtuals (cfg := cfg) hb l.alloc
  have r2 := r.step s (by simp)
  simp only [Prog.bind_run, lst]
  have hpn : h.next ∉ nodes hd tl ([] ++ cs) := fun hm => r.live hm (hb.fresh _ (Nat.le_refl _))
  refine (copyLoopT_bad (o := l.alloc) (c1 := []) (c2 := cs) (m := m) s.bal v1.live r2 hpn hm hg ht 0).bind ?_
  rintro _ ⟨ns, h1, e2, rfl, bt, -, e5, e6⟩
  have hc : h1.ctors = h.ctors + m := by rw [bt.step.ctors, ← e2]; rfl
  obtain ⟨l', k, t⟩ := bt.touch (l := [h.next, h.next + 1]) (by simp) l.alloc
  refine ⟨by simp, ⟨hc, bt.step.dtors, ?_, e6⟩, _, _, s.trans t⟩
  show h1.newBytes + cfg.dsize = _
  have hv : (mkVirt cfg l.alloc (mkVirt cfg l.alloc h)).newBytes = h.newBytes + cfg.vsize + cfg.vsize := rfl
  rw [e5, hv, Nat.add_mul m 1]
  omega

theorem newCopyT_bad (hb : Bal h) (r : Rep cfg h hd tl cs own) {m : Nat} (hm : m < cs.length)
    (hg : ∀ j < m, thr (h.ctors + j) = false) (ht : thr (h.ctors + m) = true) (a : Nat) :
    (newCopyT cfg thr (lst hd tl cs own) a h).SafeIf (Refuses cfg) fun q => q.1 = none ∧ Leaked cfg h q.2 m ∧ ∃ l' k, Step h [] q.2 l' k := by
  simp only [newCopyT, Prog.bind_run]
  refine (copyImplT_bad hb r hm hg ht ⟨none, none, 0, a⟩).bind ?_
  rintro ⟨q, h'⟩ ⟨e, hL⟩
  simp only at e
  subst e
  exact ⟨rfl, hL⟩

/-! ## from_iter -/

theorem fromIterT_bad (hb : Bal h) {xs : List α} {m : Nat} (h0 : 0 < m) (hm : m < xs.length)
    (hg : ∀ j < m, thr (h.ctors + j) = false) (ht : thr (h.ctors + m) = true) : EndsIn cfg (fromIterT cfg thr xs h) .ub := by
  simp only [fromIterT, Prog.bind_run]
  refine endsIn_bind (newAlloc_ok hb dfltAlloc) ?_
  rintro ⟨_, h1⟩ ⟨hd, tl, rfl, f⟩
  have r1 : Rep cfg h1 hd tl ([] ++ []) dfltAlloc := f.rep
  have hc : h1.ctors = h.ctors := f.step.ctors
  simp only [lst, Prog.bind_run]
  refine endsIn_bind (rangeLoopT_bad (cfg := cfg) (own := dfltAlloc) f.step.bal f.rep.vhd.live hm (by rw [hc]; exact hg) (by rw [hc]; exact ht) 0) ?_
  rintro _ ⟨ns, h2, -, e2, rfl, bt, -, e4, -, -⟩
  have hns : ns ≠ [] := by rintro rfl; simp at e2; omega
  obtain ⟨d, d1, d2⟩ := r1.dang f.step.bal bt hns (e4 h0) dfltAlloc
  simp only [if_true, Prog.bind_run]
  rw [(broken d d1 d2).2]
  exact .inl rfl

theorem fromIterT_first (hb : Bal h) {xs : List α} (hx : xs ≠ []) (ht : thr h.ctors = true) :
    (fromIterT cfg thr xs h).SafeIf (Refuses cfg) fun q => q.1 = none ∧ ∃ b k, Step h [] q.2 [b] k ∧ k.c = 0 ∧ k.d = 0 ∧ q.2.info b = some ⟨dfltAlloc, cfg.dsize, .raw⟩ := by
  simp only [fromIterT, Prog.bind_run]
  refine (newAlloc_ok hb dfltAlloc).bind ?_
  rintro ⟨_, h1⟩ ⟨hd, tl, rfl, f⟩
  have hc : h1.ctors = h.ctors := f.step.ctors
  cases xs with
  | nil => exact absurd rfl hx
  | cons x xs =>
    simp only [lst, rangeLoopT, Prog.bind_run, constructNodeT_eq]
    by_cases hf : cfg.refuse h1.next cfg.dsize = true
    · rw [if_pos hf]; exact ⟨_, _, hf⟩
    · rw [if_neg hf, if_pos (by rw [hc]; exact ht)]
      have s := step_rawNode (cfg := cfg) (own := dfltAlloc) f.step.bal
      have r2 := f.rep.step s (by simp)
      obtain ⟨h3, e3, s3⟩ := destruct_ok s.bal r2
      simp only [lst, List.length_nil] at e3
      simp only [Out.bind_ok, Prog.pure_run, if_true, Prog.bind_run, e3]
      have hnew : h1.next ∉ nodes hd tl ([] : Cells α) := fun hm => f.rep.live hm (f.step.bal.fresh _ (Nat.le_refl _))
      refine ⟨rfl, h1.next, _, (f.step.trans (s.more _)).trans (s3.more [h1.next] |>.congr (m := [h1.next] ++ nodes hd tl []) (m' := [h1.next])
        (by simp [or_comm]) (by simp)), rfl, rfl, ?_⟩
      rw [s3.frame _ hnew (by simp)]
      simp [rawNode]

/-! ## No constructor throws -/

theorem extendLoopT_quiet (hno : ∀ k, thr k = false) (o : Nat) (t : Ptr) (r : Ref α) (n : Nat) (p : Ptr) (h : Heap α) :
    extendLoopT cfg thr o t r n p h = extendLoop cfg o t r n p h := by
  induction n generalizing p h with
  | zero => rfl
  | succ n ih =>
    simp only [extendLoopT, extendLoop, Prog.bind_run, constructNodeT_quiet hno, mapO, out_assoc, Out.bind_ok, ih]

theorem resizeFillT_quiet (hno : ∀ k, thr k = false) (l : Lst) (n : Nat) (r : Ref α) (h : Heap α) :
    resizeFillT cfg thr l n r h = resizeFill cfg l n r h := by
  unfold resizeFillT resizeFill
  split
  · rfl
  · split
    · rfl
    · split
      · have e : ∀ p, extendLoopT cfg thr l.alloc l.tail r (n - l.len) p = extendLoop cfg l.alloc l.tail r (n - l.len) p :=
          fun p => funext fun h => extendLoopT_quiet hno _ _ _ _ _ h
        simp only [extend, e]
      · rfl

theorem newFillT_quiet (hno : ∀ k, thr k = false) (n : Nat) (r : Ref α) (a : Nat) (h : Heap α) :
    newFillT cfg thr n r a h = mapO some (newFill cfg n r a h) := by
  unfold newFillT newFill
  split
  · rfl
  · simp only [Prog.bind_run, fillLoopT_quiet hno, mapO, out_assoc, Out.bind_ok, Bool.false_eq_true, if_false, Prog.pure_run]

theorem newCopyT_quiet (hno : ∀ k, thr k = false) (o : Lst) (a : Nat) (h : Heap α) :
    newCopyT cfg thr o a h = mapO some (newCopyAlloc cfg o a h) := by
  simp only [newCopyT, newCopyAlloc, copyImplT, copyImpl, Prog.bind_run, mapO, out_assoc]
  congr 1; funext c
  split
  · simp only [Prog.bind_run, out_assoc, Prog.pure_run, Out.bind_ok, Bool.false_eq_true, if_false]
  · simp only [Prog.bind_run, copyLoopT_quiet hno, mapO, out_assoc, Out.bind_ok, Bool.false_eq_true, if_false, Prog.pure_run]

theorem fromIterT_quiet (hno : ∀ k, thr k = false) (xs : List α) (h : Heap α) :
    fromIterT cfg thr xs h = mapO some (fromIter cfg xs h) := by
  simp only [fromIterT, fromIter, Prog.bind_run, rangeLoopT_quiet hno, mapO, out_assoc, Out.bind_ok, Bool.false_eq_true, if_false, Prog.pure_run]

end Verif.Proof.LL
