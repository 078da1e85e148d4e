import Verif.Proof.LLNeed
import Verif.Model.LinkedListFault
/-! # Linked lists: refused memory and throwing constructors -/
namespace Verif.Proof.LL
open Verif Verif.Model.LL
open Verif.Proof.Mem (Cost)

variable {α β γ σ : Type} {cfg : Cfg α}

theorem out_assoc {δ : Type} (x : Out β) (f : β → Out γ) (g : γ → Out δ) : ((x >>= f) >>= g) = x >>= fun b => f b >>= g := by
  cases x <;> rfl

/-! ## Refused memory -/

/-- `y` is `x` with a failed allocation turned into undefined behaviour. -/
def FolO (x y : Out β) : Prop := (x = .oom → y = .ub) ∧ (x ≠ .oom → y = x)

theorem FolO.rfl {x : Out β} (h : x ≠ .oom) : FolO x x := ⟨fun e => absurd e h, fun _ => Eq.refl _⟩

theorem FolO.bind {x y : Out β} {f g : β → Out γ} (h : FolO x y) (hf : ∀ b, FolO (f b) (g b)) : FolO (x >>= f) (y >>= g) := by
  cases x with
  | oom => rw [h.1 (Eq.refl _)]; exact ⟨fun _ => Eq.refl _, fun e => absurd (Eq.refl _) e⟩
  | ok b => rw [h.2 (by simp)]; exact hf b
  | _ => rw [h.2 (by simp)]; exact FolO.rfl (by simp)

def Fol (p q : Prog σ β) : Prop := ∀ s, FolO (p s) (q s)

theorem Fol.bind {p q : Prog σ β} {f g : β → Prog σ γ} (h : Fol p q) (hf : ∀ b, Fol (f b) (g b)) : Fol (p >>= f) (q >>= g) := by
  intro s
  simp only [Prog.bind_run]
  exact (h s).bind fun b => hf b.1 b.2

theorem Fol.nm {p : M α β} (h : NM p) : Fol p p := fun s => FolO.rfl (h s).1
theorem Fol.pure {b : β} : Fol (Pure.pure b : Prog σ β) (Pure.pure b) := fun s => FolO.rfl (by simp)

theorem fol_constructNode {o : Nat} {x : α} : Fol (constructNode cfg o x) (constructNodeN cfg o x) := by
  intro h
  simp only [constructNode, constructNodeN, Prog.bind_run, allocNode, allocNodeN]
  split
  · exact ⟨fun _ => by simp [constructData, dataNull, withNode, Prog.bind_run], fun e => absurd (Eq.refl _) e⟩
  · refine FolO.rfl ?_
    simp [constructData, dataNull, withNode, dbgAssert, Prog.bind_run]

theorem fol_buildVirtual {o : Nat} : Fol (buildVirtual cfg o) (buildVirtualN cfg o) := by
  intro h
  simp only [buildVirtual, buildVirtualN, Prog.bind_run, allocNode, allocNodeN]
  split
  · exact ⟨fun _ => by simp [putNext, withNode], fun e => absurd (Eq.refl _) e⟩
  · refine FolO.rfl ?_
    cases hd : cfg.dbl <;> simp [putNext, putPrev, withNode, Prog.bind_run]

/-- closes `Fol` goals from the lemmas for the parts -/
syntax "follow" ("[" term,* "]")? : tactic
macro_rules
  | `(tactic| follow) => `(tactic| follow [])
  | `(tactic| follow [$ts,*]) => do
    let ts ← ts.getElems.mapM fun t => `(tactic| exact $t)
    `(tactic| repeat' first
      | exact Fol.pure
      | exact Fol.nm nm_getNext | exact Fol.nm nm_getPrev | exact Fol.nm nm_load | exact Fol.nm nm_dbgAssert
      | exact Fol.nm nm_setNext | exact Fol.nm nm_deref | exact Fol.nm nm_clear | exact Fol.nm nm_destruct
      | exact fol_constructNode | exact fol_buildVirtual
      $[| $ts:tactic]*
      | refine Fol.bind ?_ fun _ => ?_
      | split
      | dsimp only)

theorem fol_rangeLoop {o : Nat} (xs : List α) {p : Ptr} : Fol (rangeLoop cfg o xs p) (rangeLoopN cfg o xs p) := by
  induction xs generalizing p with
  | nil => exact .pure
  | cons x xs ih => exact fol_constructNode.bind fun _ => (Fol.nm nm_setNext).bind fun _ => ih

theorem fol_fillLoop {o : Nat} {r : Ref α} (n : Nat) {p : Ptr} : Fol (fillLoop cfg o r n p) (fillLoopN cfg o r n p) := by
  induction n generalizing p with
  | zero => exact .pure
  | succ n ih => exact (Fol.nm nm_deref).bind fun _ => fol_constructNode.bind fun _ => (Fol.nm nm_setNext).bind fun _ => ih

theorem fol_extendLoop {o : Nat} {t : Ptr} {r : Ref α} (n : Nat) {p : Ptr} : Fol (extendLoop cfg o t r n p) (extendLoopN cfg o t r n p) := by
  induction n generalizing p with
  | zero => exact .pure
  | succ n ih =>
    exact (Fol.nm nm_deref).bind fun _ => fol_constructNode.bind fun _ => (Fol.nm nm_setNext).bind fun _ => (Fol.nm nm_setNext).bind fun _ => ih

theorem fol_newAlloc {a : Nat} : Fol (newAlloc cfg a) (newAllocN cfg a) := by
  intro h
  simp only [newAlloc, newAllocN, initEmpty, Prog.bind_run, out_assoc]
  refine (fol_buildVirtual h).bind fun b => (fol_buildVirtual b.2).bind fun c => ?_
  simp only [Prog.pure_run, Out.bind_ok]
  exact (Fol.nm nm_setNext c.2).bind fun d => FolO.rfl (by simp)

theorem fol_newRange {xs : List α} {a : Nat} : Fol (newRange cfg xs a) (newRangeN cfg xs a) := by
  unfold newRange newRangeN; follow [fol_newAlloc, fol_rangeLoop xs]
theorem fol_listAssign {l : Lst} {xs : List α} : Fol (listAssign cfg l xs) (listAssignN cfg l xs) := by
  unfold listAssign listAssignN; follow [fol_rangeLoop xs]
theorem fol_emplaceAfter {l : Lst} {p : Ptr} {r : Ref α} : Fol (emplaceAfter cfg l p r) (emplaceAfterN cfg l p r) := by
  unfold emplaceAfter emplaceAfterN; follow
theorem fol_insertAfterFill {l : Lst} {p : Ptr} {n : Nat} {r : Ref α} : Fol (insertAfterFill cfg l p n r) (insertAfterFillN cfg l p n r) := by
  unfold insertAfterFill insertAfterFillN; follow [fol_fillLoop n]
theorem fol_insertAfterRange {l : Lst} {p : Ptr} {xs : List α} : Fol (insertAfterRange cfg l p xs) (insertAfterRangeN cfg l p xs) := by
  unfold insertAfterRange insertAfterRangeN; follow [fol_rangeLoop xs]
theorem fol_emplace {l : Lst} {p : Ptr} {r : Ref α} : Fol (emplace cfg l p r) (emplaceN cfg l p r) := by
  unfold emplace emplaceN; follow
theorem fol_pushFront {l : Lst} {r : Ref α} : Fol (pushFront cfg l r) (pushFrontN cfg l r) := by
  unfold pushFront pushFrontN; follow
theorem fol_pushBack {l : Lst} {r : Ref α} : Fol (pushBack cfg l r) (pushBackN cfg l r) := by
  unfold pushBack pushBackN; follow
theorem fol_resizeFill {l : Lst} {n : Nat} {r : Ref α} : Fol (resizeFill cfg l n r) (resizeFillN cfg l n r) := by
  unfold resizeFill resizeFillN extend
  follow [Fol.nm (nm_advance _), Fol.nm nm_shorten, fol_extendLoop _]

/-- equal up to a failed allocation, or `q` does not end -/
def FolD (p q : Prog σ β) : Prop := ∀ s, q s = .div ∨ FolO (p s) (q s)
/-- equal up to a failed allocation, or `p` does not end -/
def FolE (p q : Prog σ β) : Prop := ∀ s, p s = .div ∨ FolO (p s) (q s)

theorem FolD.bind {p q : Prog σ β} {f g : β → Prog σ γ} (h : Fol p q) (hf : ∀ b, FolD (f b) (g b)) : FolD (p >>= f) (q >>= g) := by
  intro s
  simp only [Prog.bind_run]
  have h := h s
  cases hp : p s with
  | oom => rw [h.1 hp]; exact .inr ⟨fun _ => Eq.refl _, fun e => absurd (Eq.refl _) e⟩
  | ok b => rw [h.2 (by simp [hp]), hp]; exact hf b.1 b.2
  | _ => rw [h.2 (by simp [hp]), hp]; exact .inr (FolO.rfl (by simp))

theorem FolE.bind {p q : Prog σ β} {f g : β → Prog σ γ} (h : Fol p q) (hf : ∀ b, FolE (f b) (g b)) : FolE (p >>= f) (q >>= g) := by
  intro s
  simp only [Prog.bind_run]
  have h := h s
  cases hp : p s with
  | oom => rw [h.1 hp]; exact .inr ⟨fun _ => Eq.refl _, fun e => absurd (Eq.refl _) e⟩
  | ok b => rw [h.2 (by simp [hp]), hp]; exact hf b.1 b.2
  | _ => rw [h.2 (by simp [hp]), hp]; exact .inr (FolO.rfl (by simp))

theorem Fol.toD {p q : Prog σ β} (h : Fol p q) : FolD p q := fun s => .inr (h s)
theorem Fol.toE {p q : Prog σ β} (h : Fol p q) : FolE p q := fun s => .inr (h s)

theorem FolD.adm (p : Prog σ β) : Lean.Order.admissible fun q : Prog σ β => FolD p q := by
  refine Lean.Order.admissible_pi_apply (β := fun _ : σ => Out (β × σ))
    (fun s (o : Out (β × σ)) => o = .div ∨ FolO (p s) o) fun s => ?_
  exact Lean.Order.admissible_flatOrder (b := (Out.div : Out (β × σ))) (fun o => o = (Out.div : Out (β × σ)) ∨ FolO (p s) o) (.inl rfl)

theorem FolE.adm (q : Prog σ β) : Lean.Order.admissible fun p : Prog σ β => FolE p q := by
  refine Lean.Order.admissible_pi_apply (β := fun _ : σ => Out (β × σ))
    (fun s (o : Out (β × σ)) => o = .div ∨ FolO o (q s)) fun s => ?_
  exact Lean.Order.admissible_flatOrder (b := (Out.div : Out (β × σ))) (fun o => o = (Out.div : Out (β × σ)) ∨ FolO o (q s)) (.inl rfl)

theorem fol_copyLoop {o : Nat} {stop rp p : Ptr} {n : Nat} : Fol (copyLoop cfg o stop rp p n) (copyLoopN cfg o stop rp p n) := by
  have hD : ∀ rp p n, FolD (copyLoop cfg o stop rp p n) (copyLoopN cfg o stop rp p n) := by
    refine copyLoopN.fixpoint_induct cfg o stop (fun f => ∀ rp p n, FolD (copyLoop cfg o stop rp p n) (f rp p n)) ?_ ?_
    · exact Lean.Order.admissible_pi_apply (fun rp (g : Ptr → Nat → M α (Ptr × Nat)) => ∀ p n, FolD (copyLoop cfg o stop rp p n) (g p n))
        fun rp => Lean.Order.admissible_pi_apply (fun p (g : Nat → M α (Ptr × Nat)) => ∀ n, FolD (copyLoop cfg o stop rp p n) (g n))
        fun p => Lean.Order.admissible_pi_apply (fun n (g : M α (Ptr × Nat)) => FolD (copyLoop cfg o stop rp p n) g)
        fun n => FolD.adm _
    · intro f ih rp p n
      dsimp only
      rw [copyLoop]
      split
      · exact Fol.pure.toD
      · exact FolD.bind (Fol.nm nm_load) fun _ => FolD.bind fol_constructNode fun _ => FolD.bind (Fol.nm nm_getNext) fun _ =>
          FolD.bind (Fol.nm nm_setNext) fun _ => ih _ _ _
  have hE : ∀ rp p n, FolE (copyLoop cfg o stop rp p n) (copyLoopN cfg o stop rp p n) := by
    refine copyLoop.fixpoint_induct cfg o stop (fun f => ∀ rp p n, FolE (f rp p n) (copyLoopN cfg o stop rp p n)) ?_ ?_
    · exact Lean.Order.admissible_pi_apply (fun rp (g : Ptr → Nat → M α (Ptr × Nat)) => ∀ p n, FolE (g p n) (copyLoopN cfg o stop rp p n))
        fun rp => Lean.Order.admissible_pi_apply (fun p (g : Nat → M α (Ptr × Nat)) => ∀ n, FolE (g n) (copyLoopN cfg o stop rp p n))
        fun p => Lean.Order.admissible_pi_apply (fun n (g : M α (Ptr × Nat)) => FolE g (copyLoopN cfg o stop rp p n))
        fun n => FolE.adm _
    · intro f ih rp p n
      dsimp only
      rw [copyLoopN]
      split
      · exact Fol.pure.toE
      · exact FolE.bind (Fol.nm nm_load) fun _ => FolE.bind fol_constructNode fun _ => FolE.bind (Fol.nm nm_getNext) fun _ =>
          FolE.bind (Fol.nm nm_setNext) fun _ => ih _ _ _
  intro s
  rcases hD rp p n s with h | h
  · rcases hE rp p n s with h' | h'
    · rw [h, h']; exact FolO.rfl (by simp)
    · exact h'
  · exact h

theorem fol_copyImpl {l : Lst} {a : Nat} : Fol (copyImpl cfg l a) (copyImplN cfg l a) := by
  unfold copyImpl copyImplN
  refine Fol.bind (Fol.nm nm_dbgAssert) fun _ => ?_
  split
  · exact fol_newAlloc
  · follow [fol_copyLoop]

theorem fol_copyAssign {l o : Lst} : Fol (copyAssign cfg l o) (copyAssignN cfg l o) := by
  unfold copyAssign copyAssignN; follow [fol_copyImpl]

/-! ## Throwing constructors -/

section
variable {thr : Nat → Bool} {h h' : Heap α} {own hd tl p : Nat} {cs c1 c2 ns : Cells α} {x : α}

/-- a node whose element was never made -/
def rawNode (cfg : Cfg α) (own : Nat) (h : Heap α) : Heap α :=
  { h with
    info := upd h.info h.next (some ⟨own, cfg.dsize, .raw⟩)
    nxt := upd h.nxt h.next none
    prv := upd h.prv h.next none
    next := h.next + 1
    newBytes := h.newBytes + cfg.dsize }

theorem constructNodeT_eq (own : Nat) (x : α) (h : Heap α) :
    constructNodeT cfg thr own x h = if cfg.refuse h.next cfg.dsize then .oom else
      if thr h.ctors then .ok (none, rawNode cfg own h) else .ok (some (some h.next), newElem cfg own x h) := by
  simp only [constructNodeT, Prog.bind_run, allocNode]
  split
  · rfl
  · simp only [throws, Out.bind_ok]
    by_cases ht : thr h.ctors
    · simp [ht, rawNode]
    · simp [ht, constructData, dataNull, withNode, dbgAssert, Prog.bind_run, newElem]

theorem rawNode_info_ne {a : Nat} (ha : a ≠ h.next) : (rawNode cfg own h).info a = h.info a := by simp [rawNode, upd_ne _ _ ha]
theorem rawNode_nxt_ne {a : Nat} (ha : a ≠ h.next) : (rawNode cfg own h).nxt a = h.nxt a := by simp [rawNode, upd_ne _ _ ha]
theorem rawNode_prv_ne {a : Nat} (ha : a ≠ h.next) : (rawNode cfg own h).prv a = h.prv a := by simp [rawNode, upd_ne _ _ ha]

theorem step_rawNode (hb : Bal h) : Step h [] (rawNode cfg own h) [h.next] ⟨0, 0, 1⟩ := by
  refine ⟨rfl, rfl, rfl, ?_, ?_, by simp, ?_, ?_⟩
  · intro c _ hc; exact rawNode_info_ne (by simpa using hc)
  · intro c _ hl; exact ⟨rawNode_nxt_ne (hb.ne_next hl), rawNode_prv_ne (hb.ne_next hl)⟩
  · intro c hc _; simp at hc; subst hc; exact hb.fresh _ (Nat.le_refl _)
  · refine bal_new hb rfl (fun c hc => rawNode_info_ne hc) ?_ ?_
    · simp [rawNode, liveOf]
    · simp [rawNode, bytesOf]; omega

/-- `m` nodes are made, then one is left without element -/
theorem rangeLoopT_bad (hb : Bal h) (hp : Live h p) {xs : List α} {m : Nat} (hm : m < xs.length) (hg : ∀ j < m, thr (h.ctors + j) = false)
    (ht : thr (h.ctors + m) = true) (k : Nat) :
    (rangeLoopT cfg thr own xs (some p) k h).SafeIf (Refuses cfg) fun q =>
      ∃ ns h1, vals ns = xs.take m ∧ ns.length = m ∧ q = ((true, some (lastOf p ns), k + m), rawNode cfg own h1) ∧ Built cfg own h p h1 ns ∧
        (m = 0 → h1 = h) ∧ (0 < m → h1.nxt (lastOf p ns) = none) ∧ h1.newBytes = h.newBytes + m * cfg.dsize ∧ h1.freeBytes = h.freeBytes := by
  induction xs generalizing h p m k with
  | nil => simp at hm
  | cons x xs ih =>
    simp only [rangeLoopT, Prog.bind_run, constructNodeT_eq]
    split
    · rename_i hr; exact ⟨_, _, hr⟩
    · cases m with
      | zero =>
        rw [Nat.add_zero] at ht
        rw [if_pos ht]
        exact ⟨[], h, rfl, rfl, rfl, Built.nil hb own p, fun _ => rfl, by simp, by simp, rfl⟩
      | succ m =>
        have h0 : thr h.ctors = false := hg 0 (by omega)
        simp only [h0, Bool.false_eq_true, if_false, Out.bind_ok, Prog.bind_run, setNext_run (mk_live (h := h) hp) (isElem_mk (h := h)).live]
        have s2 := step_link (d := cfg.dbl) (l := [p, h.next]) (a := p) (b := h.next) (bal_mk (cfg := cfg) (own := own) (x := x) hb)
          (by simp) (by simp)
        refine (ih (h := link cfg.dbl (newElem cfg own x h) p h.next) (p := h.next) (m := m) s2.bal isElem_mk.live
          (by simpa using hm) ?_ ?_ (k + 1)).imp ?_
        · intro j hj
          have := hg (j + 1) (by omega)
          rw [show (link cfg.dbl (newElem cfg own x h) p h.next).ctors = h.ctors + 1 from rfl, Nat.add_assoc, Nat.add_comm 1]
          exact this
        · rw [show (link cfg.dbl (newElem cfg own x h) p h.next).ctors = h.ctors + 1 from rfl, Nat.add_assoc, Nat.add_comm 1]
          exact ht
        · rintro q ⟨ns, h1, e1, e2, e3, bt, e0, e4, e5, e6⟩
          refine ⟨(h.next, x) :: ns, h1, by simp [e1], by simp [e2], ?_, bt.cons hb hp, by simp, ?_, ?_, ?_⟩
          · rw [e3]; simp [Nat.add_assoc, Nat.add_comm 1]
          · intro _
            rw [lastOf_cons]
            by_cases hz : 0 < m
            · exact e4 hz
            · obtain rfl : m = 0 := by omega
              obtain rfl : ns = [] := List.eq_nil_of_length_eq_zero e2
              rw [e0 rfl, lastOf_nil, link_nxt_ne (hb.ne_next hp).symm]
              simp [newElem]
          · rw [e5]; simp [newElem, link, Nat.succ_mul]; omega
          · rw [e6]; rfl

theorem RefIs.stable {r : Ref α} {l l' : List Nat} {k : Cost} (hr : RefIs cfg r x h) (s : Step h l h' l' k)
    (hl : ∀ a, Live h a → h'.info a = h.info a) : RefIs cfg r x h' := by
  cases r with
  | tmp y => exact hr
  | node p => obtain ⟨a, o, rfl, e⟩ := hr; exact ⟨a, o, rfl, by rw [IsElem, hl a e.live]; exact e⟩

theorem fillLoopT_eq {r : Ref α} (hb : Bal h) (hr : RefIs cfg r x h) (hp : Live h p) (n k : Nat) :
    (fillLoopT cfg thr own r n (some p) h) =
      (rangeLoopT cfg thr own (List.replicate n x) (some p) k h >>= fun q => .ok ((q.1.1, q.1.2.1), q.2)) := by
  induction n generalizing h p k with
  | zero => rfl
  | succ n ih =>
    rw [List.replicate_succ]
    simp only [fillLoopT, rangeLoopT, Prog.bind_run, hr.deref, Out.bind_ok, constructNodeT_eq]
    split
    · rfl
    · split
      · rfl
      · simp only [Out.bind_ok, Prog.bind_run, setNext_run (mk_live (h := h) hp) (isElem_mk (h := h)).live]
        have s2 := step_link (d := cfg.dbl) (l := [p, h.next]) (a := p) (b := h.next) (bal_mk (cfg := cfg) (own := own) (x := x) hb)
          (by simp) (by simp)
        exact ih s2.bal ((hr.mk hb).same rfl) isElem_mk.live (k + 1)

theorem copyLoopT_bad {o : Nat} (hb : Bal h) (hp : Live h p) (r : Rep cfg h hd tl (c1 ++ c2) own) (hpn : p ∉ nodes hd tl (c1 ++ c2))
    {m : Nat} (hm : m < c2.length) (hg : ∀ j < m, thr (h.ctors + j) = false) (ht : thr (h.ctors + m) = true) (n : Nat) :
    (copyLoopT cfg thr o (some tl) (some (headOf tl c2)) (some p) n h).SafeIf (Refuses cfg) fun q =>
      ∃ ns h1, ns.length = m ∧ q = ((true, some (lastOf p ns), n + m), rawNode cfg o h1) ∧ Built cfg o h p h1 ns ∧
        (∀ a ∈ addrs ns, h.next ≤ a) ∧ h1.newBytes = h.newBytes + m * cfg.dsize ∧ h1.freeBytes = h.freeBytes := by
  induction c2 generalizing h p c1 n m with
  | nil => simp at hm
  | cons c c2 ih =>
    have hne : some c.1 ≠ some tl := by simpa using r.head_ne_tl
    rw [copyLoopT]
    rw [headOf_cons, if_neg hne]
    simp only [Prog.bind_run, load_run (Rep.elem_at (a := c.1) (x := c.2) r), Out.bind_ok, constructNodeT_eq]
    split
    · rename_i hr; exact ⟨_, _, hr⟩
    · cases m with
      | zero =>
        rw [Nat.add_zero] at ht
        rw [if_pos ht]
        exact ⟨[], h, rfl, rfl, Built.nil hb o p, by simp, by simp, rfl⟩
      | succ m =>
        have h0 : thr h.ctors = false := hg 0 (by omega)
        have s1 := step_mk (cfg := cfg) (own := o) (x := c.2) hb
        have r1 := r.step s1 (by simp)
        simp only [h0, Bool.false_eq_true, if_false, Out.bind_ok, Prog.bind_run, r1.getNext_cell,
          setNext_run (mk_live (h := h) hp) (isElem_mk (h := h)).live]
        have hn : h.next ∉ nodes hd tl (c1 ++ c :: c2) := fun hm => r.live hm (hb.fresh _ (Nat.le_refl _))
        have s2 := step_link (d := cfg.dbl) (l := [p, h.next]) (a := p) (b := h.next) s1.bal (by simp) (by simp)
        have r2 := r1.step s2 (by
          intro a ha hm
          simp only [List.mem_cons, List.not_mem_nil, or_false] at hm
          rcases hm with rfl | rfl
          · exact hpn ha
          · exact hn ha)
        refine (ih (p := h.next) (c1 := c1 ++ [c]) (m := m) s2.bal isElem_mk.live (by simpa using r2) (by simpa using hn)
          (by simpa using hm) ?_ ?_ (n + 1)).imp ?_
        · intro j hj
          have := hg (j + 1) (by omega)
          rw [show (link cfg.dbl (newElem cfg o c.2 h) p h.next).ctors = h.ctors + 1 from rfl, Nat.add_assoc, Nat.add_comm 1]
          exact this
        · rw [show (link cfg.dbl (newElem cfg o c.2 h) p h.next).ctors = h.ctors + 1 from rfl, Nat.add_assoc, Nat.add_comm 1]
          exact ht
        · rintro q ⟨ns, h1, e2, e3, bt, e4, e5, e6⟩
          refine ⟨(h.next, c.2) :: ns, h1, by simp [e2], ?_, bt.cons hb hp, ?_, ?_, ?_⟩
          · rw [e3]; simp [Nat.add_assoc, Nat.add_comm 1]
          · intro a ha
            rcases List.mem_cons.1 ha with rfl | ha
            · exact Nat.le_refl _
            · have : h.next + 1 ≤ a := e4 a ha
              omega
          · rw [e5]; simp [newElem, link, Nat.succ_mul]; omega
          · rw [e6]; rfl

/-! ### A chain that ends in a node whose `next` was never set -/

/-- the nodes `l`, each followed by the next one, the last followed by nothing defined -/
def Dang (h : Heap α) : List Nat → Prop
  | [] => False
  | [a] => h.nxt a = none
  | a :: b :: l => h.nxt a = some (some b) ∧ Dang h (b :: l)

theorem Dang.congr {l : List Nat} (d : Dang h l) (hn : ∀ a ∈ l, h'.nxt a = h.nxt a) : Dang h' l := by
  induction l with
  | nil => exact d.elim
  | cons a l ih =>
    cases l with
    | nil => simp only [Dang] at d ⊢; rw [hn a (by simp)]; exact d
    | cons b l => exact ⟨by rw [hn a (by simp)]; exact d.1, ih d.2 fun c hc => hn c (List.mem_cons_of_mem _ hc)⟩

theorem dang_of_chain {dbl : Bool} {l : List Nat} {z : Nat} (hc : Chain dbl h (l ++ [z])) (hn : ∀ a ∈ l, h'.nxt a = h.nxt a)
    (hz : h'.nxt z = none) : Dang h' (l ++ [z]) := by
  induction l with
  | nil => exact hz
  | cons a l ih =>
    have ih := ih hc.tail fun c hc => hn c (List.mem_cons_of_mem _ hc)
    cases l with
    | nil =>
      refine ⟨?_, ih⟩
      rw [hn a (by simp)]
      rw [List.cons_append, List.nil_append, Chain, List.isChain_cons_cons] at hc
      exact hc.1.1
    | cons b l =>
      refine ⟨?_, ih⟩
      rw [hn a (by simp)]
      rw [List.cons_append, List.cons_append, Chain, List.isChain_cons_cons] at hc
      exact hc.1.1

theorem getNext_ub {a : Nat} (hn : h.nxt a = none) : getNext (some a) h = .ub := by
  cases hi : h.info a <;> simp [getNext, withNode, hi, hn]

theorem getNext_cases {a : Nat} {q : Ptr} (hn : h.nxt a = some q) : getNext (some a) h = .ub ∨ getNext (some a) h = .ok (q, h) := by
  cases hi : h.info a <;> simp [getNext, withNode, hi, hn]

theorem load_cases (p : Ptr) : load p h = .ub ∨ ∃ x, load p h = .ok (x, h) := by
  cases p with
  | none => exact .inl rfl
  | some a =>
    cases hi : h.info a with
    | none => simp [load, withNode, hi]
    | some i => obtain ⟨_, _, d⟩ := i; cases d <;> simp [load, withNode, hi]

theorem destroyNode_cases (p : Ptr) : destroyNode cfg own p h = .ub ∨ ∃ h', destroyNode cfg own p h = .ok ((), h') ∧ h'.nxt = h.nxt := by
  cases p with
  | none => exact .inl rfl
  | some a =>
    cases hi : h.info a with
    | none => simp [destroyNode, dataNull, withNode, Prog.bind_run, hi]
    | some i =>
      obtain ⟨o, n, d⟩ := i
      cases d with
      | null => by_cases hc : o = own ∧ n = cfg.vsize <;> simp [destroyNode, dataNull, freeNode, withNode, Prog.bind_run, hi, hc]
      | raw => simp [destroyNode, dataNull, destroyData, withNode, Prog.bind_run, hi]
      | live x => by_cases hc : o = own ∧ n = cfg.dsize <;> simp [destroyNode, dataNull, destroyData, freeNode, withNode, Prog.bind_run, hi, hc]

theorem walk_dang {l : List Nat} {a : Nat} (d : Dang h (a :: l)) (ht : tl ∉ a :: l) (acc : List α) : walk (some tl) (some a) acc h = .ub := by
  induction l generalizing a acc with
  | nil =>
    rw [walk, if_neg (by simp at ht ⊢; exact fun e => ht e.symm)]
    simp only [Prog.bind_run]
    rcases load_cases (h := h) (some a) with e | ⟨x, e⟩ <;> rw [e]
    · rfl
    · simp only [Out.bind_ok]; rw [getNext_ub d]; rfl
  | cons b l ih =>
    rw [walk, if_neg (by simp at ht ⊢; exact fun e => ht.1 e.symm)]
    simp only [Prog.bind_run]
    rcases load_cases (h := h) (some a) with e | ⟨x, e⟩ <;> rw [e]
    · rfl
    · simp only [Out.bind_ok]
      rcases getNext_cases d.1 with e | e <;> rw [e]
      · rfl
      · exact ih d.2 (fun hm => ht (List.mem_cons_of_mem _ hm)) _

theorem destroyLoop_dang {l : List Nat} {a : Nat} (d : Dang h (a :: l)) (ht : tl ∉ a :: l) : destroyLoop cfg own (some tl) (some a) h = .ub := by
  induction l generalizing a h with
  | nil =>
    rw [destroyLoop, if_neg (by simp at ht ⊢; exact fun e => ht e.symm)]
    simp only [Prog.bind_run]
    rw [getNext_ub d]; rfl
  | cons b l ih =>
    rw [destroyLoop, if_neg (by simp at ht ⊢; exact fun e => ht.1 e.symm)]
    simp only [Prog.bind_run]
    rcases getNext_cases d.1 with e | e <;> rw [e]
    · rfl
    · simp only [Out.bind_ok]
      rcases destroyNode_cases (cfg := cfg) (own := own) (h := h) (some a) with e | ⟨h', e, hn⟩ <;> rw [e]
      · rfl
      · exact ih (d.2.congr fun c _ => by rw [hn]) (fun hm => ht (List.mem_cons_of_mem _ hm))

/-- a list whose chain does not reach its end can neither be traversed nor destroyed -/
theorem broken {l : List Nat} {len a : Nat} (d : Dang h (hd :: l)) (hl : l ≠ []) (ht : tl ∉ l) :
    traverse ⟨some hd, some tl, len, a⟩ h = .ub ∧ destruct cfg ⟨some hd, some tl, len, a⟩ h = .ub := by
  cases l with
  | nil => exact absurd rfl hl
  | cons b l =>
    constructor
    · simp only [traverse, Prog.bind_run]
      rcases getNext_cases d.1 with e | e <;> rw [e]
      · rfl
      · exact walk_dang d.2 ht []
    · simp only [destruct, clear, Prog.bind_run]
      rw [if_neg (by simp)]
      simp only [Prog.bind_run]
      rcases getNext_cases d.1 with e | e <;> rw [e]
      · rfl
      · simp only [Out.bind_ok]; rw [destroyLoop_dang d.2 ht]; rfl

/-- new nodes hung into a list, not yet linked to its rest -/
theorem Rep.dang (hb : Bal h) (r : Rep cfg h hd tl (c1 ++ c2) own) (bt : Built cfg own h (lastOf hd c1) h' ns) (hns : ns ≠ [])
    (hl : h'.nxt (lastOf (lastOf hd c1) ns) = none) (o : Nat) :
    Dang (rawNode cfg o h') (hd :: (addrs c1 ++ addrs ns)) ∧ addrs c1 ++ addrs ns ≠ [] ∧ tl ∉ addrs c1 ++ addrs ns := by
  have ed := Rep.insert hb r bt
  have hnd := ed.rep.nodup
  have hch := ed.rep.chain
  have e : nodes hd tl (c1 ++ (ns ++ c2)) = (hd :: addrs (c1 ++ ns)) ++ (addrs c2 ++ [tl]) := by rw [← List.append_assoc, nodes_append]
  rw [e] at hnd hch
  obtain ⟨l, hl2⟩ := lastOf_split hd (c1 ++ ns)
  have hch1 : Chain cfg.dbl (link cfg.dbl h' (lastOf (lastOf hd c1) ns) (headOf tl c2)) (l ++ [lastOf hd (c1 ++ ns)]) := by
    rw [← hl2]; exact hch.left_of_append
  have hnd1 : (l ++ [lastOf hd (c1 ++ ns)]).Nodup := by rw [← hl2]; exact (List.nodup_append.1 hnd).1
  have hz : lastOf hd (c1 ++ ns) ∉ l := by
    intro hm
    exact (List.nodup_append.1 hnd1).2.2 _ hm _ (by simp) rfl
  have d1 : Dang h' (l ++ [lastOf hd (c1 ++ ns)]) := by
    refine dang_of_chain hch1 (fun a ha => ?_) (by rw [lastOf_append]; exact hl)
    rw [link_nxt_ne]
    rintro rfl
    rw [lastOf_append] at hz
    exact hz ha
  rw [← hl2, show addrs (c1 ++ ns) = addrs c1 ++ addrs ns by simp [addrs]] at d1
  have hlive : ∀ a ∈ hd :: (addrs c1 ++ addrs ns), Live h' a := by
    intro a ha
    have : a ∈ nodes hd tl (c1 ++ (ns ++ c2)) := by
      rw [e, show addrs (c1 ++ ns) = addrs c1 ++ addrs ns by simp [addrs]]
      exact List.mem_append_left _ ha
    exact (ed.rep.live this : Live _ a)
  refine ⟨d1.congr fun a ha => rawNode_nxt_ne (bt.step.bal.ne_next (hlive a ha)), ?_, ?_⟩
  · cases ns with
    | nil => exact absurd rfl hns
    | cons c ns => simp
  · intro hm
    refine (List.nodup_append.1 hnd).2.2 tl ?_ tl (by simp) rfl
    rw [show addrs (c1 ++ ns) = addrs c1 ++ addrs ns by simp [addrs]]
    exact List.mem_cons_of_mem _ hm

/-- the nodes written when some nodes were built after `p` and one was left without element -/
theorem Built.touch {l : List Nat} (bt : Built cfg own h p h' ns) (hp : p ∈ l) (o : Nat) : ∃ l' k, Step h l (rawNode cfg o h') l' k := by
  have s1 : Step h l h' ((p :: addrs ns) ++ l) _ := (bt.step.more l).congr (by intro a; simp; rintro rfl; exact hp) fun _ => Iff.rfl
  exact ⟨_, _, s1.trans ((step_rawNode bt.step.bal).more _)⟩

/-! ### Members during which a constructor throws -/

theorem insertAfterRangeT_bad (hb : Bal h) (r : Rep cfg h hd tl (c1 ++ c2) own) {xs : List α} {m : Nat} (h0 : 0 < m) (hm : m < xs.length)
    (hg : ∀ j < m, thr (h.ctors + j) = false) (ht : thr (h.ctors + m) = true) :
    (insertAfterRangeT cfg thr (lst hd tl (c1 ++ c2) own) (some (lastOf hd c1)) xs h).SafeIf (Refuses cfg) fun q =>
      q.1.1 = true ∧ traverse q.1.2 q.2 = .ub ∧ destruct cfg q.1.2 q.2 = .ub ∧
        ∃ l' k, Step h (nodes hd tl (c1 ++ c2)) q.2 l' k := by
  simp only [insertAfterRangeT, Prog.bind_run]
  rw [dbgAssert_run (by simpa [lst] using r.tl_not_before)]
  simp only [Out.bind_ok]
  rw [if_neg (by intro e; rw [List.isEmpty_iff] at e; subst e; simp at hm)]
  simp only [Prog.bind_run, r.getNext_at, Out.bind_ok, lst]
  refine (rangeLoopT_bad hb r.live_lastOf hm hg ht 0).bind ?_
  rintro _ ⟨ns, h1, -, e2, rfl, bt, -, e4, -, -⟩
  have hns : ns ≠ [] := by rintro rfl; simp at e2; omega
  obtain ⟨d, d1, d2⟩ := r.dang hb bt hns (e4 h0) own
  obtain ⟨b1, b2⟩ := broken d d1 d2
  exact ⟨rfl, b1, b2, bt.touch (by rw [nodes_append]; exact List.mem_append_left _ (lastOf_mem _ _)) own⟩

theorem insertAfterFillT_bad (hb : Bal h) (r : Rep cfg h hd tl (c1 ++ c2) own) {ref : Ref α} (hr : RefIs cfg ref x h) {n m : Nat} (h0 : 0 < m)
    (hm : m < n) (hg : ∀ j < m, thr (h.ctors + j) = false) (ht : thr (h.ctors + m) = true) :
    (insertAfterFillT cfg thr (lst hd tl (c1 ++ c2) own) (some (lastOf hd c1)) n ref h).SafeIf (Refuses cfg) fun q =>
      q.1.1 = true ∧ traverse q.1.2 q.2 = .ub ∧ destruct cfg q.1.2 q.2 = .ub ∧
        ∃ l' k, Step h (nodes hd tl (c1 ++ c2)) q.2 l' k := by
  simp only [insertAfterFillT, Prog.bind_run]
  rw [dbgAssert_run (by simpa [lst] using r.tl_not_before)]
  simp only [Out.bind_ok]
  rw [if_neg (by omega)]
  simp only [Prog.bind_run, r.getNext_at, Out.bind_ok, lst]
  rw [fillLoopT_eq hb hr r.live_lastOf n 0, out_assoc]
  refine (rangeLoopT_bad hb r.live_lastOf (xs := List.replicate n x) (by simpa using hm) hg ht 0).bind ?_
  rintro _ ⟨ns, h1, -, e2, rfl, bt, -, e4, -, -⟩
  have hns : ns ≠ [] := by rintro rfl; simp at e2; omega
  obtain ⟨d, d1, d2⟩ := r.dang hb bt hns (e4 h0) own
  obtain ⟨b1, b2⟩ := broken d d1 d2
  exact ⟨rfl, b1, b2, bt.touch (by rw [nodes_append]; exact List.mem_append_left _ (lastOf_mem _ _)) own⟩

theorem insertRangeT_bad (hb : Bal h) (r : Rep cfg h hd tl (c1 ++ c2) own) (hd2 : cfg.dbl = true) {xs : List α} {m : Nat} (h0 : 0 < m)
    (hm : m < xs.length) (hg : ∀ j < m, thr (h.ctors + j) = false) (ht : thr (h.ctors + m) = true) :
    (insertRangeT cfg thr (lst hd tl (c1 ++ c2) own) (some (headOf tl c2)) xs h).SafeIf (Refuses cfg) fun q =>
      q.1.1 = true ∧ traverse q.1.2 q.2 = .ub ∧ destruct cfg q.1.2 q.2 = .ub ∧
        ∃ l' k, Step h (nodes hd tl (c1 ++ c2)) q.2 l' k := by
  simp only [insertRangeT]
  rw [if_neg (by intro e; rw [List.isEmpty_iff] at e; subst e; simp at hm)]
  simp only [Prog.bind_run, r.getPrev_at hd2, Out.bind_ok, lst]
  refine (rangeLoopT_bad hb r.live_lastOf hm hg ht 0).bind ?_
  rintro _ ⟨ns, h1, -, e2, rfl, bt, -, e4, -, -⟩
  have hns : ns ≠ [] := by rintro rfl; simp at e2; omega
  obtain ⟨d, d1, d2⟩ := r.dang hb bt hns (e4 h0) own
  obtain ⟨b1, b2⟩ := broken d d1 d2
  exact ⟨rfl, b1, b2, bt.touch (by rw [nodes_append]; exact List.mem_append_left _ (lastOf_mem _ _)) own⟩

theorem listAssignT_bad (hb : Bal h) (r : Rep cfg h hd tl cs own) {xs : List α} {m : Nat} (h0 : 0 < m) (hm : m < xs.length)
    (hg : ∀ j < m, thr (h.ctors + j) = false) (ht : thr (h.ctors + m) = true) :
    (listAssignT cfg thr (lst hd tl cs own) xs h).SafeIf (Refuses cfg) fun q =>
      q.1.1 = true ∧ traverse q.1.2 q.2 = .ub ∧ destruct cfg q.1.2 q.2 = .ub ∧
        ∃ l' k, Step h (nodes hd tl cs) q.2 l' k := by
  obtain ⟨h1, e1, ed⟩ := clear_ok hb r
  have r1 : Rep cfg h1 hd tl ([] ++ []) own := ed.rep
  simp only [listAssignT, Prog.bind_run, e1, Out.bind_ok]
  simp only [lst]
  have hc : h1.ctors = h.ctors := ed.step.ctors
  refine Out.SafeIf.bind (rangeLoopT_bad (cfg := cfg) (own := own) ed.bal ed.rep.vhd.live hm (by rw [hc]; exact hg) (by rw [hc]; exact ht) 0) ?_
  rintro _ ⟨ns, h2, -, e2, rfl, bt, -, e4, -, -⟩
  have hns : ns ≠ [] := by rintro rfl; simp at e2; omega
  obtain ⟨d, d1, d2⟩ := r1.dang ed.bal bt hns (e4 h0) own
  obtain ⟨b1, b2⟩ := broken d d1 d2
  obtain ⟨l', k, t⟩ := bt.touch (l := nodes hd tl []) (by simp [nodes]) own
  exact ⟨rfl, b1, b2, _, _, ed.step.trans t⟩

theorem emplaceAfterT_bad (r : Rep cfg h hd tl (c1 ++ c2) own) {ref : Ref α} (hr : RefIs cfg ref x h) (ht : thr h.ctors = true) :
    (emplaceAfterT cfg thr (lst hd tl (c1 ++ c2) own) (some (lastOf hd c1)) ref h).SafeIf (Refuses cfg) fun q =>
      q = ((true, lst hd tl (c1 ++ c2) own), rawNode cfg own h) := by
  simp only [emplaceAfterT, Prog.bind_run]
  rw [dbgAssert_run (by simpa [lst] using r.tl_not_before)]
  simp only [Out.bind_ok, hr.deref, constructNodeT_eq, ht, if_true]
  split
  · rename_i hr; exact ⟨_, _, hr⟩
  · rfl

theorem emplaceT_bad (r : Rep cfg h hd tl (c1 ++ c2) own) {ref : Ref α} (hr : RefIs cfg ref x h) (ht : thr h.ctors = true) :
    (emplaceT cfg thr (lst hd tl (c1 ++ c2) own) (some (headOf tl c2)) ref h).SafeIf (Refuses cfg) fun q =>
      q = ((true, lst hd tl (c1 ++ c2) own), rawNode cfg own h) := by
  simp only [emplaceT, Prog.bind_run]
  rw [dbgAssert_run (by simpa [lst] using r.hd_not_after)]
  simp only [Out.bind_ok, hr.deref, constructNodeT_eq, ht, if_true]
  split
  · rename_i hr; exact ⟨_, _, hr⟩
  · rfl

theorem newRangeT_bad (hb : Bal h) {xs : List α} {m : Nat} (hm : m < xs.length) (hg : ∀ j < m, thr (h.ctors + j) = false)
    (ht : thr (h.ctors + m) = true) (a : Nat) :
    (newRangeT cfg thr xs a h).SafeIf (Refuses cfg) fun q =>
      q.1 = none ∧ q.2.ctors = h.ctors + m ∧ q.2.dtors = h.dtors ∧ q.2.newBytes = h.newBytes + 2 * cfg.vsize + (m + 1) * cfg.dsize ∧
        q.2.freeBytes = h.freeBytes ∧ (∀ b, Live h b → q.2.info b = h.info b) ∧ ∃ l' k, Step h [] q.2 l' k := by
  unfold newRangeT
  rw [if_neg (by intro e; rw [List.isEmpty_iff] at e; subst e; simp at hm)]
  refine virtuals_ok hb a ?_
  obtain ⟨s, v1, v2, p1, n2⟩ := two_virtuals (cfg := cfg) hb a
  simp only [Prog.bind_run]
  refine (rangeLoopT_bad (own := a) s.bal v1.live hm hg ht 0).bind ?_
  rintro _ ⟨ns, h1, -, e2, rfl, bt, -, -, e5, e6⟩
  have hc : h1.ctors = h.ctors + m := by rw [bt.step.ctors, ← e2]; rfl
  have st : ∃ l' k, Step h [] (rawNode cfg a h1) l' k := by
    obtain ⟨l', k, t⟩ := bt.touch (l := [h.next, h.next + 1]) (by simp) a
    exact ⟨_, _, s.trans t⟩
  refine ⟨rfl, hc, bt.step.dtors, ?_, e6, ?_, st⟩
  · show h1.newBytes + cfg.dsize = _
    have hv : (mkVirt cfg a (mkVirt cfg a h)).newBytes = h.newBytes + cfg.vsize + cfg.vsize := rfl
    rw [e5, hv, Nat.add_mul m 1]
    omega
  · intro b hb'
    have l1 := s.live (by simp) hb'
    have hbn : b ∉ [h.next] := by
      intro hm; simp at hm; exact hb.ne_next hb' hm
    have l2 := bt.step.live hbn l1.2.1
    simp only
    rw [rawNode_info_ne (bt.step.bal.ne_next l2.2.1), l2.2.2, l1.2.2]

theorem getNext_dead {a : Nat} (hi : h.info a = none) : getNext (some a) h = .ub := by simp [getNext, withNode, hi]

theorem copyAssignT_bad {hd' tl' own' : Nat} {cs' : Cells α} (hb : Bal h) (r : Rep cfg h hd tl cs own) (r' : Rep cfg h hd' tl' cs' own')
    (hsep : ∀ a ∈ nodes hd tl cs, a ∉ nodes hd' tl' cs') {m : Nat} (hm : m < cs'.length) (hg : ∀ j < m, thr (h.ctors + j) = false)
    (ht : thr (h.ctors + m) = true) :
    (copyAssignT cfg thr (lst hd tl cs own) (lst hd' tl' cs' own') h).SafeIf (Refuses cfg) fun q =>
      q.1 = (true, ⟨some hd, some tl, m, own'⟩) ∧ traverse q.1.2 q.2 = .ub ∧ destruct cfg q.1.2 q.2 = .ub ∧
        ∃ l' k, Step h (nodes hd tl cs) q.2 l' k := by
  obtain ⟨h1, e1, s1⟩ := destruct_ok hb r
  have r1 := r'.step s1 (fun a ha hm => hsep a hm ha)
  simp only [copyAssignT, Prog.bind_run, e1, Out.bind_ok, copyImplT]
  rw [dbgAssert_run (by simp [lst])]
  simp only [Out.bind_ok]
  rw [if_neg (by simp only [lst]; omega)]
  rw [Prog.bind_run, show (lst hd' tl' cs' own').head = some hd' from rfl, r1.getNext_hd]
  simp only [Out.bind_ok]
  refine virtuals_ok s1.bal own' ?_
  obtain ⟨s, v1, v2, p1, n2⟩ := two_virtuals (cfg := cfg) s1.bal own'
  have r2 := r1.step s (by simp)
  simp only [Prog.bind_run, lst]
  have hpn : h1.next ∉ nodes hd' tl' ([] ++ cs') := fun hm => r1.live hm (s1.bal.fresh _ (Nat.le_refl _))
  have hc : h1.ctors = h.ctors := s1.ctors
  refine (copyLoopT_bad (o := own') (c1 := []) (c2 := cs') (m := m) s.bal v1.live r2 hpn hm ?_ ?_ 0).bind ?_
  · intro j hj; exact (congrArg (fun c => thr (c + j)) hc).trans (hg j hj)
  · exact (congrArg (fun c => thr (c + m)) hc).trans ht
  rintro _ ⟨ns, h2, e2, rfl, bt, e3, -, -⟩
  have hdead : (rawNode cfg own' h2).info hd = none := by
    have d1 : h1.info hd = none := s1.gone hd (by simp [nodes]) (by simp)
    have hlt : hd < h1.next := by rw [s1.allocs]; exact hb.lt r.vhd.live
    have d2 : (mkVirt cfg own' (mkVirt cfg own' h1)).info hd = none := by
      rw [s.frame hd (by simp) (by simp; omega)]; exact d1
    have hlt2 : (mkVirt cfg own' (mkVirt cfg own' h1)).next = h1.next + 2 := rfl
    have hns : hd ∉ addrs ns := by
      intro hm
      have := e3 hd hm
      omega
    rw [rawNode_info_ne, bt.step.frame hd (by simp; omega) (by simp only [List.mem_cons, not_or]; exact ⟨by omega, hns⟩)]
    · exact d2
    · have := bt.step.allocs
      omega
  have st : ∃ l' k, Step h (nodes hd tl cs) (rawNode cfg own' h2) l' k := by
    obtain ⟨l', k, t⟩ := bt.touch (l := [h1.next, h1.next + 1]) (by simp) own'
    exact ⟨_, _, (s1.trans s).trans t⟩
  refine ⟨by simp, ?_, ?_, st⟩
  · simp only [traverse, Prog.bind_run]; simp [getNext_dead hdead]
  · simp only [destruct, clear]
    rw [if_neg (by simp)]
    simp only [Prog.bind_run]; simp [getNext_dead hdead]

/-! ### No constructor throws -/

/-- the same outcome, the result passed through `f` -/
def mapO {β γ σ : Type} (f : β → γ) (x : Out (β × σ)) : Out (γ × σ) := x >>= fun q => .ok (f q.1, q.2)

theorem constructNodeT_quiet (hno : ∀ k, thr k = false) (o : Nat) (x : α) (h : Heap α) :
    constructNodeT cfg thr o x h = mapO some (constructNode cfg o x h) := by
  rw [constructNodeT_eq, constructNode_eq, hno]
  split <;> simp [mapO]

theorem rangeLoopT_quiet (hno : ∀ k, thr k = false) (o : Nat) (xs : List α) (p : Ptr) (k : Nat) (h : Heap α) :
    rangeLoopT cfg thr o xs p k h = mapO (fun q => (false, q, k + xs.length)) (rangeLoop cfg o xs p h) := by
  induction xs generalizing p k h with
  | nil => rfl
  | cons x xs ih =>
    simp only [rangeLoopT, rangeLoop, Prog.bind_run, constructNodeT_quiet hno, mapO, out_assoc, Out.bind_ok]
    congr 1; funext b
    simp only [Prog.bind_run, ih, mapO]
    congr 1; funext c
    congr 1; funext d
    simp only [List.length_cons]
    rw [Nat.add_right_comm, Nat.add_assoc]

theorem fillLoopT_quiet (hno : ∀ k, thr k = false) (o : Nat) (r : Ref α) (n : Nat) (p : Ptr) (h : Heap α) :
    fillLoopT cfg thr o r n p h = mapO (fun q => (false, q)) (fillLoop cfg o r n p h) := by
  induction n generalizing p h with
  | zero => rfl
  | succ n ih =>
    simp only [fillLoopT, fillLoop, Prog.bind_run, constructNodeT_quiet hno, mapO, out_assoc, Out.bind_ok]
    congr 1; funext a
    congr 1; funext b
    simp only [Prog.bind_run, ih, mapO]

theorem newRangeT_quiet (hno : ∀ k, thr k = false) (xs : List α) (a : Nat) (h : Heap α) :
    newRangeT cfg thr xs a h = mapO some (newRange cfg xs a h) := by
  unfold newRangeT newRange
  split
  · rfl
  · simp only [Prog.bind_run, rangeLoopT_quiet hno, mapO, out_assoc, Out.bind_ok, Bool.false_eq_true, if_false, Prog.pure_run]

theorem listAssignT_quiet (hno : ∀ k, thr k = false) (l : Lst) (xs : List α) (h : Heap α) :
    listAssignT cfg thr l xs h = mapO (fun q => (false, q)) (listAssign cfg l xs h) := by
  simp only [listAssignT, listAssign, Prog.bind_run, rangeLoopT_quiet hno, mapO, out_assoc, Out.bind_ok, Bool.false_eq_true, if_false,
    Prog.pure_run]

theorem emplaceAfterT_quiet (hno : ∀ k, thr k = false) (l : Lst) (p : Ptr) (r : Ref α) (h : Heap α) :
    emplaceAfterT cfg thr l p r h = mapO (fun q => (false, q.1)) (emplaceAfter cfg l p r h) := by
  simp only [emplaceAfterT, emplaceAfter, Prog.bind_run, constructNodeT_quiet hno, mapO, out_assoc, Out.bind_ok, Prog.pure_run]

theorem emplaceT_quiet (hno : ∀ k, thr k = false) (l : Lst) (p : Ptr) (r : Ref α) (h : Heap α) :
    emplaceT cfg thr l p r h = mapO (fun q => (false, q.1)) (emplace cfg l p r h) := by
  simp only [emplaceT, emplace, Prog.bind_run, constructNodeT_quiet hno, mapO, out_assoc, Out.bind_ok, Prog.pure_run]

theorem pushFrontT_quiet (hno : ∀ k, thr k = false) (l : Lst) (r : Ref α) (h : Heap α) :
    pushFrontT cfg thr l r h = pushFront cfg l r h := by
  simp only [pushFrontT, pushFront, Prog.bind_run, constructNodeT_quiet hno, mapO, out_assoc, Out.bind_ok, Prog.pure_run]

theorem pushBackT_quiet (hno : ∀ k, thr k = false) (l : Lst) (r : Ref α) (h : Heap α) :
    pushBackT cfg thr l r h = pushBack cfg l r h := by
  simp only [pushBackT, pushBack, Prog.bind_run, constructNodeT_quiet hno, mapO, out_assoc, Out.bind_ok, Prog.pure_run]

theorem insertAfterRangeT_quiet (hno : ∀ k, thr k = false) (l : Lst) (p : Ptr) (xs : List α) (h : Heap α) :
    insertAfterRangeT cfg thr l p xs h = mapO (fun q => (false, q.1)) (insertAfterRange cfg l p xs h) := by
  simp only [insertAfterRangeT, insertAfterRange, Prog.bind_run, mapO, out_assoc]
  congr 1; funext b
  split
  · rfl
  · simp only [Prog.bind_run, rangeLoopT_quiet hno, mapO, out_assoc, Out.bind_ok, Bool.false_eq_true, if_false, Prog.pure_run]

theorem insertAfterFillT_quiet (hno : ∀ k, thr k = false) (l : Lst) (p : Ptr) (n : Nat) (r : Ref α) (h : Heap α) :
    insertAfterFillT cfg thr l p n r h = mapO (fun q => (false, q.1)) (insertAfterFill cfg l p n r h) := by
  simp only [insertAfterFillT, insertAfterFill, Prog.bind_run, mapO, out_assoc]
  congr 1; funext b
  split
  · rfl
  · simp only [Prog.bind_run, fillLoopT_quiet hno, mapO, out_assoc, Out.bind_ok, Bool.false_eq_true, if_false, Prog.pure_run]

theorem insertFillT_quiet (hno : ∀ k, thr k = false) (l : Lst) (p : Ptr) (n : Nat) (r : Ref α) (h : Heap α) :
    insertFillT cfg thr l p n r h = mapO (fun q => (false, q.1)) (insertFill cfg l p n r h) := by
  simp only [insertFillT, insertFill, Prog.bind_run, mapO, out_assoc]
  congr 1; funext b
  split
  · rfl
  · simp only [Prog.bind_run, fillLoopT_quiet hno, mapO, out_assoc, Out.bind_ok, Bool.false_eq_true, if_false, Prog.pure_run]

theorem insertRangeT_quiet (hno : ∀ k, thr k = false) (l : Lst) (p : Ptr) (xs : List α) (h : Heap α) :
    insertRangeT cfg thr l p xs h = mapO (fun q => (false, q.1)) (insertRange cfg l p xs h) := by
  simp only [insertRangeT, insertRange]
  split
  · rfl
  · simp only [Prog.bind_run, rangeLoopT_quiet hno, mapO, out_assoc, Out.bind_ok, Bool.false_eq_true, if_false, Prog.pure_run]

/-- `q` is `p` with a flag that nothing was thrown, or `q` does not end -/
def QD (p : M α (Ptr × Nat)) (q : M α (Bool × Ptr × Nat)) : Prop := ∀ s, q s = .div ∨ q s = mapO (fun r => (false, r)) (p s)
def QE (p : M α (Ptr × Nat)) (q : M α (Bool × Ptr × Nat)) : Prop := ∀ s, p s = .div ∨ q s = mapO (fun r => (false, r)) (p s)

theorem QD.adm (p : M α (Ptr × Nat)) : Lean.Order.admissible fun q => QD p q := by
  refine Lean.Order.admissible_pi_apply (β := fun _ : Heap α => Out ((Bool × Ptr × Nat) × Heap α))
    (fun s (o : Out ((Bool × Ptr × Nat) × Heap α)) => o = .div ∨ o = mapO (fun r => (false, r)) (p s)) fun s => ?_
  exact Lean.Order.admissible_flatOrder (b := (Out.div : Out ((Bool × Ptr × Nat) × Heap α)))
    (fun o => o = (Out.div : Out ((Bool × Ptr × Nat) × Heap α)) ∨ o = mapO (fun r => (false, r)) (p s)) (.inl rfl)

theorem QE.adm (q : M α (Bool × Ptr × Nat)) : Lean.Order.admissible fun p => QE p q := by
  refine Lean.Order.admissible_pi_apply (β := fun _ : Heap α => Out ((Ptr × Nat) × Heap α))
    (fun s (o : Out ((Ptr × Nat) × Heap α)) => o = .div ∨ q s = mapO (fun r => (false, r)) o) fun s => ?_
  exact Lean.Order.admissible_flatOrder (b := (Out.div : Out ((Ptr × Nat) × Heap α)))
    (fun o => o = (Out.div : Out ((Ptr × Nat) × Heap α)) ∨ q s = mapO (fun r => (false, r)) o) (.inl rfl)

theorem QD.bind {δ : Type} {x : M α δ} {f : δ → M α (Ptr × Nat)} {g : δ → M α (Bool × Ptr × Nat)} (h : ∀ b, QD (f b) (g b)) :
    QD (x >>= f) (x >>= g) := by
  intro s
  simp only [Prog.bind_run]
  cases x s with
  | ok b => exact h b.1 b.2
  | div => exact .inl rfl
  | _ => exact .inr rfl

theorem QE.bind {δ : Type} {x : M α δ} {f : δ → M α (Ptr × Nat)} {g : δ → M α (Bool × Ptr × Nat)} (h : ∀ b, QE (f b) (g b)) :
    QE (x >>= f) (x >>= g) := by
  intro s
  simp only [Prog.bind_run]
  cases x s with
  | ok b => exact h b.1 b.2
  | div => exact .inl rfl
  | _ => exact .inr rfl

theorem QD.node (hno : ∀ k, thr k = false) {o : Nat} {x : α} {f : Ptr → M α (Ptr × Nat)} {g : Option Ptr → M α (Bool × Ptr × Nat)}
    (h : ∀ b, QD (f b) (g (some b))) : QD (constructNode cfg o x >>= f) (constructNodeT cfg thr o x >>= g) := by
  intro s
  simp only [Prog.bind_run, constructNodeT_quiet hno, mapO, out_assoc, Out.bind_ok]
  cases constructNode cfg o x s with
  | ok b => exact h b.1 b.2
  | div => exact .inl rfl
  | _ => exact .inr rfl

theorem QE.node (hno : ∀ k, thr k = false) {o : Nat} {x : α} {f : Ptr → M α (Ptr × Nat)} {g : Option Ptr → M α (Bool × Ptr × Nat)}
    (h : ∀ b, QE (f b) (g (some b))) : QE (constructNode cfg o x >>= f) (constructNodeT cfg thr o x >>= g) := by
  intro s
  simp only [Prog.bind_run, constructNodeT_quiet hno, mapO, out_assoc, Out.bind_ok]
  cases constructNode cfg o x s with
  | ok b => exact h b.1 b.2
  | div => exact .inl rfl
  | _ => exact .inr rfl

theorem copyLoopT_quiet (hno : ∀ k, thr k = false) (o : Nat) (stop rp p : Ptr) (n : Nat) (h : Heap α) :
    copyLoopT cfg thr o stop rp p n h = mapO (fun r => (false, r)) (copyLoop cfg o stop rp p n h) := by
  have hD : ∀ rp p n, QD (copyLoop cfg o stop rp p n) (copyLoopT cfg thr o stop rp p n) := by
    refine copyLoopT.fixpoint_induct cfg thr o stop (fun f => ∀ rp p n, QD (copyLoop cfg o stop rp p n) (f rp p n)) ?_ ?_
    · exact Lean.Order.admissible_pi_apply (fun rp (g : Ptr → Nat → M α (Bool × Ptr × Nat)) => ∀ p n, QD (copyLoop cfg o stop rp p n) (g p n))
        fun rp => Lean.Order.admissible_pi_apply (fun p (g : Nat → M α (Bool × Ptr × Nat)) => ∀ n, QD (copyLoop cfg o stop rp p n) (g n))
        fun p => Lean.Order.admissible_pi_apply (fun n (g : M α (Bool × Ptr × Nat)) => QD (copyLoop cfg o stop rp p n) g)
        fun n => QD.adm _
    · intro f ih rp p n
      dsimp only
      rw [copyLoop]
      split
      · exact fun _ => .inr rfl
      · exact QD.bind fun _ => QD.node hno fun _ => QD.bind fun _ => QD.bind fun _ => ih _ _ _
  have hE : ∀ rp p n, QE (copyLoop cfg o stop rp p n) (copyLoopT cfg thr o stop rp p n) := by
    refine copyLoop.fixpoint_induct cfg o stop (fun f => ∀ rp p n, QE (f rp p n) (copyLoopT cfg thr o stop rp p n)) ?_ ?_
    · exact Lean.Order.admissible_pi_apply (fun rp (g : Ptr → Nat → M α (Ptr × Nat)) => ∀ p n, QE (g p n) (copyLoopT cfg thr o stop rp p n))
        fun rp => Lean.Order.admissible_pi_apply (fun p (g : Nat → M α (Ptr × Nat)) => ∀ n, QE (g n) (copyLoopT cfg thr o stop rp p n))
        fun p => Lean.Order.admissible_pi_apply (fun n (g : M α (Ptr × Nat)) => QE g (copyLoopT cfg thr o stop rp p n))
        fun n => QE.adm _
    · intro f ih rp p n
      dsimp only
      rw [copyLoopT]
      split
      · exact fun _ => .inr rfl
      · exact QE.bind fun _ => QE.node hno fun _ => QE.bind fun _ => QE.bind fun _ => ih _ _ _
  rcases hD rp p n h with e | e
  · rcases hE rp p n h with e' | e'
    · rw [e, e']; rfl
    · exact e'
  · exact e

theorem copyAssignT_quiet (hno : ∀ k, thr k = false) (l o : Lst) (h : Heap α) :
    copyAssignT cfg thr l o h = mapO (fun q => (false, q)) (copyAssign cfg l o h) := by
  simp only [copyAssignT, copyAssign, copyImplT, copyImpl, Prog.bind_run, mapO, out_assoc]
  congr 1; funext b
  congr 1; funext c
  split
  · simp only [Prog.bind_run, out_assoc, Prog.pure_run, Out.bind_ok]
  · simp only [Prog.bind_run, copyLoopT_quiet hno, mapO, out_assoc, Out.bind_ok, Bool.false_eq_true, if_false, Prog.pure_run]

theorem insertFillT_bad (hb : Bal h) (r : Rep cfg h hd tl (c1 ++ c2) own) (hd2 : cfg.dbl = true) {ref : Ref α} (hr : RefIs cfg ref x h)
    {n m : Nat} (h0 : 0 < m) (hm : m < n) (hg : ∀ j < m, thr (h.ctors + j) = false) (ht : thr (h.ctors + m) = true) :
    (insertFillT cfg thr (lst hd tl (c1 ++ c2) own) (some (headOf tl c2)) n ref h).SafeIf (Refuses cfg) fun q =>
      q.1.1 = true ∧ traverse q.1.2 q.2 = .ub ∧ destruct cfg q.1.2 q.2 = .ub ∧
        ∃ l' k, Step h (nodes hd tl (c1 ++ c2)) q.2 l' k := by
  simp only [insertFillT, Prog.bind_run]
  rw [dbgAssert_run (by simpa [lst] using r.hd_not_after)]
  simp only [Out.bind_ok]
  rw [if_neg (by omega)]
  simp only [Prog.bind_run, r.getPrev_at hd2, Out.bind_ok, lst]
  rw [fillLoopT_eq hb hr r.live_lastOf n 0, out_assoc]
  refine (rangeLoopT_bad hb r.live_lastOf (xs := List.replicate n x) (by simpa using hm) hg ht 0).bind ?_
  rintro _ ⟨ns, h1, -, e2, rfl, bt, -, e4, -, -⟩
  have hns : ns ≠ [] := by rintro rfl; simp at e2; omega
  obtain ⟨d, d1, d2⟩ := r.dang hb bt hns (e4 h0) own
  obtain ⟨b1, b2⟩ := broken d d1 d2
  exact ⟨rfl, b1, b2, bt.touch (by rw [nodes_append]; exact List.mem_append_left _ (lastOf_mem _ _)) own⟩

/-! ### The first construction throws -/

theorem rangeLoopT_first {p : Ptr} {xs : List α} (hx : xs ≠ []) (ht : thr h.ctors = true) (k : Nat) :
    rangeLoopT cfg thr own xs p k h = if cfg.refuse h.next cfg.dsize then .oom else .ok ((true, p, k), rawNode cfg own h) := by
  cases xs with
  | nil => exact absurd rfl hx
  | cons x xs =>
    simp only [rangeLoopT, Prog.bind_run, constructNodeT_eq, ht, if_true]
    split <;> rfl

theorem fillLoopT_first {p : Ptr} {ref : Ref α} {n : Nat} (hr : RefIs cfg ref x h) (hn : n ≠ 0) (ht : thr h.ctors = true) :
    fillLoopT cfg thr own ref n p h = if cfg.refuse h.next cfg.dsize then .oom else .ok ((true, p), rawNode cfg own h) := by
  cases n with
  | zero => exact absurd rfl hn
  | succ n =>
    simp only [fillLoopT, Prog.bind_run, hr.deref, Out.bind_ok, constructNodeT_eq, ht, if_true]
    split <;> rfl

theorem first_throw (r : Rep cfg h hd tl (c1 ++ c2) own) {xs : List α} (hx : xs ≠ []) {ref : Ref α} (hr : RefIs cfg ref x h) {n : Nat}
    (hn : n ≠ 0) (ht : thr h.ctors = true) :
    (insertAfterRangeT cfg thr (lst hd tl (c1 ++ c2) own) (some (lastOf hd c1)) xs h).SafeIf (Refuses cfg) (fun q =>
      q = ((true, lst hd tl (c1 ++ c2) own), rawNode cfg own h)) ∧
    (insertAfterFillT cfg thr (lst hd tl (c1 ++ c2) own) (some (lastOf hd c1)) n ref h).SafeIf (Refuses cfg) (fun q =>
      q = ((true, lst hd tl (c1 ++ c2) own), rawNode cfg own h)) ∧
    (cfg.dbl = true →
      (insertRangeT cfg thr (lst hd tl (c1 ++ c2) own) (some (headOf tl c2)) xs h).SafeIf (Refuses cfg) (fun q =>
        q = ((true, lst hd tl (c1 ++ c2) own), rawNode cfg own h)) ∧
      (insertFillT cfg thr (lst hd tl (c1 ++ c2) own) (some (headOf tl c2)) n ref h).SafeIf (Refuses cfg) (fun q =>
        q = ((true, lst hd tl (c1 ++ c2) own), rawNode cfg own h))) := by
  have he : ¬ (xs.isEmpty = true) := by rw [List.isEmpty_iff]; exact hx
  refine ⟨?_, ?_, fun hd2 => ⟨?_, ?_⟩⟩
  · simp only [insertAfterRangeT, Prog.bind_run]
    rw [dbgAssert_run (by simpa [lst] using r.tl_not_before)]
    simp only [Out.bind_ok]
    rw [if_neg he]
    simp only [Prog.bind_run, r.getNext_at, Out.bind_ok, lst, rangeLoopT_first hx ht]
    split
    · rename_i hr; exact ⟨_, _, hr⟩
    · rfl
  · simp only [insertAfterFillT, Prog.bind_run]
    rw [dbgAssert_run (by simpa [lst] using r.tl_not_before)]
    simp only [Out.bind_ok]
    rw [if_neg hn]
    simp only [Prog.bind_run, r.getNext_at, Out.bind_ok, lst, fillLoopT_first hr hn ht]
    split
    · rename_i hr; exact ⟨_, _, hr⟩
    · rfl
  · simp only [insertRangeT]
    rw [if_neg he]
    simp only [Prog.bind_run, r.getPrev_at hd2, Out.bind_ok, lst, rangeLoopT_first hx ht]
    split
    · rename_i hr; exact ⟨_, _, hr⟩
    · rfl
  · simp only [insertFillT, Prog.bind_run]
    rw [dbgAssert_run (by simpa [lst] using r.hd_not_after)]
    simp only [Out.bind_ok]
    rw [if_neg hn]
    simp only [Prog.bind_run, r.getPrev_at hd2, Out.bind_ok, lst, fillLoopT_first hr hn ht]
    split
    · rename_i hr; exact ⟨_, _, hr⟩
    · rfl

/-- nodes that belong to no list do not show -/
theorem Inv.unseen {C : Ghost α} {w : World α} {l' : List Nat} {k : Cost} (I : Inv cfg C w) (s : Step w.heap [] h' l' k) :
    Spec.LL.view { w with heap := h' } = Spec.LL.view w ∧ Spec.LL.cells { w with heap := h' } = Spec.LL.cells w := by
  have key : ∀ i hd tl cs own, C i = some (full hd tl cs own) → Spec.LL.nodesFrom h' hd cs.length = Spec.LL.nodesFrom w.heap hd cs.length := by
    intro i hd tl cs own hi
    have h1 := Rep.nodesFrom (c1 := []) (I.rep hi)
    have h2 := Rep.nodesFrom (c1 := []) ((I.rep hi).step s (by simp))
    rw [lastOf_nil] at h1 h2
    rw [h1, h2]
  constructor <;> funext i
  · cases hi : C i with
    | none => simp [Spec.LL.view, I.vars, hi]
    | some o =>
      obtain ⟨b, a⟩ := o
      cases b with
      | none => simp [Spec.LL.view, I.vars, hi, Obj.fields]
      | some b =>
        obtain ⟨hd, tl, cs⟩ := b
        simp [Spec.LL.view, I.var hi, lst, key i hd tl cs a hi]
  · cases hi : C i with
    | none => simp [Spec.LL.cells, I.vars, hi]
    | some o =>
      obtain ⟨b, a⟩ := o
      cases b with
      | none => simp [Spec.LL.cells, I.vars, hi, Obj.fields]
      | some b =>
        obtain ⟨hd, tl, cs⟩ := b
        simp [Spec.LL.cells, I.var hi, lst, key i hd tl cs a hi]
end

end Verif.Proof.LL
