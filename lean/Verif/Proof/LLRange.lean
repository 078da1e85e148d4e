import Verif.Proof.LLReach
import Verif.Spec.LinkedListRange
/-! # Linked lists: ranges given by iterators of lists -/
namespace Verif.Proof.LL
open Verif Verif.Model.LL
open Verif.Spec.LL hiding sorted cells view
open Verif.Proof.Mem (Cost)

variable {α β σ : Type} {cfg : Cfg α}

/-! ## A run of nodes that is read -/

/-- From the first node of `cs` one comes through all of them, and then to `e`. -/
def Walk (cfg : Cfg α) (h : Heap α) (e : Nat) : Cells α → Prop
  | [] => True
  | c :: cs => (∃ own, IsElem cfg own h c.1 c.2) ∧ h.nxt c.1 = some (some (headOf e cs)) ∧ c.1 ≠ e ∧ Walk cfg h e cs

section
variable {h h' : Heap α} {hd tl own o e p q lo hi n : Nat} {cs c1 c3 mid : Cells α} {x : α}

theorem walk_of_rep : ∀ {mid c1 : Cells α}, Rep cfg h hd tl (c1 ++ (mid ++ c3)) own → Walk cfg h (headOf tl c3) mid
  | [], _, _ => trivial
  | c :: mid, c1, r => by
    have r' : Rep cfg h hd tl ((c1 ++ [c]) ++ (mid ++ c3)) own := by simpa using r
    refine ⟨⟨own, r.cells c (by simp)⟩, ?_, ?_, walk_of_rep r'⟩
    · have := r'.nxt_at
      simpa [headOf_append] using this
    · intro he
      have hn := Rep.nodup_right (c1 := c1) r
      have hm : c.1 ∈ addrs c3 ++ [tl] := by rw [he]; exact headOf_mem _ _
      simp only [List.cons_append, List.map_cons, List.nodup_cons, List.map_append, List.append_assoc] at hn
      exact hn.1 (List.mem_append_right _ hm)

theorem Walk.step {x : α} (hb : Bal h) : ∀ {cs : Cells α}, Walk cfg h e cs → (∀ c ∈ cs, c.1 ≠ p) → Walk cfg (link cfg.dbl (newElem cfg o x h) p h.next) e cs
  | [], _, _ => trivial
  | c :: cs, ⟨⟨ow, he⟩, hn, hne, hw⟩, hp => by
    have hc : c.1 ≠ h.next := hb.ne_next he.live
    refine ⟨⟨ow, (he.mk hc).link⟩, ?_, hne, hw.step hb fun c' hc' => hp c' (List.mem_cons_of_mem _ hc')⟩
    rw [link_nxt_ne (hp c (List.mem_cons_self)), mk_nxt_ne hc, hn]

theorem Walk.live : ∀ {cs : Cells α}, Walk cfg h e cs → ∀ c ∈ cs, Live h c.1
  | [], _, _, hc => by cases hc
  | c :: cs, ⟨⟨ow, he⟩, _, _, hw⟩, c', hc' => by
    rcases List.mem_cons.1 hc' with rfl | hc'
    · exact he.live
    · exact hw.live c' hc'

/-- The loop of the insertions does what the one over the values does, unless it comes to the node it started to append to. -/
theorem insertRangeLoop_eq (hb : Bal h) (wk : Walk cfg h e mid) (hp : Live h p) (hne : ∀ c ∈ mid.tail, c.1 ≠ p) (n : Nat) :
    insertRangeLoop cfg o (some e) (some (headOf e mid)) (some p) n h =
      (rangeLoop cfg o (vals mid) (some p) h >>= fun q => .ok ((q.1, n + mid.length), q.2)) := by
  induction mid generalizing h p n with
  | nil => rw [insertRangeLoop]; simp [rangeLoop, Prog.pure_run]
  | cons c mid ih =>
    obtain ⟨⟨ow, he⟩, hn, hce, hw⟩ := wk
    have hc : c.1 ≠ h.next := hb.ne_next he.live
    rw [insertRangeLoop]
    rw [headOf_cons, if_neg (by simpa using hce)]
    simp only [Prog.bind_run, load_run he, Out.bind_ok, constructNode_eq, List.map_cons, rangeLoop]
    split
    · rfl
    · have hg : getNext (some c.1) (newElem cfg o c.2 h) = .ok (some (headOf e mid), newElem cfg o c.2 h) :=
        getNext_run (mk_live he.live) (by rw [mk_nxt_ne hc, hn])
      simp only [Out.bind_ok, hg, setNext_run (mk_live hp) isElem_mk.live]
      have hb' := (step_link (d := cfg.dbl) (l := [p, h.next]) (a := p) (b := h.next) (bal_mk (cfg := cfg) (own := o) (x := c.2) hb) (by simp) (by simp)).bal
      rw [ih hb' (hw.step hb hne) isElem_mk.live (fun c' hc' => ?_) (n + 1)]
      · simp [Nat.add_comm, Nat.add_left_comm]
      · exact hb.ne_next (hw.live c' (List.mem_of_mem_tail hc'))

/-- The loop of the constructor does what the one over the values does. -/
theorem ctorRangeLoop_eq (hb : Bal h) (wk : Walk cfg h e mid) (hp : Live h p) (hne : ∀ c ∈ mid, c.1 ≠ p) (n : Nat) :
    ctorRangeLoop cfg o (some e) (some (headOf e mid)) (some p) n h =
      (rangeLoop cfg o (vals mid) (some p) h >>= fun q => .ok ((q.1, n + mid.length), q.2)) := by
  induction mid generalizing h p n with
  | nil => rw [ctorRangeLoop]; simp [rangeLoop, Prog.pure_run]
  | cons c mid ih =>
    obtain ⟨⟨ow, he⟩, hn, hce, hw⟩ := wk
    have hc : c.1 ≠ h.next := hb.ne_next he.live
    rw [ctorRangeLoop]
    rw [headOf_cons, if_neg (by simpa using hce)]
    simp only [Prog.bind_run, getNext_run he.live hn, load_run he, Out.bind_ok, constructNode_eq, List.map_cons, rangeLoop]
    split
    · rfl
    · simp only [Out.bind_ok, setNext_run (mk_live hp) isElem_mk.live]
      have hb' := (step_link (d := cfg.dbl) (l := [p, h.next]) (a := p) (b := h.next) (bal_mk (cfg := cfg) (own := o) (x := c.2) hb) (by simp) (by simp)).bal
      rw [ih hb' (hw.step hb fun c' hc' => hne c' (List.mem_cons_of_mem _ hc')) isElem_mk.live (fun c' hc' => ?_) (n + 1)]
      · simp [Nat.add_comm, Nat.add_left_comm]
      · exact hb.ne_next (hw.live c' hc')

/-! ## The loop that comes to its own nodes -/

/-- The nodes `cs`, then the node `p` to which is appended, all before any `e`. -/
structure Chase (cfg : Cfg α) (e : Nat) (h : Heap α) (cs : Cells α) (p : Nat) : Prop where
  bal : Bal h
  walk : Walk cfg h p cs
  some : cs ≠ []
  elem : ∃ own x, IsElem cfg own h p x
  before : ∀ c ∈ cs, c.1 ≠ e
  notp : p ≠ e
  old : e < h.next

theorem Walk.snoc : ∀ {cs : Cells α}, Walk cfg h p cs → (∀ c ∈ cs, c.1 ≠ e) → (∃ own, IsElem cfg own h p x) → h.nxt p = some (some e) → p ≠ e →
    Walk cfg h e (cs ++ [(p, x)])
  | [], _, _, he, hn, hpe => ⟨he, hn, hpe, trivial⟩
  | c :: cs, ⟨h1, h2, h3, h4⟩, hb, he, hn, hpe => by
    refine ⟨h1, ?_, hb c (List.mem_cons_self), h4.snoc (fun c' hc' => hb c' (List.mem_cons_of_mem _ hc')) he hn hpe⟩
    rw [h2]; cases cs <;> rfl

theorem chase_step {c : Nat × α} {cs : Cells α} (hc : Chase cfg e h (c :: cs) p) (x : α) :
    ∃ y, Chase cfg e (link cfg.dbl (newElem cfg o x h) p h.next) (cs ++ [(p, y)]) h.next := by
  obtain ⟨ow, y, hy⟩ := hc.elem
  obtain ⟨_, _, _, hw⟩ := hc.walk
  have hlive := hc.walk.live
  have hwp : ∀ {cs : Cells α}, Walk cfg h p cs → ∀ c ∈ cs, c.1 ≠ p := by
    intro cs
    induction cs with
    | nil => intro _ c hc; cases hc
    | cons a cs ih =>
      rintro ⟨_, _, h3, h4⟩ c hm
      rcases List.mem_cons.1 hm with rfl | hm
      · exact h3
      · exact ih h4 c hm
  have hpn : p ≠ h.next := hc.bal.ne_next hy.live
  refine ⟨y, (step_link (d := cfg.dbl) (l := [p, h.next]) (a := p) (b := h.next) (bal_mk (cfg := cfg) (own := o) (x := x) hc.bal) (by simp) (by simp)).bal,
    (hw.step hc.bal (hwp hw)).snoc (fun c' hc' => hc.bal.ne_next (hw.live c' hc')) ⟨ow, (hy.mk hpn).link⟩ link_nxt_same hpn, by simp,
    ⟨o, x, isElem_mk.link⟩, ?_, ?_, ?_⟩
  · intro c' hc'
    rcases List.mem_append.1 hc' with h1 | h1
    · exact hc.before c' (List.mem_cons_of_mem _ h1)
    · simp only [List.mem_singleton] at h1; subst h1; exact hc.notp
  · have := hc.old; omega
  · have := hc.old; simp; omega

/-- a call that does not return -/
def NoReturn (cfg : Cfg α) (x : Out β) : Prop := x = .div ∨ x = .oom ∧ Refuses cfg

theorem NoReturn.bind {x : Out β} (hx : NoReturn cfg x) {γ : Type} (f : β → Out γ) : NoReturn cfg (x >>= f) := by
  rcases hx with rfl | ⟨rfl, hr⟩
  · exact .inl rfl
  · exact .inr ⟨rfl, hr⟩

theorem chase_div {cs : Cells α} (hc : Chase cfg e h cs p) (n : Nat) :
    NoReturn cfg (insertRangeLoop cfg o (some e) (some (headOf p cs)) (some p) n h) := by
  suffices H : ∀ (rp pp : Ptr) (n : Nat) (h : Heap α), (∃ cs p, rp = some (headOf p cs) ∧ pp = some p ∧ Chase cfg e h cs p) →
      NoReturn cfg (insertRangeLoop cfg o (some e) rp pp n h) from H _ _ n h ⟨cs, p, rfl, rfl, hc⟩
  refine insertRangeLoop.fixpoint_induct cfg o (some e) (fun f => ∀ (rp pp : Ptr) (n : Nat) (h : Heap α),
    (∃ cs p, rp = some (headOf p cs) ∧ pp = some p ∧ Chase cfg e h cs p) → NoReturn cfg (f rp pp n h)) ?_ ?_
  · refine Lean.Order.admissible_pi_apply (fun rp (g : Ptr → Nat → M α (Ptr × Nat)) => ∀ pp n h,
      (∃ cs p, rp = some (headOf p cs) ∧ pp = some p ∧ Chase cfg e h cs p) → NoReturn cfg (g pp n h)) fun rp => ?_
    refine Lean.Order.admissible_pi_apply (fun pp (g : Nat → M α (Ptr × Nat)) => ∀ n h,
      (∃ cs p, rp = some (headOf p cs) ∧ pp = some p ∧ Chase cfg e h cs p) → NoReturn cfg (g n h)) fun pp => ?_
    refine Lean.Order.admissible_pi_apply (fun n (g : M α (Ptr × Nat)) => ∀ h,
      (∃ cs p, rp = some (headOf p cs) ∧ pp = some p ∧ Chase cfg e h cs p) → NoReturn cfg (g h)) fun n => ?_
    refine Lean.Order.admissible_pi_apply (β := fun _ : Heap α => Out ((Ptr × Nat) × Heap α)) (fun h (x : Out ((Ptr × Nat) × Heap α)) =>
      (∃ cs p, rp = some (headOf p cs) ∧ pp = some p ∧ Chase cfg e h cs p) → NoReturn cfg x) fun h => ?_
    exact Lean.Order.admissible_flatOrder (b := (Out.div : Out ((Ptr × Nat) × Heap α))) _ fun _ => .inl rfl
  · rintro f ih rp pp n h ⟨cs, p, rfl, rfl, hc⟩
    cases cs with
    | nil => exact absurd rfl hc.some
    | cons c cs =>
      obtain ⟨⟨ow, he⟩, hn, hce, hw⟩ := hc.walk
      obtain ⟨ow2, y, hy⟩ := hc.elem
      have hcn : c.1 ≠ h.next := hc.bal.ne_next he.live
      have hbe : c.1 ≠ e := hc.before c (List.mem_cons_self)
      obtain ⟨y', hc'⟩ := chase_step (o := o) hc c.2
      have hg : getNext (some c.1) (newElem cfg o c.2 h) = .ok (some (headOf p cs), newElem cfg o c.2 h) :=
        getNext_run (mk_live he.live) (by rw [mk_nxt_ne hcn, hn])
      show NoReturn cfg ((if (some c.1 : Ptr) = some e then _ else _ : M α (Ptr × Nat)) h)
      rw [if_neg (by simpa using hbe)]
      rw [headOf_cons]
      simp only [Prog.bind_run, load_run he, Out.bind_ok, constructNode_eq]
      split
      · rename_i hr; exact .inr ⟨rfl, _, _, hr⟩
      · simp only [Out.bind_ok, hg, setNext_run (mk_live hy.live) isElem_mk.live]
        refine ih _ _ _ _ ⟨cs ++ [(p, y')], h.next, ?_, rfl, hc'⟩
        cases cs <;> rfl

/-! ## Positions -/

theorem lastOf_take_succ {cs : Cells α} {m : Nat} (hm : m < cs.length) : lastOf hd (cs.take (m + 1)) = (cs[m]).1 := by
  rw [List.take_add_one, List.getElem?_eq_getElem hm]
  rw [Option.toList_some, lastOf_append, lastOf_cons, lastOf_nil]

/-- the elements of a range -/
def seg (cs : Cells α) (lo hi : Nat) : Cells α := (cs.drop (lo - 1)).take (hi - lo)

theorem seg_split (h1 : 1 ≤ lo) (h2 : lo ≤ hi) : cs = cs.take (lo - 1) ++ (seg cs lo hi ++ cs.drop (hi - 1)) := by
  have : cs.drop (hi - 1) = (cs.drop (lo - 1)).drop (hi - lo) := by rw [List.drop_drop]; congr 1; omega
  rw [this, seg, List.take_append_drop, List.take_append_drop]

theorem vals_seg : vals (seg cs lo hi) = ((vals cs).drop (lo - 1)).take (hi - lo) := by simp [seg]

theorem seg_length (h3 : hi ≤ cs.length + 1) (h1 : 1 ≤ lo) (h2 : lo ≤ hi) : (seg cs lo hi).length = hi - lo := by
  simp only [seg, List.length_take, List.length_drop]; omega

theorem pos_inj (rp : Rep cfg h hd tl cs own) {k : Nat} (hk : k < cs.length) (hq : q ≤ cs.length) (e : (cs[k]).1 = lastOf hd (cs.take q)) : q = k + 1 := by
  have hn := rp.nodup
  rw [nodes, List.nodup_cons] at hn
  have hn2 : (addrs cs).Nodup := (List.nodup_append.1 hn.2).1
  cases q with
  | zero =>
    rw [List.take_zero, lastOf_nil] at e
    exact (hn.1 (List.mem_append_left _ (by rw [← e]; exact List.mem_map_of_mem (List.getElem_mem hk)))).elim
  | succ m =>
    rw [lastOf_take_succ (by omega)] at e
    have : k = m := by
      have h1 : (addrs cs)[k]'(by simpa using hk) = (addrs cs)[m]'(by simp; omega) := by simpa using e
      exact (List.Nodup.getElem_inj_iff hn2).1 h1
    omega

theorem seg_ne (rp : Rep cfg h hd tl cs own) (hq : q ≤ cs.length) (h1 : 1 ≤ lo) (hn : ¬ (lo < q ∧ q < hi)) :
    ∀ c ∈ (seg cs lo hi).tail, c.1 ≠ lastOf hd (cs.take q) := by
  intro c hc he
  obtain ⟨k, hk0, rfl⟩ := List.getElem_of_mem hc
  have hk := hk0
  simp only [seg, List.length_tail, List.length_take, List.length_drop] at hk
  have hk' : lo + k < cs.length := by omega
  have : ((seg cs lo hi).tail[k]'hk0) = cs[lo + k] := by
    simp only [seg, List.getElem_tail, List.getElem_take, List.getElem_drop]
    congr 1; omega
  rw [this] at he
  have := pos_inj rp hk' hq he
  omega

/-! ## The calls -/

theorem ends_iff (wk : Walk cfg h e mid) : (some (headOf e mid) : Ptr) = some e ↔ mid = [] := by
  cases mid with
  | nil => simp
  | cons c mid => simp [wk.2.2.1]

theorem bind_congr_safe {x : Out β} {R : Prop} {v : β} {γ : Type} {F G : β → Out γ} (hx : x.SafeIf R fun q => q = v) (hv : F v = G v) : x >>= F = x >>= G := by
  cases x with
  | ok q => cases hx; exact hv
  | _ => rfl

theorem out_bind_assoc {γ δ : Type} (x : Out β) (f : β → Out γ) (g : γ → Out δ) : x >>= f >>= g = x >>= fun b => f b >>= g := by cases x <;> rfl

theorem insertAfterRangeIn_eq (hb : Bal h) (wk : Walk cfg h e mid) (hp : Live h p) (hne : ∀ c ∈ mid.tail, c.1 ≠ p) (l : Lst) :
    insertAfterRangeIn cfg l (some p) (some (headOf e mid)) (some e) h = insertAfterRange cfg l (some p) (vals mid) h := by
  simp only [insertAfterRangeIn, insertAfterRange, Prog.bind_run, ends_iff wk]
  cases hd : dbgAssert cfg (some p ≠ l.tail) h with
  | ok q =>
    have hq : q.2 = h := by
      unfold dbgAssert at hd; split at hd <;> cases hd; rfl
    simp only [Out.bind_ok, hq]
    by_cases hm : mid = []
    · subst hm; rfl
    · rw [if_neg hm, if_neg (by simpa using hm)]
      have hg : (∃ t, getNext (some p) h = .ok (t, h)) ∨ getNext (some p) h = .ub := by
        cases hn : h.nxt p with
        | none => right; obtain ⟨nd, hnd⟩ := Option.ne_none_iff_exists'.1 hp; simp [getNext, withNode, hn, hnd]
        | some t => exact .inl ⟨t, getNext_run hp hn⟩
      simp only [Prog.bind_run]
      rcases hg with ⟨t, hg⟩ | hg
      · simp only [hg, Out.bind_ok, insertRangeLoop_eq hb wk hp hne, out_bind_assoc, Prog.pure_run, List.length_map]
      · rw [hg]; rfl
  | _ => rfl

theorem insertRangeIn_eq (hb : Bal h) (wk : Walk cfg h e mid) (hp : Live h p) {pos : Ptr} (hg : getPrev pos h = .ok (some p, h))
    (hne : ∀ c ∈ mid.tail, c.1 ≠ p) (l : Lst) :
    insertRangeIn cfg l pos (some (headOf e mid)) (some e) h = insertRange cfg l pos (vals mid) h := by
  simp only [insertRangeIn, insertRange, ends_iff wk]
  by_cases hm : mid = []
  · subst hm; rfl
  · rw [if_neg hm, if_neg (by simpa using hm)]
    simp only [Prog.bind_run, hg, Out.bind_ok, insertRangeLoop_eq hb wk hp hne, out_bind_assoc, Prog.pure_run, List.length_map]

theorem Walk.frame {l' : List Nat} {k : Cost} (s : Step h [] h' l' k) : ∀ {cs : Cells α}, Walk cfg h e cs → Walk cfg h' e cs
  | [], _ => trivial
  | c :: cs, ⟨⟨ow, he⟩, hn, hne, hw⟩ => by
    refine ⟨⟨ow, ?_⟩, ?_, hne, hw.frame s⟩
    · rw [IsElem, (s.live (by simp) he.live).2.2]; exact he
    · rw [(s.keep c.1 (by simp) he.live).1, hn]

theorem newRangeIn_eq (hb : Bal h) (wk : Walk cfg h e mid) (a : Nat) :
    newRangeIn cfg (some (headOf e mid)) (some e) a h = newRange cfg (vals mid) a h := by
  simp only [newRangeIn, newRange, ends_iff wk]
  by_cases hm : mid = []
  · subst hm; rfl
  · rw [if_neg hm, if_neg (by simpa using hm)]
    simp only [Prog.bind_run]
    refine bind_congr_safe (buildVirtual_run a h) ?_
    refine bind_congr_safe (buildVirtual_run a _) ?_
    obtain ⟨s, v1, v2, p1, n2⟩ := two_virtuals (cfg := cfg) hb a
    have hne : ∀ c ∈ mid, c.1 ≠ h.next := fun c hc => hb.ne_next (wk.live c hc)
    simp only [ctorRangeLoop_eq s.bal (wk.frame s) v1.live hne, out_bind_assoc, Out.bind_ok, Prog.pure_run, List.length_map, Nat.zero_add]

theorem seg_ends (rp : Rep cfg h hd tl cs own) (h1 : 1 ≤ lo) (h2 : lo ≤ hi) : Walk cfg h (headOf tl (cs.drop (hi - 1))) (seg cs lo hi) := by
  have := rp
  rw [seg_split (cs := cs) h1 h2] at this
  exact walk_of_rep this

theorem seg_head (h1 : 1 ≤ lo) (h2 : lo ≤ hi) : headOf (headOf tl (cs.drop (hi - 1))) (seg cs lo hi) = headOf tl (cs.drop (lo - 1)) := by
  have := congrArg (List.drop (lo - 1)) (seg_split (cs := cs) h1 h2)
  by_cases hl : lo - 1 ≤ cs.length
  · rw [List.drop_append_of_le_length (by rw [List.length_take]; omega), List.drop_take_self] at this
    rw [this]; simp [headOf_append]
  · simp [seg, List.drop_eq_nil_of_le (show cs.length ≤ lo - 1 by omega), List.drop_eq_nil_of_le (show cs.length ≤ hi - 1 by omega)]

theorem Walk.ne_end : ∀ {cs : Cells α}, Walk cfg h e cs → ∀ c ∈ cs, c.1 ≠ e
  | [], _, _, hc => by cases hc
  | c :: cs, ⟨_, _, h3, hw⟩, c', hc' => by
    rcases List.mem_cons.1 hc' with rfl | hc'
    · exact h3
    · exact hw.ne_end c' hc'

theorem chase_start (hb : Bal h) (rp : Rep cfg h hd tl cs own) (h1 : 1 ≤ lo) (h2 : lo < q) (h3 : q < hi) (h4 : hi ≤ cs.length + 1) :
    Chase cfg (headOf tl (cs.drop (hi - 1))) h (seg cs lo q) (lastOf hd (cs.take q)) ∧
      headOf (lastOf hd (cs.take q)) (seg cs lo q) = headOf tl (cs.drop (lo - 1)) := by
  obtain ⟨m, rfl⟩ : ∃ m, q = m + 1 := ⟨q - 1, by omega⟩
  have hm : m < cs.length := by omega
  have el : lastOf hd (cs.take (m + 1)) = (cs[m]).1 := lastOf_take_succ hm
  have eh : headOf tl (cs.drop m) = (cs[m]).1 := by rw [List.drop_eq_getElem_cons hm]; rfl
  have wq := seg_ends rp h1 (Nat.le_of_lt h2)
  have wh := seg_ends rp h1 (show lo ≤ hi by omega)
  have hd' := seg_head (tl := tl) (cs := cs) h1 (Nat.le_of_lt h2)
  rw [Nat.add_sub_cancel, eh] at wq hd'
  have hsub : ∀ c ∈ seg cs lo (m + 1), c ∈ seg cs lo hi := by
    intro c hc
    exact (List.take_sublist_take_left (show m + 1 - lo ≤ hi - lo by omega)).subset hc
  have hmem : cs[m] ∈ seg cs lo hi := by
    have hx : m - (lo - 1) < (seg cs lo hi).length := by rw [seg_length h4 h1 (by omega)]; omega
    have : (seg cs lo hi)[m - (lo - 1)]'hx = cs[m] := by
      simp only [seg, List.getElem_take, List.getElem_drop]
      congr 1; omega
    rw [← this]; exact List.getElem_mem hx
  rw [el]
  refine ⟨⟨hb, wq, ?_, ⟨own, (cs[m]).2, rp.cells _ (List.getElem_mem hm)⟩, fun c hc => wh.ne_end c (hsub c hc), wh.ne_end _ hmem, ?_⟩, hd'⟩
  · intro he
    have := seg_length (cs := cs) (lo := lo) (hi := m + 1) (by omega) h1 (by omega)
    rw [he] at this; simp at this; omega
  · exact hb.lt (Rep.live_headOf (c1 := cs.take (hi - 1)) (c2 := cs.drop (hi - 1)) (by rwa [List.take_append_drop]))

end

/-! ## Programs -/

section
variable {w : World α} {i j p lo hi a : Nat} {op : Op α} {o : ROp α}

theorem itersOf_eq {L : LostNodes α} {C : Ghost α} {hd tl own : Nat} {cs : Cells α} (I : InvL cfg L C w) (hj : C j = some (full hd tl cs own))
    (h1 : 1 ≤ lo) (h2 : lo ≤ hi) (h3 : hi ≤ cs.length + 1) :
    itersOf j lo hi w = .ok ((some (headOf tl (cs.drop (lo - 1))), some (headOf tl (cs.drop (hi - 1)))), w) := by
  have rp := I.rep hj
  simp only [itersOf, Prog.bind_run, var_run (I.var hj), Out.bind_ok, inHeap_ok (at_next rp ⟨h1, by omega⟩), inHeap_ok (at_next rp ⟨by omega, h3⟩), Prog.pure_run]

theorem between_inv {C : Ghost α} {xs : List α} (h : between (ideal C) j lo hi = some xs) : ∃ hd tl cs own, C j = some (full hd tl cs own) ∧
    1 ≤ lo ∧ lo ≤ hi ∧ hi ≤ cs.length + 1 ∧ vals (seg cs lo hi) = xs := by
  obtain ⟨ys, h1, h2⟩ := Option.bind_eq_some_iff.1 h
  obtain ⟨hd, tl, cs, own, hC, rfl⟩ := contents_ideal h1
  split at h2
  · rename_i hh
    cases h2
    rw [vals_len] at hh
    exact ⟨hd, tl, cs, own, hC, hh.1, hh.2.1, hh.2.2, vals_seg⟩
  · cases h2

theorem changeP_at {f g : Lst → M α (Lst × Ptr)} {l : Lst} (hv : w.vars i = some l) (hfg : f l w.heap = g l w.heap) : changeP i f w = changeP i g w := by
  simp only [changeP, Prog.bind_run, var_run hv, Out.bind_ok, inHeap_run, hfg]

theorem other_ne {L : LostNodes α} {C : Ghost α} {hd tl own hd2 tl2 own2 q : Nat} {cs ds : Cells α} (I : InvL cfg L C w) (hi' : C i = some (full hd tl cs own))
    (hj : C j = some (full hd2 tl2 ds own2)) (hq : q ≤ cs.length) (h1 : 1 ≤ lo) (hn : i = j → ¬ (lo < q ∧ q < hi)) :
    ∀ c ∈ (seg ds lo hi).tail, c.1 ≠ lastOf hd (cs.take q) := by
  by_cases hij : i = j
  · subst hij
    rw [hi'] at hj; cases hj
    exact seg_ne (I.rep hi') hq h1 (hn rfl)
  · intro c hc he
    have hc' : c ∈ ds := List.mem_of_mem_drop (List.mem_of_mem_take (List.mem_of_mem_tail hc))
    have m1 : c.1 ∈ onodes (C j) := by
      rw [hj]; exact List.mem_cons_of_mem _ (List.mem_append_left _ (List.mem_map_of_mem hc'))
    have m2 : c.1 ∈ onodes (C i) := by
      rw [hi', he]
      have : nodes hd tl cs = nodes hd tl (cs.take q ++ cs.drop q) := by rw [List.take_append_drop]
      show _ ∈ nodes hd tl cs
      rw [this, nodes_append]; exact List.mem_append_left _ (lastOf_mem _ _)
    exact I.sep i j hij _ m2 m1

theorem range_step {L : LostNodes α} {C : Ghost α} (I : InvL cfg L C w) (hin : inline (ideal C) o = some op) (hc : chases o = false)
    {q : Res α × Ideal α} (hs : specStep false cfg.dbl cfg.dflt op (ideal C) = some q) : rstep cfg o w = step cfg op w := by
  obtain ⟨r, A'⟩ := q
  cases o with
  | op o => cases hin; rfl
  | newRangeIn i j lo hi a =>
    obtain ⟨xs, hbt, rfl⟩ := Option.map_eq_some_iff.1 hin
    obtain ⟨hd, tl, cs, own, hC, h1, h2, h3, rfl⟩ := between_inv hbt
    simp only [rstep, Prog.bind_run, itersOf_eq I hC h1 h2 h3, Out.bind_ok, step, create, inHeap_run]
    rw [← seg_head h1 h2, newRangeIn_eq I.bal (seg_ends (I.rep hC) h1 h2)]
  | insertAfterRangeIn i p j lo hi =>
    obtain ⟨xs, hbt, rfl⟩ := Option.map_eq_some_iff.1 hin
    obtain ⟨hd, tl, cs, own, hC, h1, h2, h3, rfl⟩ := between_inv hbt
    obtain ⟨hd2, tl2, cs2, own2, xs', hi', h4, -⟩ := edit_inv hs
    obtain ⟨h4, -⟩ := needs_inv h4
    rw [vals_len] at h4
    simp only [rstep, Prog.bind_run, itersOf_eq I hC h1 h2 h3, Out.bind_ok, step]
    refine changeP_at (I.var hi') ?_
    have rp := I.rep hi'
    simp only [Prog.bind_run, at_ok rp h4, Out.bind_ok]
    rw [← seg_head h1 h2, insertAfterRangeIn_eq I.bal (seg_ends (I.rep hC) h1 h2) (Rep.live_lastOf (rp.split p))]
    refine other_ne I hi' hC h4 h1 fun e hh => ?_
    simp [chases, e, hh.1, hh.2] at hc
  | insertRangeIn i p j lo hi =>
    obtain ⟨xs, hbt, rfl⟩ := Option.map_eq_some_iff.1 hin
    obtain ⟨hd, tl, cs, own, hC, h1, h2, h3, rfl⟩ := between_inv hbt
    obtain ⟨hd', hs⟩ := needs_inv hs
    obtain ⟨hd2, tl2, cs2, own2, xs', hi', h4, -⟩ := edit_inv hs
    obtain ⟨h4, -⟩ := needs_inv h4
    rw [vals_len] at h4
    simp only [rstep, Prog.bind_run, itersOf_eq I hC h1 h2 h3, Out.bind_ok, step]
    refine changeP_at (I.var hi') ?_
    have rp := I.rep hi'
    simp only [Prog.bind_run, at_next rp h4, Out.bind_ok]
    rw [← seg_head h1 h2, insertRangeIn_eq I.bal (seg_ends (I.rep hC) h1 h2) (Rep.live_lastOf (rp.split (p - 1))) (Rep.getPrev_at (rp.split (p - 1)) hd')]
    refine other_ne I hi' hC (by omega) h1 fun e hh => ?_
    simp [chases, e, hh.1, hh.2] at hc

theorem range_chase {L : LostNodes α} {C : Ghost α} (I : InvL cfg L C w) (hin : inline (ideal C) o = some op) (hc : chases o = true)
    {q : Res α × Ideal α} (hs : specStep false cfg.dbl cfg.dflt op (ideal C) = some q) : NoReturn cfg (rstep cfg o w) := by
  obtain ⟨r, A'⟩ := q
  cases o with
  | op o => cases hc
  | newRangeIn i j lo hi a => cases hc
  | insertAfterRangeIn i p j lo hi =>
    obtain ⟨xs, hbt, rfl⟩ := Option.map_eq_some_iff.1 hin
    obtain ⟨hd, tl, cs, own, hC, h1, h2, h3, rfl⟩ := between_inv hbt
    simp only [chases, Bool.and_eq_true, beq_iff_eq, decide_eq_true_eq] at hc
    obtain ⟨rfl, hc1, hc2⟩ := hc
    have rp := I.rep hC
    obtain ⟨ch, e⟩ := chase_start I.bal rp h1 hc1 hc2 h3
    simp only [rstep, Prog.bind_run, itersOf_eq I hC h1 h2 h3, Out.bind_ok, changeP, var_run (I.var hC), inHeap_run]
    refine NoReturn.bind (NoReturn.bind ?_ _) _
    have rq := rp.split p
    have ha : dbgAssert cfg (decide ((some (lastOf hd (cs.take p)) : Ptr) ≠ (lst hd tl cs own).tail)) w.heap = .ok ((), w.heap) :=
      dbgAssert_run (by simpa [lst] using rq.tl_not_before)
    have hne : ¬ (some (headOf tl (cs.drop (lo - 1))) : Ptr) = some (headOf tl (cs.drop (hi - 1))) := by
      rw [← seg_head h1 h2, ends_iff (seg_ends rp h1 h2)]
      intro hx
      have := seg_length h3 h1 h2
      rw [hx] at this; simp at this; omega
    simp only [at_ok rp (show p ≤ cs.length by omega), Out.bind_ok, insertAfterRangeIn, Prog.bind_run, ha, if_neg hne, rq.getNext_at]
    rw [← e]
    exact (chase_div ch _).bind _
  | insertRangeIn i p j lo hi =>
    obtain ⟨xs, hbt, rfl⟩ := Option.map_eq_some_iff.1 hin
    obtain ⟨hd, tl, cs, own, hC, h1, h2, h3, rfl⟩ := between_inv hbt
    obtain ⟨hd', -⟩ := needs_inv hs
    simp only [chases, Bool.and_eq_true, beq_iff_eq, decide_eq_true_eq] at hc
    obtain ⟨rfl, hc1, hc2⟩ := hc
    have rp := I.rep hC
    obtain ⟨ch, e⟩ := chase_start I.bal rp h1 hc1 hc2 h3
    simp only [rstep, Prog.bind_run, itersOf_eq I hC h1 h2 h3, Out.bind_ok, changeP, var_run (I.var hC), inHeap_run]
    refine NoReturn.bind (NoReturn.bind ?_ _) _
    have rq := rp.split (p - 1)
    have hne : ¬ (some (headOf tl (cs.drop (lo - 1))) : Ptr) = some (headOf tl (cs.drop (hi - 1))) := by
      rw [← seg_head h1 h2, ends_iff (seg_ends rp h1 h2)]
      intro hx
      have := seg_length h3 h1 h2
      rw [hx] at this; simp at this; omega
    simp only [at_next rp (show 1 ≤ p ∧ p ≤ cs.length + 1 by omega), Out.bind_ok, insertRangeIn, Prog.bind_run, if_neg hne, rq.getPrev_at hd']
    rw [← e]
    exact (chase_div ch _).bind _

theorem reach_rrun (os : List (ROp α)) (hr : Reach cfg w) {rs : List (Res α)} {A' : Ideal α}
    (hs : rspecRun false cfg.dbl cfg.dflt os (Spec.LL.view w) = some (rs, A')) :
    (rrun cfg os w).SafeIf (Refuses cfg) fun q => q.1 = rs ∧ Spec.LL.view q.2 = A' ∧ Reach cfg q.2 := by
  induction os generalizing w rs with
  | nil => cases hs; exact ⟨rfl, rfl, hr⟩
  | cons o os ih =>
    simp only [rspecRun] at hs
    split at hs
    · cases hs
    · rename_i hc
      obtain ⟨⟨r, A1⟩, h1, h2⟩ := Option.bind_eq_some_iff.1 hs
      obtain ⟨⟨rs', A2⟩, h3, h4⟩ := Option.map_eq_some_iff.1 h2
      cases h4
      obtain ⟨op, h5, h6⟩ := Option.bind_eq_some_iff.1 h1
      obtain ⟨C, I⟩ := reach_inv hr
      have e : rstep cfg o w = step cfg op w := range_step I (by rw [← I.view]; exact h5) (by simpa using hc) (by rw [← I.view]; exact h6)
      simp only [rrun, Prog.bind_run, e]
      refine (reach_step hr h6).bind ?_
      rintro ⟨r', w'⟩ ⟨rfl, hv, hr', -⟩
      simp only at hv h3
      refine (ih hr' (by rw [hv]; exact h3)).bind ?_
      rintro ⟨rs2, w2⟩ ⟨rfl, hv2, hr2⟩
      exact ⟨rfl, hv2, hr2⟩

end

end Verif.Proof.LL
