import Verif.Proof.LLFail
/-! # Linked lists: more calls that go wrong -/
namespace Verif.Proof.LL
open Verif Verif.Model.LL
open Verif.Spec.LL hiding sorted
open Verif.Proof.Mem (Cost)

variable {α β : Type} {cfg : Cfg α}

section
variable {C : Ghost α} {w : World α} {h h' h1 : Heap α} {i j hd tl hd2 tl2 own own2 t t' p k : Nat} {cs ds c1 c2 u v : Cells α} {c : Nat × α} {x : α}

theorem traverse_step_ub {l : Lst} (hv : w.vars i = some l) (ht : traverse l w.heap = .ub) : step cfg (.traverse i) w = .ub := by
  refine look_ub hv ?_
  simp only [Prog.bind_run, ht]
  rfl

theorem change2_then_ub (I : Inv cfg C w) (hij : i ≠ j) (hi : C i = some (full hd tl cs own)) (hj : C j = some (full hd2 tl2 ds own2)) {op : Op α}
    {f : Lst → Lst → M α (Lst × Lst)} (ho : step cfg op = change2 i j f) {l o : Lst}
    (hf : f (lst hd tl cs own) (lst hd2 tl2 ds own2) w.heap = .ok ((l, o), h1)) (ht : traverse l h1 = .ub) :
    run cfg [op, .traverse i] w = .ub := by
  refine run_two (r := .unit) (w' := ⟨h1, upd (upd w.vars i (some l)) j (some o)⟩) ?_ (traverse_step_ub (l := l) ?_ ht)
  · simp only [ho, change2, Prog.bind_run, var_run (I.var hi), var_run (I.var hj), Out.bind_ok, inHeap_ok hf, setVar_run]
    rfl
  · simp only [upd_ne _ _ hij, upd_same]

/-! ## splicing an empty list -/

/-- a list whose chain leaves after `c1` for the node `t` -/
theorem redirected (r : Rep cfg h hd tl (c1 ++ c2) own) (hi : ∀ a ∈ nodes hd tl (c1 ++ c2), h'.info a = h.info a)
    (hn : ∀ a ∈ nodes hd tl (c1 ++ c2), a ≠ lastOf hd c1 → h'.nxt a = h.nxt a) (ht : h'.nxt (lastOf hd c1) = some (some t)) (htt : t ≠ tl)
    (hl : Spec.LL.elemAt h' t = none) {l : Lst} (e1 : l.head = some hd) (e2 : l.tail = some tl) : traverse l h' = .ub := by
  have lh : Live h' hd := by rw [Live, hi hd (by simp [nodes])]; exact r.vhd.live
  have hs : tl ∉ addrs c1 := fun hm => r.tl_not_cell (by simp at hm ⊢; tauto)
  rcases List.eq_nil_or_concat c1 with rfl | ⟨u, c, rfl⟩
  · exact traverse_ub (cfg := cfg) (own := own) (cs := []) e1 e2 lh ht trivial hs htt hl
  · rw [List.concat_eq_append] at *
    rw [lastOf_append, lastOf_cons, lastOf_nil] at ht hn
    have r' : Rep cfg h hd tl (u ++ (c :: c2)) own := by simpa using r
    have hne : ∀ a ∈ hd :: addrs u, a ≠ c.1 := by
      have hnd := r'.nodup
      rw [nodes_append] at hnd
      intro a ha e
      exact (List.nodup_append.1 hnd).2.2 a ha c.1 (by simp) e
    have hin : ∀ a ∈ hd :: addrs u, a ∈ nodes hd tl (u ++ [c] ++ c2) := by
      intro a ha
      simp [nodes] at ha ⊢
      tauto
    have y0 : Way cfg own h u c.1 := (Way.left (u := u) (v := c :: c2) (t := tl) (Rep.way (c1 := []) r'))
    have y : Way cfg own h' (u ++ [c]) t := by
      refine Way.snoc (y0.frame fun a ha => ?_) ?_ ht
      · have h2 := hin a (List.mem_cons_of_mem _ ha)
        exact ⟨hi a h2, hn a h2 (hne a (List.mem_cons_of_mem _ ha))⟩
      · rw [IsElem, hi c.1 (by simp [nodes])]; exact r.cells c (by simp)
    refine traverse_ub (cs := u ++ [c]) e1 e2 lh ?_ y hs htt hl
    rw [hn hd (by simp [nodes]) (hne hd (by simp)), headOf_append, headOf_cons]
    have := Rep.nxt_at (c1 := []) (c2 := u ++ c :: c2) r'
    rw [lastOf_nil, headOf_append, headOf_cons] at this
    exact this

theorem spliceAfter_ub (I : Inv cfg C w) (hij : i ≠ j) (hi : C i = some (full hd tl cs own)) (hj : C j = some (full hd2 tl2 [] own2))
    (hp : p ≤ cs.length) : run cfg [.spliceAfter i p j, .traverse i] w = .ub ∧ run cfg [.spliceAfterMove i p j, .traverse i] w = .ub := by
  have r := (I.rep hi).split p
  have ro := I.rep hj
  have dj := I.disj hij hi hj
  have hne : ∀ a ∈ nodes hd tl cs, a ≠ hd2 ∧ a ≠ tl2 := fun a ha => ⟨fun e => dj a ha (by rw [e]; simp [nodes]), fun e => dj a ha (by rw [e]; simp [nodes])⟩
  have e0 : nodes hd tl (cs.take p ++ cs.drop p) = nodes hd tl cs := by rw [List.take_append_drop]
  have hl := hne (lastOf hd (cs.take p)) (by rw [← e0]; exact last_mem_nodes)
  have h12 := ro.hd_ne_tl
  let h0 := link cfg.dbl (link cfg.dbl w.heap hd2 (headOf tl (cs.drop p))) (lastOf hd (cs.take p)) tl2
  have nx : ∀ a, a ≠ hd2 → a ≠ lastOf hd (cs.take p) → h0.nxt a = w.heap.nxt a := fun a h2 h3 => by rw [link_nxt_ne h3, link_nxt_ne h2]
  have rt : realTail cfg (lst hd2 tl2 ([] : Cells α) own2) w.heap = .ok (some hd2, w.heap) := realTail_ok ro
  have gh : getNext (some hd2) w.heap = .ok (some tl2, w.heap) := ro.getNext_hd
  have s2 : setNext cfg (some (lastOf hd (cs.take p))) (some tl2) (link cfg.dbl w.heap hd2 (headOf tl (cs.drop p))) = .ok ((), h0) :=
    setNext_run (h := link cfg.dbl w.heap hd2 (headOf tl (cs.drop p))) r.live_lastOf ro.vtl.live
  constructor
  · refine change2_then_ub I hij hi hj rfl (l := ⟨some hd, some tl, cs.length + 0, own⟩) (o := ⟨some hd2, some tl2, 0, own2⟩)
      (h1 := link cfg.dbl h0 hd2 tl2) ?_ ?_
    · simp only [Prog.bind_run, at_ok (I.rep hi) hp, Out.bind_ok, spliceAfter, rt, show (lst hd2 tl2 ([] : Cells α) own2).head = some hd2 from rfl,
        show (lst hd2 tl2 ([] : Cells α) own2).tail = some tl2 from rfl, gh, r.getNext_at, setNext_run ro.vhd.live r.live_headOf, s2]
      rw [setNext_run (h := h0) ro.vhd.live ro.vtl.live]
      rfl
    · refine redirected (h' := link cfg.dbl h0 hd2 tl2) r (t := tl2) (fun a _ => rfl) (fun a ha hal => ?_) ?_ ?_ ?_ (l := ⟨some hd, some tl, cs.length + 0, own⟩) rfl rfl
      · rw [e0] at ha
        rw [link_nxt_ne (hne a ha).1, nx a (hne a ha).1 hal]
      · rw [link_nxt_ne hl.1, link_nxt_same]
      · exact (hne tl (by simp [nodes])).2.symm
      · exact IsVirt.elemAt (cfg := cfg) (own := own2) ro.vtl
  · have v1 : IsVirt cfg own2 h0 hd2 := ro.vhd
    have v2 : IsVirt cfg own2 (killVirt cfg h0 hd2) tl2 := IsVirt.killVirt (h := h0) (show IsVirt cfg own2 h0 tl2 from ro.vtl) h12.symm
    refine change2_then_ub I hij hi hj rfl (l := ⟨some hd, some tl, cs.length + 0, own⟩) (o := ⟨none, none, 0, own2⟩)
      (h1 := killVirt cfg (killVirt cfg h0 hd2) tl2) ?_ ?_
    · simp only [Prog.bind_run, at_ok (I.rep hi) hp, Out.bind_ok, spliceAfterMove, rt, show (lst hd2 tl2 ([] : Cells α) own2).head = some hd2 from rfl,
        show (lst hd2 tl2 ([] : Cells α) own2).tail = some tl2 from rfl, show (lst hd2 tl2 ([] : Cells α) own2).alloc = own2 from rfl,
        gh, r.getNext_at, setNext_run ro.vhd.live r.live_headOf, s2, destroyNode_virt v1, destroyNode_virt v2]
      rfl
    · refine redirected r (t := tl2) (fun a ha => ?_) (fun a ha hal => ?_) ?_ ?_ ?_ rfl rfl
      · rw [e0] at ha
        rw [killVirt_info_ne (hne a ha).2, killVirt_info_ne (hne a ha).1]; rfl
      · rw [e0] at ha
        exact nx a (hne a ha).1 hal
      · exact link_nxt_same (d := cfg.dbl)
      · exact (hne tl (by simp [nodes])).2.symm
      · rw [Spec.LL.elemAt, killVirt_info_same]

theorem splice_ub (hd' : cfg.dbl = true) (I : Inv cfg C w) (hij : i ≠ j) (hi : C i = some (full hd tl cs own)) (hj : C j = some (full hd2 tl2 [] own2))
    (hp : 1 ≤ p ∧ p ≤ cs.length + 1) : run cfg [.splice i p j, .traverse i] w = .ub ∧ run cfg [.spliceMove i p j, .traverse i] w = .ub := by
  have r := (I.rep hi).split (p - 1)
  have ro := I.rep hj
  have dj := I.disj hij hi hj
  have hne : ∀ a ∈ nodes hd tl cs, a ≠ hd2 ∧ a ≠ tl2 := fun a ha => ⟨fun e => dj a ha (by rw [e]; simp [nodes]), fun e => dj a ha (by rw [e]; simp [nodes])⟩
  have e0 : nodes hd tl (cs.take (p - 1) ++ cs.drop (p - 1)) = nodes hd tl cs := by rw [List.take_append_drop]
  have hl := hne (lastOf hd (cs.take (p - 1))) (by rw [← e0]; exact last_mem_nodes)
  have h12 := ro.hd_ne_tl
  let hx := link cfg.dbl w.heap (lastOf hd (cs.take (p - 1))) tl2
  let h0 := link cfg.dbl hx hd2 (headOf tl (cs.drop (p - 1)))
  have nx : ∀ a, a ≠ hd2 → a ≠ lastOf hd (cs.take (p - 1)) → h0.nxt a = w.heap.nxt a := fun a h2 h3 => by rw [link_nxt_ne h2, link_nxt_ne h3]
  have rt : realTail cfg (lst hd2 tl2 ([] : Cells α) own2) w.heap = .ok (some hd2, w.heap) := realTail_ok ro
  have gh : getNext (some hd2) w.heap = .ok (some tl2, w.heap) := ro.getNext_hd
  have s1 : setNext cfg (some (lastOf hd (cs.take (p - 1)))) (some tl2) w.heap = .ok ((), hx) := setNext_run r.live_lastOf ro.vtl.live
  have s2 : setNext cfg (some hd2) (some (headOf tl (cs.drop (p - 1)))) hx = .ok ((), h0) := setNext_run (h := hx) ro.vhd.live r.live_headOf
  have ex : h0.nxt (lastOf hd (cs.take (p - 1))) = some (some tl2) := by rw [link_nxt_ne hl.1, link_nxt_same]
  constructor
  · refine change2_then_ub I hij hi hj rfl (l := ⟨some hd, some tl, cs.length + 0, own⟩) (o := ⟨some hd2, some tl2, 0, own2⟩)
      (h1 := link cfg.dbl h0 hd2 tl2) ?_ ?_
    · simp only [Prog.bind_run, at_next (I.rep hi) hp, Out.bind_ok, splice, rt, show (lst hd2 tl2 ([] : Cells α) own2).head = some hd2 from rfl,
        show (lst hd2 tl2 ([] : Cells α) own2).tail = some tl2 from rfl, gh, r.getPrev_at hd', s1, s2]
      rw [setNext_run (h := h0) ro.vhd.live ro.vtl.live]
      rfl
    · refine redirected (h' := link cfg.dbl h0 hd2 tl2) r (t := tl2) (fun a _ => rfl) (fun a ha hal => ?_) ?_ ?_ ?_ (l := ⟨some hd, some tl, cs.length + 0, own⟩) rfl rfl
      · rw [e0] at ha
        rw [link_nxt_ne (hne a ha).1, nx a (hne a ha).1 hal]
      · rw [link_nxt_ne hl.1, ex]
      · exact (hne tl (by simp [nodes])).2.symm
      · exact IsVirt.elemAt (cfg := cfg) (own := own2) ro.vtl
  · have v1 : IsVirt cfg own2 h0 hd2 := ro.vhd
    have v2 : IsVirt cfg own2 (killVirt cfg h0 hd2) tl2 := IsVirt.killVirt (h := h0) (show IsVirt cfg own2 h0 tl2 from ro.vtl) h12.symm
    refine change2_then_ub I hij hi hj rfl (l := ⟨some hd, some tl, cs.length + 0, own⟩) (o := ⟨none, none, 0, own2⟩)
      (h1 := killVirt cfg (killVirt cfg h0 hd2) tl2) ?_ ?_
    · simp only [Prog.bind_run, at_next (I.rep hi) hp, Out.bind_ok, spliceMove, rt, show (lst hd2 tl2 ([] : Cells α) own2).head = some hd2 from rfl,
        show (lst hd2 tl2 ([] : Cells α) own2).tail = some tl2 from rfl, show (lst hd2 tl2 ([] : Cells α) own2).alloc = own2 from rfl,
        gh, r.getPrev_at hd', s1, s2, destroyNode_virt v1, destroyNode_virt v2]
      rfl
    · refine redirected r (t := tl2) (fun a ha => ?_) (fun a ha hal => ?_) ?_ ?_ ?_ rfl rfl
      · rw [e0] at ha
        rw [killVirt_info_ne (hne a ha).2, killVirt_info_ne (hne a ha).1]; rfl
      · rw [e0] at ha
        exact nx a (hne a ha).1 hal
      · exact ex
      · exact (hne tl (by simp [nodes])).2.symm
      · rw [Spec.LL.elemAt, killVirt_info_same]

/-! ## remove(val) with `val` in the list -/

theorem removeLoop_alias (hb : Bal h) (r : Rep cfg h hd tl (c1 ++ (u ++ c :: v)) own) (hv : v ≠ []) (eq : α → α → Bool) (he : eq c.2 c.2 = true) (n cnt : Nat) :
    removeLoop cfg own (some tl) (fun (_ : Unit) y => do
      let z ← deref (.node (some c.1))
      return (eq z y, ())) () (some (headOf tl (u ++ c :: v))) (some (lastOf hd c1)) n cnt h = .ub := by
  induction u generalizing h c1 n cnt with
  | nil =>
    obtain ⟨d, v, rfl⟩ := List.exists_cons_of_ne_nil hv
    have ec : IsElem cfg own h c.1 c.2 := r.cells c (by simp)
    have r' : Rep cfg h hd tl (c1 ++ c :: (d :: v)) own := r
    have hne : some c.1 ≠ some tl := by simpa using r'.head_ne_tl
    have ed := Rep.link_kill hb r'
    rw [removeLoop, List.nil_append, headOf_cons, if_neg hne]
    simp only [Prog.bind_run, load_run ec, deref, Out.bind_ok, Prog.pure_run, he, if_true, r'.getNext_cell]
    rw [setNext_run r'.live_lastOf r'.cons_mid.live_headOf]
    simp only [Out.bind_ok]
    rw [destroyNode_elem (h := link cfg.dbl h (lastOf hd c1) (headOf tl (d :: v))) ec]
    simp only [Out.bind_ok, ed.rep.getNext_at]
    have hne2 : some d.1 ≠ some tl := by simpa using ed.rep.head_ne_tl
    rw [removeLoop, headOf_cons, if_neg hne2]
    have lb : load (some c.1) (kill cfg (link cfg.dbl h (lastOf hd c1) d.1) c.1) = .ub := by
      simp only [load, withNode, kill_info_same]
    have la : load (some d.1) (kill cfg (link cfg.dbl h (lastOf hd c1) d.1) c.1) = .ok (d.2, _) := load_run (ed.rep.cells d (by simp))
    simp only [Prog.bind_run, headOf_cons, la, Out.bind_ok, lb]
    rfl
  | cons d u ih =>
    have r' : Rep cfg h hd tl (c1 ++ d :: (u ++ c :: v)) own := by simpa using r
    have ec : IsElem cfg own h c.1 c.2 := r.cells c (by simp)
    have hne : some d.1 ≠ some tl := by simpa using r'.head_ne_tl
    rw [removeLoop, List.cons_append, headOf_cons, if_neg hne]
    simp only [Prog.bind_run, load_run (r'.cells d (by simp)), deref, load_run ec, Out.bind_ok, Prog.pure_run]
    cases hf : eq c.2 d.2 with
    | true =>
      have ed := Rep.link_kill hb r'
      simp only [if_true, Prog.bind_run, r'.getNext_cell, Out.bind_ok]
      rw [setNext_run r'.live_lastOf r'.cons_mid.live_headOf]
      simp only [Out.bind_ok]
      rw [destroyNode_elem (h := link cfg.dbl h (lastOf hd c1) (headOf tl (u ++ c :: v))) (r'.cells d (by simp))]
      simp only [Out.bind_ok, ed.rep.getNext_at]
      exact ih ed.bal ed.rep _ _
    | false =>
      simp only [Bool.false_eq_true, if_false, Prog.bind_run, r'.getNext_cell, Out.bind_ok, r'.getNext_at, headOf_cons]
      have := ih (c1 := c1 ++ [d]) hb r'.cons_mid n cnt
      simp only [lastOf_append, lastOf_cons, lastOf_nil] at this
      exact this

theorem remove_alias_ub (I : Inv cfg C w) (hi : C i = some (full hd tl (u ++ c :: v) own)) (hv : v ≠ []) (eq : α → α → Bool) (he : eq c.2 c.2 = true)
    (hk : u.length = k) : step cfg (.remove i eq (.elem i k)) w = .ub := by
  have r := I.rep hi
  have ea : argRef (.elem i k : Arg α) w = .ok (.node (some c.1), w) := by
    have := iterAt_next (c1 := u) (c2 := c :: v) r
    rw [hk, headOf_cons] at this
    simp only [argRef, Prog.bind_run, var_run (I.var hi), Out.bind_ok, inHeap_ok this]
    rfl
  have := removeLoop_alias (c1 := []) I.bal r hv eq he (u ++ c :: v).length 0
  simp only [step, Prog.bind_run, ea, Out.bind_ok, changeN, var_run (I.var hi), inHeap_run, remove, removeIf,
    dbgAssert_run (show Option.isSome (lst hd tl (u ++ c :: v) own).head = true from rfl)]
  rw [if_neg (by simp [lst])]
  simp only [Prog.bind_run, show (lst hd tl (u ++ c :: v) own).head = some hd from rfl, r.getNext_hd, Out.bind_ok]
  simp only [lst, lastOf_nil] at this ⊢
  rw [this]
  rfl

/-! ## moving with another allocator -/

theorem moveLoop_bad {hp : Nat} (y : Way cfg own h cs t) (hv : IsVirt cfg own h t) (hn : (t :: addrs cs).Nodup) (hf : ∀ a ∈ t :: addrs cs, a < h.next)
    (lp : Live h p) (hpn : p ∉ t :: addrs cs) (hlt : p < h.next) (n : Nat) :
    moveLoop cfg own hp (some (headOf t cs)) (some p) n h = .ub ∨ Refuses cfg := by
  induction cs generalizing h p n with
  | nil =>
    left
    rw [moveLoop, if_neg (by simp)]
    simp only [headOf_nil, Prog.bind_run, take, load_ub hv.elemAt]
    rfl
  | cons c cs ih =>
    obtain ⟨h1, h2, h3⟩ := y
    have hcn : c.1 ≠ h.next := Nat.ne_of_lt (hf c.1 (by simp))
    have hpne : p ≠ h.next := Nat.ne_of_lt hlt
    have hpc : p ≠ c.1 := fun e => hpn (by rw [e]; simp)
    rw [moveLoop, if_neg (by simp)]
    simp only [headOf_cons, Prog.bind_run, take_run h1, Out.bind_ok]
    have hs := constructNode_run (cfg := cfg) hp c.2 (poke cfg own h c.1 (cfg.mv c.2))
    cases hc : constructNode cfg hp c.2 (poke cfg own h c.1 (cfg.mv c.2)) with
    | oom => right; rw [hc] at hs; exact hs
    | ok q =>
      rw [hc] at hs
      obtain rfl : q = _ := hs
      obtain ⟨g1, hg⟩ : ∃ g1, g1 = newElem cfg hp c.2 (poke cfg own h c.1 (cfg.mv c.2)) := ⟨_, rfl⟩
      have i1 : IsElem cfg own g1 c.1 (cfg.mv c.2) := by rw [IsElem, hg, mk_info_ne (by exact hcn)]; exact poke_info_same
      have l1 : Live g1 p := by rw [Live, hg, mk_info_ne (by exact hpne), poke_info_ne hpc]; exact lp
      have l2 : Live g1 h.next := by
        rw [Live, hg]; show (newElem _ _ _ _).info (poke cfg own h c.1 (cfg.mv c.2)).next ≠ none; rw [mk_info_same]; simp
      have nxc : g1.nxt c.1 = some (some (headOf t cs)) := by rw [hg, mk_nxt_ne (by exact hcn)]; exact h2
      simp only [Out.bind_ok, ← hg, getNext_run i1.live nxc, setNext_run l1 l2]
      simp only [show (poke cfg own h c.1 (cfg.mv c.2)).next = h.next from rfl, setNext_run l1 l2, Out.bind_ok]
      rw [destroyNode_elem (h := link cfg.dbl g1 p h.next) (show IsElem cfg own _ c.1 (cfg.mv c.2) from i1)]
      simp only [Out.bind_ok]
      have hn2 := hn
      simp only [addrs, List.map_cons, List.nodup_cons, List.mem_cons, not_or] at hn2
      have fr : ∀ a, a < h.next → a ≠ c.1 → (kill cfg (link cfg.dbl g1 p h.next) c.1).info a = h.info a := by
        intro a ha hac
        rw [kill_info_ne hac]
        show g1.info a = _
        rw [hg, mk_info_ne (by exact Nat.ne_of_lt ha), poke_info_ne hac]
      have hlt2 : ∀ a ∈ addrs cs, a < h.next := fun a ha => hf a (by simp at ha ⊢; tauto)
      have hne2 : ∀ a ∈ addrs cs, a ≠ c.1 := fun a ha e => hn2.2.1 (by rw [← e]; exact ha)
      refine ih ?_ ?_ ?_ ?_ ?_ ?_ ?_ (n + 1)
      · refine h3.frame fun a ha => ⟨fr a (hlt2 a ha) (hne2 a ha), ?_⟩
        show (link cfg.dbl g1 p h.next).nxt a = _
        rw [link_nxt_ne (fun e => hpn (by rw [← e]; simp at ha ⊢; tauto)), hg, mk_nxt_ne (by exact Nat.ne_of_lt (hlt2 a ha))]
        rfl
      · rw [IsVirt, fr t (hf t (by simp)) hn2.1.1]; exact hv
      · rw [List.nodup_cons]; exact ⟨hn2.1.2, hn2.2.2⟩
      · intro a ha
        rw [kill_next, link_next, hg, mk_next]
        refine Nat.lt_succ_of_lt (hf a ?_)
        simp at ha ⊢; tauto
      · rw [Live, kill_info_ne hcn.symm]; exact l2
      · intro hm
        have : h.next ∈ t :: addrs (c :: cs) := by simp at hm ⊢; tauto
        exact Nat.lt_irrefl _ (hf _ this)
      · rw [kill_next, link_next, hg, mk_next]; exact Nat.lt_succ_self _
    | div => rw [hc] at hs; exact hs.elim
    | panic => rw [hc] at hs; exact hs.elim
    | ub => rw [hc] at hs; exact hs.elim

theorem newMoveAlloc_ub (hc : ¬ Refuses cfg) (I : Inv cfg C w) (hj : C j = some (full hd tl cs own)) (hcs : cs ≠ []) {a : Nat} (ha : a ≠ own) :
    step cfg (.newMoveAlloc i j a) w = .ub := by
  have r := I.rep hj
  have fresh : ∀ b ∈ nodes hd tl cs, b < w.heap.next := fun b hb => I.bal.lt (r.live hb)
  suffices hs : newMoveAlloc cfg (lst hd tl cs own) a w.heap = .ub by
    simp only [step, Prog.bind_run, var_run (I.var hj), Out.bind_ok, inHeap_run, hs]
    rfl
  have ok : ∀ h, buildVirtual cfg a h = .ok (some h.next, mkVirt cfg a h) := fun h => by
    have := buildVirtual_run (cfg := cfg) a h
    cases hb : buildVirtual cfg a h with
    | ok q => rw [hb] at this; exact congrArg _ this
    | oom => rw [hb] at this; exact absurd this hc
    | _ => rw [hb] at this; exact this.elim
  simp only [newMoveAlloc, Prog.bind_run]
  rw [dbgAssert_run (by simp [lst])]
  simp only [Out.bind_ok]
  rw [if_neg (by simpa [lst] using ha), if_neg (by simpa [lst] using hcs)]
  simp only [lst, Prog.bind_run, r.getNext_hd, Out.bind_ok, ok, mkVirt_next]
  have hlt : ∀ b, b < w.heap.next → (mkVirt cfg a (mkVirt cfg a w.heap)).info b = w.heap.info b ∧ (mkVirt cfg a (mkVirt cfg a w.heap)).nxt b = w.heap.nxt b := by
    intro b hb
    have n1 : b ≠ (mkVirt cfg a w.heap).next := by rw [mkVirt_next]; omega
    have n2 : b ≠ w.heap.next := by omega
    rw [mkVirt_info_ne n1, mkVirt_info_ne n2, mkVirt_nxt_ne n1, mkVirt_nxt_ne n2]
    exact ⟨rfl, rfl⟩
  have hin : ∀ b ∈ tl :: addrs cs, b < w.heap.next := fun b hb => fresh b (by simp [nodes] at hb ⊢; tauto)
  rcases moveLoop_bad (hp := a) (h := mkVirt cfg a (mkVirt cfg a w.heap)) (p := w.heap.next) (own := own) (t := tl) (cs := cs)
    ((Rep.way (c1 := []) r).frame fun b hb => hlt b (hin b (List.mem_cons_of_mem _ hb)))
    (by rw [IsVirt, (hlt tl (hin tl (by simp))).1]; exact r.vtl)
    (List.nodup_cons.2 ⟨r.tl_not_cell, r.nodup_cells⟩)
    (fun b hb => by have := hin b hb; simp only [mkVirt_next]; omega)
    (by rw [Live, mkVirt_info_ne (by rw [mkVirt_next]; omega), mkVirt_info_same]; simp)
    (fun hm => Nat.lt_irrefl _ (hin _ hm)) (by simp only [mkVirt_next]; omega) 0 with e | e
  · rw [e]; rfl
  · exact absurd e hc

/-- moving an empty list with another allocator and destroying both lists: the node `tl` stays, in no list -/
theorem newMoveAlloc_leak (I : Inv cfg C w) (hij : i ≠ j) (hi : C i = none) (hj : C j = some (full hd tl [] own)) {a : Nat} (ha : a ≠ own) :
    (run cfg [.newMoveAlloc i j a, .drop i, .drop j] w).SafeIf (Refuses cfg) fun q =>
      q.2.vars i = none ∧ q.2.vars j = none ∧ (∀ l, l ≠ i → l ≠ j → q.2.vars l = w.vars l) ∧
      ∃ t, q.2.heap.info t ≠ none ∧ ∀ l v, q.2.vars l = some v → v.head ≠ some t ∧ v.tail ≠ some t ∧
        ∀ ds, Spec.LL.cells q.2 l = some ds → t ∉ ds.map Prod.fst := by
  have r := I.rep hj
  have ht : tl < w.heap.next := I.bal.lt (r.live (by simp [nodes]))
  have hh : hd < w.heap.next := I.bal.lt (r.live (by simp [nodes]))
  have h12 := r.hd_ne_tl
  let n := w.heap.next
  let g0 := mkVirt cfg a (mkVirt cfg a w.heap)
  let g1 := link cfg.dbl g0 n (n + 1)
  let g2 := killVirt cfg g1 hd
  let g3 := link cfg.dbl g2 n (n + 1)
  let g4 := killVirt cfg g3 n
  let g5 := killVirt cfg g4 (n + 1)
  have i0 : ∀ b, b < n → g0.info b = w.heap.info b := by
    intro b hb
    have n1 : b ≠ (mkVirt cfg a w.heap).next := by rw [mkVirt_next]; omega
    have n2 : b ≠ w.heap.next := by omega
    show (mkVirt cfg a (mkVirt cfg a w.heap)).info b = _
    rw [mkVirt_info_ne n1, mkVirt_info_ne n2]
  have v1 : IsVirt cfg a g0 n := by
    show (mkVirt cfg a (mkVirt cfg a w.heap)).info w.heap.next = _
    rw [mkVirt_info_ne (by rw [mkVirt_next]; omega), mkVirt_info_same]
  have v2 : IsVirt cfg a g0 (n + 1) := isVirt_mkVirt (h := mkVirt cfg a w.heap)
  have vh : IsVirt cfg own g1 hd := by rw [IsVirt]; show g0.info hd = _; rw [i0 hd hh]; exact r.vhd
  have w1 : IsVirt cfg a g2 n := IsVirt.killVirt (h := g1) v1 (by omega)
  have w2 : IsVirt cfg a g2 (n + 1) := IsVirt.killVirt (h := g1) v2 (by omega)
  have w3 : IsVirt cfg a g4 (n + 1) := IsVirt.killVirt (h := g3) (show IsVirt cfg a g3 (n + 1) from w2) (by omega)
  have last : ∀ b, b < n → b ≠ hd → g5.info b = w.heap.info b ∧ g5.nxt b = w.heap.nxt b ∧ g5.prv b = w.heap.prv b := by
    intro b hb hbh
    have n1 : b ≠ n := by omega
    have n2 : b ≠ n + 1 := by omega
    have n3 : b ≠ (mkVirt cfg a w.heap).next := by rw [mkVirt_next]; omega
    refine ⟨?_, ?_, ?_⟩
    · show (killVirt cfg (killVirt cfg g3 n) (n + 1)).info b = _
      rw [killVirt_info_ne n2, killVirt_info_ne n1]
      show (killVirt cfg g1 hd).info b = _
      rw [killVirt_info_ne hbh]
      exact i0 b hb
    · show (link cfg.dbl g2 n (n + 1)).nxt b = _
      rw [link_nxt_ne n1]
      show (link cfg.dbl g0 n (n + 1)).nxt b = _
      rw [link_nxt_ne n1, mkVirt_nxt_ne n3, mkVirt_nxt_ne n1]
    · show (link cfg.dbl g2 n (n + 1)).prv b = _
      rw [link_prv_ne n2]
      show (link cfg.dbl g0 n (n + 1)).prv b = _
      rw [link_prv_ne n2, mkVirt_prv_ne n3, mkVirt_prv_ne n1]
  have ej : (newMoveAlloc cfg (lst hd tl ([] : Cells α) own) a w.heap).SafeIf (Refuses cfg) fun q =>
      q = ((⟨some n, some (n + 1), 0, a⟩, ⟨none, none, 0, own⟩), g2) := by
    simp only [newMoveAlloc, Prog.bind_run]
    rw [dbgAssert_run (by simp [lst])]
    simp only [Out.bind_ok]
    rw [if_neg (by simpa [lst] using ha), if_pos (by simp [lst])]
    simp only [Prog.bind_run, initEmpty]
    refine Out.SafeIf.bind (P := fun q => q = ((some n, some (n + 1)), g1)) ?_ ?_
    · refine (buildVirtual_run a w.heap).bind ?_
      rintro _ rfl
      refine (buildVirtual_run a _).bind ?_
      rintro _ rfl
      simp only [mkVirt_next]
      rw [setNext_run (h := g0) v1.live v2.live]
      rfl
    · rintro _ rfl
      simp only [lst, destroyNode_virt vh, Out.bind_ok]
      rfl
  have gn : getNext (some n) g2 = .ok (some (n + 1), g2) := getNext_run w1.live (by show (link cfg.dbl g0 n (n + 1)).nxt n = _; rw [link_nxt_same])
  have ed : destruct cfg ⟨some n, some (n + 1), 0, a⟩ g2 = .ok ((), g5) := by
    rw [destruct, if_neg (by simp)]
    simp only [Prog.bind_run, clear, gn, Out.bind_ok]
    rw [destroyLoop, if_pos rfl]
    simp only [Prog.pure_run, Out.bind_ok, setNext_run w1.live w2.live]
    rw [destroyNode_virt (h := g3) w1]
    simp only [Out.bind_ok]
    rw [destroyNode_virt (h := g4) w3]
  have eh : destruct cfg ⟨none, none, 0, own⟩ g5 = .ok ((), g5) := by rw [destruct, if_pos rfl]; rfl
  simp only [run, Prog.bind_run]
  refine Out.SafeIf.bind (P := fun q => q = (.unit, (⟨g2, upd (upd w.vars i (some ⟨some n, some (n + 1), 0, a⟩)) j (some ⟨none, none, 0, own⟩)⟩ : World α))) ?_ ?_
  · simp only [step, Prog.bind_run, var_run (I.var hj), Out.bind_ok, inHeap_run]
    refine Out.SafeIf.bind (P := fun q => q = ((⟨some n, some (n + 1), 0, a⟩, ⟨none, none, 0, own⟩), (⟨g2, w.vars⟩ : World α))) (ej.bind ?_) ?_
    · rintro _ rfl; rfl
    · rintro _ rfl; rfl
  · rintro _ rfl
    simp only [step, Prog.bind_run]
    rw [var_run (l := ⟨some n, some (n + 1), 0, a⟩) (by simp only [upd_ne _ _ hij, upd_same])]
    simp only [Out.bind_ok, inHeap_run, ed, setVar_run, Prog.pure_run]
    rw [var_run (l := ⟨none, none, 0, own⟩) (by simp only [upd_ne _ _ hij.symm, upd_same])]
    simp only [Out.bind_ok, eh, Out.safeIf_ok]
    refine ⟨by simp [upd, hij], by simp [upd], fun l h1 h2 => by simp [upd, h1, h2], tl, ?_, ?_⟩
    · rw [(last tl ht h12.symm).1]; exact r.vtl.live
    · intro l v hv
      by_cases hlj : l = j
      · subst hlj; simp [upd] at hv
      · by_cases hli : l = i
        · subst hli; simp [upd, hij] at hv
        · simp only [upd, if_neg hli, if_neg hlj] at hv
          rw [I.vars] at hv
          cases hC : C l with
          | none => rw [hC] at hv; cases hv
          | some o =>
            rw [hC] at hv
            obtain ⟨b, al⟩ := o
            cases b with
            | none => cases hv; simp [Obj.fields, Spec.LL.cells, upd, hli, hlj, I.vars, hC]
            | some b =>
              obtain ⟨hd3, tl3, ds⟩ := b
              cases hv
              have sep : ∀ b ∈ nodes hd3 tl3 ds, b ∉ nodes hd tl ([] : Cells α) := by
                have := I.sep l j hlj
                rw [hC, hj] at this
                exact this
              have rl := I.rep hC
              have rl5 : Rep cfg g5 hd3 tl3 ds al := rl.frame fun b hb =>
                last b (I.bal.lt (rl.live hb)) (fun e => sep b hb (by rw [e]; simp [nodes]))
              refine ⟨?_, ?_, ?_⟩
              · intro e; cases e; exact sep tl (by simp [nodes]) (by simp [nodes])
              · intro e; cases e; exact sep tl (by simp [nodes]) (by simp [nodes])
              · intro ds' hds
                have := Rep.nodesFrom (c1 := []) (c2 := ds) rl5
                rw [lastOf_nil] at this
                simp only [Spec.LL.cells, upd, if_neg hli, if_neg hlj, I.var hC, Option.bind_some, lst, this, Option.some.injEq] at hds
                subst hds
                intro hm
                exact sep tl (by simp only [nodes, List.mem_cons, List.mem_append]; exact .inr (.inl hm)) (by simp [nodes])

/-! ## reverse iterators -/

theorem stepRev_div (up : Bool) (cur : Ptr) (h : Heap α) : stepRev up cur h = .div := by
  have := stepRev.fixpoint_induct (α := α) cur (fun f => ∀ up h, f up h = .div) ?_ ?_
  · exact this up h
  · refine Lean.Order.admissible_pi_apply (fun _ (g : M α Ptr) => ∀ h, g h = .div) fun up => ?_
    refine Lean.Order.admissible_pi_apply (β := fun _ : Heap α => Out (Ptr × Heap α)) (fun _ (o : Out (Ptr × Heap α)) => o = .div) fun h => ?_
    exact Lean.Order.admissible_flatOrder (b := (Out.div : Out (Ptr × Heap α))) (fun o => o = (Out.div : Out (Ptr × Heap α))) rfl
  · intro f hf up h; exact hf (!up) h

theorem traverseRev_div (I : Inv cfg C w) (hi : C i = some (full hd tl cs own)) (hd' : cfg.dbl = true) (hcs : cs ≠ []) :
    step cfg (.traverseRev i) w = .div := by
  have r := I.rep hi
  rcases List.eq_nil_or_concat cs with rfl | ⟨u, c, rfl⟩
  · exact absurd rfl hcs
  · rw [List.concat_eq_append] at *
    have hc : c.1 ≠ hd := fun e => r.hd_not_cell (by simp [← e])
    simp only [step, look, Prog.bind_run, var_run (I.var hi), Out.bind_ok, inHeap_run, traverseRev, lst, r.load_last hd']
    rw [walkRev, if_neg (by simpa using hc)]
    simp only [Prog.bind_run, load_run (r.cells c (by simp)), Out.bind_ok, stepRev_div]
    rfl

/-! ## popping an empty list -/

theorem popFront_empty (I : Inv cfg C w) (hi : C i = some (full hd tl [] own)) :
    step cfg (.popFront i) w = .ok (.unit, ⟨killVirt cfg (cut w.heap hd) tl, upd w.vars i (some ⟨some hd, some tl, wordSize - 1, own⟩)⟩) := by
  have r := I.rep hi
  have gh : getNext (some hd) w.heap = .ok (some tl, w.heap) := r.getNext_hd
  simp only [step, change, Prog.bind_run, var_run (I.var hi), Out.bind_ok, inHeap_run, popFront, lst, gh,
    dbgAssert_run (show Option.isSome (some tl) = true from rfl), getNext_run r.vtl.live r.last, setNext_null_run r.vhd.live]
  rw [destroyNode_virt (h := cut w.heap hd) r.vtl]
  rfl

theorem popFront_empty_then (I : Inv cfg C w) (hi : C i = some (full hd tl [] own)) :
    (∃ w', run cfg [.popFront i, .size i, .empty i] w = .ok ([.unit, .num (wordSize - 1), .bool false], w')) ∧
    run cfg [.popFront i, .front i] w = .ub ∧ run cfg [.popFront i, .traverse i] w = .ub ∧ run cfg [.popFront i, .drop i] w = .ub := by
  have r := I.rep hi
  have h12 := r.hd_ne_tl
  have e := popFront_empty I hi
  have lh : Live (killVirt cfg (cut w.heap hd) tl) hd := by rw [Live, killVirt_info_ne h12]; exact r.vhd.live
  have gh : getNext (some hd) (killVirt cfg (cut w.heap hd) tl) = .ok (none, killVirt cfg (cut w.heap hd) tl) :=
    getNext_run lh (by show (cut w.heap hd).nxt hd = _; rw [cut_nxt_same])
  have hv : (upd w.vars i (some ⟨some hd, some tl, wordSize - 1, own⟩) : Nat → Option Lst) i = some ⟨some hd, some tl, wordSize - 1, own⟩ := upd_same ..
  refine ⟨⟨⟨killVirt cfg (cut w.heap hd) tl, upd w.vars i (some ⟨some hd, some tl, wordSize - 1, own⟩)⟩, ?_⟩, run_two e (look_ub hv ?_), run_two e (look_ub hv ?_), run_two e ?_⟩
  · have e2 : step cfg (.size i) ⟨killVirt cfg (cut w.heap hd) tl, upd w.vars i (some ⟨some hd, some tl, wordSize - 1, own⟩)⟩ = .ok (.num (wordSize - 1), _) :=
      look_ok (f := fun l => pure (Res.num l.len)) hv rfl
    have e3 : step cfg (.empty i) ⟨killVirt cfg (cut w.heap hd) tl, upd w.vars i (some ⟨some hd, some tl, wordSize - 1, own⟩)⟩ = .ok (.bool false, _) :=
      look_ok (f := fun l => pure (Res.bool (l.len == 0))) hv rfl
    simp only [run, Prog.bind_run, e, e2, e3, Out.bind_ok]
    rfl
  · simp only [Prog.bind_run, front]
    rw [if_neg (by decide)]
    simp only [Prog.bind_run, gh, Out.bind_ok]
    rfl
  · simp only [Prog.bind_run, traverse, gh, Out.bind_ok]
    rw [walk, if_neg (by simp)]
    rfl
  · have ed : destruct cfg ⟨some hd, some tl, wordSize - 1, own⟩ (killVirt cfg (cut w.heap hd) tl) = .ub := by
      rw [destruct, if_neg (by simp)]
      simp only [Prog.bind_run, clear, gh, Out.bind_ok]
      rw [destroyLoop, if_neg (by simp)]
      rfl
    simp only [step, Prog.bind_run]
    rw [var_run hv]
    simp only [Out.bind_ok, inHeap_run, ed]
    rfl

theorem popBack_empty (I : Inv cfg C w) (hi : C i = some (full hd tl [] own)) (hd' : cfg.dbl = true) :
    step cfg (.popBack i) w = if cfg.debug then .panic else .ub := by
  have r := I.rep hi
  have gt : getPrev (some tl) w.heap = .ok (some hd, w.heap) := r.getPrev_tl hd'
  simp only [step, change, Prog.bind_run, var_run (I.var hi), Out.bind_ok, inHeap_run, popBack, lst,
    dbgAssert_run (show Option.isSome (some hd) = true from rfl)]
  cases hdb : cfg.debug with
  | true => simp [dbgAssert, hdb, Prog.panic]
  | false =>
    have : dbgAssert cfg (decide (([] : Cells α).length ≠ 0)) w.heap = .ok ((), w.heap) := by simp [dbgAssert, hdb]
    simp only [this, Out.bind_ok, gt, getPrev_run r.vhd.live (r.first hd')]
    rfl

theorem frontUncheckedConst_last (I : Inv cfg C w) (hi : C i = some (full hd tl (cs ++ [c]) own)) (hd' : cfg.dbl = true) :
    step cfg (.frontUncheckedConst i) w = .ok (.val c.2, w) := by
  refine look_ok (I.var hi) ?_
  simp only [Prog.bind_run, frontUncheckedConst_dbl (I.rep hi) hd', Out.bind_ok]
  rfl
end

end Verif.Proof.LL
