import Verif.Proof.LLRep
/-! # Linked lists: construction and insertion -/
namespace Verif.Proof.LL
open Verif Verif.Model.LL
open Verif.Proof.Mem (Cost)

variable {α β σ : Type} {cfg : Cfg α}

/-- The reference denotes a value. -/
def RefIs (cfg : Cfg α) (r : Ref α) (x : α) (h : Heap α) : Prop :=
  match r with
  | .tmp y => y = x
  | .node p => ∃ a own, p = some a ∧ IsElem cfg own h a x

section
variable {h h' h'' : Heap α} {hd tl own o a b p : Nat} {cs c1 c2 mid ns : Cells α} {x y : α} {k : Cost} {r : Ref α}

theorem RefIs.deref (hr : RefIs cfg r x h) : deref r h = .ok (x, h) := by
  cases r with
  | tmp y => cases hr; rfl
  | node p => obtain ⟨a, o, rfl, e⟩ := hr; exact load_run e

theorem RefIs.same (hr : RefIs cfg r x h) (hi : h'.info = h.info) : RefIs cfg r x h' := by
  cases r with
  | tmp y => exact hr
  | node p => obtain ⟨a, o, rfl, e⟩ := hr; exact ⟨a, o, rfl, by rw [IsElem, hi]; exact e⟩

theorem RefIs.mk (hr : RefIs cfg r x h) (hb : Bal h) : RefIs cfg r x (newElem cfg o y h) := by
  cases r with
  | tmp y => exact hr
  | node p => obtain ⟨a, o, rfl, e⟩ := hr; exact ⟨a, o, rfl, e.mk (hb.ne_next e.live)⟩

theorem refIs_tmp : RefIs cfg (.tmp x) x h := rfl

theorem constructNode_eq (own : Nat) (x : α) (h : Heap α) :
    constructNode cfg own x h = if cfg.refuse h.next cfg.dsize then .oom else .ok (some h.next, newElem cfg own x h) := by
  simp only [constructNode, Prog.bind_run, allocNode]
  split
  · rfl
  · simp [constructData, dataNull, withNode, dbgAssert, Prog.bind_run, newElem]

theorem mk_live (hl : Live h a) : Live (newElem cfg own x h) a := by
  by_cases e : a = h.next
  · subst e; exact isElem_mk.live
  · rw [Live, mk_info_ne e]; exact hl

theorem fillLoop_eq (hb : Bal h) (hr : RefIs cfg r x h) (hp : Live h p) (n : Nat) :
    fillLoop cfg own r n (some p) h = rangeLoop cfg own (List.replicate n x) (some p) h := by
  induction n generalizing h p with
  | zero => rfl
  | succ n ih =>
    rw [List.replicate_succ]
    simp only [fillLoop, rangeLoop, Prog.bind_run, hr.deref, Out.bind_ok, constructNode_eq]
    split
    · rfl
    · simp only [Out.bind_ok, setNext_run (mk_live hp) isElem_mk.live]
      exact ih (step_link (l := [p, h.next]) (bal_mk hb) (by simp) (by simp)).bal ((hr.mk hb).same rfl) isElem_mk.live

/-! ## A run of new nodes -/

/-- New nodes `ns` after `p`. -/
structure Built (cfg : Cfg α) (own : Nat) (h : Heap α) (p : Nat) (h' : Heap α) (ns : Cells α) : Prop where
  step : Step h [p] h' (p :: addrs ns) ⟨ns.length, 0, ns.length⟩
  chain : Chain cfg.dbl h' (p :: addrs ns)
  elems : ∀ c ∈ ns, IsElem cfg own h' c.1 c.2
  nodup : (addrs ns).Nodup
  fresh : ∀ a ∈ addrs ns, h.info a = none
  info : h'.info p = h.info p
  prv : h'.prv p = h.prv p

theorem Built.nil (hb : Bal h) (own p : Nat) : Built cfg own h p h [] :=
  ⟨Step.refl hb _, .singleton _, by simp, by simp, by simp, rfl, rfl⟩

theorem Built.cons (hb : Bal h) (hp : Live h p) (bt : Built cfg own (link cfg.dbl (newElem cfg own x h) p h.next) h.next h' ns) :
    Built cfg own h p h' ((h.next, x) :: ns) := by
  have hpn : p ≠ h.next := hb.ne_next hp
  have lp : Live (link cfg.dbl (newElem cfg own x h) p h.next) p := mk_live hp
  have s1 : Step h [p] (link cfg.dbl (newElem cfg own x h) p h.next) [p, h.next] ⟨1, 0, 1⟩ := by
    have s := ((step_mk (cfg := cfg) (own := own) (x := x) hb).more [p]).trans
      (step_link (d := cfg.dbl) (a := p) (b := h.next) (l := [h.next] ++ [p]) (bal_mk hb) (by simp) (by simp))
    exact (s.congr (m := [p]) (m' := [p, h.next]) (by simp) (by simp; tauto))
  have s2 := bt.step.more [p]
  have hpns : p ∉ [h.next] := by simp [hpn]
  have kp := bt.step.keep p hpns lp
  have fp := (bt.step.live hpns lp)
  have lp' : (link cfg.dbl (newElem cfg own x h) p h.next).info h.next = some ⟨own, cfg.dsize, .live x⟩ := mk_info_same
  refine ⟨?_, ?_, ?_, ?_, ?_, ?_, ?_⟩
  · refine ((s1.trans (s2.congr (m := [p, h.next]) (m' := p :: addrs ((h.next, x) :: ns)) (by simp; tauto) (by simp; tauto))).cost ?_)
    simp [Nat.add_comm]
  · rw [show p :: addrs ((h.next, x) :: ns) = p :: h.next :: addrs ns from rfl, Chain, List.isChain_cons_cons]
    refine ⟨⟨?_, ?_⟩, bt.chain⟩
    · rw [kp.1]; exact link_nxt_same
    · intro hd; rw [bt.prv, hd]; exact link_prv_same
  · intro c hc
    rcases List.mem_cons.1 hc with rfl | hc
    · rw [IsElem, bt.info]; exact lp'
    · exact bt.elems c hc
  · simp only [addrs, List.map_cons, List.nodup_cons]
    refine ⟨fun hm => ?_, bt.nodup⟩
    have := bt.fresh _ hm
    rw [lp'] at this; cases this
  · intro a ha
    rcases List.mem_cons.1 ha with rfl | ha
    · exact hb.fresh _ (Nat.le_refl _)
    · have := bt.fresh a ha
      by_cases e : a = h.next
      · subst e; exact hb.fresh _ (Nat.le_refl _)
      · rwa [link_info, mk_info_ne e] at this
  · rw [fp.2.2, link_info, mk_info_ne hpn]
  · rw [kp.2, link_prv_ne hpn, mk_prv_ne hpn]

theorem rangeLoop_ok (hb : Bal h) (hp : Live h p) (xs : List α) :
    (rangeLoop cfg own xs (some p) h).SafeIf (Refuses cfg) fun q =>
      ∃ ns, vals ns = xs ∧ q.1 = some (lastOf p ns) ∧ Built cfg own h p q.2 ns := by
  induction xs generalizing h p with
  | nil => exact ⟨[], rfl, rfl, Built.nil hb own p⟩
  | cons x xs ih =>
    simp only [rangeLoop, Prog.bind_run]
    refine (constructNode_run own x h).bind ?_
    rintro _ rfl
    simp only [setNext_run (mk_live hp) isElem_mk.live, Out.bind_ok]
    refine (ih (step_link (l := [p, h.next]) (bal_mk hb) (by simp) (by simp)).bal isElem_mk.live).imp ?_
    rintro q ⟨ns, h1, h2, h3⟩
    exact ⟨(h.next, x) :: ns, by simp [h1], by simpa using h2, h3.cons hb hp⟩

theorem Built.live_last (bt : Built cfg own h p h' ns) (hp : Live h p) : Live h' (lastOf p ns) := by
  have := lastOf_mem p ns
  rcases List.mem_cons.1 this with e | hm
  · rw [e, Live, bt.info]; exact hp
  · obtain ⟨c, hc, e⟩ := List.mem_map.1 hm
    rw [← e]; exact (bt.elems c hc).live

/-! ## Into a list -/

/-- From one list in memory to another with the same virtual nodes. -/
structure Edit (cfg : Cfg α) (h : Heap α) (hd tl : Nat) (cs : Cells α) (own : Nat) (h' : Heap α) (cs' : Cells α) (k : Cost) : Prop where
  rep : Rep cfg h' hd tl cs' own
  step : Step h (nodes hd tl cs) h' (nodes hd tl cs') k

theorem Edit.bal {cs' : Cells α} (e : Edit cfg h hd tl cs own h' cs' k) : Bal h' := e.step.bal

theorem Edit.trans {cs' cs'' : Cells α} {k' : Cost} (e : Edit cfg h hd tl cs own h' cs' k) (f : Edit cfg h' hd tl cs' own h'' cs'' k') :
    Edit cfg h hd tl cs own h'' cs'' (k + k') := ⟨f.rep, e.step.trans f.step⟩

theorem Edit.refl (hb : Bal h) (r : Rep cfg h hd tl cs own) : Edit cfg h hd tl cs own h cs 0 := ⟨r, Step.refl hb _⟩

theorem Edit.cost {cs' : Cells α} {k' : Cost} (e : Edit cfg h hd tl cs own h' cs' k) (hk : k = k') : Edit cfg h hd tl cs own h' cs' k' := hk ▸ e

theorem Rep.tl_not_before (r : Rep cfg h hd tl (c1 ++ c2) own) : lastOf hd c1 ≠ tl := by
  have := r.nodup
  rw [nodes_append] at this
  exact (List.nodup_append.1 this).2.2 _ (lastOf_mem hd c1) tl (by simp)

theorem Rep.hd_not_after (r : Rep cfg h hd tl (c1 ++ c2) own) : headOf tl c2 ≠ hd := by
  have := r.nodup
  rw [nodes_append] at this
  exact fun e => (List.nodup_append.1 this).2.2 hd (by simp) _ (headOf_mem tl c2) e.symm

theorem Rep.last_ne_head (r : Rep cfg h hd tl (c1 ++ (mid ++ c2)) own) : lastOf hd c1 ≠ headOf tl c2 := by
  have := r.nodup
  rw [nodes_append] at this
  refine (List.nodup_append.1 this).2.2 _ (lastOf_mem hd c1) _ ?_
  have := headOf_mem tl c2
  simp only [addrs, List.map_append, List.append_assoc] at this ⊢
  exact List.mem_append_right _ this

theorem Rep.insert (hb : Bal h) (r : Rep cfg h hd tl (c1 ++ c2) own) (bt : Built cfg own h (lastOf hd c1) h' ns) :
    Edit cfg h hd tl (c1 ++ c2) own (link cfg.dbl h' (lastOf (lastOf hd c1) ns) (headOf tl c2)) (c1 ++ (ns ++ c2)) ⟨ns.length, 0, ns.length⟩ := by
  generalize hA : lastOf hd c1 = A at *
  generalize hB : headOf tl c2 = B at *
  have hAm : A ∈ nodes hd tl (c1 ++ c2) := by rw [nodes_append, ← hA]; exact List.mem_append_left _ (lastOf_mem _ _)
  have hBm : B ∈ nodes hd tl (c1 ++ c2) := by rw [nodes_append, ← hB]; exact List.mem_append_right _ (headOf_mem _ _)
  have hAB : A ≠ B := by rw [← hA, ← hB]; exact Rep.last_ne_head (mid := []) r
  have hdis : ∀ a ∈ addrs ns, a ∉ nodes hd tl (c1 ++ c2) := fun a ha hm => r.live hm (bt.fresh a ha)
  have hZ : lastOf A ns ∈ A :: addrs ns := lastOf_mem A ns
  have nodupn : (nodes hd tl (c1 ++ (ns ++ c2))).Nodup := by
    have h1 := r.nodup
    have hp : (nodes hd tl (c1 ++ (ns ++ c2))).Perm (addrs ns ++ nodes hd tl (c1 ++ c2)) := by
      simp only [nodes, addrs, List.map_append, List.append_assoc]
      rw [← List.cons_append, ← List.cons_append]
      refine (List.perm_append_comm_assoc _ _ _).trans (.refl _)
    rw [hp.nodup_iff, List.nodup_append]
    exact ⟨bt.nodup, h1, fun a ha b hb e => hdis a ha (e ▸ hb)⟩
  have sAll : Step h (nodes hd tl (c1 ++ c2)) (link cfg.dbl h' (lastOf A ns) B) (nodes hd tl (c1 ++ (ns ++ c2))) ⟨ns.length, 0, ns.length⟩ := by
    have s1 := bt.step.more (nodes hd tl (c1 ++ c2))
    have s2 : Step h (nodes hd tl (c1 ++ c2)) h' (nodes hd tl (c1 ++ (ns ++ c2))) ⟨ns.length, 0, ns.length⟩ := by
      refine s1.congr ?_ ?_
      · intro a; simp only [List.singleton_append, List.mem_cons]
        constructor
        · rintro (rfl | h)
          · exact hAm
          · exact h
        · exact .inr
      · intro a
        have : a ∈ nodes hd tl (c1 ++ (ns ++ c2)) ↔ a ∈ addrs ns ∨ a ∈ nodes hd tl (c1 ++ c2) := by
          simp [nodes]; tauto
        rw [this]
        simp only [List.cons_append, List.mem_cons, List.mem_append]
        constructor
        · rintro (rfl | h)
          · exact .inr hAm
          · exact h
        · exact .inr
    refine (s2.trans (step_link (d := cfg.dbl) s2.bal (a := lastOf A ns) (b := B) ?_ ?_)).cost (by simp [Cost.zero_def])
    · have : lastOf A ns ∈ addrs ns ∨ lastOf A ns ∈ nodes hd tl (c1 ++ c2) := by
        rcases List.mem_cons.1 hZ with e | h
        · rw [e]; exact .inr hAm
        · exact .inl h
      revert this; simp [nodes]; tauto
    · revert hBm; simp [nodes]; tauto
  refine ⟨?_, sAll⟩
  have hB_out : B ∉ [A] := by simp [hAB.symm]
  have keepB := bt.step.keep B hB_out (r.live hBm)
  have liveB := bt.step.live hB_out (r.live hBm)
  refine Rep.replace (mid := []) r ?_ ?_ ?_ ?_ ?_ nodupn
  · rw [hA, hB]
    obtain ⟨l, hl⟩ := lastOf_split A ns
    rw [← List.cons_append, hl, List.append_assoc, List.singleton_append]
    refine chain_join ?_ (.singleton _) ?_
    · rw [← hl]; exact bt.chain
    · rw [show l ++ [lastOf A ns, B] = (l ++ [lastOf A ns]) ++ [B] by simp, ← hl, List.nodup_append]
      refine ⟨?_, by simp, ?_⟩
      · rw [List.nodup_cons]
        exact ⟨fun hm => hdis A hm hAm, bt.nodup⟩
      · intro a ha b hb e
        simp at hb; subst hb; subst e
        rcases List.mem_cons.1 ha with e | hm
        · exact hAB e.symm
        · exact hdis _ hm hBm
  · intro a ha
    rw [link_info]
    by_cases e : a = A
    · subst e; exact bt.info
    · exact (bt.step.live (by simpa using e) (r.live ha)).2.2
  · intro a ha hne
    rw [hA] at hne
    rw [link_nxt_ne]
    · exact (bt.step.keep a (by simpa using hne) (r.live ha)).1
    · rintro rfl
      rcases List.mem_cons.1 hZ with e | hm
      · exact hne e
      · exact hdis _ hm ha
  · intro a ha hne
    rw [hB] at hne
    rw [link_prv_ne hne]
    by_cases e : a = A
    · subst e; exact bt.prv
    · exact (bt.step.keep a (by simpa using e) (r.live ha)).2
  · intro c hc; exact bt.elems c hc

theorem Rep.setNext_insert (r : Rep cfg h hd tl (c1 ++ c2) own) (bt : Built cfg own h (lastOf hd c1) h' ns) :
    setNext cfg (some (lastOf (lastOf hd c1) ns)) (some (headOf tl c2)) h' =
      .ok ((), link cfg.dbl h' (lastOf (lastOf hd c1) ns) (headOf tl c2)) := by
  refine setNext_run (bt.live_last r.live_lastOf) ?_
  refine (bt.step.live ?_ r.live_headOf).2.1
  have := Rep.last_ne_head (mid := []) r
  simp [this.symm]

theorem link_comm {d : Bool} {a b c e : Nat} (h1 : a ≠ c) (h2 : b ≠ e) : link d (link d h a b) c e = link d (link d h c e) a b := by
  cases d
  · simp only [link, Heap.mk.injEq, true_and, and_true]
    refine ⟨?_, rfl⟩
    funext z; simp only [upd]; split <;> split <;> first | rfl | omega
  · simp only [link, Heap.mk.injEq, true_and, and_true, if_true]
    refine ⟨?_, ?_⟩
    · funext z; simp only [upd]; split <;> split <;> first | rfl | omega
    · funext z; simp only [upd]; split <;> split <;> first | rfl | omega

theorem lst_congr {cs cs' : Cells α} (e : cs.length = cs'.length) : lst hd tl cs own = lst hd tl cs' own := by simp [lst, e]

/-- one new node, linked in either order -/
theorem Rep.insertOne (hb : Bal h) (r : Rep cfg h hd tl (c1 ++ c2) own) :
    Edit cfg h hd tl (c1 ++ c2) own (link cfg.dbl (link cfg.dbl (newElem cfg own x h) (lastOf hd c1) h.next) h.next (headOf tl c2))
      (c1 ++ (h.next, x) :: c2) ⟨1, 0, 1⟩ := by
  have bt : Built cfg own h (lastOf hd c1) (link cfg.dbl (newElem cfg own x h) (lastOf hd c1) h.next) [(h.next, x)] :=
    Built.cons hb r.live_lastOf
      (Built.nil (step_link (a := lastOf hd c1) (b := h.next) (l := [lastOf hd c1, h.next]) (bal_mk hb) (by simp) (by simp)).bal own _)
  have := Rep.insert hb r bt
  simpa using this

theorem Rep.insertOne' (hb : Bal h) (r : Rep cfg h hd tl (c1 ++ c2) own) :
    Edit cfg h hd tl (c1 ++ c2) own (link cfg.dbl (link cfg.dbl (newElem cfg own x h) h.next (headOf tl c2)) (lastOf hd c1) h.next)
      (c1 ++ (h.next, x) :: c2) ⟨1, 0, 1⟩ := by
  rw [link_comm (hb.ne_next r.live_lastOf).symm (hb.ne_next r.live_headOf)]
  exact Rep.insertOne hb r

theorem emplaceAfter_ok (hb : Bal h) (r : Rep cfg h hd tl (c1 ++ c2) own) {ref : Ref α} (hr : RefIs cfg ref x h) :
    (emplaceAfter cfg (lst hd tl (c1 ++ c2) own) (some (lastOf hd c1)) ref h).SafeIf (Refuses cfg) fun q =>
      q.1 = (lst hd tl (c1 ++ (h.next, x) :: c2) own, some h.next) ∧
        Edit cfg h hd tl (c1 ++ c2) own q.2 (c1 ++ (h.next, x) :: c2) ⟨1, 0, 1⟩ := by
  simp only [emplaceAfter, Prog.bind_run]
  rw [dbgAssert_run (by simpa [lst] using r.tl_not_before)]
  simp only [Out.bind_ok, hr.deref, Prog.bind_run]
  refine (constructNode_run own x h).bind ?_
  rintro _ rfl
  have hn := getNext_run (h := newElem cfg own x h) (mk_live r.live_lastOf) (by rw [mk_nxt_ne (hb.ne_next r.live_lastOf)]; exact r.nxt_at)
  simp only [hn, Out.bind_ok]
  rw [setNext_run isElem_mk.live (mk_live r.live_headOf)]
  simp only [Out.bind_ok]
  rw [setNext_run (h := link cfg.dbl (newElem cfg own x h) h.next (headOf tl c2)) (mk_live (h := h) r.live_lastOf) (isElem_mk (h := h)).live]
  simp only [Out.bind_ok, Prog.pure_run]
  exact ⟨by simp [lst]; omega, Rep.insertOne' hb r⟩

theorem pushFront_ok (hb : Bal h) (r : Rep cfg h hd tl cs own) {ref : Ref α} (hr : RefIs cfg ref x h) :
    (pushFront cfg (lst hd tl cs own) ref h).SafeIf (Refuses cfg) fun q =>
      q.1 = lst hd tl ((h.next, x) :: cs) own ∧ Edit cfg h hd tl cs own q.2 ((h.next, x) :: cs) ⟨1, 0, 1⟩ := by
  have r' : Rep cfg h hd tl ([] ++ cs) own := r
  simp only [pushFront, Prog.bind_run, Out.bind_ok, hr.deref, Prog.bind_run]
  refine (constructNode_run own x h).bind ?_
  rintro _ rfl
  have hn := getNext_run (h := newElem cfg own x h) (mk_live r'.live_lastOf) (by rw [mk_nxt_ne (hb.ne_next r'.live_lastOf)]; exact r'.nxt_at)
  simp only [lastOf_nil] at hn
  simp only [lst, hn, Out.bind_ok]
  rw [setNext_run isElem_mk.live (mk_live r'.live_headOf)]
  simp only [Out.bind_ok]
  rw [setNext_run (h := link cfg.dbl (newElem cfg own x h) h.next (headOf tl cs)) (mk_live (h := h) r.vhd.live) (isElem_mk (h := h)).live]
  simp only [Out.bind_ok, Prog.pure_run]
  exact ⟨by simp, Rep.insertOne' hb r'⟩

theorem emplace_ok (hb : Bal h) (r : Rep cfg h hd tl (c1 ++ c2) own) (hd' : cfg.dbl = true) {ref : Ref α} (hr : RefIs cfg ref x h) :
    (emplace cfg (lst hd tl (c1 ++ c2) own) (some (headOf tl c2)) ref h).SafeIf (Refuses cfg) fun q =>
      q.1 = (lst hd tl (c1 ++ (h.next, x) :: c2) own, some h.next) ∧
        Edit cfg h hd tl (c1 ++ c2) own q.2 (c1 ++ (h.next, x) :: c2) ⟨1, 0, 1⟩ := by
  simp only [emplace, Prog.bind_run]
  rw [dbgAssert_run (by simpa [lst] using r.hd_not_after)]
  simp only [Out.bind_ok, hr.deref, Prog.bind_run]
  refine (constructNode_run own x h).bind ?_
  rintro _ rfl
  have hn := getPrev_run (h := newElem cfg own x h) (mk_live r.live_headOf) (by rw [mk_prv_ne (hb.ne_next r.live_headOf)]; exact r.prv_at hd')
  simp only [hn, Out.bind_ok]
  rw [setNext_run (mk_live (h := h) r.live_lastOf) (isElem_mk (h := h)).live]
  simp only [Out.bind_ok]
  rw [setNext_run (h := link cfg.dbl (newElem cfg own x h) (lastOf hd c1) h.next) (isElem_mk (h := h)).live (mk_live r.live_headOf)]
  simp only [Out.bind_ok, Prog.pure_run]
  exact ⟨by simp [lst]; omega, Rep.insertOne hb r⟩

theorem pushBack_ok (hb : Bal h) (r : Rep cfg h hd tl cs own) (hd' : cfg.dbl = true) {ref : Ref α} (hr : RefIs cfg ref x h) :
    (pushBack cfg (lst hd tl cs own) ref h).SafeIf (Refuses cfg) fun q =>
      q.1 = lst hd tl (cs ++ [(h.next, x)]) own ∧ Edit cfg h hd tl cs own q.2 (cs ++ [(h.next, x)]) ⟨1, 0, 1⟩ := by
  have r' : Rep cfg h hd tl (cs ++ []) own := by simpa using r
  simp only [pushBack, Prog.bind_run, Out.bind_ok, hr.deref, Prog.bind_run]
  refine (constructNode_run own x h).bind ?_
  rintro _ rfl
  have hn := getPrev_run (h := newElem cfg own x h) (mk_live r'.live_headOf) (by rw [mk_prv_ne (hb.ne_next r'.live_headOf)]; exact r'.prv_at hd')
  simp only [headOf_nil] at hn
  simp only [lst, hn, Out.bind_ok]
  rw [setNext_run (mk_live (h := h) r'.live_lastOf) (isElem_mk (h := h)).live]
  simp only [Out.bind_ok]
  rw [setNext_run (h := link cfg.dbl (newElem cfg own x h) (lastOf hd cs) h.next) (isElem_mk (h := h)).live (mk_live r.vtl.live)]
  simp only [Out.bind_ok, Prog.pure_run]
  have := Rep.insertOne (x := x) hb r'
  exact ⟨by simp, by simpa using this⟩

theorem insertAfterRange_ok (hb : Bal h) (r : Rep cfg h hd tl (c1 ++ c2) own) (xs : List α) :
    (insertAfterRange cfg (lst hd tl (c1 ++ c2) own) (some (lastOf hd c1)) xs h).SafeIf (Refuses cfg) fun q =>
      ∃ ns, vals ns = xs ∧ q.1 = (lst hd tl (c1 ++ (ns ++ c2)) own, some (if xs.length = 0 then lastOf hd c1 else headOf tl (ns ++ c2))) ∧
        Edit cfg h hd tl (c1 ++ c2) own q.2 (c1 ++ (ns ++ c2)) ⟨xs.length, 0, xs.length⟩ := by
  simp only [insertAfterRange, Prog.bind_run]
  rw [dbgAssert_run (by simpa [lst] using r.tl_not_before)]
  simp only [Out.bind_ok]
  by_cases he : xs.isEmpty
  · have : xs = [] := by simpa using he
    subst this
    exact ⟨[], rfl, by simp, Edit.refl hb r⟩
  · simp only [he, Bool.false_eq_true, if_false, Prog.bind_run, r.getNext_at, Out.bind_ok, show (lst hd tl (c1 ++ c2) own).alloc = own from rfl]
    refine (rangeLoop_ok hb r.live_lastOf xs).bind ?_
    rintro ⟨_, h'⟩ ⟨ns, h1, rfl, bt⟩
    simp only at bt
    simp only [Rep.setNext_insert r bt, Out.bind_ok]
    have e := Rep.insert hb r bt
    simp only [Rep.getNext_at e.rep, Out.bind_ok, Prog.pure_run]
    have hl : xs.length = ns.length := by rw [← h1]; simp
    refine ⟨ns, h1, ?_, by rw [hl]; exact e⟩
    have : ¬ xs.length = 0 := by simpa using he
    rw [if_neg this, hl]; simp [lst]; omega

theorem insertAfterFill_ok (hb : Bal h) (r : Rep cfg h hd tl (c1 ++ c2) own) (n : Nat) {ref : Ref α} (hr : RefIs cfg ref x h) :
    (insertAfterFill cfg (lst hd tl (c1 ++ c2) own) (some (lastOf hd c1)) n ref h).SafeIf (Refuses cfg) fun q =>
      ∃ ns, vals ns = List.replicate n x ∧
        q.1 = (lst hd tl (c1 ++ (ns ++ c2)) own, some (if n = 0 then lastOf hd c1 else headOf tl (ns ++ c2))) ∧
        Edit cfg h hd tl (c1 ++ c2) own q.2 (c1 ++ (ns ++ c2)) ⟨n, 0, n⟩ := by
  simp only [insertAfterFill, Prog.bind_run]
  rw [dbgAssert_run (by simpa [lst] using r.tl_not_before)]
  simp only [Out.bind_ok]
  by_cases he : n = 0
  · subst he
    exact ⟨[], rfl, by simp, Edit.refl hb r⟩
  · simp only [he, if_false, Prog.bind_run, r.getNext_at, Out.bind_ok, show (lst hd tl (c1 ++ c2) own).alloc = own from rfl,
      fillLoop_eq hb hr r.live_lastOf]
    refine (rangeLoop_ok hb r.live_lastOf _).bind ?_
    rintro ⟨_, h'⟩ ⟨ns, h1, rfl, bt⟩
    simp only at bt
    simp only [Rep.setNext_insert r bt, Out.bind_ok]
    have e := Rep.insert hb r bt
    simp only [Rep.getNext_at e.rep, Out.bind_ok, Prog.pure_run]
    have hl : n = ns.length := by rw [← List.length_replicate (n := n) (a := x), ← h1]; simp
    refine ⟨ns, h1, ?_, by rw [hl]; exact e⟩
    rw [hl]; simp [lst]; omega

theorem insertRange_ok (hb : Bal h) (r : Rep cfg h hd tl (c1 ++ c2) own) (hd' : cfg.dbl = true) (xs : List α) :
    (insertRange cfg (lst hd tl (c1 ++ c2) own) (some (headOf tl c2)) xs h).SafeIf (Refuses cfg) fun q =>
      ∃ ns, vals ns = xs ∧ q.1 = (lst hd tl (c1 ++ (ns ++ c2)) own, some (headOf tl (ns ++ c2))) ∧
        Edit cfg h hd tl (c1 ++ c2) own q.2 (c1 ++ (ns ++ c2)) ⟨xs.length, 0, xs.length⟩ := by
  simp only [insertRange, Prog.bind_run]
  by_cases he : xs.isEmpty
  · have : xs = [] := by simpa using he
    subst this
    exact ⟨[], rfl, by simp, Edit.refl hb r⟩
  · simp only [he, Bool.false_eq_true, if_false, Prog.bind_run, r.getPrev_at hd', Out.bind_ok, show (lst hd tl (c1 ++ c2) own).alloc = own from rfl]
    refine (rangeLoop_ok hb r.live_lastOf xs).bind ?_
    rintro ⟨_, h'⟩ ⟨ns, h1, rfl, bt⟩
    simp only at bt
    simp only [Rep.setNext_insert r bt, Out.bind_ok]
    have e := Rep.insert hb r bt
    simp only [Rep.getNext_at e.rep, Out.bind_ok, Prog.pure_run]
    have hl : xs.length = ns.length := by rw [← h1]; simp
    refine ⟨ns, h1, ?_, by rw [hl]; exact e⟩
    rw [hl]; simp [lst]; omega

theorem insertFill_ok (hb : Bal h) (r : Rep cfg h hd tl (c1 ++ c2) own) (hd' : cfg.dbl = true) (n : Nat) {ref : Ref α}
    (hr : RefIs cfg ref x h) :
    (insertFill cfg (lst hd tl (c1 ++ c2) own) (some (headOf tl c2)) n ref h).SafeIf (Refuses cfg) fun q =>
      ∃ ns, vals ns = List.replicate n x ∧ q.1 = (lst hd tl (c1 ++ (ns ++ c2)) own, some (headOf tl (ns ++ c2))) ∧
        Edit cfg h hd tl (c1 ++ c2) own q.2 (c1 ++ (ns ++ c2)) ⟨n, 0, n⟩ := by
  simp only [insertFill, Prog.bind_run]
  rw [dbgAssert_run (by simpa [lst] using r.hd_not_after)]
  simp only [Out.bind_ok]
  by_cases he : n = 0
  · subst he
    exact ⟨[], rfl, by simp, Edit.refl hb r⟩
  · simp only [he, if_false, Prog.bind_run, r.getPrev_at hd', Out.bind_ok, show (lst hd tl (c1 ++ c2) own).alloc = own from rfl,
      fillLoop_eq hb hr r.live_lastOf]
    refine (rangeLoop_ok hb r.live_lastOf _).bind ?_
    rintro ⟨_, h'⟩ ⟨ns, h1, rfl, bt⟩
    simp only at bt
    simp only [Rep.setNext_insert r bt, Out.bind_ok]
    have e := Rep.insert hb r bt
    simp only [Rep.getNext_at e.rep, Out.bind_ok, Prog.pure_run]
    have hl : n = ns.length := by rw [← List.length_replicate (n := n) (a := x), ← h1]; simp
    refine ⟨ns, h1, ?_, by rw [hl]; exact e⟩
    rw [hl]; simp [lst]; omega

/-! ## Constructors -/

/-- A new list. -/
structure Fresh (cfg : Cfg α) (h : Heap α) (h' : Heap α) (hd tl : Nat) (cs : Cells α) (own : Nat) (k : Cost) : Prop where
  rep : Rep cfg h' hd tl cs own
  step : Step h [] h' (nodes hd tl cs) k

/-- two virtual nodes -/
theorem virtuals_ok (hb : Bal h) (own : Nat) {f : Ptr → Ptr → M α β} {P : β × Heap α → Prop}
    (hf : ((f (some h.next) (some (h.next + 1))) (mkVirt cfg own (mkVirt cfg own h))).SafeIf (Refuses cfg) P) :
    ((do let a ← buildVirtual cfg own; let b ← buildVirtual cfg own; f a b) h).SafeIf (Refuses cfg) P := by
  simp only [Prog.bind_run]
  refine (buildVirtual_run own h).bind ?_
  rintro _ rfl
  refine (buildVirtual_run own _).bind ?_
  rintro _ rfl
  exact hf

theorem two_virtuals (hb : Bal h) (own : Nat) :
    let h2 := mkVirt cfg own (mkVirt cfg own h)
    Step h [] h2 [h.next, h.next + 1] ⟨0, 0, 2⟩ ∧ IsVirt cfg own h2 h.next ∧ IsVirt cfg own h2 (h.next + 1) ∧
      (cfg.dbl = true → h2.prv h.next = some none) ∧ h2.nxt (h.next + 1) = some none := by
  intro h2
  refine ⟨?_, ?_, ?_, ?_, ?_⟩
  · have s := (step_mkVirt (cfg := cfg) (own := own) hb).trans ((step_mkVirt (cfg := cfg) (own := own) (bal_mkVirt hb)).more [h.next])
    refine (s.congr (m := []) (m' := [h.next, h.next + 1]) (by simp) (by simp; tauto)).cost (by simp)
  · rw [IsVirt, mkVirt_info_ne (by simp)]; exact mkVirt_info_same
  · exact mkVirt_info_same (h := mkVirt cfg own h)
  · intro d
    rw [mkVirt_prv_ne (by simp)]; exact mkVirt_prv_same d
  · exact mkVirt_nxt_same (h := mkVirt cfg own h)

/-- closing a new list -/
theorem close_new {h0 h1 : Heap α} {l : List Nat} {k1 : Cost} (s0 : Step h0 [] h [a, b] k1) (va : IsVirt cfg own h a) (vb : IsVirt cfg own h b)
    (pa : cfg.dbl = true → h.prv a = some none) (nb : h.nxt b = some none) (hab : a ≠ b) (bt : Built cfg own h a h' ns)
    (h1e : h1 = link cfg.dbl h' (lastOf a ns) b ∨ h1 = cut (link cfg.dbl h' (lastOf a ns) b) b) :
    setNext cfg (some (lastOf a ns)) (some b) h' = .ok ((), link cfg.dbl h' (lastOf a ns) b) ∧
      setNext cfg (some b) none (link cfg.dbl h' (lastOf a ns) b) = .ok ((), cut (link cfg.dbl h' (lastOf a ns) b) b) ∧
      Fresh cfg h0 h1 a b ns own (k1 + ⟨ns.length, 0, ns.length⟩) := by
  have hb_out : b ∉ [a] := by simp [hab.symm]
  have liveb := bt.step.live hb_out vb.live
  have keepb := bt.step.keep b hb_out vb.live
  have hna : a ∉ addrs ns := fun hm => va.live (bt.fresh a hm)
  have hnb : b ∉ addrs ns := fun hm => vb.live (bt.fresh b hm)
  have lz := bt.live_last va.live
  have hz : lastOf a ns ≠ b := by
    intro e
    rcases List.mem_cons.1 (lastOf_mem a ns) with e' | hm
    · exact hab (e'.symm.trans e)
    · exact hnb (e ▸ hm)
  refine ⟨setNext_run lz liveb.2.1, setNext_null_run liveb.2.1, ?_⟩
  have nod : (nodes a b ns).Nodup := by
    simp only [nodes, List.nodup_cons, List.mem_append, List.mem_singleton, not_or, List.nodup_append]
    refine ⟨⟨hna, hab⟩, bt.nodup, by simp, ?_⟩
    intro c hc d hd e
    rw [← hd] at hnb
    exact hnb (e ▸ hc)
  have s1 : Step h [a, b] (link cfg.dbl h' (lastOf a ns) b) (nodes a b ns) ⟨ns.length, 0, ns.length⟩ := by
    have s := (bt.step.more [b]).trans (step_link (d := cfg.dbl) (a := lastOf a ns) (b := b) (bt.step.more [b]).bal ?_ ?_)
    · refine (s.congr (m := [a, b]) (m' := nodes a b ns) (by simp) (by simp [nodes])).cost (by simp [Cost.zero_def])
    · exact List.mem_append_left _ (lastOf_mem a ns)
    · simp
  have s2 : Step h [a, b] h1 (nodes a b ns) ⟨ns.length, 0, ns.length⟩ := by
    rcases h1e with rfl | rfl
    · exact s1
    · exact (s1.trans (step_cut s1.bal (by simp [nodes]))).cost (by simp [Cost.zero_def])
  have e_info : h1.info = h'.info := by rcases h1e with rfl | rfl <;> rfl
  have e_prv : h1.prv = (link cfg.dbl h' (lastOf a ns) b).prv := by rcases h1e with rfl | rfl <;> rfl
  have e_nxt : ∀ c, c ≠ b → h1.nxt c = (link cfg.dbl h' (lastOf a ns) b).nxt c := by
    intro c hc
    rcases h1e with rfl | rfl
    · rfl
    · exact cut_nxt_ne hc
  have e_b : h1.nxt b = some none := by
    rcases h1e with rfl | rfl
    · rw [link_nxt_ne hz.symm, keepb.1]; exact nb
    · exact cut_nxt_same
  refine ⟨⟨nod, ?_, ?_, ?_, ?_, ?_, e_b⟩, s0.trans s2⟩
  · obtain ⟨l, hl⟩ := lastOf_split a ns
    have hc : Chain cfg.dbl (link cfg.dbl h' (lastOf a ns) b) (nodes a b ns) := by
      rw [nodes, ← List.cons_append, hl, List.append_assoc, List.singleton_append]
      refine chain_join ?_ (.singleton _) ?_
      · rw [← hl]; exact bt.chain
      · have := nod
        rw [nodes, ← List.cons_append, hl, List.append_assoc, List.singleton_append] at this
        exact this
    refine chain_imp hc ?_ ?_
    · intro c hc
      apply e_nxt
      rintro rfl
      rw [nodes, ← List.cons_append, List.dropLast_concat] at hc
      rcases List.mem_cons.1 hc with e | hm
      · exact hab e.symm
      · exact hnb hm
    · intro c _; rw [e_prv]
  · rw [IsVirt, e_info, bt.info]; exact va
  · rw [IsVirt, e_info, liveb.2.2]; exact vb
  · intro c hc; rw [IsElem, e_info]; exact bt.elems c hc
  · intro d; rw [e_prv, link_prv_ne hab, bt.prv]; exact pa d

theorem initEmpty_ok (hb : Bal h) (own : Nat) : (initEmpty cfg own h).SafeIf (Refuses cfg) fun q =>
    ∃ hd tl, q.1 = (some hd, some tl) ∧ Fresh cfg h q.2 hd tl [] own ⟨0, 0, 2⟩ := by
  unfold initEmpty
  refine virtuals_ok hb own ?_
  obtain ⟨s, v1, v2, p1, n2⟩ := two_virtuals (cfg := cfg) hb own
  obtain ⟨e1, _, f⟩ := close_new (l := []) s v1 v2 p1 n2 (by omega) (Built.nil s.bal own _) (.inl rfl)
  simp only [lastOf_nil] at e1 f
  simp only [Prog.bind_run, e1, Out.bind_ok, Prog.pure_run]
  exact ⟨_, _, rfl, f⟩

theorem newAlloc_ok (hb : Bal h) (a : Nat) : (newAlloc cfg a h).SafeIf (Refuses cfg) fun q =>
    ∃ hd tl, q.1 = lst hd tl ([] : Cells α) a ∧ Fresh cfg h q.2 hd tl [] a ⟨0, 0, 2⟩ := by
  simp only [newAlloc, Prog.bind_run]
  refine (initEmpty_ok hb a).bind ?_
  rintro ⟨q, h'⟩ ⟨hd, tl, rfl, f⟩
  exact ⟨hd, tl, rfl, f⟩

theorem newRange_ok (hb : Bal h) (xs : List α) (a : Nat) : (newRange cfg xs a h).SafeIf (Refuses cfg) fun q =>
    ∃ hd tl cs, vals cs = xs ∧ q.1 = lst hd tl cs a ∧ Fresh cfg h q.2 hd tl cs a ⟨xs.length, 0, xs.length + 2⟩ := by
  unfold newRange
  split
  · rename_i he
    have : xs = [] := by simpa using he
    subst this
    refine (newAlloc_ok hb a).imp ?_
    rintro q ⟨hd, tl, h1, h2⟩
    exact ⟨hd, tl, [], rfl, h1, h2⟩
  · refine virtuals_ok hb a ?_
    obtain ⟨s, v1, v2, p1, n2⟩ := two_virtuals (cfg := cfg) hb a
    simp only [Prog.bind_run]
    refine (rangeLoop_ok s.bal v1.live xs).bind ?_
    rintro ⟨_, h'⟩ ⟨ns, h1, rfl, bt⟩
    simp only at bt
    obtain ⟨e1, e2, f⟩ := close_new (l := []) s v1 v2 p1 n2 (by omega) bt (.inr rfl)
    simp only [e1, e2, Out.bind_ok, Prog.pure_run]
    have hl : xs.length = ns.length := by rw [← h1]; simp
    refine ⟨h.next, h.next + 1, ns, h1, by simp [lst, hl], ?_⟩
    have : (⟨0, 0, 2⟩ + ⟨ns.length, 0, ns.length⟩ : Cost) = ⟨xs.length, 0, xs.length + 2⟩ := by
      rw [hl]; simp [Nat.add_comm]
    rw [← this]; exact f

theorem newFill_ok (hb : Bal h) (n a : Nat) {ref : Ref α} (hr : RefIs cfg ref x h) : (newFill cfg n ref a h).SafeIf (Refuses cfg) fun q =>
    ∃ hd tl cs, vals cs = List.replicate n x ∧ q.1 = lst hd tl cs a ∧ Fresh cfg h q.2 hd tl cs a ⟨n, 0, n + 2⟩ := by
  unfold newFill
  split
  · rename_i he
    subst he
    refine (newAlloc_ok hb a).imp ?_
    rintro q ⟨hd, tl, h1, h2⟩
    exact ⟨hd, tl, [], rfl, h1, h2⟩
  · refine virtuals_ok hb a ?_
    obtain ⟨s, v1, v2, p1, n2⟩ := two_virtuals (cfg := cfg) hb a
    simp only [Prog.bind_run]
    have hr2 : RefIs cfg ref x (mkVirt cfg a (mkVirt cfg a h)) := by
      cases ref with
      | tmp y => exact hr
      | node p =>
        obtain ⟨c, o, rfl, e⟩ := hr
        exact ⟨c, o, rfl, by rw [IsElem, (s.live (by simp) e.live).2.2]; exact e⟩
    rw [fillLoop_eq s.bal hr2 v1.live]
    refine (rangeLoop_ok s.bal v1.live _).bind ?_
    rintro ⟨_, h'⟩ ⟨ns, h1, rfl, bt⟩
    simp only at bt
    obtain ⟨e1, e2, f⟩ := close_new (l := []) s v1 v2 p1 n2 (by omega) bt (.inr rfl)
    simp only [e1, e2, Out.bind_ok, Prog.pure_run]
    have hl : n = ns.length := by rw [← List.length_replicate (n := n) (a := x), ← h1]; simp
    refine ⟨h.next, h.next + 1, ns, h1, by simp [lst, hl], ?_⟩
    have : (⟨0, 0, 2⟩ + ⟨ns.length, 0, ns.length⟩ : Cost) = ⟨n, 0, n + 2⟩ := by
      rw [hl]; simp [Nat.add_comm]
    rw [← this]; exact f

theorem fromIter_ok (hb : Bal h) (xs : List α) : (fromIter cfg xs h).SafeIf (Refuses cfg) fun q =>
    ∃ hd tl cs, vals cs = xs ∧ q.1 = lst hd tl cs dfltAlloc ∧ Fresh cfg h q.2 hd tl cs dfltAlloc ⟨xs.length, 0, xs.length + 2⟩ := by
  simp only [fromIter, Prog.bind_run]
  refine (newAlloc_ok hb dfltAlloc).bind ?_
  rintro ⟨_, h1⟩ ⟨hd, tl, rfl, f⟩
  have r : Rep cfg h1 hd tl ([] ++ []) dfltAlloc := f.rep
  simp only [lst]
  refine (rangeLoop_ok f.step.bal f.rep.vhd.live xs).bind ?_
  rintro ⟨_, h'⟩ ⟨ns, e1, rfl, bt⟩
  simp only at bt
  have e2 := Rep.setNext_insert r bt
  have e3 := Rep.insert f.step.bal r bt
  simp only [lastOf_nil, headOf_nil, List.nil_append, List.append_nil] at e2 e3
  simp only [e2, Out.bind_ok, Prog.pure_run]
  have hl : xs.length = ns.length := by rw [← e1]; simp
  refine ⟨hd, tl, ns, e1, by simp [hl], e3.rep, (f.step.trans e3.step).cost ?_⟩
  rw [hl]; simp [Nat.add_comm]

/-! ## Copies -/

theorem Rep.nodup_right (r : Rep cfg h hd tl (c1 ++ c2) own) : (addrs c2 ++ [tl]).Nodup := by
  have := r.nodup
  rw [nodes_append] at this
  exact (List.nodup_append.1 this).2.1

theorem Rep.head_ne_tl {c : Nat × α} (r : Rep cfg h hd tl (c1 ++ c :: c2) own) : c.1 ≠ tl := by
  have := r.nodup_right
  rintro e
  simp [e] at this

theorem copyLoop_ok {o : Nat} (hb : Bal h) (hp : Live h p) (r : Rep cfg h hd tl (c1 ++ c2) own) (hpn : p ∉ nodes hd tl (c1 ++ c2)) (n : Nat) :
    (copyLoop cfg o (some tl) (some (headOf tl c2)) (some p) n h).SafeIf (Refuses cfg) fun q =>
      ∃ ns, vals ns = vals c2 ∧ q.1 = (some (lastOf p ns), n + c2.length) ∧ Built cfg o h p q.2 ns := by
  induction c2 generalizing h p c1 n with
  | nil =>
    rw [copyLoop]
    rw [headOf_nil, if_pos rfl]
    exact ⟨[], rfl, rfl, Built.nil hb o p⟩
  | cons c c2 ih =>
    have hne : some c.1 ≠ some tl := by simpa using r.head_ne_tl
    rw [copyLoop]
    rw [headOf_cons, if_neg hne]
    simp only [Prog.bind_run, load_run (Rep.elem_at (a := c.1) (x := c.2) r), Out.bind_ok]
    refine (constructNode_run o c.2 h).bind ?_
    rintro _ rfl
    have s1 := step_mk (cfg := cfg) (own := o) (x := c.2) hb
    have r1 := r.step s1 (by simp)
    simp only [r1.getNext_cell, Out.bind_ok, setNext_run (mk_live (h := h) hp) (isElem_mk (h := h)).live]
    have hn : h.next ∉ nodes hd tl (c1 ++ c :: c2) := fun hm => r.live hm (hb.fresh _ (Nat.le_refl _))
    have s2 := step_link (d := cfg.dbl) (l := [p, h.next]) (a := p) (b := h.next) s1.bal (by simp) (by simp)
    have r2 := r1.step s2 (by
      intro a ha hm
      simp only [List.mem_cons, List.not_mem_nil, or_false] at hm
      rcases hm with rfl | rfl
      · exact hpn ha
      · exact hn ha)
    refine (ih (p := h.next) (c1 := c1 ++ [c]) s2.bal isElem_mk.live (by simpa using r2) (by simpa using hn) (n + 1)).imp ?_
    rintro q ⟨ns, e1, e2, bt⟩
    refine ⟨(h.next, c.2) :: ns, by simp [e1], ?_, bt.cons hb hp⟩
    rw [e2]; simp [Nat.add_comm, Nat.add_left_comm]

theorem copyImpl_ok (hb : Bal h) (r : Rep cfg h hd tl cs own) (a : Nat) : (copyImpl cfg (lst hd tl cs own) a h).SafeIf (Refuses cfg) fun q =>
    ∃ hd' tl' cs', vals cs' = vals cs ∧ q.1 = lst hd' tl' cs' a ∧ Fresh cfg h q.2 hd' tl' cs' a ⟨cs.length, 0, cs.length + 2⟩ := by
  unfold copyImpl
  rw [Prog.bind_run, dbgAssert_run (by simp [lst])]
  simp only [Out.bind_ok]
  split
  · rename_i he
    have : cs = [] := by simpa [lst] using he
    subst this
    simp only [Prog.bind_run]
    refine (initEmpty_ok hb a).bind ?_
    rintro ⟨q, h'⟩ ⟨hd', tl', rfl, f⟩
    exact ⟨hd', tl', [], rfl, rfl, f⟩
  · rw [Prog.bind_run, show (lst hd tl cs own).head = some hd from rfl, r.getNext_hd]
    simp only [Out.bind_ok]
    refine virtuals_ok hb a ?_
    obtain ⟨s, v1, v2, p1, n2⟩ := two_virtuals (cfg := cfg) hb a
    have r2 := r.step s (by simp)
    simp only [Prog.bind_run, lst]
    have hpn : h.next ∉ nodes hd tl ([] ++ cs) := fun hm => r.live hm (hb.fresh _ (Nat.le_refl _))
    refine (copyLoop_ok (o := a) (c1 := []) s.bal v1.live r2 hpn 0).bind ?_
    rintro ⟨_, h'⟩ ⟨ns, h1, rfl, bt⟩
    simp only at bt
    obtain ⟨e1, e2, f⟩ := close_new (l := []) s v1 v2 p1 n2 (by omega) bt (.inr rfl)
    simp only [e1, e2, Out.bind_ok, Prog.pure_run]
    have hl : ns.length = cs.length := by simpa using congrArg List.length h1
    refine ⟨h.next, h.next + 1, ns, h1, by simp [hl], ?_⟩
    have : (⟨0, 0, 2⟩ + ⟨ns.length, 0, ns.length⟩ : Cost) = ⟨cs.length, 0, cs.length + 2⟩ := by
      rw [hl]; simp [Nat.add_comm]
    rw [← this]; exact f

end

end Verif.Proof.LL
