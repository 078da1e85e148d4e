import Verif.Proof.LLInsert
/-! # Linked lists: erasure, destruction, assignment, resizing -/
namespace Verif.Proof.LL
open Verif Verif.Model.LL
open Verif.Proof.Mem (Cost)

variable {α β σ : Type} {cfg : Cfg α}

section
variable {h h' h'' h1 h2 : Heap α} {hd tl own o a b p : Nat} {cs c1 c2 c3 mid ns : Cells α} {c : Nat × α} {x y : α} {k : Cost} {r : Ref α}

/-- Some nodes destroyed, no link touched. -/
structure Killed (h h' : Heap α) (cs : Cells α) : Prop where
  step : Step h (addrs cs) h' [] ⟨0, cs.length, 0⟩
  nxt : h'.nxt = h.nxt
  prv : h'.prv = h.prv

theorem Killed.nil (hb : Bal h) : Killed h h [] := ⟨Step.refl hb [], rfl, rfl⟩

theorem Killed.cons (hb : Bal h) (e : IsElem cfg own h c.1 c.2) (kl : Killed (kill cfg h c.1) h' cs) : Killed h h' (c :: cs) := by
  refine ⟨?_, kl.nxt, kl.prv⟩
  have s := ((step_kill hb e).more (addrs cs)).trans kl.step
  refine (s.congr (m := addrs (c :: cs)) (m' := []) (by simp) (by simp)).cost ?_
  simp [Nat.add_comm]

theorem Killed.one (hb : Bal h) (e : IsElem cfg own h c.1 c.2) : Killed h (kill cfg h c.1) [c] :=
  Killed.cons hb e (Killed.nil (bal_kill hb e))

theorem eraseLoop_fwd (hb : Bal h) {e : Nat} (hc : List.IsChain (fun a b => h.nxt a = some (some b)) (addrs cs ++ [e])) (hn : (addrs cs ++ [e]).Nodup)
    (he : ∀ c ∈ cs, IsElem cfg own h c.1 c.2) (n : Nat) :
    ∃ h', eraseLoop cfg own (some e) (some (headOf e cs)) (n + cs.length) h = .ok (n, h') ∧ Killed h h' cs := by
  induction cs generalizing h with
  | nil => exact ⟨h, by rw [eraseLoop, headOf_nil, if_pos rfl]; rfl, Killed.nil hb⟩
  | cons c cs ih =>
    have ec := he c (by simp)
    have hne : some c.1 ≠ some e := by
      intro hh; simp at hh; subst hh; simp at hn
    have hnx : h.nxt c.1 = some (some (headOf e cs)) := by
      obtain ⟨l, hl⟩ := headOf_split e cs
      have : addrs (c :: cs) ++ [e] = c.1 :: (addrs cs ++ [e]) := rfl
      rw [this, hl] at hc
      exact (List.isChain_cons_cons.1 hc).1
    obtain ⟨h', e1, e2⟩ := ih (h := kill cfg h c.1) (bal_kill hb ec) (List.IsChain.tail hc) (List.nodup_cons.1 hn).2 (by
      intro c' hc'
      refine (he c' (by simp [hc'])).kill ?_
      intro hce
      exact (List.nodup_cons.1 hn).1 (show c.1 ∈ addrs cs ++ [e] from
        List.mem_append_left _ (by rw [← hce]; exact List.mem_map_of_mem hc')))
    refine ⟨h', ?_, Killed.cons hb ec e2⟩
    rw [eraseLoop, headOf_cons, if_neg hne]
    simp only [Prog.bind_run, getNext_run ec.live hnx, Out.bind_ok, destroyNode_elem ec]
    have : dec (n + (c :: cs).length) = n + cs.length := by rw [List.length_cons, ← Nat.add_assoc]; rfl
    rw [this]
    exact e1

theorem destroyLoop_fwd (hb : Bal h) {e : Nat} (hc : List.IsChain (fun a b => h.nxt a = some (some b)) (addrs cs ++ [e])) (hn : (addrs cs ++ [e]).Nodup)
    (he : ∀ c ∈ cs, IsElem cfg own h c.1 c.2) :
    ∃ h', destroyLoop cfg own (some e) (some (headOf e cs)) h = .ok ((), h') ∧ Killed h h' cs := by
  induction cs generalizing h with
  | nil => exact ⟨h, by rw [destroyLoop, headOf_nil, if_pos rfl]; rfl, Killed.nil hb⟩
  | cons c cs ih =>
    have ec := he c (by simp)
    have hne : some c.1 ≠ some e := by
      intro hh; simp at hh; subst hh; simp at hn
    have hnx : h.nxt c.1 = some (some (headOf e cs)) := by
      obtain ⟨l, hl⟩ := headOf_split e cs
      have : addrs (c :: cs) ++ [e] = c.1 :: (addrs cs ++ [e]) := rfl
      rw [this, hl] at hc
      exact (List.isChain_cons_cons.1 hc).1
    obtain ⟨h', e1, e2⟩ := ih (h := kill cfg h c.1) (bal_kill hb ec) (List.IsChain.tail hc) (List.nodup_cons.1 hn).2 (by
      intro c' hc'
      refine (he c' (by simp [hc'])).kill ?_
      intro hce
      exact (List.nodup_cons.1 hn).1 (show c.1 ∈ addrs cs ++ [e] from
        List.mem_append_left _ (by rw [← hce]; exact List.mem_map_of_mem hc')))
    refine ⟨h', ?_, Killed.cons hb ec e2⟩
    rw [destroyLoop, headOf_cons, if_neg hne]
    simp only [Prog.bind_run, getNext_run ec.live hnx, Out.bind_ok, destroyNode_elem ec]
    exact e1

theorem destroyLoop_ok (hb : Bal h) {e : Nat} (hc : Chain cfg.dbl h (addrs cs ++ [e])) (hn : (addrs cs ++ [e]).Nodup)
    (he : ∀ c ∈ cs, IsElem cfg own h c.1 c.2) :
    ∃ h', destroyLoop cfg own (some e) (some (headOf e cs)) h = .ok ((), h') ∧ Killed h h' cs :=
  destroyLoop_fwd hb (List.IsChain.imp (fun _ _ hab => hab.1) hc) hn he

/-! ## Taking cells out of a list -/

theorem Rep.mid_not_left (r : Rep cfg h hd tl (c1 ++ (mid ++ c2)) own) : ∀ a ∈ nodes hd tl (c1 ++ c2), a ∉ addrs mid := by
  intro a ha hm
  have hn := r.nodup
  have hp : (nodes hd tl (c1 ++ (mid ++ c2))).Perm (addrs mid ++ nodes hd tl (c1 ++ c2)) := by
    simp only [nodes, addrs, List.map_append, List.append_assoc]
    rw [← List.cons_append, ← List.cons_append]
    exact (List.perm_append_comm_assoc _ _ _).trans (.refl _)
  rw [hp.nodup_iff, List.nodup_append] at hn
  exact hn.2.2 a hm a ha rfl

theorem Rep.nodup_erase (r : Rep cfg h hd tl (c1 ++ (mid ++ c2)) own) : (nodes hd tl (c1 ++ c2)).Nodup := by
  have hn := r.nodup
  refine hn.sublist ?_
  simp only [nodes, addrs, List.map_append, List.append_assoc]
  exact .cons_cons _ (.append_left (.trans (List.sublist_append_right _ _) (.refl _)) _)

theorem mem_nodes_mid : a ∈ nodes hd tl (c1 ++ (mid ++ c2)) ↔ a ∈ addrs mid ∨ a ∈ nodes hd tl (c1 ++ c2) := by
  simp [nodes]; tauto

theorem last_mem_nodes : lastOf hd c1 ∈ nodes hd tl (c1 ++ c2) := by rw [nodes_append]; exact List.mem_append_left _ (lastOf_mem _ _)
theorem head_mem_nodes : headOf tl c2 ∈ nodes hd tl (c1 ++ c2) := by rw [nodes_append]; exact List.mem_append_right _ (headOf_mem _ _)

theorem Rep.erase_core (r : Rep cfg h hd tl (c1 ++ (mid ++ c2)) own)
    (hn : h2.nxt = (link cfg.dbl h (lastOf hd c1) (headOf tl c2)).nxt) (hp : h2.prv = (link cfg.dbl h (lastOf hd c1) (headOf tl c2)).prv)
    (hi : ∀ a ∈ nodes hd tl (c1 ++ c2), h2.info a = h.info a) : Rep cfg h2 hd tl (c1 ++ c2) own := by
  have := Rep.replace (h' := h2) (ns := []) r ?_ hi ?_ ?_ (by simp) r.nodup_erase
  · exact this
  · simp only [addrs, List.map_nil, List.nil_append, Chain, List.isChain_cons_cons, List.IsChain.singleton, and_true]
    exact ⟨by rw [hn]; exact link_nxt_same, by intro d; rw [hp, d]; exact link_prv_same⟩
  · intro a _ hne; rw [hn, link_nxt_ne hne]
  · intro a _ hne; rw [hp, link_prv_ne hne]

/-- link around, then destroy -/
theorem Rep.erase (hb : Bal h) (r : Rep cfg h hd tl (c1 ++ (mid ++ c2)) own)
    (kl : Killed (link cfg.dbl h (lastOf hd c1) (headOf tl c2)) h2 mid) :
    Edit cfg h hd tl (c1 ++ (mid ++ c2)) own h2 (c1 ++ c2) ⟨0, mid.length, 0⟩ := by
  have s : Step h (nodes hd tl (c1 ++ (mid ++ c2))) h2 (nodes hd tl (c1 ++ c2)) ⟨0, mid.length, 0⟩ := by
    have s1 : Step h (nodes hd tl (c1 ++ (mid ++ c2))) (link cfg.dbl h (lastOf hd c1) (headOf tl c2)) (nodes hd tl (c1 ++ (mid ++ c2))) 0 :=
      step_link hb (by rw [mem_nodes_mid]; exact .inr last_mem_nodes) (by rw [mem_nodes_mid]; exact .inr head_mem_nodes)
    have s2 := kl.step.more (nodes hd tl (c1 ++ c2))
    refine (s1.trans (s2.congr (fun a => ?_) (fun a => ?_))).cost (by simp [Cost.zero_def])
    · rw [mem_nodes_mid, List.mem_append]
    · simp
  refine ⟨r.erase_core kl.nxt kl.prv ?_, s⟩
  intro a ha
  exact kl.step.frame a (r.mid_not_left a ha) (by simp)

/-- destroy, then link around -/
theorem Rep.erase' (r : Rep cfg h hd tl (c1 ++ (mid ++ c2)) own) (kl : Killed h h1 mid) :
    Edit cfg h hd tl (c1 ++ (mid ++ c2)) own (link cfg.dbl h1 (lastOf hd c1) (headOf tl c2)) (c1 ++ c2) ⟨0, mid.length, 0⟩ := by
  have s : Step h (nodes hd tl (c1 ++ (mid ++ c2))) (link cfg.dbl h1 (lastOf hd c1) (headOf tl c2)) (nodes hd tl (c1 ++ c2)) ⟨0, mid.length, 0⟩ := by
    have s1 := kl.step.more (nodes hd tl (c1 ++ c2))
    have s2 : Step h1 (nodes hd tl (c1 ++ c2)) (link cfg.dbl h1 (lastOf hd c1) (headOf tl c2)) (nodes hd tl (c1 ++ c2)) 0 :=
      step_link kl.step.bal last_mem_nodes head_mem_nodes
    refine ((s1.congr (m := nodes hd tl (c1 ++ (mid ++ c2))) (m' := nodes hd tl (c1 ++ c2)) (fun a => ?_) (fun a => ?_)).trans s2).cost (by simp [Cost.zero_def])
    · rw [mem_nodes_mid, List.mem_append]
    · simp
  refine ⟨r.erase_core ?_ ?_ ?_, s⟩
  · simp [link, kl.nxt]
  · simp [link, kl.prv]
  · intro a ha
    rw [link_info]
    exact kl.step.frame a (r.mid_not_left a ha) (by simp)

theorem Rep.mid_chain (r : Rep cfg h hd tl (c1 ++ (mid ++ c2)) own) :
    Chain cfg.dbl h (addrs mid ++ [headOf tl c2]) ∧ (addrs mid ++ [headOf tl c2]).Nodup := by
  obtain ⟨l, hl⟩ := headOf_split tl c2
  have e : addrs (mid ++ c2) ++ [tl] = addrs mid ++ headOf tl c2 :: l := by simp [← hl]
  constructor
  · have := (chain_mid r.chain).2.1
    rw [e] at this
    exact this.left
  · have := r.nodup_right
    rw [e] at this
    refine this.sublist ?_
    exact .append_left (.cons_cons _ (List.nil_sublist _)) _

theorem Rep.mid_elems (r : Rep cfg h hd tl (c1 ++ (mid ++ c2)) own) : ∀ c ∈ mid, IsElem cfg own h c.1 c.2 :=
  fun c hc => r.cells c (by simp [hc])

/-- the run to be destroyed is still chained after linking around it -/
theorem Rep.mid_chain_link (r : Rep cfg h hd tl (c1 ++ (mid ++ c2)) own) (hm : mid ≠ []) :
    Chain cfg.dbl (link false h (lastOf hd c1) (headOf tl c2)) (addrs mid ++ [headOf tl c2]) := by
  obtain ⟨hc, hn⟩ := r.mid_chain
  refine chain_imp hc ?_ (fun a _ => rfl)
  intro a ha
  rw [List.dropLast_concat] at ha
  refine link_nxt_ne ?_
  rintro rfl
  exact r.mid_not_left _ last_mem_nodes ha

theorem clear_ok (hb : Bal h) (r : Rep cfg h hd tl cs own) :
    ∃ h', clear cfg (lst hd tl cs own) h = .ok (lst hd tl ([] : Cells α) own, h') ∧ Edit cfg h hd tl cs own h' [] ⟨0, cs.length, 0⟩ := by
  have r' : Rep cfg h hd tl ([] ++ (cs ++ [])) own := by simpa using r
  obtain ⟨hc, hn⟩ := r'.mid_chain
  obtain ⟨h1, e1, kl⟩ := destroyLoop_ok hb hc hn r'.mid_elems
  have ed := Rep.erase' r' kl
  simp only [lastOf_nil, headOf_nil, List.nil_append, List.append_nil] at ed e1
  refine ⟨_, ?_, ed⟩
  simp only [clear, Prog.bind_run, lst, r.getNext_hd, Out.bind_ok, e1]
  have hh : hd ∉ addrs cs := r'.mid_not_left _ (by simp [nodes])
  have ht : tl ∉ addrs cs := r'.mid_not_left _ (by simp [nodes])
  rw [setNext_run (kl.step.live hh r.vhd.live).2.1 (kl.step.live ht r.vtl.live).2.1]
  rfl

/-- everything of a list released -/
theorem destruct_ok (hb : Bal h) (r : Rep cfg h hd tl cs own) :
    ∃ h', destruct cfg (lst hd tl cs own) h = .ok ((), h') ∧ Step h (nodes hd tl cs) h' [] ⟨0, cs.length, 0⟩ := by
  obtain ⟨h1, e1, ed⟩ := clear_ok hb r
  have hne : hd ≠ tl := r.hd_ne_tl
  have s1 := step_killVirt (cfg := cfg) ed.bal ed.rep.vhd
  have v2 := ed.rep.vtl.killVirt (a := hd) hne.symm
  have s2 := step_killVirt (cfg := cfg) s1.bal v2
  refine ⟨killVirt cfg (killVirt cfg h1 hd) tl, ?_, ?_⟩
  · unfold destruct
    rw [if_neg (by simp [lst])]
    simp only [Prog.bind_run, e1, Out.bind_ok]
    simp only [lst]
    rw [destroyNode_virt ed.rep.vhd]
    simp only [Out.bind_ok]
    rw [destroyNode_virt v2]
  · refine (ed.step.trans (((s1.more [tl]).trans s2).congr (m := nodes hd tl []) (m' := []) (by simp [nodes]) (by simp))).cost ?_
    simp [Cost.zero_def]

theorem listAssign_ok (hb : Bal h) (r : Rep cfg h hd tl cs own) (xs : List α) :
    (listAssign cfg (lst hd tl cs own) xs h).SafeIf (Refuses cfg) fun q =>
      ∃ ns, vals ns = xs ∧ q.1 = lst hd tl ns own ∧ Edit cfg h hd tl cs own q.2 ns ⟨xs.length, cs.length, xs.length⟩ := by
  obtain ⟨h1, e1, ed⟩ := clear_ok hb r
  simp only [listAssign, Prog.bind_run, e1, Out.bind_ok]
  have r1 : Rep cfg h1 hd tl ([] ++ []) own := ed.rep
  simp only [lst]
  refine (rangeLoop_ok ed.bal ed.rep.vhd.live xs).bind ?_
  rintro ⟨_, h'⟩ ⟨ns, e1, rfl, bt⟩
  simp only at bt
  have e2 := Rep.setNext_insert r1 bt
  have e3 := Rep.insert ed.bal r1 bt
  simp only [lastOf_nil, headOf_nil, List.nil_append, List.append_nil] at e2 e3
  simp only [e2, Out.bind_ok, Prog.pure_run]
  have hl : xs.length = ns.length := by rw [← e1]; simp
  refine ⟨ns, e1, by simp [hl], (ed.trans e3).cost ?_⟩
  rw [hl]; simp

/-! ## Erasing at positions -/

theorem dec_length {n : Nat} : dec (n + 1) = n := by simp [dec]

theorem Rep.link_kill (hb : Bal h) (r : Rep cfg h hd tl (c1 ++ c :: c2) own) :
    Edit cfg h hd tl (c1 ++ c :: c2) own (kill cfg (link cfg.dbl h (lastOf hd c1) (headOf tl c2)) c.1) (c1 ++ c2) ⟨0, 1, 0⟩ :=
  Rep.erase (mid := [c]) hb r (Killed.one (cfg := cfg) (own := own)
    (step_link (l := nodes hd tl (c1 ++ c :: c2)) hb last_mem_nodes
      (by rw [show c1 ++ c :: c2 = (c1 ++ [c]) ++ c2 by simp]; exact head_mem_nodes)).bal (r.elem_at (a := c.1) (x := c.2)))

theorem Rep.cons_mid (r : Rep cfg h hd tl (c1 ++ c :: c2) own) : Rep cfg h hd tl ((c1 ++ [c]) ++ c2) own := by simpa using r

theorem eraseAfter_ok (hb : Bal h) (r : Rep cfg h hd tl (c1 ++ c :: c2) own) :
    ∃ h', eraseAfter cfg (lst hd tl (c1 ++ c :: c2) own) (some (lastOf hd c1)) h = .ok ((lst hd tl (c1 ++ c2) own, some (headOf tl c2)), h') ∧
      Edit cfg h hd tl (c1 ++ c :: c2) own h' (c1 ++ c2) ⟨0, 1, 0⟩ := by
  refine ⟨_, ?_, Rep.link_kill hb r⟩
  have hne : some c.1 ≠ some tl := by simpa using r.head_ne_tl
  simp only [eraseAfter, Prog.bind_run]
  rw [dbgAssert_run (by simpa [lst] using r.tl_not_before)]
  simp only [Out.bind_ok, r.getNext_at, headOf_cons, show (lst hd tl (c1 ++ c :: c2) own).tail = some tl from rfl]
  rw [if_neg hne]
  simp only [Prog.bind_run, Out.bind_ok, r.getNext_at, headOf_cons, r.getNext_cell]
  rw [setNext_run r.live_lastOf r.cons_mid.live_headOf]
  simp only [Out.bind_ok]
  rw [show (lst hd tl (c1 ++ c :: c2) own).alloc = own from rfl, destroyNode_elem (h := link cfg.dbl h (lastOf hd c1) (headOf tl c2)) (r.elem_at (a := c.1) (x := c.2))]
  simp [lst, ← Nat.add_assoc, dec_length]

theorem eraseAfter_end (r : Rep cfg h hd tl cs own) :
    eraseAfter cfg (lst hd tl cs own) (some (lastOf hd cs)) h = .ok ((lst hd tl cs own, some tl), h) := by
  have r' : Rep cfg h hd tl (cs ++ []) own := by simpa using r
  simp only [eraseAfter, Prog.bind_run]
  rw [dbgAssert_run (by simpa [lst] using r'.tl_not_before)]
  simp only [Out.bind_ok, r'.getNext_at, headOf_nil, show (lst hd tl cs own).tail = some tl from rfl]
  rw [if_pos trivial]
  rfl

theorem eraseAfterRange_ok (hb : Bal h) (r : Rep cfg h hd tl (c1 ++ (mid ++ c2)) own) :
    ∃ h', eraseAfterRange cfg (lst hd tl (c1 ++ (mid ++ c2)) own) (some (lastOf hd c1)) (some (headOf tl c2)) h =
        .ok ((lst hd tl (c1 ++ c2) own, some (headOf tl c2)), h') ∧
      Edit cfg h hd tl (c1 ++ (mid ++ c2)) own h' (c1 ++ c2) ⟨0, mid.length, 0⟩ := by
  have hne : some (lastOf hd c1) ≠ some (headOf tl c2) := by simpa using r.last_ne_head
  induction mid generalizing h with
  | nil =>
    refine ⟨h, ?_, Edit.refl hb r⟩
    rw [eraseAfterRange, if_neg hne]
    simp only [Prog.bind_run, r.getNext_at, List.nil_append, Out.bind_ok]
    rw [if_pos trivial]
    rfl
  | cons c mid ih =>
    have hne2 : some c.1 ≠ some (headOf tl c2) := by
      have := r.mid_not_left _ head_mem_nodes
      simp at this ⊢
      exact fun e => this.1 e.symm
    obtain ⟨h1, e1, ed⟩ := eraseAfter_ok (c2 := mid ++ c2) hb r
    obtain ⟨h2, e2, ed2⟩ := ih ed.bal ed.rep
    refine ⟨h2, ?_, (ed.trans ed2).cost (by simp [Nat.add_comm])⟩
    rw [eraseAfterRange, if_neg hne]
    simp only [Prog.bind_run, r.getNext_at, List.cons_append, headOf_cons, Out.bind_ok]
    rw [if_neg hne2]
    simp only [Prog.bind_run, e1, Out.bind_ok]
    exact e2

theorem erase_ok (hb : Bal h) (r : Rep cfg h hd tl (c1 ++ c :: c2) own) (hd' : cfg.dbl = true) :
    ∃ h', erase cfg (lst hd tl (c1 ++ c :: c2) own) (some c.1) h = .ok ((lst hd tl (c1 ++ c2) own, some (headOf tl c2)), h') ∧
      Edit cfg h hd tl (c1 ++ c :: c2) own h' (c1 ++ c2) ⟨0, 1, 0⟩ := by
  refine ⟨_, ?_, Rep.link_kill hb r⟩
  have hne : c.1 ≠ tl := r.head_ne_tl
  have hne2 : c.1 ≠ hd := r.hd_not_after
  have hlc : lastOf hd c1 ≠ c.1 := Rep.last_ne_head (mid := []) (c2 := c :: c2) r
  unfold erase
  rw [if_neg (by simp [lst, hne, hne2])]
  simp only [Prog.bind_run, Out.bind_ok, r.getPrev_cell hd', r.getNext_cell]
  rw [setNext_run r.live_lastOf r.cons_mid.live_headOf]
  simp only [Out.bind_ok]
  have hcn : h.nxt c.1 = some (some (headOf tl c2)) := by simpa using r.cons_mid.nxt_at
  rw [getNext_run (h := link cfg.dbl h (lastOf hd c1) (headOf tl c2)) (q := some (headOf tl c2))
    (r.elem_at (a := c.1) (x := c.2)).live (by rw [link_nxt_ne hlc.symm]; exact hcn)]
  simp only [Out.bind_ok]
  rw [show (lst hd tl (c1 ++ c :: c2) own).alloc = own from rfl, destroyNode_elem (h := link cfg.dbl h (lastOf hd c1) (headOf tl c2)) (r.elem_at (a := c.1) (x := c.2))]
  simp [lst, ← Nat.add_assoc, dec_length]

/-- linking around a run changes no `next` inside it -/
theorem Rep.mid_chain_fwd (r : Rep cfg h hd tl (c1 ++ (mid ++ c2)) own) (hm : mid ≠ []) :
    List.IsChain (fun a b => (link cfg.dbl h (lastOf hd c1) (headOf tl c2)).nxt a = some (some b)) (addrs mid ++ [headOf tl c2]) := by
  have := r.mid_chain_link hm
  exact List.IsChain.imp (fun a b hab => hab.1) this

theorem eraseRange_ok (hb : Bal h) (r : Rep cfg h hd tl (c1 ++ (mid ++ c2)) own) (hd' : cfg.dbl = true) :
    ∃ h', eraseRange cfg (lst hd tl (c1 ++ (mid ++ c2)) own) (some (headOf tl (mid ++ c2))) (some (headOf tl c2)) h =
        .ok ((lst hd tl (c1 ++ c2) own, some (headOf tl c2)), h') ∧
      Edit cfg h hd tl (c1 ++ (mid ++ c2)) own h' (c1 ++ c2) ⟨0, mid.length, 0⟩ := by
  unfold eraseRange
  by_cases hm : mid = []
  · subst hm
    exact ⟨h, by simp, Edit.refl hb r⟩
  · have hne2 : headOf tl (mid ++ c2) ≠ headOf tl c2 := by
      have := r.mid_not_left _ (head_mem_nodes (hd := hd) (c1 := c1))
      cases mid with
      | nil => exact absurd rfl hm
      | cons c mid => simp at this ⊢; exact fun e => this.1 e.symm
    have hnh : headOf tl (mid ++ c2) ≠ hd := r.hd_not_after
    have hb1 : Bal (link cfg.dbl h (lastOf hd c1) (headOf tl c2)) :=
      (step_link (l := nodes hd tl (c1 ++ (mid ++ c2))) hb last_mem_nodes (by rw [← List.append_assoc]; exact head_mem_nodes)).bal
    obtain ⟨h2, e2, kl⟩ := eraseLoop_fwd (own := own) hb1 (r.mid_chain_fwd hm) r.mid_chain.2 (fun c hc => r.mid_elems c hc) (c1.length + c2.length)
    refine ⟨h2, ?_, Rep.erase hb r kl⟩
    rw [if_neg (by simpa using hne2), if_neg (by simpa [lst] using hnh)]
    simp only [Prog.bind_run, Prog.pure_run, Out.bind_ok, r.getPrev_at hd']
    rw [setNext_run r.live_lastOf (by have := r; rw [← List.append_assoc] at this; exact this.live_headOf)]
    simp only [Out.bind_ok]
    rw [show (lst hd tl (c1 ++ (mid ++ c2)) own).len = c1.length + c2.length + mid.length by simp [lst]; omega,
      show (lst hd tl (c1 ++ (mid ++ c2)) own).alloc = own from rfl, headOf_append, e2]
    simp [lst]

theorem popFront_ok (hb : Bal h) (r : Rep cfg h hd tl (c :: cs) own) :
    ∃ h', popFront cfg (lst hd tl (c :: cs) own) h = .ok (lst hd tl cs own, h') ∧ Edit cfg h hd tl (c :: cs) own h' cs ⟨0, 1, 0⟩ := by
  have r' : Rep cfg h hd tl ([] ++ c :: cs) own := r
  refine ⟨_, ?_, Rep.link_kill hb r'⟩
  simp only [popFront, Prog.bind_run, lst, r.getNext_hd, headOf_cons, Out.bind_ok]
  rw [dbgAssert_run (by simp)]
  simp only [Out.bind_ok, r'.getNext_cell]
  rw [setNext_run r.vhd.live r'.cons_mid.live_headOf]
  simp only [Out.bind_ok]
  rw [destroyNode_elem (h := link cfg.dbl h hd (headOf tl cs)) (r'.elem_at (a := c.1) (x := c.2))]
  simp [dec_length]

theorem popBack_ok (hb : Bal h) (r : Rep cfg h hd tl (cs ++ [c]) own) (hd' : cfg.dbl = true) :
    ∃ h', popBack cfg (lst hd tl (cs ++ [c]) own) h = .ok (lst hd tl cs own, h') ∧ Edit cfg h hd tl (cs ++ [c]) own h' cs ⟨0, 1, 0⟩ := by
  have ed := Rep.link_kill hb r
  simp only [List.append_nil, headOf_nil] at ed
  refine ⟨_, ?_, ed⟩
  simp only [popBack, Prog.bind_run]
  rw [dbgAssert_run (by simp [lst])]
  simp only [Out.bind_ok]
  rw [dbgAssert_run (by simp [lst])]
  have e := r.getPrev_tl hd'
  simp only [lastOf_append, lastOf_cons, lastOf_nil] at e
  simp only [Out.bind_ok, lst, e, r.getPrev_cell hd']
  rw [setNext_run r.live_lastOf r.vtl.live]
  simp only [Out.bind_ok]
  rw [destroyNode_elem (h := link cfg.dbl h (lastOf hd cs) tl) (r.elem_at (a := c.1) (x := c.2))]
  simp [dec_length]

/-! ## Positions -/

theorem advance_ok (r : Rep cfg h hd tl (c1 ++ (mid ++ c2)) own) :
    advance mid.length (some (lastOf hd c1)) h = .ok (some (lastOf hd (c1 ++ mid)), h) := by
  induction mid generalizing c1 with
  | nil => simp [advance]
  | cons c mid ih =>
    simp only [List.length_cons, advance, Prog.bind_run, r.getNext_at, List.cons_append, headOf_cons, Out.bind_ok]
    have := ih (c1 := c1 ++ [c]) (by simpa using r)
    simpa using this

theorem iterAt_ok (r : Rep cfg h hd tl (c1 ++ c2) own) : iterAt (lst hd tl (c1 ++ c2) own) c1.length h = .ok (some (lastOf hd c1), h) :=
  advance_ok (c1 := []) (mid := c1) r

theorem advance_add (m n : Nat) (p : Ptr) : (advance (m + n) p : M α Ptr) = (do let q ← advance m p; advance n q) := by
  induction m generalizing p with
  | zero => funext h; simp [advance, Prog.bind_run]
  | succ m ih =>
    funext h
    rw [show m + 1 + n = (m + n) + 1 by omega]
    simp only [advance, Prog.bind_run, ih]
    cases getNext p h <;> rfl

theorem iterAt_next (r : Rep cfg h hd tl (c1 ++ c2) own) :
    iterAt (lst hd tl (c1 ++ c2) own) (c1.length + 1) h = .ok (some (headOf tl c2), h) := by
  have := iterAt_ok r
  simp only [iterAt] at this ⊢
  rw [advance_add]
  simp only [Prog.bind_run, this, Out.bind_ok, advance, r.getNext_at]
  rfl

theorem retreat_ok (r : Rep cfg h hd tl (c1 ++ (mid ++ c2)) own) (hd' : cfg.dbl = true) :
    retreat mid.length (some (lastOf hd (c1 ++ mid))) h = .ok (some (lastOf hd c1), h) := by
  induction mid using List.reverseRecOn generalizing c2 with
  | nil => simp [retreat]
  | append_singleton mid c ih =>
    have r1 : Rep cfg h hd tl ((c1 ++ mid) ++ c :: c2) own := by simpa using r
    have r2 : Rep cfg h hd tl (c1 ++ (mid ++ c :: c2)) own := by simpa using r
    simp only [List.length_append, List.length_singleton, retreat, Prog.bind_run]
    have e : lastOf hd (c1 ++ (mid ++ [c])) = c.1 := by simp
    rw [e]
    simp only [r1.getPrev_cell hd', Out.bind_ok]
    exact ih r2

theorem distFrom_ok (r : Rep cfg h hd tl (c1 ++ (mid ++ c2)) own) (n : Nat) :
    distFrom (some (lastOf hd (c1 ++ mid))) (some (lastOf hd c1)) n h = .ok (n + mid.length, h) := by
  induction mid generalizing c1 n with
  | nil => rw [distFrom, List.append_nil, if_pos rfl]; rfl
  | cons c mid ih =>
    have hne : some (lastOf hd c1) ≠ some (lastOf hd (c1 ++ c :: mid)) := by
      simp only [ne_eq, Option.some.injEq, lastOf_append]
      intro e
      have hm := lastOf_mem c.1 mid
      rw [lastOf_cons] at e
      rw [← e] at hm
      refine r.mid_not_left (lastOf hd c1) last_mem_nodes ?_
      exact hm
    rw [distFrom, if_neg hne]
    simp only [Prog.bind_run, r.getNext_at, List.cons_append, headOf_cons, Out.bind_ok]
    have := ih (c1 := c1 ++ [c]) (by simpa using r) (n + 1)
    simp only [List.append_assoc, List.singleton_append, lastOf_append, lastOf_cons, lastOf_nil] at this ⊢
    rw [this]; simp [Nat.add_comm, Nat.add_left_comm]

theorem distFrom_tl (r : Rep cfg h hd tl (c1 ++ c2) own) (n : Nat) :
    distFrom (some tl) (some (lastOf hd c1)) n h = .ok (n + c2.length + 1, h) := by
  induction c2 generalizing c1 n with
  | nil =>
    have hne : some (lastOf hd c1) ≠ some tl := by simpa using r.tl_not_before
    rw [distFrom, if_neg hne]
    simp only [Prog.bind_run, r.getNext_at, headOf_nil, Out.bind_ok]
    rw [distFrom, if_pos rfl]; rfl
  | cons c c2 ih =>
    have hne : some (lastOf hd c1) ≠ some tl := by simpa using r.tl_not_before
    rw [distFrom, if_neg hne]
    simp only [Prog.bind_run, r.getNext_at, headOf_cons, Out.bind_ok]
    have := ih (c1 := c1 ++ [c]) (by simpa using r) (n + 1)
    simp only [lastOf_append, lastOf_cons, lastOf_nil] at this
    rw [this]; simp [Nat.add_comm, Nat.add_left_comm]

/-- the position of an iterator -/
theorem dist_last (r : Rep cfg h hd tl (c1 ++ c2) own) : distFrom (some (lastOf hd c1)) (some hd) 0 h = .ok (c1.length, h) := by
  have := distFrom_ok (c1 := []) (mid := c1) r 0
  simpa using this

theorem dist_head (r : Rep cfg h hd tl (c1 ++ c2) own) : distFrom (some (headOf tl c2)) (some hd) 0 h = .ok (c1.length + 1, h) := by
  cases c2 with
  | nil =>
    have := distFrom_tl (c1 := []) (c2 := c1) (by simpa using r) 0
    simpa using this
  | cons c c2 =>
    have := dist_last (c1 := c1 ++ [c]) (c2 := c2) (by simpa using r)
    simpa using this

/-! ## Resizing -/

theorem shorten_ok (hb : Bal h) (r : Rep cfg h hd tl (c1 ++ c2) own) (hc2 : c2 ≠ []) :
    ∃ h', shorten cfg (lst hd tl (c1 ++ c2) own) c1.length h = .ok (lst hd tl c1 own, h') ∧
      Edit cfg h hd tl (c1 ++ c2) own h' c1 ⟨0, c2.length, 0⟩ := by
  have r' : Rep cfg h hd tl (c1 ++ (c2 ++ [])) own := by simpa using r
  have hb1 : Bal (link cfg.dbl h (lastOf hd c1) tl) :=
    (step_link (l := nodes hd tl (c1 ++ c2)) hb last_mem_nodes (by simp [nodes])).bal
  obtain ⟨h2, e2, kl⟩ := destroyLoop_fwd (own := own) hb1 (r'.mid_chain_fwd hc2) r'.mid_chain.2 (fun c hc => r'.mid_elems c hc)
  have ed := Rep.erase hb r' kl
  simp only [List.append_nil, headOf_nil] at ed e2
  refine ⟨h2, ?_, ed⟩
  unfold shorten
  simp only [show (lst hd tl (c1 ++ c2) own).len - c1.length = c2.length by simp [lst]]
  have fin : (do
      let p ← getNext (some (lastOf hd c1))
      setNext cfg (some (lastOf hd c1)) (some tl)
      destroyLoop cfg own (some tl) p
      return (lst hd tl c1 own) : M α Lst) h = .ok (lst hd tl c1 own, h2) := by
    simp only [Prog.bind_run, r.getNext_at, Out.bind_ok]
    rw [setNext_run r.live_lastOf r.vtl.live]
    simp only [Out.bind_ok, e2, Prog.pure_run]
  split
  · rename_i hc
    simp only [Prog.bind_run, lst, r.getPrev_tl hc.1, Out.bind_ok]
    rw [retreat_ok r' hc.1]
    simpa only [Prog.bind_run, lst, Out.bind_ok] using fin
  · have ha : advance c1.length (some hd) h = .ok (some (lastOf hd c1), h) := iterAt_ok r
    simp only [Prog.bind_run, lst, ha, Out.bind_ok]
    simpa only [Prog.bind_run, lst, Out.bind_ok] using fin

theorem extendLoop_ok (hb : Bal h) (r : Rep cfg h hd tl cs own) (n : Nat) {ref : Ref α} (hr : RefIs cfg ref x h) :
    (extendLoop cfg own (some tl) ref n (some (lastOf hd cs)) h).SafeIf (Refuses cfg) fun q =>
      ∃ ns, vals ns = List.replicate n x ∧ Edit cfg h hd tl cs own q.2 (cs ++ ns) ⟨n, 0, n⟩ := by
  induction n generalizing h cs with
  | zero => exact ⟨[], rfl, by rw [List.append_nil]; exact Edit.refl hb r⟩
  | succ n ih =>
    have r' : Rep cfg h hd tl (cs ++ []) own := by simpa using r
    simp only [extendLoop, Prog.bind_run, hr.deref, Out.bind_ok]
    refine (constructNode_run own x h).bind ?_
    rintro _ rfl
    simp only []
    rw [setNext_run (mk_live (h := h) r'.live_lastOf) (isElem_mk (h := h)).live]
    simp only [Out.bind_ok]
    rw [setNext_run (h := link cfg.dbl (newElem cfg own x h) (lastOf hd cs) h.next) (isElem_mk (h := h)).live (mk_live r.vtl.live)]
    simp only [Out.bind_ok]
    have ed := Rep.insertOne (x := x) hb r'
    simp only [headOf_nil, List.append_nil] at ed
    have := ih ed.bal ed.rep ((hr.mk hb).same rfl)
    simp only [lastOf_append, lastOf_cons, lastOf_nil] at this
    refine this.imp ?_
    rintro q ⟨ns, e1, e2⟩
    refine ⟨(h.next, x) :: ns, by simp [e1, List.replicate_succ], ?_⟩
    have e3 := (ed.trans e2).cost (k' := ⟨n + 1, 0, n + 1⟩) (by simp [Nat.add_comm])
    simpa using e3

theorem extend_ok (hb : Bal h) (r : Rep cfg h hd tl cs own) (n : Nat) {ref : Ref α} (hr : RefIs cfg ref x h) :
    (extend cfg (lst hd tl cs own) (cs.length + n) ref h).SafeIf (Refuses cfg) fun q =>
      ∃ ns, vals ns = List.replicate n x ∧ q.1 = lst hd tl (cs ++ ns) own ∧ Edit cfg h hd tl cs own q.2 (cs ++ ns) ⟨n, 0, n⟩ := by
  unfold extend
  simp only [show cs.length + n - (lst hd tl cs own).len = n by simp [lst]]
  have fin : ((do
      extendLoop cfg own (some tl) ref n (some (lastOf hd cs))
      return (⟨some hd, some tl, cs.length + n, own⟩ : Lst) : M α Lst) h).SafeIf (Refuses cfg) fun q =>
      ∃ ns, vals ns = List.replicate n x ∧ q.1 = lst hd tl (cs ++ ns) own ∧ Edit cfg h hd tl cs own q.2 (cs ++ ns) ⟨n, 0, n⟩ := by
    rw [Prog.bind_run]
    refine (extendLoop_ok hb r n hr).bind ?_
    rintro ⟨_, h'⟩ ⟨ns, e1, e2⟩
    have hl : ns.length = n := by simpa using congrArg List.length e1
    exact ⟨ns, e1, by simp [lst, hl], e2⟩
  split
  · rename_i hc
    rw [Prog.bind_run, show (lst hd tl cs own).tail = some tl from rfl, r.getPrev_tl hc]
    exact fin
  · have ha : advance cs.length (some hd) h = .ok (some (lastOf hd cs), h) := by
      have := iterAt_ok (c1 := cs) (c2 := []) (by simpa using r)
      rw [List.append_nil] at this
      exact this
    rw [Prog.bind_run, show (lst hd tl cs own).head = some hd from rfl, show (lst hd tl cs own).len = cs.length from rfl, ha]
    exact fin

theorem resizeFill_ok (hb : Bal h) (r : Rep cfg h hd tl cs own) (n : Nat) {ref : Ref α} (hr : RefIs cfg ref x h) :
    (resizeFill cfg (lst hd tl cs own) n ref h).SafeIf (Refuses cfg) fun q =>
      ∃ ns, vals ns = List.replicate (n - cs.length) x ∧ q.1 = lst hd tl (cs.take n ++ ns) own ∧
        Edit cfg h hd tl cs own q.2 (cs.take n ++ ns) ⟨n - cs.length, cs.length - n, n - cs.length⟩ := by
  unfold resizeFill
  split
  · rename_i hn
    subst hn
    obtain ⟨h', e1, ed⟩ := clear_ok hb r
    rw [e1]
    exact ⟨[], by simp, by simp, by simpa using ed⟩
  · split
    · rename_i hn
      have hn : n = cs.length := hn
      subst hn
      refine ⟨[], by simp, by simp, ?_⟩
      rw [List.take_length, List.append_nil, Nat.sub_self]
      exact Edit.refl hb r
    · split
      · rename_i h1 h2 h3
        have h3 : cs.length < n := h3
        obtain ⟨m, rfl⟩ : ∃ m, n = cs.length + m := ⟨n - cs.length, by omega⟩
        refine (extend_ok hb r m hr).imp ?_
        rintro q ⟨ns, e1, e2, e3⟩
        refine ⟨ns, by simpa using e1, ?_, ?_⟩
        · rw [e2, List.take_of_length_le (by omega)]
        · rw [List.take_of_length_le (by omega)]
          exact e3.cost (by simp)
      · rename_i h1 h2 h3
        have h3 : n < cs.length := by have : ¬ n > cs.length := h3; have : ¬ n = cs.length := h2; omega
        have e : cs.take n ++ cs.drop n = cs := List.take_append_drop n cs
        have r' : Rep cfg h hd tl (cs.take n ++ cs.drop n) own := by rw [e]; exact r
        obtain ⟨h', e1, ed⟩ := shorten_ok hb r' (by simp; omega)
        rw [e] at e1 ed
        rw [List.length_take, Nat.min_eq_left (by omega)] at e1
        rw [e1]
        have z : n - cs.length = 0 := by omega
        refine ⟨[], by simp [z], by simp, ?_⟩
        rw [z]
        simpa using ed

end

end Verif.Proof.LL
