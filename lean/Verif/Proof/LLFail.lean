import Verif.Proof.LLReach
/-! # Linked lists: calls that go wrong -/
namespace Verif.Proof.LL
open Verif Verif.Model.LL
open Verif.Spec.LL hiding sorted
open Verif.Proof.Mem (Cost)

variable {α β : Type} {cfg : Cfg α}

/-- following `next` from the first of the element nodes `cs` leads through all of them to `t` -/
def Way (cfg : Cfg α) (own : Nat) (h : Heap α) : Cells α → Nat → Prop
  | [], _ => True
  | c :: cs, t => IsElem cfg own h c.1 c.2 ∧ h.nxt c.1 = some (some (headOf t cs)) ∧ Way cfg own h cs t

section
variable {C : Ghost α} {w : World α} {h h' : Heap α} {i j hd tl hd2 tl2 own own2 t t' p : Nat} {cs ds c1 c2 u v : Cells α} {c : Nat × α} {x : α}
  {less : α → α → Bool}

theorem Rep.way (r : Rep cfg h hd tl (c1 ++ c2) own) : Way cfg own h c2 tl := by
  induction c2 generalizing c1 with
  | nil => trivial
  | cons c c2 ih =>
    have r2 : Rep cfg h hd tl ((c1 ++ [c]) ++ c2) own := by simpa using r
    have hn := r2.nxt_at
    rw [lastOf_append, lastOf_cons, lastOf_nil] at hn
    exact ⟨r.cells c (by simp), hn, ih r2⟩

theorem Way.frame (y : Way cfg own h cs t) (hf : ∀ a ∈ addrs cs, h'.info a = h.info a ∧ h'.nxt a = h.nxt a) : Way cfg own h' cs t := by
  induction cs with
  | nil => trivial
  | cons c cs ih =>
    obtain ⟨h1, h2, h3⟩ := y
    have hc := hf c.1 (by simp)
    exact ⟨by rw [IsElem, hc.1]; exact h1, by rw [hc.2]; exact h2, ih h3 fun a ha => hf a (by simp at ha ⊢; exact .inr ha)⟩

theorem Way.left (y : Way cfg own h (u ++ v) t) : Way cfg own h u (headOf t v) := by
  induction u with
  | nil => trivial
  | cons c u ih =>
    obtain ⟨h1, h2, h3⟩ := y
    exact ⟨h1, h2.trans (congrArg (fun z => some (some z)) (headOf_append t u v)), ih h3⟩

theorem Way.snoc (y : Way cfg own h u c.1) (e : IsElem cfg own h c.1 c.2) (hn : h.nxt c.1 = some (some t)) : Way cfg own h (u ++ [c]) t := by
  induction u with
  | nil => exact ⟨e, hn, trivial⟩
  | cons d u ih =>
    obtain ⟨h1, h2, h3⟩ := y
    refine ⟨h1, ?_, ih h3⟩
    have := headOf_append t u [c]
    simp only [headOf_cons] at this
    exact h2.trans (congrArg (fun z => some (some z)) this.symm)

theorem walk_way (y : Way cfg own h cs t) (hs : p ∉ addrs cs) (acc : List α) :
    walk (some p) (some (headOf t cs)) acc h = walk (some p) (some t) (acc ++ vals cs) h := by
  induction cs generalizing acc with
  | nil => simp
  | cons c cs ih =>
    obtain ⟨h1, h2, h3⟩ := y
    simp only [addrs, List.map_cons, List.mem_cons, not_or] at hs
    rw [walk, headOf_cons, if_neg (by simp; exact fun e => hs.1 e.symm)]
    simp only [Prog.bind_run, load_run h1, getNext_run h1.live h2, Out.bind_ok]
    rw [ih h3 hs.2]; simp

/-- nodes without a live element cannot be read -/
theorem load_ub (hl : elemAt h t = none) : load (some t) h = .ub := by
  simp only [load, withNode]
  cases hi : h.info t with
  | none => rfl
  | some o =>
    obtain ⟨a, b, d⟩ := o
    cases d with
    | live x => simp [elemAt, hi] at hl
    | _ => rfl

theorem IsVirt.elemAt {a : Nat} (e : IsVirt cfg own h a) : elemAt h a = none := by
  rw [IsVirt] at e; simp [Spec.LL.elemAt, e]

/-- traversal that runs into a node without element -/
theorem traverse_ub {l : Lst} (hh : l.head = some hd) (ht : l.tail = some tl) (lh : Live h hd) (hn : h.nxt hd = some (some (headOf t cs)))
    (y : Way cfg own h cs t) (hs : tl ∉ addrs cs) (htt : t ≠ tl) (hl : Spec.LL.elemAt h t = none) : traverse l h = .ub := by
  simp only [traverse, Prog.bind_run, hh, ht, getNext_run lh hn, Out.bind_ok]
  rw [walk_way y hs, walk, if_neg (by simpa using htt)]
  simp only [Prog.bind_run, load_ub hl]
  rfl

theorem look_ub {l : Lst} (hv : w.vars i = some l) {f : Lst → M α (Res α)} (hf : f l w.heap = .ub) : look i f w = .ub := by
  simp only [look, Prog.bind_run, var_run hv, Out.bind_ok, inHeap_run, hf]
  rfl

theorem run_two {a b : Op α} {w w' : World α} {r : Res α} (h1 : step cfg a w = .ok (r, w')) (h2 : step cfg b w' = .ub) :
    run cfg [a, b] w = .ub := by
  simp only [run, Prog.bind_run, h1, Out.bind_ok, h2]
  rfl

theorem run_one {a : Op α} {w : World α} (h1 : step cfg a w = .ub) : run cfg [a] w = .ub := by
  simp only [run, Prog.bind_run, h1]
  rfl

/-! ## sort of one element -/

theorem sort_one_ub (I : Inv cfg C w) (hi : C i = some (full hd tl [c] own)) :
    run cfg [.sort i less, .traverse i] w = .ub ∧ run cfg [.sort i less, .drop i] w = .ub := by
  have r := I.rep hi
  have es : step cfg (.sort i less) w = .ok (.unit, ⟨link cfg.dbl (cut w.heap c.1) hd c.1, upd w.vars i (some (lst hd tl [c] own))⟩) := by
    simp only [step, change, Prog.bind_run, var_run (I.var hi), Out.bind_ok, inHeap_run, sort_single r, setVar_run]
    rfl
  have ec : IsElem cfg own w.heap c.1 c.2 := r.cells c (by simp)
  have hc : c.1 ≠ hd := fun e => r.hd_not_cell (by simp [e])
  have ht : tl ≠ c.1 := fun e => r.tl_not_cell (by simp [e])
  have e' : IsElem cfg own (link cfg.dbl (cut w.heap c.1) hd c.1) c.1 c.2 := ec
  have lh : Live (link cfg.dbl (cut w.heap c.1) hd c.1) hd := r.vhd.live
  have n1 : (link cfg.dbl (cut w.heap c.1) hd c.1).nxt hd = some (some c.1) := link_nxt_same
  have n2 : (link cfg.dbl (cut w.heap c.1) hd c.1).nxt c.1 = some none := by rw [link_nxt_ne hc, cut_nxt_same]
  refine ⟨run_two es ?_, run_two es ?_⟩
  · refine look_ub (l := lst hd tl [c] own) (upd_same ..) ?_
    simp only [Prog.bind_run, traverse, lst, getNext_run lh n1, Out.bind_ok]
    rw [walk, if_neg (by simpa using Ne.symm ht)]
    simp only [Prog.bind_run, load_run e', getNext_run e'.live n2, Out.bind_ok]
    rw [walk, if_neg (by simp)]
    rfl
  · have ed : destruct cfg (lst hd tl [c] own) (link cfg.dbl (cut w.heap c.1) hd c.1) = .ub := by
      rw [destruct, if_neg (by simp [lst])]
      simp only [lst, Prog.bind_run, clear, getNext_run lh n1, Out.bind_ok]
      rw [destroyLoop, if_neg (by simpa using Ne.symm ht)]
      simp only [Prog.bind_run, getNext_run e'.live n2, Out.bind_ok, destroyNode_elem e']
      rw [destroyLoop, if_neg (by simp)]
      rfl
    simp only [step, Prog.bind_run, var_run (i := i) (w := ⟨link cfg.dbl (cut w.heap c.1) hd c.1, upd w.vars i (some (lst hd tl [c] own))⟩) (upd_same ..),
      Out.bind_ok, inHeap_run, ed]
    rfl

/-! ## merge into an empty list -/

theorem merge_empty_ub (I : Inv cfg C w) (hij : i ≠ j) (hi : C i = some (full hd tl [] own)) (hj : C j = some (full hd2 tl2 ds own2)) (hd' : ds ≠ []) :
    run cfg [.merge i j less, .traverse i] w = .ub := by
  have r := I.rep hi
  have r2 := I.rep hj
  have dj := I.disj hij hi hj
  obtain ⟨d, ds, rfl⟩ := List.exists_cons_of_ne_nil hd'
  have ed : IsElem cfg own2 w.heap d.1 d.2 := r2.cells d (by simp)
  have ev : IsVirt cfg own (link cfg.dbl w.heap hd2 tl2) tl := r.vtl
  have dn : ∀ a, a ∈ nodes hd tl ([] : Cells α) → ∀ b, b ∈ nodes hd2 tl2 (d :: ds) → a ≠ b := fun a ha b hb e => dj a ha (by rw [e]; exact hb)
  let h1 := link cfg.dbl (link cfg.dbl w.heap hd2 tl2) hd d.1
  have es : step cfg (.merge i j less) w = .ok (.unit, ⟨h1, upd (upd w.vars i (some ⟨some hd, some tl, 0 + (d :: ds).length, own⟩)) j
      (some ⟨some hd2, some tl2, 0, own2⟩)⟩) := by
    simp only [step, if_neg hij, change2, Prog.bind_run, var_run (I.var hi), var_run (I.var hj), Out.bind_ok, inHeap_run, merge, lst,
      dbgAssert_run (show Option.isSome (some hd) = true from rfl), dbgAssert_run (show Option.isSome (some hd2) = true from rfl)]
    rw [if_neg (by simp)]
    simp only [Prog.bind_run, r.getNext_hd, r2.getNext_hd, headOf_cons, headOf_nil, Out.bind_ok, setNext_run r2.vhd.live r2.vtl.live]
    have em : mergeChains cfg less (some tl) (some d.1) (link cfg.dbl w.heap hd2 tl2) = .ok ((some d.1, none), link cfg.dbl w.heap hd2 tl2) := by
      simp only [mergeChains, Prog.bind_run, isEnd, dataNull_virt ev, Out.bind_ok]
      rfl
    simp only [em, Out.bind_ok]
    rw [setNext_run (h := link cfg.dbl w.heap hd2 tl2) r.vhd.live ed.live]
    rfl
  refine run_two es (look_ub (l := ⟨some hd, some tl, 0 + (d :: ds).length, own⟩) ?_ ?_)
  · simp only [upd_ne _ _ hij, upd_same]
  · have hy : Way cfg own2 h1 (d :: ds) tl2 := by
      refine (Rep.way (c1 := []) r2).frame fun a ha => ⟨rfl, ?_⟩
      have h2 : a ≠ hd := fun e => dn hd (by simp [nodes]) a (by simp only [nodes, List.mem_cons, List.mem_append]; exact .inr (.inl ha)) e.symm
      have h3 : a ≠ hd2 := fun e => r2.hd_not_cell (by rw [← e]; exact ha)
      rw [link_nxt_ne h2, link_nxt_ne h3]
    simp only [Prog.bind_run]
    rw [traverse_ub (hd := hd) (tl := tl) (t := tl2) (cs := d :: ds) rfl rfl (show Live h1 hd from r.vhd.live) link_nxt_same hy
      (fun hm => dn tl (by simp [nodes]) tl (by simp only [nodes, List.mem_cons, List.mem_append]; exact .inr (.inl hm)) rfl)
      (fun e => dn tl (by simp [nodes]) tl2 (by simp [nodes]) e.symm) (show Spec.LL.elemAt h1 tl2 = none from IsVirt.elemAt (cfg := cfg) (own := own2) r2.vtl)]
    rfl

/-! ## the rvalue merge -/

theorem lastLoop_dead (y : Way cfg own h (c :: cs) t) (ht : h.info t = none) : lastLoop (some c.1) h = .ub := by
  induction cs generalizing c with
  | nil =>
    obtain ⟨h1, h2, -⟩ := y
    rw [lastLoop]
    simp only [Prog.bind_run, getNext_run h1.live h2, Out.bind_ok, headOf_nil, isEnd, dataNull, withNode, ht]
    rfl
  | cons d cs ih =>
    obtain ⟨h1, h2, h3⟩ := y
    rw [lastLoop]
    simp only [Prog.bind_run, getNext_run h1.live h2, Out.bind_ok, headOf_cons, isEnd, dataNull_elem h3.1, Bool.false_eq_true, if_false]
    exact ih h3

theorem isEnd_dead (ht : h.info t = none) : isEnd (some t) h = .ub := by simp only [isEnd, dataNull, withNode, ht]

theorem mergeLoop_dead {ta tb : Nat} {as bs : Cells α} (ya : Way cfg own h as ta) (yb : Way cfg own h bs tb) (va : IsVirt cfg own2 h ta)
    (ht : h.info tb = none) (lp : Live h p) (hn : (p :: (addrs as ++ addrs bs)).Nodup) :
    mergeLoop cfg less (some (headOf ta as)) (some (headOf tb bs)) (some p) h = .ub ∨
    ∃ h' p' bs', mergeLoop cfg less (some (headOf ta as)) (some (headOf tb bs)) (some p) h = .ok ((some ta, some (headOf tb bs'), some p'), h') ∧
      Way cfg own h' bs' tb ∧ Live h' p' ∧ p' ∉ addrs bs' ∧ h'.info = h.info := by
  induction hk : as.length + bs.length using Nat.strongRecOn generalizing h p as bs with
  | _ k ih =>
    cases as with
    | nil =>
      right
      refine ⟨h, p, bs, ?_, yb, lp, by simp at hn ⊢; exact hn.1, rfl⟩
      rw [mergeLoop]
      simp only [headOf_nil, Prog.bind_run, isEnd, dataNull_virt va, Out.bind_ok]
      rfl
    | cons a as =>
      obtain ⟨a1, a2, a3⟩ := ya
      cases bs with
      | nil =>
        left
        rw [mergeLoop]
        simp only [headOf_cons, headOf_nil, Prog.bind_run, isEnd_dead ht]
        simp only [isEnd, dataNull_elem a1, Out.bind_ok, Prog.bind_run]
        rw [if_neg (by simp)]
        simp only [Prog.bind_run, dataNull, withNode, ht]
        rfl
      | cons b bs =>
        obtain ⟨b1, b2, b3⟩ := yb
        have hpa : p ≠ a.1 := fun e => by rw [e] at hn; simp at hn
        have hpb : p ≠ b.1 := fun e => by rw [e] at hn; simp at hn
        rw [mergeLoop]
        simp only [headOf_cons, Prog.bind_run, isEnd, dataNull_elem a1, dataNull_elem b1, Out.bind_ok, Bool.false_eq_true, if_false, load_run a1, load_run b1]
        have hn2 := List.nodup_cons.1 hn
        cases hl : less a.2 b.2 with
        | true =>
          have key := ih _ (by rw [← hk]; simp) (h := link cfg.dbl h p a.1) (p := a.1) (as := as) (bs := b :: bs)
            (a3.frame fun z hz => ⟨rfl, link_nxt_ne (fun e => hn2.1 (by rw [← e]; simp at hz ⊢; tauto))⟩)
            (Way.frame (cs := b :: bs) ⟨b1, b2, b3⟩ fun z hz => ⟨rfl, link_nxt_ne (fun e => hn2.1 (by rw [← e]; exact List.mem_append_right _ hz))⟩)
            va ht a1.live (by simpa using hn2.2) rfl
          simp only [if_true, Prog.bind_run, setNext_run lp a1.live, Out.bind_ok]
          rw [getNext_run (h := link cfg.dbl h p a.1) a1.live (by rw [link_nxt_ne hpa.symm]; exact a2)]
          simp only [Out.bind_ok]
          rw [getNext_run (h := link cfg.dbl h p a.1) lp link_nxt_same]
          exact key
        | false =>
          have pm : (b.1 :: (addrs (a :: as) ++ addrs bs)).Perm (addrs (a :: as) ++ addrs (b :: bs)) := List.perm_middle.symm
          have key := ih _ (by rw [← hk]; simp) (h := link cfg.dbl h p b.1) (p := b.1) (as := a :: as) (bs := bs)
            (Way.frame (cs := a :: as) ⟨a1, a2, a3⟩ fun z hz => ⟨rfl, link_nxt_ne (fun e => hn2.1 (by rw [← e]; exact List.mem_append_left _ hz))⟩)
            (b3.frame fun z hz => ⟨rfl, link_nxt_ne (fun e => hn2.1 (by rw [← e]; simp at hz ⊢; tauto))⟩)
            va ht b1.live (pm.nodup_iff.2 hn2.2) rfl
          simp only [Bool.false_eq_true, if_false, Prog.bind_run, setNext_run lp b1.live, Out.bind_ok]
          rw [getNext_run (h := link cfg.dbl h p b.1) b1.live (by rw [link_nxt_ne hpb.symm]; exact b2)]
          simp only [Out.bind_ok]
          rw [getNext_run (h := link cfg.dbl h p b.1) lp link_nxt_same]
          exact key

theorem mergeRest_dead {ta tb : Nat} {as bs : Cells α} (ya : Way cfg own h as ta) (yb : Way cfg own h bs tb) (va : IsVirt cfg own2 h ta)
    (ht : h.info tb = none) (lp : Live h p) (hn : (p :: (addrs as ++ addrs bs)).Nodup) :
    mergeRest cfg less (some p) (some (headOf ta as)) (some (headOf tb bs)) h = .ub := by
  rcases mergeLoop_dead (less := less) ya yb va ht lp hn with e | ⟨h', p', bs', e, y, l, hp, hi⟩
  · simp only [mergeRest, Prog.bind_run, e]
    rfl
  · simp only [mergeRest, Prog.bind_run, e, Out.bind_ok]
    have va' : IsVirt cfg own2 h' ta := by rw [IsVirt, hi]; exact va
    have ht' : h'.info tb = none := by rw [hi]; exact ht
    simp only [isEnd, dataNull_virt va', Out.bind_ok, Bool.not_true, Bool.false_eq_true, if_false, Prog.bind_run]
    cases bs' with
    | nil => simp only [headOf_nil, dataNull, withNode, ht']; rfl
    | cons b bs' =>
      obtain ⟨b1, b2, b3⟩ := y
      simp only [headOf_cons, dataNull_elem b1, Out.bind_ok, Bool.not_false, if_true, Prog.bind_run, setNext_run l b1.live]
      simp only [addrs, List.map_cons, List.mem_cons, not_or] at hp
      rw [lastLoop]
      simp only [Prog.bind_run, isEnd]
      rw [getNext_run (h := link cfg.dbl h' p' b.1) l link_nxt_same]
      simp only [Out.bind_ok, dataNull_elem (h := link cfg.dbl h' p' b.1) b1, Bool.false_eq_true, if_false]
      rw [lastLoop_dead (h := link cfg.dbl h' p' b.1) (cs := bs') (t := tb) (Way.frame (cs := b :: bs') ⟨b1, b2, b3⟩ fun z hz => ⟨rfl, link_nxt_ne fun e => ?_⟩) ht']
      · rfl
      · rw [← e] at hp
        simp at hz
        rcases hz with hz | hz
        · exact hp.1 hz
        · exact hp.2 (List.mem_map.2 (by obtain ⟨b, hb⟩ := hz; exact ⟨_, hb, rfl⟩))

theorem mergeChains_dead {ta tb : Nat} {a b : Nat × α} {as bs : Cells α} (ya : Way cfg own h (a :: as) ta) (yb : Way cfg own h (b :: bs) tb)
    (va : IsVirt cfg own2 h ta) (ht : h.info tb = none) (hn : (addrs (a :: as) ++ addrs (b :: bs)).Nodup) :
    mergeChains cfg less (some a.1) (some b.1) h = .ub := by
  have ya' := ya
  have yb' := yb
  obtain ⟨a1, a2, a3⟩ := ya
  obtain ⟨b1, b2, b3⟩ := yb
  have ie1 : isEnd (some a.1) h = .ok (false, h) := dataNull_elem a1
  have ie2 : isEnd (some b.1) h = .ok (false, h) := dataNull_elem b1
  have pm : (b.1 :: (addrs (a :: as) ++ addrs bs)).Perm (addrs (a :: as) ++ addrs (b :: bs)) := List.perm_middle.symm
  unfold mergeChains
  simp only [Prog.bind_run, ie1, ie2, Out.bind_ok, Bool.false_eq_true, if_false, load_run a1, load_run b1]
  split
  · simp only [Prog.bind_run, getNext_run a1.live a2, Out.bind_ok, Prog.pure_run]
    exact mergeRest_dead (as := as) (bs := b :: bs) a3 yb' va ht a1.live hn
  · simp only [Prog.bind_run, getNext_run b1.live b2, Out.bind_ok, Prog.pure_run]
    exact mergeRest_dead (as := a :: as) (bs := bs) ya' b3 va ht b1.live (pm.nodup_iff.2 hn)

theorem mergeMove_ub (I : Inv cfg C w) (hij : i ≠ j) (hi : C i = some (full hd tl cs own)) (hj : C j = some (full hd2 tl2 ds own)) (hd' : ds ≠ []) :
    run cfg [.mergeMove i j less, .traverse i] w = .ub := by
  have r := I.rep hi
  have r2 := I.rep hj
  have dj := I.disj hij hi hj
  obtain ⟨d, ds, rfl⟩ := List.exists_cons_of_ne_nil hd'
  have ed : IsElem cfg own w.heap d.1 d.2 := r2.cells d (by simp)
  let h1 := killVirt cfg (killVirt cfg w.heap hd2) tl2
  have k2 : ∀ a, a ≠ hd2 → a ≠ tl2 → h1.info a = w.heap.info a := fun a h2 h3 => by rw [killVirt_info_ne h3, killVirt_info_ne h2]
  have hne : ∀ a ∈ nodes hd tl cs, a ≠ hd2 ∧ a ≠ tl2 := fun a ha => ⟨fun e => dj a ha (by rw [e]; simp [nodes]), fun e => dj a ha (by rw [e]; simp [nodes])⟩
  have hnd : ∀ a ∈ addrs (d :: ds), a ≠ hd2 ∧ a ≠ tl2 := fun a ha =>
    ⟨fun e => r2.hd_not_cell (by rw [← e]; exact ha), fun e => r2.tl_not_cell (by rw [← e]; exact ha)⟩
  have h12 := r2.hd_ne_tl
  have k1 : destroyNode cfg own (some tl2) (killVirt cfg w.heap hd2) = .ok ((), h1) := destroyNode_virt (r2.vtl.killVirt h12.symm)
  have vt : IsVirt cfg own h1 tl := by rw [IsVirt, k2 tl (hne tl (by simp [nodes])).1 (hne tl (by simp [nodes])).2]; exact r.vtl
  have vh : IsVirt cfg own h1 hd := by rw [IsVirt, k2 hd (hne hd (by simp [nodes])).1 (hne hd (by simp [nodes])).2]; exact r.vhd
  have dead : h1.info tl2 = none := killVirt_info_same
  have y2 : Way cfg own h1 (d :: ds) tl2 := (Rep.way (c1 := []) r2).frame fun a ha => ⟨k2 a (hnd a ha).1 (hnd a ha).2, rfl⟩
  cases cs with
  | cons c cs =>
    have y1 : Way cfg own h1 (c :: cs) tl := (Rep.way (c1 := []) r).frame fun a ha => by
      have := hne a (by simp only [nodes, List.mem_cons, List.mem_append]; exact .inr (.inl ha))
      exact ⟨k2 a this.1 this.2, rfl⟩
    have hnn : (addrs (c :: cs) ++ addrs (d :: ds)).Nodup := by
      refine List.nodup_append.2 ⟨?_, ?_, fun a ha b hb e => ?_⟩
      · exact r.nodup_cells
      · exact r2.nodup_cells
      · subst e
        exact dj a (by simp only [nodes, List.mem_cons, List.mem_append]; exact .inr (.inl ha)) (by simp only [nodes, List.mem_cons, List.mem_append]; exact .inr (.inl hb))
    have es : step cfg (.mergeMove i j less) w = .ub := by
      simp only [step, if_neg hij, change2, Prog.bind_run, var_run (I.var hi), var_run (I.var hj), Out.bind_ok, inHeap_run, mergeMove, lst,
        dbgAssert_run (show Option.isSome (some hd) = true from rfl), dbgAssert_run (show Option.isSome (some hd2) = true from rfl)]
      rw [if_neg (by simp)]
      simp only [Prog.bind_run, r.getNext_hd, r2.getNext_hd, headOf_cons, Out.bind_ok, destroyNode_virt r2.vhd, k1,
        mergeChains_dead y1 y2 vt dead hnn]
      rfl
    simp only [run, Prog.bind_run, es]
    rfl
  | nil =>
    let h2 := link cfg.dbl h1 hd d.1
    have es : step cfg (.mergeMove i j less) w = .ok (.unit, ⟨h2, upd (upd w.vars i (some ⟨some hd, some tl, 0 + (d :: ds).length, own⟩)) j
        (some ⟨none, none, 0, own⟩)⟩) := by
      simp only [step, if_neg hij, change2, Prog.bind_run, var_run (I.var hi), var_run (I.var hj), Out.bind_ok, inHeap_run, mergeMove, lst,
        dbgAssert_run (show Option.isSome (some hd) = true from rfl), dbgAssert_run (show Option.isSome (some hd2) = true from rfl)]
      rw [if_neg (by simp)]
      simp only [Prog.bind_run, r.getNext_hd, r2.getNext_hd, headOf_cons, headOf_nil, Out.bind_ok, destroyNode_virt r2.vhd, k1]
      have em : mergeChains cfg less (some tl) (some d.1) h1 = .ok ((some d.1, none), h1) := by
        simp only [mergeChains, Prog.bind_run, isEnd, dataNull_virt vt, Out.bind_ok]
        rfl
      simp only [em, Out.bind_ok]
      rw [setNext_run (h := h1) vh.live y2.1.live]
      rfl
    refine run_two es (look_ub (l := ⟨some hd, some tl, 0 + (d :: ds).length, own⟩) ?_ ?_)
    · simp only [upd_ne _ _ hij, upd_same]
    · have hy : Way cfg own h2 (d :: ds) tl2 := by
        refine y2.frame fun a ha => ⟨rfl, ?_⟩
        have : a ≠ hd := fun e => dj hd (by simp [nodes]) (by rw [← e]; simp only [nodes, List.mem_cons, List.mem_append]; exact .inr (.inl ha))
        rw [link_nxt_ne this]
      simp only [Prog.bind_run]
      rw [traverse_ub (hd := hd) (tl := tl) (t := tl2) (cs := d :: ds) rfl rfl (show Live h2 hd from vh.live) link_nxt_same hy
        (fun hm => dj tl (by simp [nodes]) (by simp only [nodes, List.mem_cons, List.mem_append]; exact .inr (.inl hm)))
        (hne tl (by simp [nodes])).2.symm (by rw [show Spec.LL.elemAt h2 tl2 = Spec.LL.elemAt h1 tl2 from rfl, Spec.LL.elemAt, dead])]
      rfl
end

end Verif.Proof.LL
