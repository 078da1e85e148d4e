import Verif.Proof.LLMove
import Verif.Proof.LLOrder
/-! # Linked lists: merging and sorting chains of nodes -/
namespace Verif.Proof.LL
open Verif Verif.Model.LL
open Verif.Proof.Mem (Cost)

variable {α β σ : Type} {cfg : Cfg α}

/-- the order on cells -/
abbrev onVal (less : α → α → Bool) : Nat × α → Nat × α → Bool := fun a b => less a.2 b.2

theorem vals_mrg (less : α → α → Bool) (a b : Cells α) : vals (mrgBy (onVal less) a b) = mrgBy less (vals a) (vals b) := mrgBy_map Prod.snd less a b
theorem vals_msort (less : α → α → Bool) (a : Cells α) : vals (msortBy (onVal less) a) = msortBy less (vals a) := msortBy_map Prod.snd less a

/-- the pointer `e` ends a chain: null or a node without element -/
def EndP (cfg : Cfg α) (h : Heap α) (e : Ptr) : Prop := ∀ t, e = some t → ∃ o, IsVirt cfg o h t

/-- pointer to the first cell, `e` if there is none -/
def startOf (e : Ptr) : Cells α → Ptr
  | [] => e
  | c :: _ => some c.1

@[simp] theorem startOf_nil (e : Ptr) : startOf e ([] : Cells α) = e := rfl
@[simp] theorem startOf_cons (e : Ptr) (c : Nat × α) (cs : Cells α) : startOf e (c :: cs) = some c.1 := rfl

/-- a chain of element nodes whose last `next` is `e` -/
structure Seg (cfg : Cfg α) (own : Nat) (h : Heap α) (cs : Cells α) (e : Ptr) : Prop where
  chain : Chain cfg.dbl h (addrs cs)
  cells : ∀ c ∈ cs, IsElem cfg own h c.1 c.2
  last : ∀ u c, cs = u ++ [c] → h.nxt c.1 = some e

variable {h h' h1 h2 : Heap α} {own : Nat} {cs a b u v ps : Cells α} {c d : Nat × α} {e ea eb : Ptr} {less : α → α → Bool}

theorem Seg.nxt (s : Seg cfg own h (u ++ c :: v) e) : h.nxt c.1 = some (startOf e v) := by
  cases v with
  | nil => exact s.last u c rfl
  | cons d v =>
    have := s.chain
    simp only [addrs, List.map_append, List.map_cons] at this
    exact Chain.nxt this

theorem Seg.right (s : Seg cfg own h (u ++ v) e) : Seg cfg own h v e := by
  refine ⟨?_, fun c hc => s.cells c (by simp [hc]), fun w c hw => s.last (u ++ w) c (by simp [hw])⟩
  have := s.chain
  simp only [addrs, List.map_append] at this
  exact Chain.right this

theorem Seg.left (s : Seg cfg own h (u ++ c :: v) e) (hx : h'.info = h.info) (hn : ∀ x ∈ addrs u, h'.nxt x = h.nxt x)
    (hp : ∀ x ∈ addrs (u ++ [c]), h'.prv x = h.prv x) (hc : h'.nxt c.1 = some ea) : Seg cfg own h' (u ++ [c]) ea := by
  refine ⟨?_, ?_, ?_⟩
  · have := s.chain
    simp only [addrs, List.map_append, List.map_cons] at this
    have := Chain.left this
    have e1 : addrs (u ++ [c]) = addrs u ++ [c.1] := by simp
    rw [e1]
    rw [e1] at hp
    refine chain_imp this ?_ ?_
    · intro x hx; rw [List.dropLast_concat] at hx; exact hn x hx
    · intro x hx; exact hp x (List.mem_of_mem_tail hx)
  · intro d hd
    rw [IsElem, hx]
    exact s.cells d (by simp at hd ⊢; tauto)
  · intro w d hw
    have := List.append_inj_right' hw rfl
    simp at this
    rw [← this]; exact hc

theorem Seg.frame (s : Seg cfg own h cs e) (hi : h'.info = h.info) (hn : ∀ x ∈ addrs cs, h'.nxt x = h.nxt x)
    (hp : ∀ x ∈ (addrs cs).tail, h'.prv x = h.prv x) : Seg cfg own h' cs e := by
  refine ⟨chain_imp s.chain (fun x hx => hn x (List.dropLast_subset _ hx)) hp, fun c hc => ?_, fun w c hw => ?_⟩
  · rw [IsElem, hi]; exact s.cells c hc
  · rw [hn c.1 (by rw [hw]; simp)]; exact s.last w c hw

theorem Seg.relink {S : List Nat} (s : Seg cfg own h cs e) (rl : Relink S h h') (hd : ∀ x ∈ addrs cs, x ∉ S) : Seg cfg own h' cs e :=
  s.frame rl.info (fun x hx => rl.nxt x (hd x hx)) (fun x hx => rl.prv x (hd x (List.mem_of_mem_tail hx)))

theorem Seg.elem (s : Seg cfg own h (u ++ c :: v) e) : IsElem cfg own h c.1 c.2 := s.cells c (by simp)

theorem Seg.join (s : Seg cfg own h (c :: v) e) (hc : Chain cfg.dbl h (addrs (ps ++ [d]))) (hcells : ∀ x ∈ ps ++ [d], IsElem cfg own h x.1 x.2)
    (hn : (addrs (ps ++ [d]) ++ addrs (c :: v)).Nodup) : Seg cfg own (link cfg.dbl h d.1 c.1) ((ps ++ [d]) ++ c :: v) e := by
  refine ⟨?_, ?_, ?_⟩
  · have e1 : addrs ((ps ++ [d]) ++ c :: v) = addrs ps ++ d.1 :: c.1 :: addrs v := by simp
    rw [e1]
    refine chain_join ?_ s.chain ?_
    · have e2 : addrs (ps ++ [d]) = addrs ps ++ [d.1] := by simp
      rw [← e2]; exact hc
    · rw [← e1]; simpa using hn
  · intro x hx
    rcases List.mem_append.1 hx with hx | hx
    · exact hcells x hx
    · exact s.cells x hx
  · intro w x hw
    obtain ⟨w', hw'⟩ : ∃ w', c :: v = w' ++ [x] := by
      have h1 : (ps ++ [d] ++ c :: v).getLast? = some x := by rw [hw]; simp
      rw [List.getLast?_append] at h1
      refine ⟨(c :: v).dropLast, ?_⟩
      have h2 : (c :: v).getLast? = some x := by
        cases h3 : (c :: v).getLast? with
        | none => simp at h3
        | some y => rw [h3] at h1; simpa using h1
      have h3 : (c :: v).getLast (by simp) = x := by rw [List.getLast?_eq_some_getLast (by simp)] at h2; exact Option.some.inj h2
      rw [← h3, List.dropLast_append_getLast]
    rw [link_nxt_ne, s.last w' x hw']
    have hm : x.1 ∈ addrs (c :: v) := by rw [hw']; simp
    have hm2 : d.1 ∈ addrs (ps ++ [d]) := by simp
    intro e
    exact (List.nodup_append.1 hn).2.2 _ hm2 _ hm e.symm

theorem isEnd_run (he : EndP cfg h e) (s : ∀ c ∈ cs.head?, IsElem cfg own h c.1 c.2) : isEnd (startOf e cs) h = .ok (cs.isEmpty, h) := by
  cases cs with
  | nil =>
    cases e with
    | none => rfl
    | some t =>
      obtain ⟨o, ho⟩ := he t rfl
      exact dataNull_virt ho
  | cons c cs => exact dataNull_elem (s c (by simp))

theorem Seg.isEnd (s : Seg cfg own h cs e) (he : EndP cfg h e) : isEnd (startOf e cs) h = .ok (cs.isEmpty, h) :=
  isEnd_run (own := own) he (fun c hc => s.cells c (List.mem_of_mem_head? hc))

theorem lastLoop_ok (s : Seg cfg own h (u ++ c :: v) e) (he : EndP cfg h e) : lastLoop (some c.1) h = .ok (some (lastOf c.1 v), h) := by
  induction v generalizing u c with
  | nil =>
    rw [lastLoop]
    have h1 := (Seg.right (u := u ++ [c]) (v := []) (by simpa using s)).isEnd he
    simp only [startOf_nil] at h1
    simp only [Prog.bind_run, getNext_run s.elem.live s.nxt, startOf_nil, Out.bind_ok, h1]
    rfl
  | cons d v ih =>
    rw [lastLoop]
    have s' : Seg cfg own h ((u ++ [c]) ++ d :: v) e := by simpa using s
    have h1 := s'.right.isEnd he
    simp only [startOf_cons] at h1
    simp only [Prog.bind_run, getNext_run s.elem.live s.nxt, startOf_cons, Out.bind_ok, h1]
    simp only [List.isEmpty_cons, Bool.false_eq_true, if_false]
    exact ih s'

theorem perm_left (ps : Cells α) (c x : Nat × α) (a b : Cells α) :
    (addrs ((ps ++ [c]) ++ [x]) ++ (addrs a ++ addrs b)).Perm (addrs (ps ++ [c]) ++ (addrs (x :: a) ++ addrs b)) := by
  simp

theorem perm_right (ps : Cells α) (c x : Nat × α) (a b : Cells α) :
    (addrs ((ps ++ [c]) ++ [x]) ++ (addrs a ++ addrs b)).Perm (addrs (ps ++ [c]) ++ (addrs a ++ addrs (x :: b))) := by
  simp only [addrs, List.map_append, List.map_cons, List.map_nil, List.append_assoc, List.cons_append, List.nil_append]
  exact .append_left _ (.cons _ List.perm_middle.symm)

/-- the loop of `merge` -/
theorem mergeLoop_ok (hc : Chain cfg.dbl h (addrs (ps ++ [c]))) (hcells : ∀ x ∈ ps ++ [c], IsElem cfg own h x.1 x.2)
    (sa : Seg cfg own h a ea) (sb : Seg cfg own h b eb) (ha : EndP cfg h ea) (hb : EndP cfg h eb)
    (hn : (addrs (ps ++ [c]) ++ (addrs a ++ addrs b)).Nodup) (hab : a ≠ [] ∨ b ≠ []) :
    ∃ h' ps' c' a' b', mergeLoop cfg less (startOf ea a) (startOf eb b) (some c.1) h = .ok ((startOf ea a', startOf eb b', some c'.1), h') ∧
      Relink (addrs (ps ++ [c]) ++ (addrs a ++ addrs b)) h h' ∧
      (ps' ++ [c']) ++ mrgBy (onVal less) a' b' = (ps ++ [c]) ++ mrgBy (onVal less) a b ∧
      (a' = [] ∧ b' ≠ [] ∨ a' ≠ [] ∧ b' = []) ∧
      Chain cfg.dbl h' (addrs (ps' ++ [c'])) ∧ (∀ x ∈ ps' ++ [c'], IsElem cfg own h' x.1 x.2) ∧ Seg cfg own h' a' ea ∧ Seg cfg own h' b' eb ∧
      (addrs (ps' ++ [c']) ++ (addrs a' ++ addrs b')).Perm (addrs (ps ++ [c]) ++ (addrs a ++ addrs b)) := by
  induction hk : a.length + b.length using Nat.strongRecOn generalizing h ps c a b with
  | _ k ih =>
    cases a with
    | nil =>
      refine ⟨h, ps, c, [], b, ?_, Relink.refl _ _, rfl, .inl ⟨rfl, by simpa using hab⟩, hc, hcells, sa, sb, .refl _⟩
      rw [mergeLoop, Prog.bind_run, sa.isEnd ha]
      rfl
    | cons x a =>
      cases b with
      | nil =>
        refine ⟨h, ps, c, x :: a, [], ?_, Relink.refl _ _, rfl, .inr ⟨by simp, rfl⟩, hc, hcells, sa, sb, .refl _⟩
        rw [mergeLoop, Prog.bind_run, sa.isEnd ha]
        simp only [Out.bind_ok, List.isEmpty_cons, Bool.false_eq_true, if_false]
        rw [Prog.bind_run, sb.isEnd hb]
        rfl
      | cons y b =>
        have ex : IsElem cfg own h x.1 x.2 := Seg.elem (u := []) sa
        have ey : IsElem cfg own h y.1 y.2 := Seg.elem (u := []) sb
        have ec : IsElem cfg own h c.1 c.2 := hcells c (by simp)
        have nx : h.nxt x.1 = some (startOf ea a) := Seg.nxt (u := []) sa
        have ny : h.nxt y.1 = some (startOf eb b) := Seg.nxt (u := []) sb
        have hn' := List.nodup_append.1 hn
        have hn2 := List.nodup_append.1 hn'.2.1
        have mc : c.1 ∈ addrs (ps ++ [c]) := by simp
        rw [mergeLoop, Prog.bind_run, sa.isEnd ha]
        simp only [Out.bind_ok, List.isEmpty_cons, Bool.false_eq_true, if_false]
        rw [Prog.bind_run, sb.isEnd hb]
        simp only [Out.bind_ok, List.isEmpty_cons, Bool.false_eq_true, if_false, startOf_cons, Prog.bind_run, load_run ex, load_run ey]
        split
        · rename_i hl
          have cx : c.1 ≠ x.1 := fun e => hn'.2.2 c.1 mc x.1 (by simp) e
          have t1 : Seg cfg own (link cfg.dbl h c.1 x.1) a ea := by
            refine (Seg.right (u := [x]) sa).frame rfl (fun z hz => link_nxt_ne ?_) (fun z hz => link_prv_ne ?_)
            · rintro rfl; exact hn'.2.2 _ mc _ (by simp at hz ⊢; tauto) rfl
            · rintro rfl
              have := (List.nodup_cons.1 hn2.1).1
              exact this (List.mem_of_mem_tail hz)
          have t2 : Seg cfg own (link cfg.dbl h c.1 x.1) (y :: b) eb := by
            refine sb.frame rfl (fun z hz => link_nxt_ne ?_) (fun z hz => link_prv_ne ?_)
            · rintro rfl; exact hn'.2.2 _ mc _ (List.mem_append_right _ hz) rfl
            · rintro rfl; exact hn2.2.2 x.1 (by simp) x.1 (List.mem_of_mem_tail hz) rfl
          have t3 : Chain cfg.dbl (link cfg.dbl h c.1 x.1) (addrs ((ps ++ [c]) ++ [x])) := by
            have e1 : addrs ((ps ++ [c]) ++ [x]) = addrs ps ++ c.1 :: x.1 :: [] := by simp
            rw [e1]
            refine chain_join ?_ (.singleton _) ?_
            · simpa using hc
            · rw [← e1]
              exact ((perm_left ps c x a (y :: b)).nodup_iff.2 hn).sublist (List.sublist_append_left _ _)
          obtain ⟨h', ps', c', a', b', e1, e2, e3, e4, e5, e6, e7, e8, e9⟩ := ih (a.length + (y :: b).length) (by simp at hk ⊢; omega)
            (h := link cfg.dbl h c.1 x.1) (ps := ps ++ [c]) (c := x) (a := a) (b := y :: b) t3 (by
              intro z hz
              rcases List.mem_append.1 hz with hz | hz
              · exact hcells z hz
              · simp at hz; subst hz; exact ex) t1 t2 ha hb ((perm_left ps c x a (y :: b)).nodup_iff.2 hn) (.inr (by simp)) rfl
          refine ⟨h', ps', c', a', b', ?_, ?_, ?_, e4, e5, e6, e7, e8, e9.trans (perm_left ps c x a (y :: b))⟩
          · simp only [Prog.bind_run]
            rw [setNext_run ec.live ex.live]
            simp only [Out.bind_ok]
            rw [getNext_run (h := link cfg.dbl h c.1 x.1) ex.live (by rw [link_nxt_ne cx.symm]; exact nx)]
            simp only [Out.bind_ok]
            rw [getNext_run (h := link cfg.dbl h c.1 x.1) ec.live link_nxt_same]
            simp only [Out.bind_ok]
            exact e1
          · have r1 : Relink (addrs (ps ++ [c]) ++ (addrs (x :: a) ++ addrs (y :: b))) h (link cfg.dbl h c.1 x.1) :=
              relink_link (List.mem_append_left _ mc) (by simp)
            exact r1.trans (e2.mono (fun z hz => (perm_left ps c x a (y :: b)).mem_iff.1 hz))
          · rw [e3, mrgBy_cons, if_pos hl]; simp
        · rename_i hl
          have cy : c.1 ≠ y.1 := fun e => hn'.2.2 c.1 mc y.1 (by simp) e
          have t1 : Seg cfg own (link cfg.dbl h c.1 y.1) b eb := by
            refine (Seg.right (u := [y]) sb).frame rfl (fun z hz => link_nxt_ne ?_) (fun z hz => link_prv_ne ?_)
            · rintro rfl; exact hn'.2.2 _ mc _ (by simp at hz ⊢; tauto) rfl
            · rintro rfl
              have := (List.nodup_cons.1 hn2.2.1).1
              exact this (List.mem_of_mem_tail hz)
          have t2 : Seg cfg own (link cfg.dbl h c.1 y.1) (x :: a) ea := by
            refine sa.frame rfl (fun z hz => link_nxt_ne ?_) (fun z hz => link_prv_ne ?_)
            · rintro rfl; exact hn'.2.2 _ mc _ (List.mem_append_left _ hz) rfl
            · rintro rfl; exact hn2.2.2 y.1 (List.mem_of_mem_tail hz) y.1 (by simp) rfl
          have t3 : Chain cfg.dbl (link cfg.dbl h c.1 y.1) (addrs ((ps ++ [c]) ++ [y])) := by
            have e1 : addrs ((ps ++ [c]) ++ [y]) = addrs ps ++ c.1 :: y.1 :: [] := by simp
            rw [e1]
            refine chain_join ?_ (.singleton _) ?_
            · simpa using hc
            · rw [← e1]
              exact ((perm_right ps c y (x :: a) b).nodup_iff.2 hn).sublist (List.sublist_append_left _ _)
          obtain ⟨h', ps', c', a', b', e1, e2, e3, e4, e5, e6, e7, e8, e9⟩ := ih ((x :: a).length + b.length) (by simp at hk ⊢; omega)
            (h := link cfg.dbl h c.1 y.1) (ps := ps ++ [c]) (c := y) (a := x :: a) (b := b) t3 (by
              intro z hz
              rcases List.mem_append.1 hz with hz | hz
              · exact hcells z hz
              · simp at hz; subst hz; exact ey) t2 t1 ha hb ((perm_right ps c y (x :: a) b).nodup_iff.2 hn) (.inl (by simp)) rfl
          refine ⟨h', ps', c', a', b', ?_, ?_, ?_, e4, e5, e6, e7, e8, e9.trans (perm_right ps c y (x :: a) b)⟩
          · simp only [Prog.bind_run]
            rw [setNext_run ec.live ey.live]
            simp only [Out.bind_ok]
            rw [getNext_run (h := link cfg.dbl h c.1 y.1) ey.live (by rw [link_nxt_ne cy.symm]; exact ny)]
            simp only [Out.bind_ok]
            rw [getNext_run (h := link cfg.dbl h c.1 y.1) ec.live link_nxt_same]
            simp only [Out.bind_ok]
            exact e1
          · have r1 : Relink (addrs (ps ++ [c]) ++ (addrs (x :: a) ++ addrs (y :: b))) h (link cfg.dbl h c.1 y.1) :=
              relink_link (List.mem_append_left _ mc) (by simp)
            exact r1.trans (e2.mono (fun z hz => (perm_right ps c y (x :: a) b).mem_iff.1 hz))
          · rw [e3, mrgBy_cons, if_neg hl]; simp

theorem EndP.of_info (he : EndP cfg h e) (hi : h'.info = h.info) : EndP cfg h' e := by
  intro t ht
  obtain ⟨o, ho⟩ := he t ht
  exact ⟨o, by rw [IsVirt, hi]; exact ho⟩

/-- what follows the choice of the first node in `merge` -/
def mergeRest (cfg : Cfg α) (less : α → α → Bool) (res a b : Ptr) : M α (Ptr × Ptr) := do
  let (a, b, p) ← mergeLoop cfg less a b res
  let ea ← isEnd a
  if !ea then setNext cfg p a
  else do
    let eb ← isEnd b
    if !eb then setNext cfg p b else pure ()
  let t ← lastLoop p
  return (res, t)

theorem mergeRest_ok (hc : IsElem cfg own h c.1 c.2) (sa : Seg cfg own h a ea) (sb : Seg cfg own h b eb) (ha : EndP cfg h ea) (hb : EndP cfg h eb)
    (hn : (c.1 :: (addrs a ++ addrs b)).Nodup) (hab : a ≠ [] ∨ b ≠ []) :
    ∃ h', mergeRest cfg less (some c.1) (startOf ea a) (startOf eb b) h =
        .ok ((some c.1, some (lastOf c.1 (mrgBy (onVal less) a b))), h') ∧
      Relink (c.1 :: (addrs a ++ addrs b)) h h' ∧ ∃ e, (e = ea ∨ e = eb) ∧ Seg cfg own h' (c :: mrgBy (onVal less) a b) e := by
  obtain ⟨h1, ps, d, a', b', e1, e2, e3, e4, e5, e6, e7, e8, e9⟩ := mergeLoop_ok (less := less) (ps := []) (c := c) (.singleton _)
    (by intro x hx; simp at hx; subst hx; exact hc) sa sb ha hb (by simpa using hn) hab
  have hn1 := e9.nodup_iff.2 (by simpa using hn)
  simp only [List.nil_append] at e2 e9 e3
  have ha1 := ha.of_info e2.info
  have hb1 := hb.of_info e2.info
  have ed : IsElem cfg own h1 d.1 d.2 := e6 d (by simp)
  have hm : ∀ z ∈ addrs (ps ++ [d]) ++ (addrs a' ++ addrs b'), z ∈ c.1 :: (addrs a ++ addrs b) := by
    intro z hz; have := e9.mem_iff.1 hz; simpa using this
  rcases e4 with ⟨rfl, hb'⟩ | ⟨ha', rfl⟩
  · obtain ⟨y, b'', rfl⟩ := List.exists_cons_of_ne_nil hb'
    have ey : IsElem cfg own h1 y.1 y.2 := Seg.elem (u := []) e8
    have sg := e8.join e5 e6 (by simpa using hn1)
    have el : (c :: mrgBy (onVal less) a b) = (ps ++ [d]) ++ y :: b'' := by simpa using e3.symm
    refine ⟨_, ?_, (e2.mono (by simp)).trans (relink_link (hm d.1 (by simp)) (hm y.1 (by simp))), eb, .inr rfl, by rw [el]; exact sg⟩
    have h3 : lastOf c.1 (mrgBy (onVal less) a b) = lastOf d.1 (y :: b'') := by
      have := congrArg (lastOf c.1) el
      rw [List.append_assoc] at this
      simpa using this
    have ll := lastLoop_ok (u := ps) (c := d) (v := y :: b'') (by simpa using sg) (hb1.of_info (h' := link cfg.dbl h1 d.1 y.1) rfl)
    have ie1 : isEnd ea h1 = .ok (true, h1) := e7.isEnd ha1
    have ie2 : isEnd (some y.1) h1 = .ok (false, h1) := e8.isEnd hb1
    simp only [startOf_nil, startOf_cons] at e1
    simp only [mergeRest, Prog.bind_run, e1, Out.bind_ok, ie1, ie2, Bool.not_true, Bool.false_eq_true, if_false, Bool.not_false, if_true,
      setNext_run ed.live ey.live, ll, h3]
    rfl
  · obtain ⟨y, a'', rfl⟩ := List.exists_cons_of_ne_nil ha'
    have ey : IsElem cfg own h1 y.1 y.2 := Seg.elem (u := []) e7
    have sg := e7.join e5 e6 (by simpa using hn1)
    have el : (c :: mrgBy (onVal less) a b) = (ps ++ [d]) ++ y :: a'' := by simpa using e3.symm
    refine ⟨_, ?_, (e2.mono (by simp)).trans (relink_link (hm d.1 (by simp)) (hm y.1 (by simp))), ea, .inl rfl, by rw [el]; exact sg⟩
    have h3 : lastOf c.1 (mrgBy (onVal less) a b) = lastOf d.1 (y :: a'') := by
      have := congrArg (lastOf c.1) el
      rw [List.append_assoc] at this
      simpa using this
    have ll := lastLoop_ok (u := ps) (c := d) (v := y :: a'') (by simpa using sg) (ha1.of_info (h' := link cfg.dbl h1 d.1 y.1) rfl)
    have ie1 : isEnd (some y.1) h1 = .ok (false, h1) := e7.isEnd ha1
    simp only [startOf_nil, startOf_cons] at e1
    simp only [mergeRest, Prog.bind_run, e1, Out.bind_ok, ie1, Bool.not_false, if_true,
      setNext_run ed.live ey.live, ll, h3]
    rfl

theorem mergeChains_ok (sa : Seg cfg own h a ea) (sb : Seg cfg own h b eb) (ha : EndP cfg h ea) (hb : EndP cfg h eb)
    (hn : (addrs a ++ addrs b).Nodup) (hane : a ≠ []) (hbne : b ≠ []) :
    ∃ h', mergeChains cfg less (startOf ea a) (startOf eb b) h =
        .ok ((startOf none (mrgBy (onVal less) a b), some (lastOf 0 (mrgBy (onVal less) a b))), h') ∧
      Relink (addrs a ++ addrs b) h h' ∧ ∃ e, (e = ea ∨ e = eb) ∧ Seg cfg own h' (mrgBy (onVal less) a b) e := by
  obtain ⟨x, a, rfl⟩ := List.exists_cons_of_ne_nil hane
  obtain ⟨y, b, rfl⟩ := List.exists_cons_of_ne_nil hbne
  have ex : IsElem cfg own h x.1 x.2 := Seg.elem (u := []) sa
  have ey : IsElem cfg own h y.1 y.2 := Seg.elem (u := []) sb
  have nx : h.nxt x.1 = some (startOf ea a) := Seg.nxt (u := []) sa
  have ny : h.nxt y.1 = some (startOf eb b) := Seg.nxt (u := []) sb
  have ie1 : isEnd (some x.1) h = .ok (false, h) := sa.isEnd ha
  have ie2 : isEnd (some y.1) h = .ok (false, h) := sb.isEnd hb
  have pm : (y.1 :: (addrs (x :: a) ++ addrs b)).Perm (addrs (x :: a) ++ addrs (y :: b)) := List.perm_middle.symm
  rw [mrgBy_cons]
  unfold mergeChains
  simp only [startOf_cons, Prog.bind_run, ie1, ie2, Out.bind_ok, Bool.false_eq_true, if_false, load_run ex, load_run ey]
  split
  · obtain ⟨h', e1, e2, e, e3, e4⟩ := mergeRest_ok (less := less) ex (Seg.right (u := [x]) sa) sb ha hb hn (.inr (by simp))
    refine ⟨h', ?_, e2, e, e3, e4⟩
    simp only [startOf_cons] at e1
    simp only [Prog.bind_run, getNext_run ex.live nx, Out.bind_ok, Prog.pure_run, lastOf_cons, startOf_cons]
    exact e1
  · obtain ⟨h', e1, e2, e, e3, e4⟩ := mergeRest_ok (less := less) ey sa (Seg.right (u := [y]) sb) ha hb (pm.nodup_iff.2 hn) (.inl (by simp))
    refine ⟨h', ?_, e2.mono (fun z hz => pm.mem_iff.1 hz), e, e3, e4⟩
    simp only [startOf_cons] at e1
    simp only [Prog.bind_run, getNext_run ey.live ny, Out.bind_ok, Prog.pure_run, lastOf_cons, startOf_cons]
    exact e1

theorem isRealEnd_ok (s : Seg cfg own h (u ++ c :: v) e) (he : EndP cfg h e) : isRealEnd (some c.1) h = .ok (v.isEmpty, h) := by
  unfold isRealEnd
  simp only [Prog.bind_run, getNext_run s.elem.live s.nxt, Out.bind_ok]
  cases v with
  | nil =>
    cases e with
    | none => rfl
    | some t =>
      obtain ⟨o, ho⟩ := he t rfl
      exact dataNull_virt ho
  | cons d v =>
    have s' : Seg cfg own h ((u ++ [c]) ++ d :: v) e := by simpa using s
    exact dataNull_elem s'.elem

theorem midLoop_ok {v' : Cells α} (s : Seg cfg own h (c :: v) e) (s' : Seg cfg own h (d :: v') eb) (he : EndP cfg h e) (hl : v.length ≤ v'.length) :
    ∃ w x z, d :: v' = w ++ x :: z ∧ w.length = v.length / 2 ∧ midLoop (some c.1) (some d.1) h = .ok (some x.1, h) := by
  induction hk : v.length using Nat.strongRecOn generalizing c v d v' with
  | _ k ih =>
    match v, s, hl, hk with
    | [], s, hl, hk =>
      refine ⟨[], d, v', rfl, by simp at hk; subst hk; rfl, ?_⟩
      rw [midLoop, Prog.bind_run, isRealEnd_ok (u := []) s he]
      rfl
    | [f], s, hl, hk =>
      refine ⟨[], d, v', rfl, by simp at hk; subst hk; rfl, ?_⟩
      rw [midLoop, Prog.bind_run, isRealEnd_ok (u := []) s he]
      simp only [Out.bind_ok, List.isEmpty_cons, Bool.false_eq_true, if_false, Prog.bind_run]
      rw [getNext_run (Seg.elem (u := []) s).live (Seg.nxt (u := []) s)]
      simp only [Out.bind_ok, startOf_cons]
      rw [isRealEnd_ok (u := [c]) s he]
      rfl
    | f :: g :: v, s, hl, hk =>
      match v', s', hl with
      | [], _, hl => simp at hl
      | d2 :: v', s', hl =>
        obtain ⟨w, x, z, e1, e2, e3⟩ := ih v.length (by simp at hk; omega) (Seg.right (u := [c, f]) s) (Seg.right (u := [d]) s')
          (by simp at hl; omega) rfl
        refine ⟨d :: w, x, z, by rw [e1]; rfl, ?_, ?_⟩
        · simp at hk ⊢; omega
        · rw [midLoop, Prog.bind_run, isRealEnd_ok (u := []) s he]
          simp only [Out.bind_ok, List.isEmpty_cons, Bool.false_eq_true, if_false, Prog.bind_run]
          rw [getNext_run (Seg.elem (u := []) s).live (Seg.nxt (u := []) s)]
          simp only [Out.bind_ok, startOf_cons]
          rw [isRealEnd_ok (u := [c]) s he]
          simp only [Out.bind_ok, List.isEmpty_cons, Bool.false_eq_true, if_false, Prog.bind_run]
          rw [getNext_run (Seg.elem (u := [c]) s).live (Seg.nxt (u := [c]) s)]
          simp only [Out.bind_ok, startOf_cons]
          rw [getNext_run (Seg.elem (u := []) s').live (Seg.nxt (u := []) s')]
          simp only [Out.bind_ok, startOf_cons]
          exact e3

/-- `mergeSort` on a chain of elements whose last `next` is null or a virtual tail node -/
theorem mergeSort_ok (s : Seg cfg own h cs e) (hne : cs ≠ []) (he : ∀ t, e = some t → (∃ o, IsVirt cfg o h t) ∧ h.nxt t = some none)
    (hn : (addrs cs).Nodup) :
    ∃ h', mergeSort cfg less (startOf e cs) h =
        .ok ((startOf none (msortBy (onVal less) cs), if cs.length < 2 then none else some (lastOf 0 (msortBy (onVal less) cs))), h') ∧
      Relink (addrs cs) h h' ∧ Seg cfg own h' (msortBy (onVal less) cs) none := by
  induction hk : cs.length using Nat.strongRecOn generalizing h cs e with
  | _ k ih =>
    obtain ⟨c, v, rfl⟩ := List.exists_cons_of_ne_nil hne
    have hep : EndP cfg h e := fun t ht => (he t ht).1
    have ec : IsElem cfg own h c.1 c.2 := Seg.elem (u := []) s
    have nc : h.nxt c.1 = some (startOf e v) := Seg.nxt (u := []) s
    have nenone : EndP cfg h none := fun t ht => by cases ht
    rw [mergeSort, startOf_cons, if_neg (by simp)]
    simp only [Prog.bind_run, getNext_run ec.live nc, Out.bind_ok]
    cases v with
    | nil =>
      have hs : msortBy (onVal less) [c] = [c] := msortBy_short (by simp)
      rw [hs]
      have hkl : k < 2 := by rw [← hk]; simp
      cases e with
      | none =>
        refine ⟨h, ?_, Relink.refl _ _, s⟩
        simp [hkl]
      | some t =>
        obtain ⟨⟨o, ho⟩, hnt⟩ := he t rfl
        have htc : t ≠ c.1 := by
          rintro rfl
          rw [IsVirt] at ho; rw [IsElem, ho] at ec
          simp at ec
        have hcut : Seg cfg own (cut h c.1) [c] none := by
          refine ⟨.singleton _, fun d hd => s.cells d hd, fun u d hu => ?_⟩
          have := List.append_inj_right' (s₁ := []) hu rfl
          simp at this
          rw [← this, cut_nxt_same]
        have sg1 : mergeSort cfg less (some c.1) (cut h c.1) = .ok ((some c.1, none), cut h c.1) := by
          rw [mergeSort, if_neg (by simp)]
          simp only [Prog.bind_run]
          rw [getNext_run (h := cut h c.1) ec.live cut_nxt_same]
          simp
        have ho' : IsVirt cfg o (cut h c.1) t := ho
        have sg2 : mergeSort cfg less (some t) (cut h c.1) = .ok ((some t, none), cut h c.1) := by
          rw [mergeSort, if_neg (by simp)]
          simp only [Prog.bind_run]
          rw [getNext_run (h := cut h c.1) ho'.live (by rw [cut_nxt_ne htc]; exact hnt)]
          simp
        have mc : mergeChains cfg less (some c.1) (some t) (cut h c.1) = .ok ((some c.1, none), cut h c.1) := by
          unfold mergeChains
          have i1 : isEnd (some c.1) (cut h c.1) = .ok (false, cut h c.1) := hcut.isEnd (fun t ht => by cases ht)
          have i2 : isEnd (some t) (cut h c.1) = .ok (true, cut h c.1) := dataNull_virt ho'
          simp only [Prog.bind_run, i1, i2, Out.bind_ok, Bool.false_eq_true, if_false, if_true]
          rfl
        refine ⟨cut h c.1, ?_, relink_cut (by simp), hcut⟩
        have ml : midLoop (some c.1) (some c.1) h = .ok (some c.1, h) := by
          rw [midLoop, Prog.bind_run, isRealEnd_ok (u := []) s hep]
          rfl
        rw [startOf_nil, if_neg (by simp)]
        simp only [Prog.bind_run, ml, Out.bind_ok, getNext_run ec.live nc, startOf_nil, putNext_null_run ec.live, sg1, sg2, mc, hkl, if_true, startOf_cons]
    | cons d v =>
      rw [startOf_cons, if_neg (by simp)]
      obtain ⟨w, x, z, e1, e2, e3⟩ := midLoop_ok s s hep (Nat.le_refl _)
      have hlen : (w ++ [x]).length + z.length = k := by
        have := congrArg List.length e1
        simp at this hk ⊢; omega
      have hkv : k = v.length + 2 := by rw [← hk]; simp
      have hwl : w.length = (v.length + 1) / 2 := by simpa using e2
      have hwz : (w ++ [x]).length = ((w ++ [x]).length + z.length + 1) / 2 := by
        rw [hlen]; simp; omega
      have ecs : c :: d :: v = (w ++ [x]) ++ z := by rw [e1]; simp
      have sx : Seg cfg own h (w ++ x :: z) e := by rw [← e1]; exact s
      have ex := sx.elem
      have hn1 : (addrs (w ++ [x]) ++ addrs z).Nodup := by
        have : addrs (c :: d :: v) = addrs (w ++ [x]) ++ addrs z := by rw [ecs]; simp
        rw [← this]; exact hn
      have hn2 := List.nodup_append.1 hn1
      have xw : x.1 ∉ addrs w := by
        have := hn2.1
        simp only [addrs, List.map_append, List.map_cons, List.map_nil] at this
        have := List.nodup_append.1 this
        exact fun hm => this.2.2 _ hm _ (by simp) rfl
      have xz : x.1 ∉ addrs z := fun hm => hn2.2.2 x.1 (by simp) x.1 hm rfl
      -- after the cut
      have c1 : Seg cfg own (cut h x.1) (w ++ [x]) none := by
        refine sx.left rfl (fun y hy => cut_nxt_ne ?_) (fun _ _ => rfl) cut_nxt_same
        rintro rfl; exact xw hy
      have c2 : Seg cfg own (cut h x.1) z e := by
        have sz : Seg cfg own h z e := Seg.right (u := w ++ [x]) (by simpa using sx)
        refine sz.frame rfl (fun y hy => cut_nxt_ne ?_) (fun _ _ => rfl)
        rintro rfl; exact xz hy
      have hz : z ≠ [] := by
        rintro rfl
        simp at hlen; omega
      obtain ⟨h1, f1, f2, f3⟩ := ih (w ++ [x]).length (by have := List.length_pos_iff.2 hz; omega) c1 (by simp) (fun t ht => by cases ht) hn2.1 rfl
      have c3 : Seg cfg own h1 z e := c2.relink f2 (fun y hy hm => hn2.2.2 y hm y hy rfl)
      obtain ⟨h2, g1, g2, g3⟩ := ih z.length (by simp at hlen; omega) c3 hz (fun t ht => by
        obtain ⟨⟨o, ho⟩, hnt⟩ := he t ht
        have htn : t ∉ addrs (c :: d :: v) := by
          intro hm
          obtain ⟨q, hq, rfl⟩ := List.mem_map.1 hm
          have := s.cells q hq
          rw [IsVirt] at ho; rw [IsElem, ho] at this
          simp at this
        have htn1 : t ∉ addrs (w ++ [x]) := fun hm => htn (by rw [ecs]; simp at hm ⊢; tauto)
        refine ⟨⟨o, ?_⟩, ?_⟩
        · rw [IsVirt, f2.info]; exact ho
        · rw [f2.nxt t htn1, cut_nxt_ne (by rintro rfl; exact htn1 (by simp))]
          exact hnt) hn2.2.1 rfl
      have c4 : Seg cfg own h2 (msortBy (onVal less) (w ++ [x])) none := by
        refine f3.relink g2 ?_
        intro y hy hm
        have : y ∈ addrs (w ++ [x]) := ((msortBy_perm _ _).map Prod.fst).mem_iff.1 hy
        exact hn2.2.2 y this y hm rfl
      have p1 : (addrs (msortBy (onVal less) (w ++ [x])) ++ addrs (msortBy (onVal less) z)).Perm (addrs (w ++ [x]) ++ addrs z) :=
        ((msortBy_perm _ _).map _).append ((msortBy_perm _ _).map _)
      have ne1 : msortBy (onVal less) (w ++ [x]) ≠ [] := by
        intro e0; have := (msortBy_perm (onVal less) (w ++ [x])).length_eq; rw [e0] at this; simp at this
      have ne2 : msortBy (onVal less) z ≠ [] := by
        intro e0; have := (msortBy_perm (onVal less) z).length_eq; rw [e0] at this
        exact hz (List.eq_nil_of_length_eq_zero this.symm)
      obtain ⟨h3, k1, k2, e', k3, k4⟩ := mergeChains_ok (less := less) (ea := none) (eb := none) c4 g3 (fun t ht => by cases ht) (fun t ht => by cases ht)
        (p1.nodup_iff.2 hn1) ne1 ne2
      have hms : msortBy (onVal less) (c :: d :: v) = mrgBy (onVal less) (msortBy (onVal less) (w ++ [x])) (msortBy (onVal less) z) := by
        rw [ecs, msortBy_long (by omega) hwz]
      have hsub : ∀ y, y ∈ addrs (w ++ [x]) ++ addrs z → y ∈ addrs (c :: d :: v) := by
        intro y hy; rw [ecs]; simpa using hy
      refine ⟨h3, ?_, ?_, ?_⟩
      · have st : startOf none (w ++ [x]) = some c.1 := by
          have := congrArg (startOf none) e1
          cases w with
          | nil => simpa using this.symm
          | cons q w => simpa using this.symm
        rw [st] at f1
        simp only [Prog.bind_run, e3, Out.bind_ok, getNext_run ex.live sx.nxt, putNext_null_run ex.live, f1, g1, k1, hms]
        rw [if_neg (by omega)]
      · have r1 : Relink (addrs (c :: d :: v)) h (cut h x.1) := relink_cut (hsub _ (by simp))
        refine ((r1.trans (f2.mono ?_)).trans (g2.mono ?_)).trans (k2.mono ?_)
        · intro y hy; exact hsub y (List.mem_append_left _ hy)
        · intro y hy; exact hsub y (List.mem_append_right _ hy)
        · intro y hy; exact hsub y (p1.mem_iff.1 hy)
      · rw [hms]
        rcases k3 with rfl | rfl <;> exact k4

/-! ## `sort` and `merge` -/
section
variable {hd tl hd2 tl2 : Nat} {ds : Cells α}

theorem Rep.seg (r : Rep cfg h hd tl cs own) : Seg cfg own h cs (some tl) := by
  refine ⟨r.inner_chain, r.cells, fun u c hu => ?_⟩
  subst hu
  have := Rep.nxt_at (c1 := u ++ [c]) (c2 := []) (by simpa using r)
  simpa using this

theorem Rep.start (r : Rep cfg h hd tl cs own) : getNext (some hd) h = .ok (startOf (some tl) cs, h) := by
  rw [r.getNext_hd]
  cases cs <;> rfl

theorem Rep.hd_not_cell (r : Rep cfg h hd tl cs own) : hd ∉ addrs cs := by
  have := r.nodup
  simp only [nodes, List.nodup_cons, List.mem_append, not_or] at this
  exact this.1.1

theorem Rep.tl_not_cell (r : Rep cfg h hd tl cs own) : tl ∉ addrs cs := by
  have := r.nodup
  simp only [nodes, List.nodup_cons, List.nodup_append] at this
  exact fun h => this.2.2.2 tl h tl (by simp) rfl

/-- closing a chain of cells between the virtual nodes -/
theorem Seg.close (r : Rep cfg h hd tl cs own) {ns : Cells α} {S : List Nat} (rl : Relink S h h') (hS : hd ∉ S ∧ tl ∉ S) (s : Seg cfg own h' ns e) (hne : ns ≠ [])
    (hnod : (nodes hd tl ns).Nodup) :
    Rep cfg (link cfg.dbl (link cfg.dbl h' hd (headOf tl ns)) (lastOf hd ns) tl) hd tl ns own := by
  have hht := r.hd_ne_tl
  obtain ⟨d, v, rfl⟩ := List.exists_cons_of_ne_nil hne
  have hnod' := hnod
  simp only [nodes, addrs, List.map_cons, List.nodup_cons, List.nodup_append, List.cons_append] at hnod'
  have mT : lastOf d.1 v ∈ addrs (d :: v) := lastOf_mem d.1 v
  have hT : hd ≠ lastOf d.1 v := fun e' => hnod'.1 (by
    have := mT; rw [← e'] at this; simp at this ⊢; tauto)
  have tT : tl ≠ lastOf d.1 v := fun e' => by
    have h1 := hnod
    rw [nodes, List.nodup_cons, List.nodup_append] at h1
    exact h1.2.2.2 _ mT tl (by simp) e'.symm
  have tH : tl ≠ d.1 := fun e' => by
    have h1 := hnod
    rw [nodes, List.nodup_cons, List.nodup_append] at h1
    exact h1.2.2.2 d.1 (by simp) tl (by simp) e'.symm
  have hH : hd ≠ d.1 := fun e' => hnod'.1 (by simp [e'])
  have r' : Rep cfg h hd tl ([] ++ (cs ++ [])) own := by simpa using r
  have := Rep.replace (h' := link cfg.dbl (link cfg.dbl h' hd d.1) (lastOf d.1 v) tl) (ns := d :: v) (c1 := []) (c2 := []) r' ?_ ?_ ?_ ?_ ?_ (by simpa using hnod)
  · simpa using this
  · simp only [lastOf_nil, headOf_nil]
    have k1 : Chain cfg.dbl (link cfg.dbl h' hd d.1) (hd :: addrs (d :: v)) := by
      refine chain_join (l1 := []) (.singleton _) s.chain ?_
      have : (nodes hd tl (d :: v)).Nodup := hnod
      refine this.sublist ?_
      simp [nodes]
    obtain ⟨l, hl⟩ := lastOf_split d.1 v
    have e1 : hd :: (addrs (d :: v) ++ [tl]) = (hd :: l) ++ lastOf d.1 v :: [tl] := by
      rw [show addrs (d :: v) = d.1 :: addrs v from rfl, hl]; simp
    rw [e1]
    refine chain_join ?_ (.singleton _) ?_
    · rw [show hd :: l ++ [lastOf d.1 v] = hd :: addrs (d :: v) by
        rw [show addrs (d :: v) = d.1 :: addrs v from rfl, hl]; simp]
      exact k1
    · rw [← e1]; exact hnod
  · intro a _; rw [link_info, link_info, rl.info]
  · intro a ha hne
    simp only [nodes, List.append_nil, List.nil_append, List.map_nil, List.mem_cons, List.not_mem_nil, or_false] at ha
    simp only [lastOf_nil] at hne
    have : a = tl := by tauto
    subst this
    rw [link_nxt_ne tT, link_nxt_ne hne, rl.nxt _ hS.2]
  · intro a ha hne
    simp only [nodes, List.append_nil, List.nil_append, List.map_nil, List.mem_cons, List.not_mem_nil, or_false] at ha
    simp only [headOf_nil] at hne
    have : a = hd := by tauto
    subst this
    rw [link_prv_ne hne, link_prv_ne hH, rl.prv _ hS.1]
  · intro c hc
    exact s.cells c hc

theorem sort_tail (r : Rep cfg h hd tl cs own) {l : β} {ns : Cells α} (hi : h'.info = h.info) (s : Seg cfg own h' ns e) (hne : ns ≠ []) :
    (do
      setNext cfg (some hd) (startOf none ns)
      if (some (lastOf 0 ns) : Ptr) ≠ none then setNext cfg (some (lastOf 0 ns)) (some tl) else pure ()
      return l : M α β) h' = .ok (l, link cfg.dbl (link cfg.dbl h' hd (headOf tl ns)) (lastOf hd ns) tl) := by
  obtain ⟨d, v, rfl⟩ := List.exists_cons_of_ne_nil hne
  have lh : Live h' hd := by rw [Live, hi]; exact r.vhd.live
  have lt : Live h' tl := by rw [Live, hi]; exact r.vtl.live
  have ld : Live h' d.1 := (s.cells d (by simp)).live
  have ll : Live h' (lastOf d.1 v) := by
    have := lastOf_mem d.1 v
    obtain ⟨q, hq, e⟩ := List.mem_map.1 (show lastOf d.1 v ∈ addrs (d :: v) from this)
    rw [← e]; exact (s.cells q hq).live
  simp only [startOf_cons, lastOf_cons, headOf_cons, Prog.bind_run, setNext_run lh ld, Out.bind_ok, ne_eq, reduceCtorEq, not_false_eq_true, if_true]
  rw [setNext_run (h := link cfg.dbl h' hd d.1) ll lt]
  rfl

/-- what `sort` does to the cells -/
theorem sort_ok (hb : Bal h) (r : Rep cfg h hd tl cs own) (hlen : cs.length ≠ 1) :
    ∃ h', sort cfg less (lst hd tl cs own) h = .ok (lst hd tl (msortBy (onVal less) cs) own, h') ∧
      Edit cfg h hd tl cs own h' (msortBy (onVal less) cs) 0 := by
  by_cases hc : cs = []
  · subst hc
    have e0 : msortBy (onVal less) ([] : Cells α) = [] := msortBy_short (by simp)
    rw [e0]
    refine ⟨link cfg.dbl h hd tl, ?_, r.emptied ⟨rfl, rfl⟩ rfl rfl, step_link hb (by simp [nodes]) (by simp [nodes])⟩
    have ms : mergeSort cfg less (some tl) h = .ok ((some tl, none), h) := by
      rw [mergeSort, if_neg (by simp)]
      simp only [Prog.bind_run]
      rw [getNext_run r.vtl.live r.last]
      simp
    unfold sort
    rw [Prog.bind_run, dbgAssert_run (by simp [lst])]
    simp only [Out.bind_ok, Prog.bind_run, show (lst hd tl ([] : Cells α) own).head = some hd from rfl, r.getNext_hd, headOf_nil, ms,
      setNext_run r.vhd.live r.vtl.live]
    simp
  · have hne : msortBy (onVal less) cs ≠ [] := by
      intro e0; have := (msortBy_perm (onVal less) cs).length_eq; rw [e0] at this
      exact hc (List.eq_nil_of_length_eq_zero this.symm)
    have pm : (addrs (msortBy (onVal less) cs)).Perm (addrs cs) := (msortBy_perm _ _).map _
    have pn : (nodes hd tl (msortBy (onVal less) cs)).Perm (nodes hd tl cs) := .cons _ (.append_right _ pm)
    obtain ⟨h1, f1, f2, f3⟩ := mergeSort_ok (less := less) r.seg hc (fun t ht => by
      cases ht; exact ⟨⟨own, r.vtl⟩, r.last⟩) r.nodup_cells
    have cl := Seg.close r f2 ⟨r.hd_not_cell, r.tl_not_cell⟩ f3 hne (pn.nodup_iff.2 r.nodup)
    refine ⟨_, ?_, cl, ?_⟩
    · have hl2 : ¬ cs.length < 2 := by
        have := List.length_pos_iff.2 hc; omega
      rw [if_neg hl2] at f1
      unfold sort
      rw [Prog.bind_run, dbgAssert_run (by simp [lst])]
      simp only [Out.bind_ok]
      rw [Prog.bind_run, show (lst hd tl cs own).head = some hd from rfl, r.start]
      simp only [Out.bind_ok]
      rw [Prog.bind_run, f1]
      simp only [Out.bind_ok]
      have e1 : lst hd tl cs own = lst hd tl (msortBy (onVal less) cs) own := by
        simp [lst, (msortBy_perm (onVal less) cs).length_eq]
      rw [show (lst hd tl cs own).tail = some tl from rfl, e1]
      exact sort_tail r f2.info f3 hne
    · have mh : headOf tl (msortBy (onVal less) cs) ∈ nodes hd tl cs := by
        rw [mem_nodes]; exact .inr (.inl (pm.mem_iff.1 (headOf_mem_cells hne tl)))
      have ml : lastOf hd (msortBy (onVal less) cs) ∈ nodes hd tl cs := by
        rw [mem_nodes]; exact .inr (.inl (pm.mem_iff.1 (lastOf_mem_cells hne hd)))
      have t := (f2.mono (S' := nodes hd tl cs) (fun a ha => by rw [mem_nodes]; exact .inr (.inl ha))).trans
        ((relink_link (d := cfg.dbl) (show hd ∈ nodes hd tl cs by simp [nodes]) mh).trans
          (relink_link (d := cfg.dbl) ml (show tl ∈ nodes hd tl cs by simp [nodes])))
      refine (t.step hb (fun _ h => h)).congr (fun _ => Iff.rfl) (fun a => ?_)
      exact pn.symm.mem_iff

/-- sorting a single element leaves its `next` null -/
theorem sort_single (r : Rep cfg h hd tl [c] own) :
    sort cfg less (lst hd tl [c] own) h = .ok (lst hd tl [c] own, link cfg.dbl (cut h c.1) hd c.1) := by
  obtain ⟨h1, f1, f2, f3⟩ := mergeSort_ok (less := less) r.seg (by simp) (fun t ht => by
      cases ht; exact ⟨⟨own, r.vtl⟩, r.last⟩) r.nodup_cells
  have ec : IsElem cfg own h c.1 c.2 := r.cells c (by simp)
  have htc : tl ≠ c.1 := fun e => r.tl_not_cell (by simp [e])
  have e1 : mergeSort cfg less (some c.1) h = .ok ((some c.1, none), cut h c.1) := by
    have nc : h.nxt c.1 = some (some tl) := r.seg.last [] c rfl
    have hcut : Seg cfg own (cut h c.1) [c] none := by
      refine ⟨.singleton _, fun d hd => r.seg.cells d hd, fun u d hu => ?_⟩
      have := List.append_inj_right' (s₁ := []) hu rfl
      simp at this
      rw [← this, cut_nxt_same]
    have ml : midLoop (some c.1) (some c.1) h = .ok (some c.1, h) := by
      rw [midLoop, Prog.bind_run, isRealEnd_ok (u := []) r.seg (fun t ht => by cases ht; exact ⟨own, r.vtl⟩)]
      rfl
    have sg1 : mergeSort cfg less (some c.1) (cut h c.1) = .ok ((some c.1, none), cut h c.1) := by
      rw [mergeSort, if_neg (by simp)]
      simp only [Prog.bind_run]
      rw [getNext_run (h := cut h c.1) ec.live cut_nxt_same]
      simp
    have sg2 : mergeSort cfg less (some tl) (cut h c.1) = .ok ((some tl, none), cut h c.1) := by
      rw [mergeSort, if_neg (by simp)]
      simp only [Prog.bind_run]
      rw [getNext_run (h := cut h c.1) r.vtl.live (by rw [cut_nxt_ne htc]; exact r.last)]
      simp
    have mc : mergeChains cfg less (some c.1) (some tl) (cut h c.1) = .ok ((some c.1, none), cut h c.1) := by
      unfold mergeChains
      have i1 : Model.LL.isEnd (some c.1) (cut h c.1) = .ok (false, cut h c.1) := hcut.isEnd (fun t ht => by cases ht)
      have i2 : Model.LL.isEnd (some tl) (cut h c.1) = .ok (true, cut h c.1) := dataNull_virt (h := cut h c.1) r.vtl
      simp only [Prog.bind_run, i1, i2, Out.bind_ok, Bool.false_eq_true, if_false, if_true]
      rfl
    rw [mergeSort, if_neg (by simp)]
    simp only [Prog.bind_run, getNext_run ec.live nc, Out.bind_ok]
    rw [if_neg (by simp)]
    simp only [Prog.bind_run, ml, Out.bind_ok, getNext_run ec.live nc, putNext_null_run ec.live, sg1, sg2, mc]
  unfold sort
  rw [Prog.bind_run, dbgAssert_run (by simp [lst])]
  simp only [Out.bind_ok, Prog.bind_run, show (lst hd tl [c] own).head = some hd from rfl, r.getNext_hd, headOf_cons, e1]
  rw [setNext_run (h := cut h c.1) r.vhd.live ec.live]
  simp

/-- both lists non-empty -/
theorem merge_ok (hb : Bal h) (r : Rep cfg h hd tl cs own) (ro : Rep cfg h hd2 tl2 ds own) (hj : Disj hd tl cs hd2 tl2 ds)
    (hc : cs ≠ []) (hds : ds ≠ []) :
    ∃ h', merge cfg less (lst hd tl cs own) (lst hd2 tl2 ds own) h =
        .ok ((lst hd tl (mrgBy (onVal less) cs ds) own, lst hd2 tl2 ([] : Cells α) own), h') ∧
      Moved cfg h hd tl cs own hd2 tl2 ds h' (mrgBy (onVal less) cs ds) := by
  have hne2 := ro.hd_ne_tl
  have out1 : hd2 ∉ addrs ds := ro.hd_not_cell
  have out2 : tl2 ∉ addrs ds := ro.tl_not_cell
  have mh2 : hd2 ∈ nodes hd2 tl2 ds := by simp [nodes]
  have mt2 : tl2 ∈ nodes hd2 tl2 ds := by simp [nodes]
  have hj' : ∀ a ∈ addrs cs, a ∉ nodes hd2 tl2 ds := fun a ha => hj a (by rw [mem_nodes]; exact .inr (.inl ha))
  -- after detaching the nodes of the other list
  have sa : Seg cfg own (link cfg.dbl h hd2 tl2) cs (some tl) :=
    r.seg.frame rfl (fun a ha => link_nxt_ne (by rintro rfl; exact hj' _ ha mh2)) (fun a ha => link_prv_ne (by rintro rfl; exact hj' _ (List.mem_of_mem_tail ha) mt2))
  have sb : Seg cfg own (link cfg.dbl h hd2 tl2) ds (some tl2) :=
    ro.seg.frame rfl (fun a ha => link_nxt_ne (by rintro rfl; exact out1 ha)) (fun a ha => link_prv_ne (by rintro rfl; exact out2 (List.mem_of_mem_tail ha)))
  have hn : (addrs cs ++ addrs ds).Nodup := by
    rw [List.nodup_append]
    refine ⟨r.nodup_cells, ro.nodup_cells, ?_⟩
    rintro a ha b hb' rfl
    exact hj' a ha (by rw [mem_nodes]; exact .inr (.inl hb'))
  obtain ⟨h1, f1, f2, e', _, f4⟩ := mergeChains_ok (less := less) sa sb (fun t ht => by cases ht; exact ⟨own, r.vtl⟩)
    (fun t ht => by cases ht; exact ⟨own, ro.vtl⟩) hn hc hds
  have pm : (addrs (mrgBy (onVal less) cs ds)).Perm (addrs cs ++ addrs ds) := by
    have := (mrgBy_perm (onVal less) cs ds).map Prod.fst
    simpa using this
  have hne : mrgBy (onVal less) cs ds ≠ [] := by
    intro e0; have := (mrgBy_perm (onVal less) cs ds).length_eq; rw [e0] at this
    have := List.length_pos_iff.2 hc
    simp at *
    omega
  have hdS : hd ∉ addrs cs ++ addrs ds := by
    rw [List.mem_append, not_or]
    exact ⟨r.hd_not_cell, fun hm => hj hd (by simp [nodes]) (by rw [mem_nodes]; exact .inr (.inl hm))⟩
  have tlS : tl ∉ addrs cs ++ addrs ds := by
    rw [List.mem_append, not_or]
    exact ⟨r.tl_not_cell, fun hm => hj tl (by simp [nodes]) (by rw [mem_nodes]; exact .inr (.inl hm))⟩
  have nod : (nodes hd tl (mrgBy (onVal less) cs ds)).Nodup := by
    have : (nodes hd tl (mrgBy (onVal less) cs ds)).Perm (hd :: ((addrs cs ++ addrs ds) ++ [tl])) := .cons _ (.append_right _ pm)
    rw [this.nodup_iff, List.nodup_cons, List.nodup_append]
    refine ⟨?_, hn, by simp, ?_⟩
    · rw [List.mem_append, not_or]
      exact ⟨hdS, by simpa using r.hd_ne_tl⟩
    · rintro a ha b hb' rfl
      simp at hb'
      exact tlS (hb' ▸ ha)
  have rl0 : Relink (addrs cs ++ addrs ds ++ [hd2, tl2]) h h1 :=
    (relink_link (d := cfg.dbl) (by simp) (by simp)).trans (f2.mono (fun a ha => List.mem_append_left _ ha))
  have hdS' : hd ∉ addrs cs ++ addrs ds ++ [hd2, tl2] := by
    rw [List.mem_append, not_or]
    refine ⟨hdS, ?_⟩
    simp only [List.mem_cons, List.not_mem_nil, or_false, not_or]
    exact ⟨fun e => hj hd (by simp [nodes]) (e ▸ mh2), fun e => hj hd (by simp [nodes]) (e ▸ mt2)⟩
  have tlS' : tl ∉ addrs cs ++ addrs ds ++ [hd2, tl2] := by
    rw [List.mem_append, not_or]
    refine ⟨tlS, ?_⟩
    simp only [List.mem_cons, List.not_mem_nil, or_false, not_or]
    exact ⟨fun e => hj tl (by simp [nodes]) (e ▸ mh2), fun e => hj tl (by simp [nodes]) (e ▸ mt2)⟩
  have cl := Seg.close r rl0 ⟨hdS', tlS'⟩ f4 hne nod
  have mh : headOf tl (mrgBy (onVal less) cs ds) ∈ addrs cs ++ addrs ds := pm.mem_iff.1 (headOf_mem_cells hne tl)
  have ml : lastOf hd (mrgBy (onVal less) cs ds) ∈ addrs cs ++ addrs ds := pm.mem_iff.1 (lastOf_mem_cells hne hd)
  have o1 : hd2 ∉ addrs cs ++ addrs ds := by
    rw [List.mem_append, not_or]; exact ⟨fun hm => hj' _ hm mh2, out1⟩
  have o2 : tl2 ∉ addrs cs ++ addrs ds := by
    rw [List.mem_append, not_or]; exact ⟨fun hm => hj' _ hm mt2, out2⟩
  refine ⟨_, ?_, cl, ?_, ?_⟩
  · unfold merge
    rw [Prog.bind_run, dbgAssert_run (by simp [lst])]
    simp only [Out.bind_ok]
    rw [Prog.bind_run, dbgAssert_run (by simp [lst])]
    simp only [Out.bind_ok]
    rw [if_neg (by simpa [lst] using hds)]
    have hl : (mrgBy (onVal less) cs ds).length = cs.length + ds.length := by
      simpa using (mrgBy_perm (onVal less) cs ds).length_eq
    have e1 : lst hd tl (mrgBy (onVal less) cs ds) own = { lst hd tl cs own with len := (lst hd tl cs own).len + (lst hd2 tl2 ds own).len } := by
      simp [lst, hl]
    rw [e1]
    rw [Prog.bind_run, show (lst hd tl cs own).head = some hd from rfl, r.start]
    simp only [Out.bind_ok]
    rw [Prog.bind_run, show (lst hd2 tl2 ds own).head = some hd2 from rfl, ro.start]
    simp only [Out.bind_ok]
    rw [Prog.bind_run, show (lst hd2 tl2 ds own).tail = some tl2 from rfl, setNext_run ro.vhd.live ro.vtl.live]
    simp only [Out.bind_ok]
    rw [Prog.bind_run, f1]
    simp only [Out.bind_ok]
    exact sort_tail (l := ({ lst hd tl cs own with len := (lst hd tl cs own).len + (lst hd2 tl2 ds own).len }, lst hd2 tl2 ([] : Cells α) own)) r rl0.info f4 hne
  · refine (ro.emptied (h' := h) ⟨rfl, rfl⟩ rfl rfl).frame ?_
    intro a ha
    simp only [nodes, addrs, List.map_nil, List.nil_append, List.mem_cons, List.not_mem_nil, or_false] at ha
    have hne' : a ≠ hd ∧ a ≠ tl ∧ a ∉ addrs cs ++ addrs ds := by
      rcases ha with rfl | rfl
      · exact ⟨fun e => hj hd (by simp [nodes]) (e ▸ mh2), fun e => hj tl (by simp [nodes]) (e ▸ mh2), o1⟩
      · exact ⟨fun e => hj hd (by simp [nodes]) (e ▸ mt2), fun e => hj tl (by simp [nodes]) (e ▸ mt2), o2⟩
    refine ⟨?_, ?_, ?_⟩
    · rw [link_info, link_info, f2.info]
    · rw [link_nxt_ne (by rintro rfl; exact hne'.2.2 ml), link_nxt_ne hne'.1, f2.nxt a hne'.2.2]
    · rw [link_prv_ne hne'.2.1, link_prv_ne (by rintro rfl; exact hne'.2.2 mh), f2.prv a hne'.2.2]
  · have hsub : ∀ a ∈ addrs cs ++ addrs ds ++ [hd2, tl2], a ∈ nodes hd tl cs ++ nodes hd2 tl2 ds := by
      intro a ha
      simp only [nodes, List.mem_append, List.mem_cons, List.not_mem_nil, or_false] at ha ⊢
      tauto
    have hsub2 : ∀ a ∈ addrs cs ++ addrs ds, a ∈ nodes hd tl cs ++ nodes hd2 tl2 ds := fun a ha => hsub a (List.mem_append_left _ ha)
    have t := (rl0.mono hsub).trans
        ((relink_link (d := cfg.dbl) (show hd ∈ nodes hd tl cs ++ nodes hd2 tl2 ds by simp [nodes]) (hsub2 _ mh)).trans
          (relink_link (d := cfg.dbl) (hsub2 _ ml) (show tl ∈ nodes hd tl cs ++ nodes hd2 tl2 ds by simp [nodes])))
    refine (t.step hb (fun _ h => h)).congr (fun _ => Iff.rfl) (fun a => ?_)
    have := pm.mem_iff (a := a)
    rw [List.mem_append] at this
    simp only [nodes, List.mem_append, List.mem_cons, List.not_mem_nil, or_false, List.map_nil, false_or]
    rw [this]
    clear * -
    simp only [or_assoc, or_left_comm, or_comm]

end
end Verif.Proof.LL
