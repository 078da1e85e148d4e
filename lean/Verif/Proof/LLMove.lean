import Verif.Proof.LLErase
import Verif.Spec.LinkedList
/-! # Linked lists: removal, unique, splicing, reversal, consumption -/
namespace Verif.Proof.LL
open Verif Verif.Model.LL
open Verif.Proof.Mem (Cost)
open Verif.Spec (End takes take1)
open Verif.Spec.LL (uniqueAfter uniqueBy)

variable {α β σ : Type} {cfg : Cfg α}

/-- cells removed, cells kept, final state of a predicate `f` with state -/
def goneOf (f : σ → α → Bool × σ) : σ → Cells α → Cells α
  | _, [] => []
  | s, c :: cs => if (f s c.2).1 then c :: goneOf f (f s c.2).2 cs else goneOf f (f s c.2).2 cs
def keptOf (f : σ → α → Bool × σ) : σ → Cells α → Cells α
  | _, [] => []
  | s, c :: cs => if (f s c.2).1 then keptOf f (f s c.2).2 cs else c :: keptOf f (f s c.2).2 cs
def stAfter (f : σ → α → Bool × σ) : σ → Cells α → σ
  | s, [] => s
  | s, c :: cs => stAfter f (f s c.2).2 cs

section
variable {h h' h'' h1 h2 : Heap α} {hd tl own o a b p : Nat} {cs c1 c2 c3 mid ns : Cells α} {c : Nat × α} {x y : α} {k : Cost} {r : Ref α}

theorem len_kept_gone (f : σ → α → Bool × σ) (s : σ) (cs : Cells α) : (keptOf f s cs).length + (goneOf f s cs).length = cs.length := by
  induction cs generalizing s with
  | nil => rfl
  | cons c cs ih =>
    simp only [keptOf, goneOf]
    have := ih (f s c.2).2
    split <;> simp <;> omega

theorem removeLoop_ok (hb : Bal h) (r : Rep cfg h hd tl (c1 ++ c2) own) (p : σ → α → M α (Bool × σ)) (f : σ → α → Bool × σ) (s : σ)
    (hp : ∀ u c v, c2 = u ++ c :: v → ∀ h', (∀ a, Live h a → a ∉ addrs (goneOf f s u) → h'.info a = h.info a) →
      p (stAfter f s u) c.2 h' = .ok (f (stAfter f s u) c.2, h')) (n cnt : Nat) :
    ∃ h', removeLoop cfg own (some tl) p s (some (headOf tl c2)) (some (lastOf hd c1)) (n + (goneOf f s c2).length) cnt h =
        .ok ((n, cnt + (goneOf f s c2).length, stAfter f s c2), h') ∧
      Edit cfg h hd tl (c1 ++ c2) own h' (c1 ++ keptOf f s c2) ⟨0, (goneOf f s c2).length, 0⟩ := by
  induction c2 generalizing h c1 s n cnt with
  | nil =>
    refine ⟨h, ?_, Edit.refl hb r⟩
    rw [removeLoop, headOf_nil, if_pos rfl]
    rfl
  | cons c c2 ih =>
    have hne : some c.1 ≠ some tl := by simpa using r.head_ne_tl
    have hp0 := hp [] c c2 rfl h (fun _ _ _ => rfl)
    rw [removeLoop, headOf_cons, if_neg hne]
    simp only [Prog.bind_run, load_run (Rep.elem_at (a := c.1) (x := c.2) r), Out.bind_ok]
    simp only [stAfter] at hp0
    simp only [hp0, Out.bind_ok]
    cases hf : (f s c.2).1 with
    | true =>
      have ed := Rep.link_kill hb r
      obtain ⟨h2, e2, ed2⟩ := ih (s := (f s c.2).2) ed.bal ed.rep (by
        intro u c' v huv h' hh'
        have := hp (c :: u) c' v (by rw [huv]; rfl) h' (by
          intro a hl hg
          simp only [goneOf, hf, if_true, addrs, List.map_cons, List.mem_cons, not_or] at hg
          have e : (kill cfg (link cfg.dbl h (lastOf hd c1) (headOf tl c2)) c.1).info a = h.info a := by
            rw [kill_info_ne hg.1]; rfl
          rw [← e]
          exact hh' a (by rw [Live, e]; exact hl) hg.2)
        exact this) n (cnt + 1)
      refine ⟨h2, ?_, ?_⟩
      · simp only [if_true, Prog.bind_run, r.getNext_cell, Out.bind_ok]
        rw [setNext_run r.live_lastOf r.cons_mid.live_headOf]
        simp only [Out.bind_ok]
        rw [destroyNode_elem (h := link cfg.dbl h (lastOf hd c1) (headOf tl c2)) (r.elem_at (a := c.1) (x := c.2))]
        simp only [Out.bind_ok, ed.rep.getNext_at]
        have : dec (n + (goneOf f s (c :: c2)).length) = n + (goneOf f (f s c.2).2 c2).length := by
          simp only [goneOf, hf, if_true, List.length_cons, ← Nat.add_assoc, dec_length]
        rw [this, e2]
        simp only [goneOf, hf, if_true, List.length_cons, stAfter]
        rw [Nat.add_assoc cnt 1, Nat.add_comm 1]
      · have := (ed.trans ed2).cost (k' := ⟨0, (goneOf f s (c :: c2)).length, 0⟩) (by simp [goneOf, hf, Nat.add_comm])
        simpa [keptOf, hf] using this
    | false =>
      obtain ⟨h2, e2, ed2⟩ := ih (c1 := c1 ++ [c]) (s := (f s c.2).2) hb r.cons_mid (by
        intro u c' v huv h' hh'
        have := hp (c :: u) c' v (by rw [huv]; rfl) h' (by
          intro a hl hg
          simp only [goneOf, hf] at hg
          exact hh' a hl hg)
        exact this) n cnt
      refine ⟨h2, ?_, ?_⟩
      · simp only [Bool.false_eq_true, if_false, Prog.bind_run, r.getNext_cell, Out.bind_ok, r.getNext_at, headOf_cons]
        simp only [lastOf_append, lastOf_cons, lastOf_nil] at e2
        simpa [goneOf, hf, stAfter] using e2
      · simpa [goneOf, keptOf, hf] using ed2

theorem removeIf_ok (hb : Bal h) (r : Rep cfg h hd tl cs own) (p : σ → α → M α (Bool × σ)) (f : σ → α → Bool × σ) (s : σ)
    (hp : ∀ u c v, cs = u ++ c :: v → ∀ h', (∀ a, Live h a → a ∉ addrs (goneOf f s u) → h'.info a = h.info a) →
      p (stAfter f s u) c.2 h' = .ok (f (stAfter f s u) c.2, h')) :
    ∃ h', removeIf cfg (lst hd tl cs own) p s h = .ok ((lst hd tl (keptOf f s cs) own, (goneOf f s cs).length, stAfter f s cs), h') ∧
      Edit cfg h hd tl cs own h' (keptOf f s cs) ⟨0, (goneOf f s cs).length, 0⟩ := by
  have hl := len_kept_gone f s cs
  by_cases hc : cs = []
  · subst hc
    refine ⟨h, ?_, Edit.refl hb r⟩
    simp only [removeIf, Prog.bind_run]
    rw [dbgAssert_run (by simp [lst])]
    simp [lst, keptOf, goneOf, stAfter]
  · obtain ⟨h2, e2, ed2⟩ := removeLoop_ok (c1 := []) hb r p f s hp (keptOf f s cs).length 0
    refine ⟨h2, ?_, ed2⟩
    simp only [removeIf, Prog.bind_run]
    rw [dbgAssert_run (by simp [lst])]
    simp only [Out.bind_ok]
    rw [if_neg (by simpa [lst] using hc)]
    simp only [Prog.bind_run, lst, r.getNext_hd, Out.bind_ok]
    rw [hl] at e2
    simp only [lastOf_nil] at e2
    rw [e2]
    simp

/-! ## unique -/

/-- cells kept after the kept cell with value `x` -/
def uniqCells (p : α → α → Bool) (x : α) : Cells α → Cells α
  | [] => []
  | c :: cs => if p c.2 x then uniqCells p x cs else c :: uniqCells p c.2 cs

theorem vals_uniq (p : α → α → Bool) (x : α) (cs : Cells α) : vals (uniqCells p x cs) = uniqueAfter p x (vals cs) := by
  induction cs generalizing x with
  | nil => rfl
  | cons c cs ih =>
    simp only [uniqCells, vals, List.map_cons, uniqueAfter]
    split
    · exact ih x
    · simp only [List.map_cons]; exact congrArg _ (ih c.2)

theorem len_uniq (p : α → α → Bool) (x : α) (cs : Cells α) : (uniqCells p x cs).length ≤ cs.length := by
  induction cs generalizing x with
  | nil => exact Nat.le_refl _
  | cons c cs ih =>
    simp only [uniqCells]
    split
    · have := ih x; simp; omega
    · have := ih c.2; simp; omega

theorem uniq_sublist (p : α → α → Bool) (x : α) (cs : Cells α) : (uniqCells p x cs).Sublist cs := by
  induction cs generalizing x with
  | nil => exact .refl _
  | cons c cs ih =>
    simp only [uniqCells]
    split
    · exact .cons _ (ih x)
    · exact .cons_cons _ (ih c.2)

theorem uniqueLoop_ok (hb : Bal h) (r : Rep cfg h hd tl ((c1 ++ [c]) ++ c2) own) (p : α → α → Bool) (n cnt : Nat) :
    ∃ h', uniqueLoop cfg own (some tl) p (some (headOf tl c2)) (some c.1) (some c.1) (n + c2.length) cnt h =
        .ok ((n + (uniqCells p c.2 c2).length, cnt + (c2.length - (uniqCells p c.2 c2).length)), h') ∧
      Edit cfg h hd tl ((c1 ++ [c]) ++ c2) own h' ((c1 ++ [c]) ++ uniqCells p c.2 c2) ⟨0, c2.length - (uniqCells p c.2 c2).length, 0⟩ := by
  induction c2 generalizing h c1 c n cnt with
  | nil =>
    refine ⟨h, ?_, Edit.refl hb r⟩
    rw [uniqueLoop, headOf_nil, if_pos rfl]
    rfl
  | cons d c2 ih =>
    have hne : some d.1 ≠ some tl := by simpa using r.head_ne_tl
    have rc : IsElem cfg own h c.1 c.2 := r.cells c (by simp)
    have lc : lastOf hd (c1 ++ [c]) = c.1 := by simp
    rw [uniqueLoop, headOf_cons, if_neg hne]
    simp only [Prog.bind_run, load_run (Rep.elem_at (a := d.1) (x := d.2) r), load_run rc, Out.bind_ok]
    cases hp : p d.2 c.2 with
    | true =>
      have ed := Rep.link_kill hb r
      have lu := len_uniq p c.2 c2
      obtain ⟨h2, e2, ed2⟩ := ih ed.bal ed.rep n (cnt + 1)
      refine ⟨h2, ?_, ?_⟩
      · simp only [if_true, Prog.bind_run, r.getNext_cell, Out.bind_ok]
        have l1 := r.live_lastOf
        rw [lc] at l1
        rw [setNext_run l1 r.cons_mid.live_headOf]
        simp only [Out.bind_ok]
        rw [destroyNode_elem (h := link cfg.dbl h c.1 (headOf tl c2)) (r.elem_at (a := d.1) (x := d.2))]
        have gn := ed.rep.getNext_at
        rw [lc] at gn
        simp only [Out.bind_ok, gn]
        rw [List.length_cons, ← Nat.add_assoc, dec_length]
        rw [lc] at e2
        rw [e2]
        simp only [uniqCells, hp, if_true]
        congr 3
        omega
      · have := (ed.trans ed2).cost (k' := ⟨0, (d :: c2).length - (uniqCells p c.2 (d :: c2)).length, 0⟩) (by
          simp [uniqCells, hp]; omega)
        simpa [uniqCells, hp] using this
    | false =>
      obtain ⟨h2, e2, ed2⟩ := ih (c1 := c1 ++ [c]) (c := d) hb r.cons_mid (n + 1) cnt
      refine ⟨h2, ?_, ?_⟩
      · simp only [Bool.false_eq_true, if_false, Prog.bind_run, r.getNext_cell, Out.bind_ok]
        rw [show n + (d :: c2).length = n + 1 + c2.length by simp; omega, e2]
        simp [uniqCells, hp]
        omega
      · simpa [uniqCells, hp] using ed2

/-- what `unique` keeps -/
def uniqAll (p : α → α → Bool) : Cells α → Cells α
  | [] => []
  | c :: cs => c :: uniqCells p c.2 cs

theorem vals_uniqAll (p : α → α → Bool) (cs : Cells α) : vals (uniqAll p cs) = uniqueBy p (vals cs) := by
  cases cs with
  | nil => rfl
  | cons c cs => simp only [uniqAll, vals, List.map_cons, uniqueBy]; exact congrArg _ (vals_uniq p c.2 cs)

theorem unique_ok (hb : Bal h) (r : Rep cfg h hd tl cs own) (p : α → α → Bool) :
    ∃ h', unique cfg (lst hd tl cs own) p h = .ok ((lst hd tl (uniqAll p cs) own, cs.length - (uniqAll p cs).length), h') ∧
      Edit cfg h hd tl cs own h' (uniqAll p cs) ⟨0, cs.length - (uniqAll p cs).length, 0⟩ := by
  unfold unique
  rw [Prog.bind_run, dbgAssert_run (by simp [lst])]
  simp only [Out.bind_ok]
  match cs, r with
  | [], r => exact ⟨h, rfl, Edit.refl hb r⟩
  | [c], r => exact ⟨h, rfl, Edit.refl hb r⟩
  | c :: d :: cs, r =>
    have r' : Rep cfg h hd tl (([] ++ [c]) ++ d :: cs) own := r
    obtain ⟨h2, e2, ed2⟩ := uniqueLoop_ok hb r' p 1 0
    refine ⟨h2, ?_, ?_⟩
    · rw [if_neg (by simp [lst])]
      have gn : getNext (some c.1) h = .ok (some d.1, h) := Rep.getNext_cell (c1 := []) r
      have gn2 : getNext (some hd) h = .ok (some c.1, h) := r.getNext_hd
      simp only [Prog.bind_run, lst, gn, gn2, Out.bind_ok]
      rw [show 1 + (d :: cs).length = (c :: d :: cs).length by simp; omega, headOf_cons] at e2
      rw [e2]
      simp [uniqAll, Nat.add_comm]
      omega
    · have e := ed2.cost (k' := ⟨0, (c :: d :: cs).length - (uniqAll p (c :: d :: cs)).length, 0⟩) (by simp [uniqAll])
      exact e

/-! ## Splicing -/

theorem realTail_ok (r : Rep cfg h hd tl cs own) : realTail cfg (lst hd tl cs own) h = .ok (some (lastOf hd cs), h) := by
  unfold realTail
  split
  · rename_i hd'; exact r.getPrev_tl hd'
  · have : ∀ c1 c2, Rep cfg h hd tl (c1 ++ c2) own → realTailLoop (some tl) (some (lastOf hd c1)) h = .ok (some (lastOf hd (c1 ++ c2)), h) := by
      intro c1 c2 r
      induction c2 generalizing c1 with
      | nil =>
        rw [realTailLoop]
        simp only [Prog.bind_run, r.getNext_at, headOf_nil, Out.bind_ok]
        rw [if_pos trivial, List.append_nil]
        rfl
      | cons c c2 ih =>
        have hne : some c.1 ≠ some tl := by simpa using r.head_ne_tl
        rw [realTailLoop]
        simp only [Prog.bind_run, r.getNext_at, headOf_cons, Out.bind_ok]
        rw [if_neg hne]
        have := ih (c1 ++ [c]) r.cons_mid
        simpa using this
    exact this [] cs r

variable {hd2 tl2 : Nat} {ds : Cells α}

/-- cells `ds`, taken from elsewhere, linked in between `c1` and `c2` -/
theorem Rep.spliceIn (r : Rep cfg h hd tl (c1 ++ c2) own) (hn : (nodes hd tl (c1 ++ (ds ++ c2))).Nodup) (hds : ds ≠ [])
    (hc : Chain cfg.dbl h (addrs ds)) (he : ∀ c ∈ ds, IsElem cfg own h' c.1 c.2)
    (hi : ∀ a ∈ nodes hd tl (c1 ++ c2), h'.info a = h.info a)
    (hx : ∀ a ∈ nodes hd tl (c1 ++ (ds ++ c2)), h'.nxt a = (link cfg.dbl (link cfg.dbl h (lastOf hd c1) (headOf tl ds)) (lastOf hd ds) (headOf tl c2)).nxt a ∧
      h'.prv a = (link cfg.dbl (link cfg.dbl h (lastOf hd c1) (headOf tl ds)) (lastOf hd ds) (headOf tl c2)).prv a) :
    Rep cfg h' hd tl (c1 ++ (ds ++ c2)) own := by
  obtain ⟨d0, ds', rfl⟩ : ∃ d0 ds', ds = d0 :: ds' := by
    cases ds with
    | nil => exact absurd rfl hds
    | cons d0 ds' => exact ⟨d0, ds', rfl⟩
  simp only [headOf_cons, lastOf_cons] at hx
  generalize hA : lastOf hd c1 = A at *
  generalize hB : headOf tl c2 = B at *
  have mA : A ∈ nodes hd tl (c1 ++ c2) := hA ▸ last_mem_nodes
  have mB : B ∈ nodes hd tl (c1 ++ c2) := hB ▸ head_mem_nodes
  have hAB : A ≠ B := by rw [← hA, ← hB]; exact Rep.last_ne_head (mid := []) r
  have hsub : ∀ a ∈ nodes hd tl (c1 ++ c2), a ∈ nodes hd tl (c1 ++ (d0 :: ds' ++ c2)) := fun a ha => by rw [mem_nodes_mid]; exact .inr ha
  have hdis : ∀ a ∈ nodes hd tl (c1 ++ c2), a ∉ addrs (d0 :: ds') := by
    have hp : (nodes hd tl (c1 ++ (d0 :: ds' ++ c2))).Perm (addrs (d0 :: ds') ++ nodes hd tl (c1 ++ c2)) := by
      simp only [nodes, addrs, List.map_append, List.append_assoc]
      rw [← List.cons_append, ← List.cons_append]
      exact (List.perm_append_comm_assoc _ _ _).trans (.refl _)
    have hn2 := hn
    rw [hp.nodup_iff, List.nodup_append] at hn2
    intro a ha hm
    exact hn2.2.2 a hm a ha rfl
  have hnd : (addrs (d0 :: ds')).Nodup := by
    refine hn.sublist ?_
    simp only [nodes, addrs, List.map_append, List.append_assoc]
    exact .cons _ (.trans (List.sublist_append_left _ _) (List.sublist_append_right _ _))
  have mT : lastOf d0.1 ds' ∈ addrs (d0 :: ds') := lastOf_mem d0.1 ds'
  have mH : d0.1 ∈ addrs (d0 :: ds') := by simp
  have TA : lastOf d0.1 ds' ≠ A := fun e => hdis A mA (e ▸ mT)
  have HB : d0.1 ≠ B := fun e => hdis B mB (e ▸ mH)
  refine Rep.replace (mid := []) r ?_ hi ?_ ?_ he hn
  · rw [hA, hB]
    have k1 : Chain cfg.dbl (link cfg.dbl h A d0.1) (A :: addrs (d0 :: ds')) := by
      refine chain_join (l1 := []) (.singleton _) hc ?_
      rw [List.nil_append, List.nodup_cons]
      exact ⟨hdis A mA, hnd⟩
    have k2 : Chain cfg.dbl (link cfg.dbl (link cfg.dbl h A d0.1) (lastOf d0.1 ds') B) (A :: (addrs (d0 :: ds') ++ [B])) := by
      obtain ⟨l, hl⟩ := lastOf_split d0.1 ds'
      have e : A :: (addrs (d0 :: ds') ++ [B]) = (A :: l) ++ lastOf d0.1 ds' :: [B] := by
        rw [show addrs (d0 :: ds') = d0.1 :: addrs ds' from rfl, hl]; simp
      rw [e]
      refine chain_join ?_ (.singleton _) ?_
      · rw [show A :: l ++ [lastOf d0.1 ds'] = A :: addrs (d0 :: ds') by
          rw [show addrs (d0 :: ds') = d0.1 :: addrs ds' from rfl, hl]; simp]
        exact k1
      · rw [← e]
        simp only [List.nodup_cons, List.mem_append, List.mem_singleton, not_or, List.nodup_append]
        refine ⟨⟨hdis A mA, hAB⟩, hnd, by simp, ?_⟩
        intro a ha b hb e
        exact hdis B mB (by rw [← hb, ← e]; exact ha)
    have hmem : ∀ a ∈ A :: (addrs (d0 :: ds') ++ [B]), a ∈ nodes hd tl (c1 ++ (d0 :: ds' ++ c2)) := by
      intro a ha
      rw [mem_nodes_mid]
      simp only [List.mem_cons, List.mem_append, List.not_mem_nil, or_false] at ha
      rcases ha with rfl | ha | rfl
      · exact .inr mA
      · exact .inl ha
      · exact .inr mB
    exact chain_frame k2 fun a ha => hx a (hmem a ha)
  · intro a ha hne
    rw [hA] at hne
    rw [(hx a (hsub a ha)).1, link_nxt_ne (by rintro rfl; exact hdis _ ha mT), link_nxt_ne hne]
  · intro a ha hne
    rw [hB] at hne
    rw [(hx a (hsub a ha)).2, link_prv_ne hne, link_prv_ne (by rintro rfl; exact hdis _ ha mH)]

theorem Rep.inner_chain (r : Rep cfg h hd tl cs own) : Chain cfg.dbl h (addrs cs) := by
  have := r.chain
  rw [nodes] at this
  exact List.IsChain.left_of_append (List.IsChain.tail this)

theorem Rep.nodup_cells (r : Rep cfg h hd tl cs own) : (addrs cs).Nodup := by
  refine r.nodup.sublist ?_
  exact .cons _ (List.sublist_append_left _ _)

/-- nothing shared between two lists -/
def Disj (hd tl : Nat) (cs : Cells α) (hd2 tl2 : Nat) (ds : Cells α) : Prop := ∀ a ∈ nodes hd tl cs, a ∉ nodes hd2 tl2 ds

theorem nodup_join (r : Rep cfg h hd tl (c1 ++ c2) own) (ro : Rep cfg h hd2 tl2 ds o) (hj : Disj hd tl (c1 ++ c2) hd2 tl2 ds) :
    (nodes hd tl (c1 ++ (ds ++ c2))).Nodup := by
  have hp : (nodes hd tl (c1 ++ (ds ++ c2))).Perm (addrs ds ++ nodes hd tl (c1 ++ c2)) := by
    simp only [nodes, addrs, List.map_append, List.append_assoc]
    rw [← List.cons_append, ← List.cons_append]
    exact (List.perm_append_comm_assoc _ _ _).trans (.refl _)
  rw [hp.nodup_iff, List.nodup_append]
  refine ⟨ro.nodup_cells, r.nodup, ?_⟩
  intro a ha b hb e
  subst e
  exact hj a hb (by rw [mem_nodes]; exact .inr (.inl ha))

/-- Two lists in memory. -/
structure Moved (cfg : Cfg α) (h : Heap α) (hd tl : Nat) (cs : Cells α) (own hd2 tl2 : Nat) (ds : Cells α) (h' : Heap α) (cs' : Cells α) : Prop where
  rep : Rep cfg h' hd tl cs' own
  rep2 : Rep cfg h' hd2 tl2 [] own
  step : Step h (nodes hd tl cs ++ nodes hd2 tl2 ds) h' (nodes hd tl cs' ++ nodes hd2 tl2 ([] : Cells α)) 0

/-- One list took the cells of the other, whose virtual nodes are gone. -/
structure MovedAll (cfg : Cfg α) (h : Heap α) (hd tl : Nat) (cs : Cells α) (own hd2 tl2 : Nat) (ds : Cells α) (h' : Heap α) (cs' : Cells α) : Prop where
  rep : Rep cfg h' hd tl cs' own
  step : Step h (nodes hd tl cs ++ nodes hd2 tl2 ds) h' (nodes hd tl cs') 0

theorem Rep.emptied (r : Rep cfg h hd tl cs own) (hi : h'.info hd = h.info hd ∧ h'.info tl = h.info tl) (hp : h'.prv hd = h.prv hd)
    (hn : h'.nxt tl = h.nxt tl) : Rep cfg (link cfg.dbl h' hd tl) hd tl [] own := by
  have hne := r.hd_ne_tl
  refine ⟨by simp [nodes, hne], ?_, ?_, ?_, by simp, ?_, ?_⟩
  · simp only [nodes, addrs, List.map_nil, List.nil_append, Chain, List.isChain_cons_cons, List.IsChain.singleton, and_true]
    exact linked_link
  · rw [IsVirt, link_info, hi.1]; exact r.vhd
  · rw [IsVirt, link_info, hi.2]; exact r.vtl
  · intro d; rw [link_prv_ne hne, hp]; exact r.first d
  · rw [link_nxt_ne hne.symm, hn]; exact r.last

theorem lastOf_indep (hds : ds ≠ []) (a b : Nat) : lastOf a ds = lastOf b ds := by
  cases ds with
  | nil => exact absurd rfl hds
  | cons d ds => rfl
theorem headOf_indep (hds : ds ≠ []) (a b : Nat) : headOf a ds = headOf b ds := by
  cases ds with
  | nil => exact absurd rfl hds
  | cons d ds => rfl
theorem lastOf_mem_cells (hds : ds ≠ []) (a : Nat) : lastOf a ds ∈ addrs ds := by
  cases ds with
  | nil => exact absurd rfl hds
  | cons d ds => exact lastOf_mem d.1 ds
theorem headOf_mem_cells (hds : ds ≠ []) (a : Nat) : headOf a ds ∈ addrs ds := by
  cases ds with
  | nil => exact absurd rfl hds
  | cons d ds => simp

theorem splice_core (hb : Bal h) (r : Rep cfg h hd tl (c1 ++ c2) own) (ro : Rep cfg h hd2 tl2 ds own) (hj : Disj hd tl (c1 ++ c2) hd2 tl2 ds)
    (hds : ds ≠ []) :
    let h2 := link cfg.dbl (link cfg.dbl h (lastOf hd c1) (headOf tl2 ds)) (lastOf hd2 ds) (headOf tl c2)
    Moved cfg h hd tl (c1 ++ c2) own hd2 tl2 ds (link cfg.dbl h2 hd2 tl2) (c1 ++ (ds ++ c2)) ∧
    MovedAll cfg h hd tl (c1 ++ c2) own hd2 tl2 ds (killVirt cfg (killVirt cfg h2 hd2) tl2) (c1 ++ (ds ++ c2)) ∧
    IsVirt cfg own h2 hd2 ∧ IsVirt cfg own h2 tl2 := by
  intro h2
  have hne2 := ro.hd_ne_tl
  have m_hd2 : hd2 ∈ nodes hd2 tl2 ds := by simp [nodes]
  have m_tl2 : tl2 ∈ nodes hd2 tl2 ds := by simp [nodes]
  have out_hd2 : hd2 ∉ addrs ds := by have := ro.nodup; simp [nodes] at this; exact fun h => by simp at h; tauto
  have out_tl2 : tl2 ∉ addrs ds := by
    have := ro.nodup
    simp only [nodes, List.nodup_cons, List.nodup_append] at this
    exact fun h => this.2.2.2 tl2 h tl2 (by simp) rfl
  have nj := nodup_join r ro hj
  have mA : lastOf hd c1 ∈ nodes hd tl (c1 ++ c2) := last_mem_nodes
  have mB : headOf tl c2 ∈ nodes hd tl (c1 ++ c2) := head_mem_nodes
  have mT := lastOf_mem_cells hds hd2
  have mH := headOf_mem_cells hds tl2
  have hnode : ∀ a ∈ nodes hd tl (c1 ++ (ds ++ c2)), a ≠ hd2 ∧ a ≠ tl2 := by
    intro a ha
    rw [mem_nodes_mid] at ha
    rcases ha with ha | ha
    · exact ⟨fun e => out_hd2 (e ▸ ha), fun e => out_tl2 (e ▸ ha)⟩
    · exact ⟨fun e => hj a ha (e ▸ m_hd2), fun e => hj a ha (e ▸ m_tl2)⟩
  have hmem : ∀ a, a ∈ addrs ds → a ∈ nodes hd2 tl2 ds := fun a ha => by rw [mem_nodes]; exact .inr (.inl ha)
  -- the step of the two links
  have s2 : Step h (nodes hd tl (c1 ++ c2) ++ nodes hd2 tl2 ds) h2 (nodes hd tl (c1 ++ c2) ++ nodes hd2 tl2 ds) 0 := by
    have t1 := step_link (d := cfg.dbl) (l := nodes hd tl (c1 ++ c2) ++ nodes hd2 tl2 ds) hb (List.mem_append_left _ mA)
      (List.mem_append_right _ (hmem _ mH))
    have t2 := step_link (d := cfg.dbl) (l := nodes hd tl (c1 ++ c2) ++ nodes hd2 tl2 ds) t1.bal (List.mem_append_right _ (hmem _ mT))
      (List.mem_append_left _ mB)
    exact (t1.trans t2).cost rfl
  have hAhd : lastOf hd c1 ≠ hd2 ∧ lastOf hd c1 ≠ tl2 := ⟨fun e => hj _ mA (e ▸ m_hd2), fun e => hj _ mA (e ▸ m_tl2)⟩
  have hBhd : headOf tl c2 ≠ hd2 ∧ headOf tl c2 ≠ tl2 := ⟨fun e => hj _ mB (e ▸ m_hd2), fun e => hj _ mB (e ▸ m_tl2)⟩
  have hThd : lastOf hd2 ds ≠ hd2 ∧ lastOf hd2 ds ≠ tl2 := ⟨fun e => out_hd2 (e ▸ mT), fun e => out_tl2 (e ▸ mT)⟩
  have hHhd : headOf tl2 ds ≠ hd2 ∧ headOf tl2 ds ≠ tl2 := ⟨fun e => out_hd2 (e ▸ mH), fun e => out_tl2 (e ▸ mH)⟩
  have n_tl2 : h2.nxt tl2 = h.nxt tl2 := by
    simp only [h2]; rw [link_nxt_ne hThd.2.symm, link_nxt_ne hAhd.2.symm]
  have p_hd2 : h2.prv hd2 = h.prv hd2 := by
    simp only [h2]; rw [link_prv_ne hBhd.1.symm, link_prv_ne hHhd.1.symm]
  have spl : ∀ h', (∀ a, a ≠ hd2 → a ≠ tl2 → h'.info a = h2.info a ∧ h'.nxt a = h2.nxt a ∧ h'.prv a = h2.prv a) →
      Rep cfg h' hd tl (c1 ++ (ds ++ c2)) own := by
    intro h' hx
    refine Rep.spliceIn r nj hds ro.inner_chain ?_ ?_ ?_
    · intro c hc
      have hm : c.1 ∈ addrs ds := List.mem_map_of_mem hc
      rw [IsElem, (hx c.1 (fun e => out_hd2 (e ▸ hm)) (fun e => out_tl2 (e ▸ hm))).1]
      exact ro.cells c hc
    · intro a ha
      rw [(hx a (fun e => hj a ha (e ▸ m_hd2)) (fun e => hj a ha (e ▸ m_tl2))).1]; rfl
    · intro a ha
      have := hx a (hnode a ha).1 (hnode a ha).2
      rw [headOf_indep hds tl tl2, lastOf_indep hds hd hd2]
      exact this.2
  have v1 : IsVirt cfg own h2 hd2 := ro.vhd
  have v2 : IsVirt cfg own h2 tl2 := ro.vtl
  refine ⟨⟨spl _ ?_, ?_, ?_⟩, ⟨spl _ ?_, ?_⟩, v1, v2⟩
  · intro a h1 h3
    exact ⟨rfl, link_nxt_ne h1, link_prv_ne h3⟩
  · exact ro.emptied ⟨rfl, rfl⟩ p_hd2 n_tl2
  · have t3 := step_link (d := cfg.dbl) (l := nodes hd tl (c1 ++ c2) ++ nodes hd2 tl2 ds) s2.bal (List.mem_append_right _ m_hd2)
      (List.mem_append_right _ m_tl2)
    refine ((s2.trans t3).congr (fun _ => Iff.rfl) (fun a => ?_)).cost rfl
    simp only [nodes, addrs, List.map_append, List.mem_append, List.mem_cons, List.map_nil, List.not_mem_nil, false_or, or_false]
    tauto
  · intro a h1 h3
    refine ⟨?_, rfl, rfl⟩
    rw [killVirt_info_ne h3, killVirt_info_ne h1]
  · have t3 := step_killVirt (cfg := cfg) s2.bal v1
    have v2' := v2.killVirt (a := hd2) hne2.symm
    have t4 := step_killVirt (cfg := cfg) t3.bal v2'
    have t5 := ((t3.more [tl2]).trans t4).more (nodes hd tl (c1 ++ (ds ++ c2)))
    refine (s2.trans (t5.congr (fun a => ?_) (fun a => by simp))).cost rfl
    simp only [nodes, addrs, List.map_append, List.mem_append, List.mem_cons, List.not_mem_nil, or_false]
    tauto

theorem splice_ok (hb : Bal h) (r : Rep cfg h hd tl (c1 ++ c2) own) (ro : Rep cfg h hd2 tl2 ds own) (hj : Disj hd tl (c1 ++ c2) hd2 tl2 ds)
    (hds : ds ≠ []) (hd' : cfg.dbl = true) :
    ∃ h', splice cfg (lst hd tl (c1 ++ c2) own) (some (headOf tl c2)) (lst hd2 tl2 ds own) h =
        .ok ((lst hd tl (c1 ++ (ds ++ c2)) own, lst hd2 tl2 ([] : Cells α) own), h') ∧
      Moved cfg h hd tl (c1 ++ c2) own hd2 tl2 ds h' (c1 ++ (ds ++ c2)) := by
  obtain ⟨mv, _, v1, v2⟩ := splice_core hb r ro hj hds
  refine ⟨_, ?_, mv⟩
  have ro' : Rep cfg h hd2 tl2 (ds ++ []) own := by simpa using ro
  simp only [splice, Prog.bind_run, realTail_ok ro, show (lst hd2 tl2 ds own).head = some hd2 from rfl, ro.getNext_hd, Out.bind_ok, r.getPrev_at hd']
  rw [setNext_run r.live_lastOf (Rep.live_headOf (c1 := []) (c2 := ds) ro)]
  simp only [Out.bind_ok]
  rw [setNext_run (h := link cfg.dbl h (lastOf hd c1) (headOf tl2 ds)) ro'.live_lastOf r.live_headOf]
  simp only [Out.bind_ok]
  rw [show (lst hd2 tl2 ds own).tail = some tl2 from rfl, setNext_run v1.live v2.live]
  simp [lst]; omega

theorem spliceMove_ok (hb : Bal h) (r : Rep cfg h hd tl (c1 ++ c2) own) (ro : Rep cfg h hd2 tl2 ds own) (hj : Disj hd tl (c1 ++ c2) hd2 tl2 ds)
    (hds : ds ≠ []) (hd' : cfg.dbl = true) :
    ∃ h', spliceMove cfg (lst hd tl (c1 ++ c2) own) (some (headOf tl c2)) (lst hd2 tl2 ds own) h =
        .ok ((lst hd tl (c1 ++ (ds ++ c2)) own, ⟨none, none, 0, own⟩), h') ∧
      MovedAll cfg h hd tl (c1 ++ c2) own hd2 tl2 ds h' (c1 ++ (ds ++ c2)) := by
  obtain ⟨_, mv, v1, v2⟩ := splice_core hb r ro hj hds
  refine ⟨_, ?_, mv⟩
  have ro' : Rep cfg h hd2 tl2 (ds ++ []) own := by simpa using ro
  simp only [spliceMove, Prog.bind_run, realTail_ok ro, show (lst hd2 tl2 ds own).head = some hd2 from rfl, ro.getNext_hd, Out.bind_ok, r.getPrev_at hd']
  rw [setNext_run r.live_lastOf (Rep.live_headOf (c1 := []) (c2 := ds) ro)]
  simp only [Out.bind_ok]
  rw [setNext_run (h := link cfg.dbl h (lastOf hd c1) (headOf tl2 ds)) ro'.live_lastOf r.live_headOf]
  simp only [Out.bind_ok]
  rw [show (lst hd2 tl2 ds own).alloc = own from rfl, destroyNode_virt v1]
  simp only [Out.bind_ok]
  rw [show (lst hd2 tl2 ds own).tail = some tl2 from rfl, destroyNode_virt (v2.killVirt ro.hd_ne_tl.symm)]
  simp [lst, husk]; omega

theorem splice_comm (r : Rep cfg h hd tl (c1 ++ c2) own) (hj : Disj hd tl (c1 ++ c2) hd2 tl2 ds) (hds : ds ≠ []) :
    link cfg.dbl (link cfg.dbl h (lastOf hd2 ds) (headOf tl c2)) (lastOf hd c1) (headOf tl2 ds) =
      link cfg.dbl (link cfg.dbl h (lastOf hd c1) (headOf tl2 ds)) (lastOf hd2 ds) (headOf tl c2) := by
  refine link_comm ?_ ?_
  · intro e
    exact hj _ last_mem_nodes (by rw [← e, mem_nodes]; exact .inr (.inl (lastOf_mem_cells hds hd2)))
  · intro e
    exact hj _ head_mem_nodes (by rw [e, mem_nodes]; exact .inr (.inl (headOf_mem_cells hds tl2)))

theorem spliceAfter_ok (hb : Bal h) (r : Rep cfg h hd tl (c1 ++ c2) own) (ro : Rep cfg h hd2 tl2 ds own) (hj : Disj hd tl (c1 ++ c2) hd2 tl2 ds)
    (hds : ds ≠ []) :
    ∃ h', spliceAfter cfg (lst hd tl (c1 ++ c2) own) (some (lastOf hd c1)) (lst hd2 tl2 ds own) h =
        .ok ((lst hd tl (c1 ++ (ds ++ c2)) own, lst hd2 tl2 ([] : Cells α) own), h') ∧
      Moved cfg h hd tl (c1 ++ c2) own hd2 tl2 ds h' (c1 ++ (ds ++ c2)) := by
  obtain ⟨mv, _, v1, v2⟩ := splice_core hb r ro hj hds
  refine ⟨_, ?_, mv⟩
  have ro' : Rep cfg h hd2 tl2 (ds ++ []) own := by simpa using ro
  simp only [spliceAfter, Prog.bind_run, realTail_ok ro, show (lst hd2 tl2 ds own).head = some hd2 from rfl, ro.getNext_hd, Out.bind_ok, r.getNext_at]
  rw [setNext_run ro'.live_lastOf r.live_headOf]
  simp only [Out.bind_ok]
  rw [setNext_run (h := link cfg.dbl h (lastOf hd2 ds) (headOf tl c2)) r.live_lastOf (Rep.live_headOf (h := h) (c1 := []) (c2 := ds) ro)]
  simp only [Out.bind_ok]
  rw [splice_comm r hj hds, show (lst hd2 tl2 ds own).tail = some tl2 from rfl, setNext_run v1.live v2.live]
  simp [lst]; omega

theorem spliceAfterMove_ok (hb : Bal h) (r : Rep cfg h hd tl (c1 ++ c2) own) (ro : Rep cfg h hd2 tl2 ds own) (hj : Disj hd tl (c1 ++ c2) hd2 tl2 ds)
    (hds : ds ≠ []) :
    ∃ h', spliceAfterMove cfg (lst hd tl (c1 ++ c2) own) (some (lastOf hd c1)) (lst hd2 tl2 ds own) h =
        .ok ((lst hd tl (c1 ++ (ds ++ c2)) own, ⟨none, none, 0, own⟩), h') ∧
      MovedAll cfg h hd tl (c1 ++ c2) own hd2 tl2 ds h' (c1 ++ (ds ++ c2)) := by
  obtain ⟨_, mv, v1, v2⟩ := splice_core hb r ro hj hds
  refine ⟨_, ?_, mv⟩
  have ro' : Rep cfg h hd2 tl2 (ds ++ []) own := by simpa using ro
  simp only [spliceAfterMove, Prog.bind_run, realTail_ok ro, show (lst hd2 tl2 ds own).head = some hd2 from rfl, ro.getNext_hd, Out.bind_ok, r.getNext_at]
  rw [setNext_run ro'.live_lastOf r.live_headOf]
  simp only [Out.bind_ok]
  rw [setNext_run (h := link cfg.dbl h (lastOf hd2 ds) (headOf tl c2)) r.live_lastOf (Rep.live_headOf (h := h) (c1 := []) (c2 := ds) ro)]
  simp only [Out.bind_ok]
  rw [splice_comm r hj hds, show (lst hd2 tl2 ds own).alloc = own from rfl, destroyNode_virt v1]
  simp only [Out.bind_ok]
  rw [show (lst hd2 tl2 ds own).tail = some tl2 from rfl, destroyNode_virt (v2.killVirt ro.hd_ne_tl.symm)]
  simp [lst, husk]; omega

/-! ## Relinking only -/

/-- Only links of nodes in `S` changed. -/
structure Relink (S : List Nat) (h h' : Heap α) : Prop where
  info : h'.info = h.info
  next : h'.next = h.next
  ctors : h'.ctors = h.ctors
  dtors : h'.dtors = h.dtors
  newBytes : h'.newBytes = h.newBytes
  freeBytes : h'.freeBytes = h.freeBytes
  nxt : ∀ a, a ∉ S → h'.nxt a = h.nxt a
  prv : ∀ a, a ∉ S → h'.prv a = h.prv a

theorem Relink.refl (S : List Nat) (h : Heap α) : Relink S h h := ⟨rfl, rfl, rfl, rfl, rfl, rfl, fun _ _ => rfl, fun _ _ => rfl⟩
theorem Relink.trans {S : List Nat} (r1 : Relink S h h') (r2 : Relink S h' h'') : Relink S h h'' :=
  ⟨r2.info.trans r1.info, r2.next.trans r1.next, r2.ctors.trans r1.ctors, r2.dtors.trans r1.dtors, r2.newBytes.trans r1.newBytes,
    r2.freeBytes.trans r1.freeBytes, fun a ha => (r2.nxt a ha).trans (r1.nxt a ha), fun a ha => (r2.prv a ha).trans (r1.prv a ha)⟩
theorem Relink.mono {S S' : List Nat} (r1 : Relink S h h') (hs : ∀ a ∈ S, a ∈ S') : Relink S' h h' :=
  ⟨r1.info, r1.next, r1.ctors, r1.dtors, r1.newBytes, r1.freeBytes, fun a ha => r1.nxt a (fun hm => ha (hs a hm)), fun a ha => r1.prv a (fun hm => ha (hs a hm))⟩
theorem relink_link {S : List Nat} {d : Bool} (ha : a ∈ S) (hb : b ∈ S) : Relink S h (link d h a b) :=
  ⟨rfl, rfl, rfl, rfl, rfl, rfl, fun c hc => link_nxt_ne (by rintro rfl; exact hc ha), fun c hc => link_prv_ne (by rintro rfl; exact hc hb)⟩
theorem relink_cut {S : List Nat} (ha : a ∈ S) : Relink S h (cut h a) :=
  ⟨rfl, rfl, rfl, rfl, rfl, rfl, fun c hc => cut_nxt_ne (by rintro rfl; exact hc ha), fun _ _ => rfl⟩
theorem Relink.step {S l : List Nat} (rl : Relink S h h') (hb : Bal h) (hs : ∀ a ∈ S, a ∈ l) : Step h l h' l 0 :=
  ⟨rl.ctors, rl.dtors, rl.next, fun a _ _ => by rw [rl.info], fun a ha _ => ⟨rl.nxt a (fun hm => ha (hs a hm)), rl.prv a (fun hm => ha (hs a hm))⟩,
    fun _ a b => absurd a b, fun _ a b => absurd a b, bal_of_info hb rl.info rl.next rl.ctors rl.dtors rl.newBytes rl.freeBytes⟩
theorem Relink.live {S : List Nat} (rl : Relink S h h') (hl : Live h a) : Live h' a := by rw [Live, rl.info]; exact hl

/-! ## Reversal -/

theorem reverseLoop_ok (hd' : cfg.dbl = false) {ps : Cells α} (hc : Chain false h (addrs c2 ++ [tl])) (hp : Chain false h (addrs ps ++ [tl]))
    (hn : (addrs ps ++ (addrs c2 ++ [tl])).Nodup) (hl : ∀ a ∈ addrs ps ++ (addrs c2 ++ [tl]), Live h a) :
    ∃ h', reverseLoop cfg (some tl) (some (headOf tl c2)) (some (headOf tl ps)) h = .ok (some (headOf tl (c2.reverse ++ ps)), h') ∧
      Relink (addrs c2) h h' ∧ h'.prv = h.prv ∧ Chain false h' (addrs (c2.reverse ++ ps) ++ [tl]) := by
  induction c2 generalizing h ps with
  | nil =>
    refine ⟨h, ?_, Relink.refl _ _, rfl, by simpa using hp⟩
    rw [reverseLoop, headOf_nil, if_pos rfl]
    rfl
  | cons c c2 ih =>
    have hn' := hn
    simp only [addrs, List.map_cons, List.nodup_append, List.nodup_cons, List.cons_append] at hn'
    have hne : c.1 ≠ tl := by
      intro e
      have := hn'.2.1.1
      rw [e] at this
      simp at this
    have hcp : c.1 ∉ addrs ps := fun hm => hn'.2.2 c.1 hm c.1 (by simp) rfl
    have hcc : c.1 ∉ addrs c2 ++ [tl] := hn'.2.1.1
    have lc : Live h c.1 := hl c.1 (by simp)
    have lp : Live h (headOf tl ps) := by
      apply hl
      have := headOf_mem tl ps
      simp only [List.mem_append, List.mem_singleton] at this ⊢
      rcases this with h | h
      · exact .inl h
      · exact .inr (.inr h)
    have hnx : h.nxt c.1 = some (some (headOf tl c2)) := by
      obtain ⟨l, e⟩ := headOf_split tl c2
      have : addrs (c :: c2) ++ [tl] = c.1 :: (addrs c2 ++ [tl]) := rfl
      rw [this, e] at hc
      exact Chain.nxt (l1 := []) hc
    have hnodup2 : (addrs (c :: ps) ++ (addrs c2 ++ [tl])).Nodup := by
      have hp : (addrs (c :: ps) ++ (addrs c2 ++ [tl])).Perm (addrs ps ++ (addrs (c :: c2) ++ [tl])) := by
        simp only [addrs, List.map_cons, List.cons_append]
        exact List.perm_middle.symm
      rw [hp.nodup_iff]; exact hn
    have g1 : Chain false (link false h c.1 (headOf tl ps)) (addrs c2 ++ [tl]) := by
      refine chain_imp (List.IsChain.tail hc) ?_ (fun _ _ => rfl)
      intro a ha
      refine link_nxt_ne ?_
      rintro rfl
      exact hcc (List.dropLast_subset _ ha)
    have g2 : Chain false (link false h c.1 (headOf tl ps)) (addrs (c :: ps) ++ [tl]) := by
      obtain ⟨l, e⟩ := headOf_split tl ps
      rw [show addrs (c :: ps) ++ [tl] = c.1 :: (addrs ps ++ [tl]) from rfl, e]
      refine chain_join (l1 := []) (.singleton _) (by rw [← e]; exact hp) ?_
      rw [List.nil_append, ← e, List.nodup_cons]
      refine ⟨?_, ?_⟩
      · simp only [List.mem_append, List.mem_singleton, not_or]
        exact ⟨hcp, hne⟩
      · refine hn.sublist ?_
        exact .append_left (List.sublist_append_right _ _) _
    have g3 : ∀ a ∈ addrs (c :: ps) ++ (addrs c2 ++ [tl]), Live h a := by
      intro a ha
      refine hl a ?_
      simp only [addrs, List.map_cons, List.cons_append, List.mem_cons, List.mem_append, List.not_mem_nil, or_false] at ha ⊢
      tauto
    obtain ⟨h', e1, e2, e3, e4⟩ := ih (h := link false h c.1 (headOf tl ps)) (ps := c :: ps) g1 g2 hnodup2 g3
    refine ⟨h', ?_, ?_, ?_, ?_⟩
    · rw [reverseLoop, headOf_cons, if_neg (by simpa using hne)]
      simp only [Prog.bind_run, getNext_run lc hnx, Out.bind_ok, setNext_run lc lp, hd']
      rw [show c.1 = headOf tl (c :: ps) from rfl]
      rw [headOf_cons] at e1 ⊢
      rw [e1]; simp
    · have t1 : Relink (addrs (c :: c2)) h (link false h c.1 (headOf tl ps)) :=
        ⟨rfl, rfl, rfl, rfl, rfl, rfl, fun a ha => link_nxt_ne (by rintro rfl; exact ha (by simp)), fun _ _ => rfl⟩
      exact t1.trans (e2.mono (fun a ha => by simp at ha ⊢; exact .inr ha))
    · rw [e3]; rfl
    · simpa using e4

/-- `next` and `prev` of the nodes in `S` exchanged -/
structure Swapped (S : List Nat) (h h' : Heap α) : Prop where
  relink : Relink S h h'
  nxt : ∀ a ∈ S, h'.nxt a = h.prv a
  prv : ∀ a ∈ S, h'.prv a = h.nxt a

/-- the fields of one node overwritten -/
def flip2 (h : Heap α) (a : Nat) (q r : Ptr) : Heap α := { h with nxt := upd h.nxt a (some q), prv := upd h.prv a (some r) }

theorem reverseLoop2_ok {l : List Nat} (hn : l.Nodup) (hl : ∀ a ∈ l, Live h a) (hc : l.IsChain fun a b => h.nxt a = some (some b))
    (he : ∀ a, l.getLast? = some a → h.nxt a = some none) (hp : ∀ a ∈ l, ∃ q, h.prv a = some q) :
    ∃ h', reverseLoop2 l.head? l.tail.head? h = .ok ((), h') ∧ Swapped l h h' := by
  induction l generalizing h with
  | nil =>
    refine ⟨h, ?_, Relink.refl _ _, by simp, by simp⟩
    rw [reverseLoop2, List.head?_nil, if_pos rfl]
    rfl
  | cons a l ih =>
    have ha : Live h a := hl a (by simp)
    obtain ⟨q, hq⟩ := hp a (by simp)
    have hnx : h.nxt a = some l.head? := by
      cases l with
      | nil => exact he a rfl
      | cons b l => exact (List.isChain_cons_cons.1 hc).1
    have hal : a ∉ l := (List.nodup_cons.1 hn).1
    have n1 : ∀ c, c ≠ a → (flip2 h a q l.head?).nxt c = h.nxt c := fun c hc => upd_ne _ _ hc
    have p1 : ∀ c, c ≠ a → (flip2 h a q l.head?).prv c = h.prv c := fun c hc => upd_ne _ _ hc
    have hlne : ∀ c ∈ l, c ≠ a := fun c hc e => hal (e ▸ hc)
    have g1 : l.IsChain fun x y => (flip2 h a q l.head?).nxt x = some (some y) := by
      refine List.IsChain.imp_of_mem_imp ?_ (List.IsChain.tail hc)
      intro x y hx hy hxy
      rw [n1 x (hlne x hx)]; exact hxy
    have g2 : ∀ b, l.getLast? = some b → (flip2 h a q l.head?).nxt b = some none := by
      intro b hb
      have hm : b ∈ l := List.mem_of_getLast? hb
      rw [n1 b (hlne b hm)]
      refine he b ?_
      cases l with
      | nil => simp at hb
      | cons c l => rw [List.getLast?_cons_cons]; exact hb
    have g3 : ∀ c ∈ l, ∃ q', (flip2 h a q l.head?).prv c = some q' := by
      intro c hc
      obtain ⟨q', hq'⟩ := hp c (by simp [hc])
      exact ⟨q', by rw [p1 c (hlne c hc)]; exact hq'⟩
    obtain ⟨h', e1, e2⟩ := ih (h := flip2 h a q l.head?) (List.nodup_cons.1 hn).2 (fun c hc => hl c (by simp [hc])) g1 g2 g3
    refine ⟨h', ?_, ⟨?_, ?_, ?_⟩⟩
    · rw [reverseLoop2, List.head?_cons, if_neg (by simp)]
      obtain ⟨i, hi⟩ := ha.get
      have pn : putNext (some a) q h = .ok ((), { h with nxt := upd h.nxt a (some q) }) := by simp [putNext, withNode, hi]
      have pp : putPrev (some a) l.head? { h with nxt := upd h.nxt a (some q) } =
          .ok ((), (flip2 h a q l.head?)) := by simp [putPrev, withNode, hi, flip2]
      simp only [Prog.bind_run, getNext_run ha hnx, getPrev_run ha hq, Out.bind_ok, pn, pp, List.tail_cons]
      cases l with
      | nil =>
        simp only [List.head?_nil, Prog.pure_run, Out.bind_ok]
        exact e1
      | cons b l =>
        have hb : Live h b := hl b (by simp)
        have hbn : h.nxt b = some l.head? := by
          cases l with
          | nil => exact he b rfl
          | cons c l => exact (List.isChain_cons_cons.1 (List.isChain_cons_cons.1 hc).2).1
        have hba : b ≠ a := hlne b (by simp)
        simp only [List.head?_cons]
        rw [Prog.bind_run, getNext_run (q := l.head?) (show Live (flip2 h a q (some b)) b from hb) (by
          rw [← List.head?_cons (a := b) (l := l), n1 b hba]; exact hbn)]
        simp only [Out.bind_ok]
        exact e1
    · have t1 : Relink (a :: l) h (flip2 h a q l.head?) :=
        ⟨rfl, rfl, rfl, rfl, rfl, rfl, fun c hc => n1 c (fun e => hc (by simp [e])), fun c hc => p1 c (fun e => hc (by simp [e]))⟩
      exact t1.trans (e2.relink.mono (fun c hc => by simp [hc]))
    · intro c hc
      rcases List.mem_cons.1 hc with rfl | hc
      · rw [e2.relink.nxt _ hal, hq]; simp [flip2]
      · rw [e2.nxt c hc, p1 c (hlne c hc)]
    · intro c hc
      rcases List.mem_cons.1 hc with rfl | hc
      · rw [e2.relink.prv _ hal, hnx]; simp [flip2]
      · rw [e2.prv c hc, n1 c (hlne c hc)]

theorem nodes_reverse (hd tl : Nat) (cs : Cells α) : nodes tl hd cs.reverse = (nodes hd tl cs).reverse := by
  simp [nodes, addrs]

/-- reversal of a `ForwardList` -/
theorem reverse_fwd (hb : Bal h) (r : Rep cfg h hd tl cs own) (hd' : cfg.dbl = false) :
    ∃ h', reverse cfg (lst hd tl cs own) h = .ok (lst hd tl cs.reverse own, h') ∧ Edit cfg h hd tl cs own h' cs.reverse 0 := by
  unfold reverse
  rw [Prog.bind_run, dbgAssert_run (by simp [lst])]
  simp only [Out.bind_ok, hd', Bool.false_eq_true, if_false]
  split
  · rename_i hlt
    have : cs.reverse = cs := by
      match cs, hlt with
      | [], _ => rfl
      | [c], _ => rfl
      | _ :: _ :: _, h => simp [lst] at h; omega
    rw [this]
    exact ⟨h, rfl, Edit.refl hb r⟩
  · have r' : Rep cfg h hd tl ([] ++ (cs ++ [])) own := by simpa using r
    obtain ⟨m1, m2⟩ := r'.mid_chain
    simp only [headOf_nil] at m1 m2
    rw [hd'] at m1
    obtain ⟨h1, e1, e2, e3, e4⟩ := reverseLoop_ok (ps := []) hd' m1 (.singleton _) (by simpa using m2) (by
      intro a ha
      refine r.live ?_
      simp only [addrs, List.map_nil, List.nil_append] at ha
      simp only [nodes, List.mem_cons]
      exact .inr ha)
    simp only [List.append_nil, headOf_nil] at e1 e4
    have hh : hd ∉ addrs cs := by
      have := r.nodup
      simp only [nodes, List.nodup_cons, List.mem_append, not_or] at this
      exact this.1.1
    have ht : tl ∉ addrs cs := by
      have := r.nodup
      simp only [nodes, List.nodup_cons, List.nodup_append] at this
      exact fun h => this.2.2.2 tl h tl (by simp) rfl
    have lh : Live h1 (headOf tl cs.reverse) := by
      refine e2.live (r.live ?_)
      have := headOf_mem tl cs.reverse
      simp only [nodes, List.mem_cons, List.mem_append, addrs, List.map_reverse, List.mem_reverse, List.not_mem_nil, or_false] at this ⊢
      exact .inr this
    refine ⟨link false h1 hd (headOf tl cs.reverse), ?_, ?_, ?_⟩
    · simp only [Prog.bind_run, show (lst hd tl cs own).head = some hd from rfl, show (lst hd tl cs own).tail = some tl from rfl, r.getNext_hd, Out.bind_ok, e1]
      rw [setNext_run (e2.live r.vhd.live) lh, hd']
      simp [lst]
    · have nod : (nodes hd tl ([] ++ (cs.reverse ++ []))).Nodup := by
        have hp : (nodes hd tl cs.reverse).Perm (nodes hd tl cs) := by
          simp only [nodes, addrs, List.map_reverse]
          exact .cons _ (.append_right _ (List.reverse_perm _))
        rw [List.append_nil, List.nil_append, hp.nodup_iff]
        exact r.nodup
      have := Rep.replace (h' := link false h1 hd (headOf tl cs.reverse)) (ns := cs.reverse) (c1 := []) (c2 := []) r' ?_ ?_ ?_ ?_ ?_ nod
      · simpa using this
      · rw [hd']
        simp only [lastOf_nil, headOf_nil]
        obtain ⟨l, e⟩ := headOf_split tl cs.reverse
        rw [e]
        refine chain_join (l1 := []) (.singleton _) (by rw [← e]; exact e4) ?_
        rw [List.nil_append, ← e]
        simpa [nodes] using nod
      · intro a _; rw [link_info, e2.info]
      · intro a ha hne
        rw [link_nxt_ne (by simpa using hne)]
        refine e2.nxt a ?_
        simp only [nodes, List.append_nil, List.nil_append, List.map_nil, List.mem_cons, List.not_mem_nil, or_false] at ha
        rcases ha with rfl | rfl
        · exact hh
        · exact ht
      · intro a _ _
        show h1.prv a = h.prv a
        rw [e3]
      · intro c hc
        rw [IsElem, link_info, e2.info]
        exact r.cells c (by simpa using hc)
    · have t2 : Relink (hd :: addrs cs) h (link false h1 hd (headOf tl cs.reverse)) :=
        (e2.mono (fun a ha => by simp [ha])).trans
          ⟨rfl, rfl, rfl, rfl, rfl, rfl, fun a ha => link_nxt_ne (by rintro rfl; exact ha (by simp)), fun _ _ => rfl⟩
      refine (t2.step hb (l := nodes hd tl cs) ?_).congr (fun _ => Iff.rfl) (fun a => ?_)
      · intro a ha
        simp only [nodes, List.mem_cons, List.mem_append] at ha ⊢
        tauto
      · simp [nodes, addrs]

/-- reversal of a `List`: the virtual nodes change roles -/
theorem reverse_dbl (hb : Bal h) (r : Rep cfg h hd tl cs own) (hd' : cfg.dbl = true) :
    ∃ h', reverse cfg (lst hd tl cs own) h = .ok (lst tl hd cs.reverse own, h') ∧ Rep cfg h' tl hd cs.reverse own ∧
      Step h (nodes hd tl cs) h' (nodes tl hd cs.reverse) 0 := by
  have hch := r.chain
  rw [hd'] at hch
  obtain ⟨h1, e1, sw⟩ := reverseLoop2_ok (l := nodes hd tl cs) r.nodup (fun a ha => r.live ha)
    (List.IsChain.imp (fun _ _ hab => hab.1) hch) (by
      intro a ha
      have : a = tl := by
        rw [nodes, ← List.cons_append, List.getLast?_append] at ha
        simpa using ha.symm
      rw [this]; exact r.last) (by
      intro a ha
      rw [nodes] at ha hch
      rcases List.mem_cons.1 ha with rfl | ha
      · exact ⟨none, r.first hd'⟩
      · obtain ⟨u, v, e⟩ := List.append_of_mem ha
        rw [e, ← List.cons_append] at hch
        obtain ⟨w, z, hw⟩ : ∃ w z, hd :: u = w ++ [z] := ⟨(hd :: u).dropLast, (hd :: u).getLast (by simp), (List.dropLast_append_getLast _).symm⟩
        rw [hw, List.append_assoc] at hch
        exact ⟨some z, Chain.prv hch⟩)
  refine ⟨h1, ?_, ?_, ?_⟩
  · unfold reverse
    rw [Prog.bind_run, dbgAssert_run (by simp [lst])]
    simp only [Out.bind_ok, hd', if_true, Prog.bind_run, show (lst hd tl cs own).head = some hd from rfl, r.getNext_hd]
    have : (nodes hd tl cs).tail.head? = some (headOf tl cs) := by
      simp only [nodes, List.tail_cons]
      obtain ⟨l, e⟩ := headOf_split tl cs
      rw [e]; rfl
    rw [this] at e1
    rw [show (some hd : Ptr) = (nodes hd tl cs).head? from rfl, e1]
    simp [lst, nodes]
  · have mhd : hd ∈ nodes hd tl cs := by simp [nodes]
    have mtl : tl ∈ nodes hd tl cs := by simp [nodes]
    refine ⟨?_, ?_, ?_, ?_, ?_, ?_, ?_⟩
    · rw [nodes_reverse, List.nodup_reverse]; exact r.nodup
    · rw [nodes_reverse, Chain, List.isChain_reverse, hd']
      refine List.IsChain.imp_of_mem_imp ?_ hch
      intro a b ha hb hab
      exact ⟨by rw [sw.nxt b hb]; exact hab.2 rfl, fun _ => by rw [sw.prv a ha]; exact hab.1⟩
    · rw [IsVirt, sw.relink.info]; exact r.vtl
    · rw [IsVirt, sw.relink.info]; exact r.vhd
    · intro c hc; rw [IsElem, sw.relink.info]; exact r.cells c (by simpa using hc)
    · intro _; rw [sw.prv tl mtl]; exact r.last
    · rw [sw.nxt hd mhd]; exact r.first hd'
  · refine (sw.relink.step hb (l := nodes hd tl cs) (fun _ h => h)).congr (fun _ => Iff.rfl) (fun a => ?_)
    rw [nodes_reverse]; simp

/-! ## Consumption -/

theorem Rep.poke (r : Rep cfg h hd tl (c1 ++ c :: c2) own) (y : α) : Rep cfg (LL.poke cfg own h c.1 y) hd tl (c1 ++ (c.1, y) :: c2) own := by
  have e : nodes hd tl (c1 ++ (c.1, y) :: c2) = nodes hd tl (c1 ++ c :: c2) := by simp [nodes]
  have hne1 : hd ≠ c.1 := fun e => r.hd_not_after e.symm
  have hne2 : tl ≠ c.1 := fun e => r.head_ne_tl e.symm
  refine ⟨by rw [e]; exact r.nodup, by rw [e]; exact chain_frame r.chain (fun _ _ => ⟨rfl, rfl⟩), ?_, ?_, ?_, r.first, r.last⟩
  · rw [IsVirt, poke_info_ne hne1]; exact r.vhd
  · rw [IsVirt, poke_info_ne hne2]; exact r.vtl
  · intro d hd
    simp only [List.mem_append, List.mem_cons] at hd
    by_cases hdc : d = (c.1, y)
    · subst hdc; exact poke_info_same
    · have hm : d ∈ c1 ∨ d ∈ c2 := by tauto
      have hd1 : d.1 ≠ c.1 := by
        have hnod := r.nodup
        rw [nodes_append] at hnod
        rcases hm with hm | hm
        · exact (List.nodup_append.1 hnod).2.2 _ (List.mem_cons_of_mem _ (List.mem_map_of_mem hm)) c.1 (by simp)
        · intro e
          have := r.nodup_right
          simp only [addrs, List.map_cons, List.cons_append, List.nodup_cons] at this
          exact this.1 (by rw [← e]; exact List.mem_append_left _ (List.mem_map_of_mem hm))
      rw [IsElem, poke_info_ne hd1]
      exact r.cells d (by simp only [List.mem_append, List.mem_cons]; tauto)

theorem Rep.poke_edit (hb : Bal h) (r : Rep cfg h hd tl (c1 ++ c :: c2) own) (y : α) :
    Edit cfg h hd tl (c1 ++ c :: c2) own (LL.poke cfg own h c.1 y) (c1 ++ (c.1, y) :: c2) 0 := by
  refine ⟨r.poke y, ?_⟩
  have s := (step_poke (y := y) hb (r.elem_at (a := c.1) (x := c.2))).more (nodes hd tl (c1 ++ c :: c2))
  refine s.congr (fun a => ?_) (fun a => ?_)
  · simp [nodes]; tauto
  · simp [nodes]; tauto

theorem intoNext_ok (hb : Bal h) (r : Rep cfg h hd tl (c :: cs) own) :
    ∃ h', intoNext cfg (lst hd tl (c :: cs) own) h = .ok ((some c.2, lst hd tl cs own), h') ∧ Edit cfg h hd tl (c :: cs) own h' cs ⟨0, 1, 0⟩ := by
  have ed := Rep.poke_edit (c1 := []) hb r (cfg.mv c.2)
  obtain ⟨h', e1, e2⟩ := popFront_ok (c := (c.1, cfg.mv c.2)) ed.bal ed.rep
  refine ⟨h', ?_, (ed.trans e2).cost (by simp [Cost.zero_def])⟩
  unfold intoNext
  rw [if_pos (by simp [lst])]
  have gn : getNext (some hd) h = .ok (some c.1, h) := r.getNext_hd
  simp only [Prog.bind_run, show (lst hd tl (c :: cs) own).head = some hd from rfl, gn, Out.bind_ok,
    take_run (r.elem_at (c1 := []) (a := c.1) (x := c.2))]
  rw [lst_congr (cs' := (c.1, cfg.mv c.2) :: cs) (by simp), e1]
  rfl

theorem intoPrev_ok (hb : Bal h) (r : Rep cfg h hd tl (cs ++ [c]) own) (hd' : cfg.dbl = true) :
    ∃ h', intoPrev cfg (lst hd tl (cs ++ [c]) own) h = .ok ((some c.2, lst hd tl cs own), h') ∧ Edit cfg h hd tl (cs ++ [c]) own h' cs ⟨0, 1, 0⟩ := by
  have ed := Rep.poke_edit hb r (cfg.mv c.2)
  obtain ⟨h', e1, e2⟩ := popBack_ok (c := (c.1, cfg.mv c.2)) ed.bal ed.rep hd'
  refine ⟨h', ?_, (ed.trans e2).cost (by simp [Cost.zero_def])⟩
  unfold intoPrev
  rw [if_pos (by simp [lst])]
  have gn : getPrev (some tl) h = .ok (some c.1, h) := by simpa using r.getPrev_tl hd'
  simp only [Prog.bind_run, show (lst hd tl (cs ++ [c]) own).tail = some tl from rfl, gn, Out.bind_ok,
    take_run (r.elem_at (a := c.1) (x := c.2))]
  rw [lst_congr (cs' := cs ++ [(c.1, cfg.mv c.2)]) (by simp), e1]
  rfl

theorem drain_ok (hb : Bal h) (r : Rep cfg h hd tl cs own) (es : List End) (he : cfg.dbl = true ∨ ∀ e ∈ es, e = .front) :
    ∃ h', drain cfg (lst hd tl cs own) es h = .ok ((takes es (vals cs)).1, h') ∧ Step h (nodes hd tl cs) h' [] ⟨0, cs.length, 0⟩ := by
  induction es generalizing h cs with
  | nil =>
    obtain ⟨h', e1, e2⟩ := destruct_ok hb r
    refine ⟨h', ?_, e2⟩
    simp only [drain, Prog.bind_run, e1, Out.bind_ok]
    rfl
  | cons e es ih =>
    have he' : cfg.dbl = true ∨ ∀ e ∈ es, e = .front := he.imp id (fun h e he => h e (by simp [he]))
    match cs, r with
    | [], r =>
      obtain ⟨h', e1, e2⟩ := ih hb r he'
      refine ⟨h', ?_, e2⟩
      have e3 : intoNext cfg (lst hd tl ([] : Cells α) own) h = .ok ((none, lst hd tl ([] : Cells α) own), h) := by simp [intoNext, lst]
      have e4 : intoPrev cfg (lst hd tl ([] : Cells α) own) h = .ok ((none, lst hd tl ([] : Cells α) own), h) := by simp [intoPrev, lst]
      cases e with
      | front => simp only [drain, Prog.bind_run, e3, Out.bind_ok, e1]; simp [takes, take1]
      | back => simp only [drain, Prog.bind_run, e4, Out.bind_ok, e1]; simp [takes, take1]
    | c :: cs, r =>
      cases e with
      | front =>
        obtain ⟨h1, e1, ed⟩ := intoNext_ok hb r
        obtain ⟨h', e2, e3⟩ := ih ed.bal ed.rep he'
        refine ⟨h', ?_, (ed.step.trans e3).cost (by simp [Nat.add_comm])⟩
        simp only [drain, Prog.bind_run, e1, Out.bind_ok, e2]
        simp [takes, take1]
      | back =>
        have hd' : cfg.dbl = true := by
          rcases he with h | h
          · exact h
          · exact absurd (h .back (by simp)) (by simp)
        obtain ⟨cs', d, e⟩ : ∃ cs' d, c :: cs = cs' ++ [d] := ⟨(c :: cs).dropLast, (c :: cs).getLast (by simp), (List.dropLast_append_getLast _).symm⟩
        rw [e] at r ⊢
        obtain ⟨h1, e1, ed⟩ := intoPrev_ok hb r hd'
        obtain ⟨h', e2, e3⟩ := ih ed.bal ed.rep he'
        refine ⟨h', ?_, (ed.step.trans e3).cost (by simp [Nat.add_comm])⟩
        simp only [drain, Prog.bind_run, e1, Out.bind_ok, e2]
        simp [takes, take1]

end

end Verif.Proof.LL
