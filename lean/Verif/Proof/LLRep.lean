import Verif.Proof.LLBase
/-! # Linked lists: a list in memory -/
namespace Verif.Proof.LL
open Verif Verif.Model.LL
open Verif.Proof.Mem (Cost)

variable {α β σ : Type} {cfg : Cfg α}

/-- element nodes with their values -/
abbrev Cells (α : Type) := List (Nat × α)

abbrev addrs (cs : Cells α) : List Nat := cs.map Prod.fst
abbrev vals (cs : Cells α) : List α := cs.map Prod.snd

def nodes (hd tl : Nat) (cs : Cells α) : List Nat := hd :: (addrs cs ++ [tl])

/-- last node of `hd, cs` -/
def lastOf (hd : Nat) : Cells α → Nat
  | [] => hd
  | c :: cs => lastOf c.1 cs

/-- first node of `cs, tl` -/
def headOf (tl : Nat) : Cells α → Nat
  | [] => tl
  | c :: _ => c.1

@[simp] theorem lastOf_nil (hd : Nat) : lastOf hd ([] : Cells α) = hd := rfl
@[simp] theorem lastOf_cons (hd : Nat) (c : Nat × α) (cs : Cells α) : lastOf hd (c :: cs) = lastOf c.1 cs := rfl
@[simp] theorem headOf_nil (tl : Nat) : headOf tl ([] : Cells α) = tl := rfl
@[simp] theorem headOf_cons (tl : Nat) (c : Nat × α) (cs : Cells α) : headOf tl (c :: cs) = c.1 := rfl
@[simp] theorem lastOf_append (hd : Nat) (c1 c2 : Cells α) : lastOf hd (c1 ++ c2) = lastOf (lastOf hd c1) c2 := by
  induction c1 generalizing hd with
  | nil => rfl
  | cons c cs ih => exact ih c.1
theorem headOf_append (tl : Nat) (c1 c2 : Cells α) : headOf tl (c1 ++ c2) = headOf (headOf tl c2) c1 := by cases c1 <;> rfl

theorem lastOf_split (hd : Nat) (cs : Cells α) : ∃ l, hd :: addrs cs = l ++ [lastOf hd cs] := by
  induction cs generalizing hd with
  | nil => exact ⟨[], rfl⟩
  | cons c cs ih => obtain ⟨l, hl⟩ := ih c.1; exact ⟨hd :: l, by simpa using hl⟩

theorem headOf_split (tl : Nat) (cs : Cells α) : ∃ l, addrs cs ++ [tl] = headOf tl cs :: l := by
  cases cs with
  | nil => exact ⟨[], rfl⟩
  | cons c cs => exact ⟨addrs cs ++ [tl], rfl⟩

theorem lastOf_mem (hd : Nat) (cs : Cells α) : lastOf hd cs ∈ hd :: addrs cs := by
  obtain ⟨l, hl⟩ := lastOf_split hd cs; rw [hl]; simp
theorem headOf_mem (tl : Nat) (cs : Cells α) : headOf tl cs ∈ addrs cs ++ [tl] := by
  obtain ⟨l, hl⟩ := headOf_split tl cs; rw [hl]; simp

/-- The list with virtual nodes `hd`, `tl` and element nodes `cs`, all from allocator `own`, is in the heap. -/
structure Rep (cfg : Cfg α) (h : Heap α) (hd tl : Nat) (cs : Cells α) (own : Nat) : Prop where
  nodup : (nodes hd tl cs).Nodup
  chain : Chain cfg.dbl h (nodes hd tl cs)
  vhd : IsVirt cfg own h hd
  vtl : IsVirt cfg own h tl
  cells : ∀ c ∈ cs, IsElem cfg own h c.1 c.2
  first : cfg.dbl = true → h.prv hd = some none
  last : h.nxt tl = some none

/-- the fields of such a list -/
def lst (hd tl : Nat) (cs : Cells α) (own : Nat) : Lst := ⟨some hd, some tl, cs.length, own⟩

theorem nodes_append (hd tl : Nat) (c1 c2 : Cells α) : nodes hd tl (c1 ++ c2) = (hd :: addrs c1) ++ (addrs c2 ++ [tl]) := by
  simp [nodes]

section
variable {h h' h'' : Heap α} {hd tl own a b : Nat} {cs c1 c2 mid ns : Cells α} {x : α} {k : Cost}

theorem mem_nodes : a ∈ nodes hd tl cs ↔ a = hd ∨ a ∈ addrs cs ∨ a = tl := by simp [nodes]

theorem Rep.live (r : Rep cfg h hd tl cs own) (ha : a ∈ nodes hd tl cs) : Live h a := by
  rw [mem_nodes] at ha
  rcases ha with rfl | ha | rfl
  · exact r.vhd.live
  · obtain ⟨c, hc, rfl⟩ := List.mem_map.1 ha; exact (r.cells c hc).live
  · exact r.vtl.live

/-- the link in the middle of a chain -/
theorem chain_mid {d : Bool} (hc : Chain d h (nodes hd tl (c1 ++ c2))) :
    Chain d h (hd :: addrs c1) ∧ Chain d h (addrs c2 ++ [tl]) ∧ Linked d h (lastOf hd c1) (headOf tl c2) := by
  obtain ⟨l1, h1⟩ := lastOf_split hd c1
  obtain ⟨l2, h2⟩ := headOf_split tl c2
  rw [nodes_append, h1, h2] at hc
  rw [h1, h2]
  rw [List.append_assoc, List.singleton_append] at hc
  have := List.isChain_append_cons_cons.1 hc
  exact ⟨this.1, this.2.2, this.2.1⟩

theorem chain_mid_iff {d : Bool} : Chain d h (nodes hd tl (c1 ++ c2)) ↔
    Chain d h (hd :: addrs c1) ∧ Chain d h (addrs c2 ++ [tl]) ∧ Linked d h (lastOf hd c1) (headOf tl c2) := by
  refine ⟨chain_mid, ?_⟩
  obtain ⟨l1, h1⟩ := lastOf_split hd c1
  obtain ⟨l2, h2⟩ := headOf_split tl c2
  rw [nodes_append, h1, h2]
  rw [List.append_assoc, List.singleton_append]
  rintro ⟨a, b, c⟩
  exact List.isChain_append_cons_cons.2 ⟨a, c, b⟩

theorem Rep.nxt_at (r : Rep cfg h hd tl (c1 ++ c2) own) : h.nxt (lastOf hd c1) = some (some (headOf tl c2)) := (chain_mid r.chain).2.2.1
theorem Rep.prv_at (r : Rep cfg h hd tl (c1 ++ c2) own) (hd' : cfg.dbl = true) : h.prv (headOf tl c2) = some (some (lastOf hd c1)) :=
  (chain_mid r.chain).2.2.2 hd'

theorem Rep.live_lastOf (r : Rep cfg h hd tl (c1 ++ c2) own) : Live h (lastOf hd c1) := by
  apply r.live; rw [nodes_append]; exact List.mem_append_left _ (lastOf_mem _ _)
theorem Rep.live_headOf (r : Rep cfg h hd tl (c1 ++ c2) own) : Live h (headOf tl c2) := by
  apply r.live; rw [nodes_append]; exact List.mem_append_right _ (headOf_mem _ _)

theorem Rep.getNext_at (r : Rep cfg h hd tl (c1 ++ c2) own) : getNext (some (lastOf hd c1)) h = .ok (some (headOf tl c2), h) :=
  getNext_run r.live_lastOf r.nxt_at
theorem Rep.getPrev_at (r : Rep cfg h hd tl (c1 ++ c2) own) (hd' : cfg.dbl = true) :
    getPrev (some (headOf tl c2)) h = .ok (some (lastOf hd c1), h) :=
  getPrev_run r.live_headOf (r.prv_at hd')

theorem Rep.elem_at (r : Rep cfg h hd tl (c1 ++ (a, x) :: c2) own) : IsElem cfg own h a x := r.cells (a, x) (by simp)

theorem Rep.getNext_hd (r : Rep cfg h hd tl cs own) : getNext (some hd) h = .ok (some (headOf tl cs), h) :=
  Rep.getNext_at (c1 := []) r
theorem Rep.getPrev_tl (r : Rep cfg h hd tl cs own) (hd' : cfg.dbl = true) : getPrev (some tl) h = .ok (some (lastOf hd cs), h) :=
  Rep.getPrev_at (c1 := cs) (c2 := []) (by simpa using r) hd'

theorem Rep.getNext_cell {c : Nat × α} (r : Rep cfg h hd tl (c1 ++ c :: c2) own) : getNext (some c.1) h = .ok (some (headOf tl c2), h) := by
  have := Rep.getNext_at (c1 := c1 ++ [c]) (c2 := c2) (by simpa using r)
  simpa using this
theorem Rep.getPrev_cell {c : Nat × α} (r : Rep cfg h hd tl (c1 ++ c :: c2) own) (hd' : cfg.dbl = true) :
    getPrev (some c.1) h = .ok (some (lastOf hd c1), h) :=
  Rep.getPrev_at (c1 := c1) (c2 := c :: c2) r hd'

theorem Rep.hd_ne_tl (r : Rep cfg h hd tl cs own) : hd ≠ tl := by
  have := r.nodup; simp [nodes] at this; tauto

theorem Rep.frame (r : Rep cfg h hd tl cs own)
    (hf : ∀ a ∈ nodes hd tl cs, h'.info a = h.info a ∧ h'.nxt a = h.nxt a ∧ h'.prv a = h.prv a) : Rep cfg h' hd tl cs own := by
  have hh := hf hd (by simp [nodes])
  have ht := hf tl (by simp [nodes])
  refine ⟨r.nodup, chain_frame r.chain fun a ha => (hf a ha).2, ?_, ?_, ?_, ?_, ?_⟩
  · rw [IsVirt, hh.1]; exact r.vhd
  · rw [IsVirt, ht.1]; exact r.vtl
  · intro c hc; rw [IsElem, (hf c.1 (by rw [mem_nodes]; exact .inr (.inl (List.mem_map_of_mem hc)))).1]; exact r.cells c hc
  · intro d; rw [hh.2.2]; exact r.first d
  · rw [ht.2.1]; exact r.last

/-- a list none of whose nodes is owned by a step is not affected -/
theorem Rep.step {l l' : List Nat} (r : Rep cfg h hd tl cs own) (s : Step h l h' l' k) (hd' : ∀ a ∈ nodes hd tl cs, a ∉ l) :
    Rep cfg h' hd tl cs own :=
  r.frame fun a ha => by
    have hl := r.live ha
    exact ⟨(s.live (hd' a ha) hl).2.2, s.keep a (hd' a ha) hl⟩

/-- Replacing the cells between `c1` and `c2`. -/
theorem Rep.replace (r : Rep cfg h hd tl (c1 ++ (mid ++ c2)) own)
    (hc : Chain cfg.dbl h' (lastOf hd c1 :: (addrs ns ++ [headOf tl c2])))
    (hi : ∀ a ∈ nodes hd tl (c1 ++ c2), h'.info a = h.info a)
    (hn : ∀ a ∈ nodes hd tl (c1 ++ c2), a ≠ lastOf hd c1 → h'.nxt a = h.nxt a)
    (hp : ∀ a ∈ nodes hd tl (c1 ++ c2), a ≠ headOf tl c2 → h'.prv a = h.prv a)
    (he : ∀ c ∈ ns, IsElem cfg own h' c.1 c.2) (hd' : (nodes hd tl (c1 ++ (ns ++ c2))).Nodup) :
    Rep cfg h' hd tl (c1 ++ (ns ++ c2)) own := by
  have hnod := r.nodup
  have hne : tl ≠ lastOf hd c1 := by
    intro e
    rw [nodes_append] at hnod
    have := (List.nodup_append.1 hnod).2.2 _ (lastOf_mem hd c1) tl (by simp)
    exact this e.symm
  have hne2 : hd ≠ headOf tl c2 := by
    intro e
    have h1 : hd ∉ addrs (mid ++ c2) ++ [tl] := by
      intro hm
      rw [nodes_append] at hnod
      exact (List.nodup_append.1 hnod).2.2 hd (by simp) hd hm rfl
    have h2 := headOf_mem tl c2
    rw [← e] at h2
    apply h1
    simp only [addrs, List.map_append, List.append_assoc] at h2 ⊢
    exact List.mem_append_right _ h2
  have mhd : hd ∈ nodes hd tl (c1 ++ c2) := by simp [nodes]
  have mtl : tl ∈ nodes hd tl (c1 ++ c2) := by simp [nodes]
  have mc1 : ∀ a, a ∈ hd :: addrs c1 → a ∈ nodes hd tl (c1 ++ c2) := fun a ha => by rw [nodes_append]; exact List.mem_append_left _ ha
  have mc2 : ∀ a, a ∈ addrs c2 ++ [tl] → a ∈ nodes hd tl (c1 ++ c2) := fun a ha => by rw [nodes_append]; exact List.mem_append_right _ ha
  obtain ⟨q1, q2, _⟩ := chain_mid r.chain
  have q3 : Chain cfg.dbl h (addrs c2 ++ [tl]) := by
    have : addrs (mid ++ c2) ++ [tl] = addrs mid ++ (addrs c2 ++ [tl]) := by simp
    rw [this] at q2
    exact Chain.right q2
  -- what is before
  have e1 : Chain cfg.dbl h' (hd :: addrs c1) := by
    obtain ⟨l, hl⟩ := lastOf_split hd c1
    refine chain_imp q1 ?_ ?_
    · intro a ha
      apply hn a (mc1 a (List.dropLast_subset _ ha))
      rintro rfl
      rw [hl, List.dropLast_concat] at ha
      rw [nodes_append, hl, List.append_assoc] at hnod
      have := (List.nodup_append.1 hnod).2.2 _ ha (lastOf hd c1) (by simp)
      exact this rfl
    · intro a ha
      apply hp a (mc1 a (List.mem_of_mem_tail ha))
      rintro rfl
      rw [nodes_append] at hnod
      refine (List.nodup_append.1 hnod).2.2 _ (List.mem_of_mem_tail ha) (headOf tl c2) ?_ rfl
      have := headOf_mem tl c2
      simp only [addrs, List.map_append, List.append_assoc] at this ⊢
      exact List.mem_append_right _ this
  have e2 : Chain cfg.dbl h' (addrs c2 ++ [tl]) := by
    obtain ⟨l, hl⟩ := headOf_split tl c2
    refine chain_imp q3 ?_ ?_
    · intro a ha
      apply hn a (mc2 a (List.dropLast_subset _ ha))
      rintro rfl
      rw [nodes_append] at hnod
      refine (List.nodup_append.1 hnod).2.2 _ (lastOf_mem hd c1) (lastOf hd c1) ?_ rfl
      have := List.dropLast_subset _ ha
      simp only [addrs, List.map_append, List.append_assoc] at this ⊢
      exact List.mem_append_right _ this
    · intro a ha
      apply hp a (mc2 a (List.mem_of_mem_tail ha))
      rintro rfl
      rw [hl] at ha
      have : (headOf tl c2 :: l).Nodup := by
        rw [← hl]
        rw [nodes_append] at hnod
        have := (List.nodup_append.1 hnod).2.1
        rw [show addrs (mid ++ c2) ++ [tl] = addrs mid ++ (addrs c2 ++ [tl]) by simp] at this
        exact (List.nodup_append.1 this).2.1
      exact (List.nodup_cons.1 this).1 ha
  refine ⟨hd', ?_, ?_, ?_, ?_, ?_, ?_⟩
  · obtain ⟨l1, h1⟩ := lastOf_split hd c1
    obtain ⟨l2, h2⟩ := headOf_split tl c2
    rw [h1] at e1
    rw [h2] at e2
    rw [nodes_append, h1, show addrs (ns ++ c2) ++ [tl] = addrs ns ++ (addrs c2 ++ [tl]) by simp, h2, List.append_assoc, List.singleton_append]
    rw [Chain, List.isChain_split]
    refine ⟨e1, ?_⟩
    rw [← List.cons_append, List.isChain_split]
    exact ⟨hc, e2⟩
  · rw [IsVirt, hi hd mhd]; exact r.vhd
  · rw [IsVirt, hi tl mtl]; exact r.vtl
  · intro c hc
    simp only [List.mem_append] at hc
    rcases hc with hc | hc | hc
    · rw [IsElem, hi c.1 (mc1 _ (by simp only [List.mem_cons]; exact .inr (List.mem_map_of_mem hc)))]; exact r.cells c (by simp [hc])
    · exact he c hc
    · rw [IsElem, hi c.1 (mc2 _ (by simp only [List.mem_append]; exact .inl (List.mem_map_of_mem hc)))]; exact r.cells c (by simp [hc])
  · intro d; rw [hp hd mhd hne2]; exact r.first d
  · rw [hn tl mtl hne]; exact r.last

end

end Verif.Proof.LL
