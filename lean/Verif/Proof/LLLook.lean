import Verif.Proof.LLSort
/-! # Linked lists: access, traversal, printing, removal by value -/
namespace Verif.Proof.LL
open Verif Verif.Model.LL
open Verif.Spec.LL (joinSeq)
open Verif.Spec (End takes take1)
open Verif.Proof.Mem (Cost)

variable {α β σ : Type} {cfg : Cfg α}

section
variable {h h' h'' : Heap α} {hd tl own o a b p : Nat} {cs c1 c2 mid ns : Cells α} {c : Nat × α} {x y : α} {k : Cost}

theorem Rep.load_cell (r : Rep cfg h hd tl cs own) (hc : c ∈ cs) : load (some c.1) h = .ok (c.2, h) := load_run (r.cells c hc)

theorem front_ok (r : Rep cfg h hd tl cs own) : front (lst hd tl cs own) h = .ok ((vals cs).head?, h) := by
  unfold front
  match cs, r with
  | [], r => rfl
  | c :: cs, r =>
    rw [if_neg (by simp [lst])]
    have g : getNext (some hd) h = .ok (some c.1, h) := r.getNext_hd
    simp only [Prog.bind_run, show (lst hd tl (c :: cs) own).head = some hd from rfl, g, Out.bind_ok, r.load_cell (c := c) (by simp)]
    rfl

theorem frontUnchecked_ok (r : Rep cfg h hd tl (c :: cs) own) : frontUnchecked (lst hd tl (c :: cs) own) h = .ok (c.2, h) := by
  have g : getNext (some hd) h = .ok (some c.1, h) := r.getNext_hd
  simp only [frontUnchecked, Prog.bind_run, show (lst hd tl (c :: cs) own).head = some hd from rfl, g, Out.bind_ok, r.load_cell (c := c) (by simp)]

theorem Rep.load_last (r : Rep cfg h hd tl (cs ++ [c]) own) (hd' : cfg.dbl = true) : getPrev (some tl) h = .ok (some c.1, h) := by
  simpa using r.getPrev_tl hd'

theorem back_ok (r : Rep cfg h hd tl cs own) (hd' : cfg.dbl = true) : back (lst hd tl cs own) h = .ok ((vals cs).getLast?, h) := by
  unfold back
  rcases List.eq_nil_or_concat cs with rfl | ⟨cs, c, rfl⟩
  · rfl
  · rw [List.concat_eq_append] at r ⊢
    rw [if_neg (by simp [lst])]
    simp only [Prog.bind_run, show (lst hd tl (cs ++ [c]) own).tail = some tl from rfl, r.load_last hd', Out.bind_ok, r.load_cell (c := c) (by simp)]
    simp

theorem backUnchecked_ok (r : Rep cfg h hd tl (cs ++ [c]) own) (hd' : cfg.dbl = true) :
    backUnchecked (lst hd tl (cs ++ [c]) own) h = .ok (c.2, h) := by
  simp only [backUnchecked, Prog.bind_run, show (lst hd tl (cs ++ [c]) own).tail = some tl from rfl, r.load_last hd', Out.bind_ok, r.load_cell (c := c) (by simp)]

/-- the const overload: the first element of a ForwardList, the last one of a List -/
theorem frontUncheckedConst_fwd (r : Rep cfg h hd tl (c :: cs) own) (hd' : cfg.dbl = false) :
    frontUncheckedConst cfg (lst hd tl (c :: cs) own) h = .ok (c.2, h) := by
  have g : getNext (some hd) h = .ok (some c.1, h) := r.getNext_hd
  simp only [frontUncheckedConst, hd', Bool.false_eq_true, if_false, Prog.bind_run, show (lst hd tl (c :: cs) own).head = some hd from rfl, g,
    Out.bind_ok, r.load_cell (c := c) (by simp)]

theorem frontUncheckedConst_dbl (r : Rep cfg h hd tl (cs ++ [c]) own) (hd' : cfg.dbl = true) :
    frontUncheckedConst cfg (lst hd tl (cs ++ [c]) own) h = .ok (c.2, h) := by
  simp only [frontUncheckedConst, hd', if_true, Prog.bind_run, show (lst hd tl (cs ++ [c]) own).tail = some tl from rfl, r.load_last hd',
    Out.bind_ok, r.load_cell (c := c) (by simp)]

/-! ## Traversal -/

theorem walk_ok (r : Rep cfg h hd tl (c1 ++ c2) own) (acc : List α) :
    walk (some tl) (some (headOf tl c2)) acc h = .ok (acc ++ vals c2, h) := by
  induction c2 generalizing c1 acc with
  | nil => rw [walk, headOf_nil, if_pos rfl]; simp
  | cons c c2 ih =>
    have hne : some c.1 ≠ some tl := by simpa using r.head_ne_tl
    rw [walk, headOf_cons, if_neg hne]
    simp only [Prog.bind_run, r.load_cell (c := c) (by simp), Out.bind_ok, r.getNext_cell]
    rw [ih r.cons_mid]
    simp

theorem traverse_ok (r : Rep cfg h hd tl cs own) : traverse (lst hd tl cs own) h = .ok (vals cs, h) := by
  simp only [traverse, Prog.bind_run, show (lst hd tl cs own).head = some hd from rfl, r.getNext_hd, Out.bind_ok]
  exact walk_ok (c1 := []) r []

theorem walkBack_ok (r : Rep cfg h hd tl (c1 ++ c2) own) (hd' : cfg.dbl = true) (acc : List α) :
    walkBack (some (headOf tl (c1 ++ c2))) (some (headOf tl c2)) acc h = .ok (acc ++ (vals c1).reverse, h) := by
  induction c1 using List.reverseRecOn generalizing c2 acc with
  | nil => rw [walkBack, List.nil_append, if_pos rfl]; simp
  | append_singleton c1 c ih =>
    have hne : some (headOf tl c2) ≠ some (headOf tl (c1 ++ [c] ++ c2)) := by
      rw [List.append_assoc] at r ⊢
      intro e
      have hn : (addrs (c1 ++ ([c] ++ c2)) ++ [tl]).Nodup := (List.nodup_cons.1 r.nodup).2
      have e2 : addrs (c1 ++ ([c] ++ c2)) ++ [tl] = addrs (c1 ++ [c]) ++ (addrs c2 ++ [tl]) := by simp
      rw [e2] at hn
      refine (List.nodup_append.1 hn).2.2 (headOf tl (c1 ++ ([c] ++ c2))) ?_ (headOf tl c2) (headOf_mem tl c2) ?_
      · cases c1 <;> simp
      · simpa using e.symm
    rw [walkBack, if_neg hne]
    have r' : Rep cfg h hd tl (c1 ++ c :: c2) own := by simpa using r
    have g : getPrev (some (headOf tl c2)) h = .ok (some c.1, h) := by simpa using r.getPrev_at hd'
    simp only [Prog.bind_run, g, Out.bind_ok, r'.load_cell (c := c) (by simp)]
    have := ih r' (acc ++ [c.2])
    simp only [headOf_cons] at this
    rw [show c1 ++ [c] ++ c2 = c1 ++ c :: c2 by simp, this]
    simp

theorem traverseBack_ok (r : Rep cfg h hd tl cs own) (hd' : cfg.dbl = true) : traverseBack (lst hd tl cs own) h = .ok ((vals cs).reverse, h) := by
  simp only [traverseBack, Prog.bind_run, show (lst hd tl cs own).head = some hd from rfl, r.getNext_hd, Out.bind_ok]
  have := walkBack_ok (c1 := cs) (c2 := []) (by simpa using r) hd' []
  simpa [lst] using this

theorem traverseRev_nil (r : Rep cfg h hd tl [] own) (hd' : cfg.dbl = true) : traverseRev (lst hd tl ([] : Cells α) own) h = .ok ([], h) := by
  simp only [traverseRev, Prog.bind_run, show (lst hd tl ([] : Cells α) own).tail = some tl from rfl,
    show (lst hd tl ([] : Cells α) own).head = some hd from rfl, r.getPrev_tl hd', Out.bind_ok, lastOf_nil]
  rw [walkRev, if_pos rfl]
  rfl

/-- `n` requests on the borrowing iterator -/
theorem takes_ok (r : Rep cfg h hd tl (c1 ++ (mid ++ c2)) own) (es : List End) (he : cfg.dbl = true ∨ ∀ e ∈ es, e = .front) :
    Iter.takes ⟨some (headOf tl (mid ++ c2)), some (headOf tl c2)⟩ es h = .ok ((takes es (vals mid)).1, h) := by
  induction es generalizing c1 mid c2 with
  | nil => rfl
  | cons e es ih =>
    have he' : cfg.dbl = true ∨ ∀ e ∈ es, e = .front := he.imp id (fun h e he => h e (by simp [he]))
    match mid, r with
    | [], r =>
      have := ih (mid := []) r he'
      simp only [List.nil_append] at this ⊢
      cases e <;> simp [Iter.takes, Iter.next, Iter.prev, Prog.bind_run, this, takes, take1]
    | c :: mid, r =>
      have hne : some c.1 ≠ some (headOf tl c2) := by
        intro e
        have hn : (addrs (c1 ++ (c :: mid ++ c2)) ++ [tl]).Nodup := (List.nodup_cons.1 r.nodup).2
        have e2 : addrs (c1 ++ (c :: mid ++ c2)) ++ [tl] = addrs (c1 ++ c :: mid) ++ (addrs c2 ++ [tl]) := by simp
        rw [e2] at hn
        exact (List.nodup_append.1 hn).2.2 c.1 (by simp) (headOf tl c2) (headOf_mem tl c2) (by simpa using e)
      cases e with
      | front =>
        have r1 : Rep cfg h hd tl ((c1 ++ [c]) ++ (mid ++ c2)) own := by simpa using r
        have r2 : Rep cfg h hd tl (c1 ++ c :: (mid ++ c2)) own := by simpa using r
        have := ih r1 he'
        simp only [Iter.takes, Iter.next, Prog.bind_run, List.cons_append, headOf_cons, ne_eq, hne, not_false_eq_true, if_true,
          r2.load_cell (c := c) (by simp), Out.bind_ok, r2.getNext_cell, Prog.pure_run, this]
        simp [takes, take1]
      | back =>
        have hd' : cfg.dbl = true := by
          rcases he with h | h
          · exact h
          · exact absurd (h .back (by simp)) (by simp)
        obtain ⟨m', d, e⟩ : ∃ m' d, c :: mid = m' ++ [d] := ⟨(c :: mid).dropLast, (c :: mid).getLast (by simp), (List.dropLast_append_getLast _).symm⟩
        have hh : some (headOf tl (c :: mid ++ c2)) ≠ some (headOf tl c2) := hne
        rw [e] at r hh ⊢
        have r1 : Rep cfg h hd tl (c1 ++ (m' ++ (d :: c2))) own := by simpa using r
        have r2 : Rep cfg h hd tl ((c1 ++ m') ++ d :: c2) own := by simpa using r
        have r3 : Rep cfg h hd tl ((c1 ++ (m' ++ [d])) ++ c2) own := by simpa using r
        have := ih r1 he'
        have g : getPrev (some (headOf tl c2)) h = .ok (some d.1, h) := by simpa using r3.getPrev_at hd'
        rw [headOf_cons, show m' ++ d :: c2 = m' ++ [d] ++ c2 by simp] at this
        simp only [Iter.takes, Iter.prev, Prog.bind_run, ne_eq, hh.symm, not_false_eq_true, if_true, g, Out.bind_ok,
          r2.load_cell (c := d) (by simp), Prog.pure_run, this]
        simp [takes, take1]

theorem iter_ok (r : Rep cfg h hd tl cs own) (es : List End) (he : cfg.dbl = true ∨ ∀ e ∈ es, e = .front) :
    (do let it ← iter (lst hd tl cs own); let rs ← it.takes es; return rs : M α _) h = .ok ((takes es (vals cs)).1, h) := by
  have := takes_ok (c1 := []) (mid := cs) (c2 := []) (by simpa using r) es he
  simp only [List.append_nil, headOf_nil] at this
  simp only [iter, Prog.bind_run, show (lst hd tl cs own).head = some hd from rfl, show (lst hd tl cs own).tail = some tl from rfl, r.getNext_hd,
    Out.bind_ok, Prog.pure_run, this]

/-! ## Printing -/

theorem printLoop_ok (shw : α → String) (r : Rep cfg h hd tl (c1 ++ c2) own) (out : String) :
    printLoop shw (c1 ++ c2).length (some tl) (some (headOf tl c2)) c1.length out h = .ok (out ++ joinSeq ((vals c2).map shw), h) := by
  induction c2 generalizing c1 out with
  | nil => rw [printLoop, headOf_nil, if_pos rfl]; simp [joinSeq]
  | cons c c2 ih =>
    have hne : some c.1 ≠ some tl := by simpa using r.head_ne_tl
    rw [printLoop, headOf_cons, if_neg hne]
    simp only [Prog.bind_run, r.load_cell (c := c) (by simp), Out.bind_ok, r.getNext_cell]
    have := ih r.cons_mid (if c1.length ≠ dec (c1 ++ c :: c2).length then out ++ shw c.2 ++ ", " else out ++ shw c.2)
    rw [show c1 ++ c :: c2 = (c1 ++ [c]) ++ c2 by simp, show c1.length + 1 = (c1 ++ [c]).length by simp]
    rw [show c1 ++ c :: c2 = (c1 ++ [c]) ++ c2 by simp] at this
    rw [this]
    cases c2 with
    | nil => simp [dec, joinSeq]
    | cons d c2 =>
      have : c1.length ≠ dec (c1 ++ [c] ++ d :: c2).length := by
        have : (c1 ++ [c] ++ d :: c2).length = (c1.length + 1 + c2.length) + 1 := by simp; omega
        rw [this, dec_length]; omega
      rw [if_pos this]
      simp [joinSeq, String.append_assoc]

theorem print_ok (shw : α → String) (r : Rep cfg h hd tl cs own) :
    print cfg shw (lst hd tl cs own) h =
      .ok ((if cfg.dbl then "List [" else "ForwardList [") ++ joinSeq ((vals cs).map shw) ++ "]", h) := by
  have := printLoop_ok (c1 := []) shw r (if cfg.dbl then "List [" else "ForwardList [")
  simp only [List.nil_append, List.length_nil] at this
  simp only [print, Prog.bind_run, show (lst hd tl cs own).head = some hd from rfl, show (lst hd tl cs own).tail = some tl from rfl,
    show (lst hd tl cs own).len = cs.length from rfl, r.getNext_hd, Out.bind_ok, this]
  rfl

/-! ## Access by position -/

theorem get_ok (r : Rep cfg h hd tl (c1 ++ c :: c2) own) :
    (do let it ← iterAt (lst hd tl (c1 ++ c :: c2) own) (c1.length + 1); load it) h = .ok (c.2, h) := by
  simp only [Prog.bind_run, iterAt_next r, headOf_cons, Out.bind_ok, r.load_cell (c := c) (by simp)]

theorem set_ok (r : Rep cfg h hd tl (c1 ++ c :: c2) own) (y : α) :
    (do let it ← iterAt (lst hd tl (c1 ++ c :: c2) own) (c1.length + 1); store it y) h = .ok ((), poke cfg own h c.1 y) := by
  simp only [Prog.bind_run, iterAt_next r, headOf_cons, Out.bind_ok, store_run (r.elem_at (a := c.1) (x := c.2))]

/-! ## Removal of a value given by reference -/

theorem gone_sub (f : σ → α → Bool × σ) (s : σ) (cs : Cells α) : (goneOf f s cs).Sublist cs := by
  induction cs generalizing s with
  | nil => exact .refl _
  | cons c cs ih => simp only [goneOf]; split <;> [exact .cons_cons _ (ih _); exact .cons _ (ih _)]

theorem kept_sub (f : σ → α → Bool × σ) (s : σ) (cs : Cells α) : (keptOf f s cs).Sublist cs := by
  induction cs generalizing s with
  | nil => exact .refl _
  | cons c cs ih => simp only [keptOf]; split <;> [exact .cons _ (ih _); exact .cons_cons _ (ih _)]

theorem gone_pure (p : α → Bool) (cs : Cells α) : goneOf (fun (_ : Unit) y => (p y, ())) () cs = cs.filter fun c => p c.2 := by
  induction cs with
  | nil => rfl
  | cons c cs ih => simp only [goneOf, List.filter_cons, ih]

theorem kept_pure (p : α → Bool) (cs : Cells α) : keptOf (fun (_ : Unit) y => (p y, ())) () cs = cs.filter fun c => !p c.2 := by
  induction cs with
  | nil => rfl
  | cons c cs ih => simp only [keptOf, List.filter_cons, ih]; cases p c.2 <;> rfl

theorem vals_filter (p : α → Bool) (cs : Cells α) : vals (cs.filter fun c => p c.2) = (vals cs).filter p := by
  rw [vals, vals, List.filter_map]; rfl

theorem removeIf_pure (hb : Bal h) (r : Rep cfg h hd tl cs own) (p : α → Bool) :
    ∃ h', removeIf cfg (lst hd tl cs own) (fun (_ : Unit) x => return (p x, ())) () h =
        .ok ((lst hd tl (cs.filter fun c => !p c.2) own, (cs.filter fun c => p c.2).length, ()), h') ∧
      Edit cfg h hd tl cs own h' (cs.filter fun c => !p c.2) ⟨0, (cs.filter fun c => p c.2).length, 0⟩ := by
  have := removeIf_ok hb r (fun (_ : Unit) x => return (p x, ())) (fun (_ : Unit) y => (p y, ())) () (fun _ _ _ _ _ _ => rfl)
  rwa [gone_pure, kept_pure] at this

/-- the referenced node is not released before the predicate is last evaluated -/
def Outlives (eq : α → α → Bool) (x : α) (cs : Cells α) : Ref α → Prop
  | .tmp _ => True
  | .node p => ∀ u c v, cs = u ++ c :: v → p = some c.1 → v = [] ∨ eq x c.2 = false

theorem remove_ok (hb : Bal h) (r : Rep cfg h hd tl cs own) (eq : α → α → Bool) {ref : Ref α} (hr : RefIs cfg ref x h)
    (ho : Outlives eq x cs ref) :
    ∃ h', remove cfg eq (lst hd tl cs own) ref h =
        .ok ((lst hd tl (cs.filter fun c => !eq x c.2) own, (cs.filter fun c => eq x c.2).length), h') ∧
      Edit cfg h hd tl cs own h' (cs.filter fun c => !eq x c.2) ⟨0, (cs.filter fun c => eq x c.2).length, 0⟩ := by
  have := removeIf_ok hb r (fun (_ : Unit) y => do
    let v ← deref ref
    return (eq v y, ())) (fun (_ : Unit) y => (eq x y, ())) () (by
      intro u c v hu h' hi
      have hr' : RefIs cfg ref x h' := by
        cases ref with
        | tmp y => exact hr
        | node p =>
          obtain ⟨a, o, rfl, ea⟩ := hr
          refine ⟨a, o, rfl, ?_⟩
          rw [IsElem, hi a ea.live]
          · exact ea
          · intro hm
            rw [gone_pure] at hm
            obtain ⟨d, hd1, rfl⟩ := List.mem_map.1 hm
            simp only [List.mem_filter] at hd1
            obtain ⟨u1, u2, rfl⟩ := List.append_of_mem hd1.1
            rcases ho u1 d (u2 ++ c :: v) (by rw [hu]; simp) rfl with h1 | h1
            · simp at h1
            · rw [hd1.2] at h1; cases h1
      simp only [Prog.bind_run, hr'.deref, Out.bind_ok]
      rfl)
  rw [gone_pure, kept_pure] at this
  obtain ⟨h', e1, e2⟩ := this
  refine ⟨h', ?_, e2⟩
  simp only [remove, Prog.bind_run, e1, Out.bind_ok]
  rfl

end

end Verif.Proof.LL
