import Verif.Proof.LLLook
/-! # Linked lists: the world invariant -/
namespace Verif.Proof.LL
open Verif Verif.Model.LL
open Verif.Spec.LL hiding sorted
open Verif.Proof.Mem (Cost)

variable {α β σ : Type} {cfg : Cfg α}

/-- A list object: virtual nodes and cells, or nothing when moved from. -/
structure Obj (α : Type) where
  body : Option (Nat × Nat × Cells α)
  alloc : Nat

def Obj.fields (o : Obj α) : Lst :=
  match o.body with
  | none => ⟨none, none, 0, o.alloc⟩
  | some (hd, tl, cs) => lst hd tl cs o.alloc

def Obj.nodes (o : Obj α) : List Nat :=
  match o.body with
  | none => []
  | some (hd, tl, cs) => LL.nodes hd tl cs

def Obj.Ok (cfg : Cfg α) (h : Heap α) (o : Obj α) : Prop :=
  match o.body with
  | none => True
  | some (hd, tl, cs) => Rep cfg h hd tl cs o.alloc

def Obj.value (o : Obj α) : Var α := ⟨o.body.map fun b => vals b.2.2, o.alloc⟩

/-- a list that has not been moved from -/
abbrev full (hd tl : Nat) (cs : Cells α) (own : Nat) : Obj α := ⟨some (hd, tl, cs), own⟩
abbrev huskObj (own : Nat) : Obj α := ⟨none, own⟩

abbrev Ghost (α : Type) := Nat → Option (Obj α)

def onodes : Option (Obj α) → List Nat
  | none => []
  | some o => o.nodes

@[simp] theorem onodes_full {hd tl own : Nat} {cs : Cells α} : onodes (some (full hd tl cs own)) = nodes hd tl cs := rfl
@[simp] theorem onodes_husk {own : Nat} : onodes (some (huskObj own : Obj α)) = [] := rfl
@[simp] theorem onodes_none : onodes (none : Option (Obj α)) = [] := rfl

def cput (C : Ghost α) (i : Nat) (o : Option (Obj α)) : Ghost α := fun j => if j = i then o else C j

@[simp] theorem cput_same (C : Ghost α) (i : Nat) (o : Option (Obj α)) : cput C i o i = o := by simp [cput]
theorem cput_ne (C : Ghost α) {i j : Nat} (o : Option (Obj α)) (h : j ≠ i) : cput C i o j = C j := by simp [cput, h]

/-- the ideal values of the list variables -/
def ideal (C : Ghost α) : Ideal α := fun i => (C i).map Obj.value

theorem ideal_put (C : Ghost α) (i : Nat) (o : Option (Obj α)) : ideal (cput C i o) = put (ideal C) i (o.map Obj.value) := by
  funext j
  simp only [ideal, cput, put]
  split <;> rfl

/-- Nodes in memory that belong to no list any more, with what they hold. -/
abbrev LostNodes (α : Type) := Nat → Option (Info α)

/-- The lists are as the ghost state says, and every other node in memory is one of the lost ones. -/
structure InvL (cfg : Cfg α) (L : LostNodes α) (C : Ghost α) (w : World α) : Prop where
  vars : ∀ i, w.vars i = (C i).map Obj.fields
  ok : ∀ i o, C i = some o → o.Ok cfg w.heap
  sep : ∀ i j, i ≠ j → ∀ a ∈ onodes (C i), a ∉ onodes (C j)
  kept : ∀ a, Live w.heap a → (∃ i, a ∈ onodes (C i)) ∨ L a ≠ none
  bal : Bal w.heap
  lost : ∀ a nd, L a = some nd → w.heap.info a = some nd ∧ ∀ i, a ∉ onodes (C i)

/-- The same when nothing is lost. -/
abbrev Inv (cfg : Cfg α) (C : Ghost α) (w : World α) : Prop := InvL cfg (fun _ => none) C w

theorem Inv.cover {C : Ghost α} {w : World α} (I : Inv cfg C w) (a : Nat) (h : Live w.heap a) : ∃ i, a ∈ onodes (C i) :=
  (I.kept a h).resolve_right fun h => h rfl

theorem inv_init : Inv cfg (fun _ => none) ({} : World α) :=
  ⟨fun _ => rfl, fun _ _ h => (by cases h), fun _ _ _ _ h => (by cases h), fun a h => absurd rfl h, bal_init, fun _ _ h => (by cases h)⟩

section
variable {L : LostNodes α} {C C' : Ghost α} {w w' : World α} {h h' : Heap α} {k : Cost} {i j hd tl hd2 tl2 own : Nat} {cs cs' ds : Cells α} {x : α}

theorem Obj.Ok.live {o : Obj α} (ok : o.Ok cfg h) {a : Nat} (ha : a ∈ o.nodes) : Live h a := by
  obtain ⟨b, al⟩ := o
  cases b with
  | none => cases ha
  | some b => exact Rep.live ok ha

theorem Obj.Ok.step {o : Obj α} (ok : o.Ok cfg h) {l l' : List Nat} (s : Step h l h' l' k) (hd : ∀ a ∈ o.nodes, a ∉ l) : o.Ok cfg h' := by
  obtain ⟨b, al⟩ := o
  cases b with
  | none => trivial
  | some b => exact Rep.step ok s hd

theorem InvL.live (I : InvL cfg L C w) {a : Nat} (ha : a ∈ onodes (C i)) : Live w.heap a := by
  cases hc : C i with
  | none => rw [hc] at ha; cases ha
  | some o => rw [hc] at ha; exact (I.ok i o hc).live ha

/-- The variables in `is` are changed by a step that owns their nodes. -/
theorem InvL.update (I : InvL cfg L C w) (is : List Nat) {vars' : Nat → Option Lst}
    (hC : ∀ j, j ∉ is → C' j = C j) (hv : ∀ j, vars' j = (C' j).map Obj.fields)
    (s : Step w.heap (is.flatMap fun j => onodes (C j)) h' (is.flatMap fun j => onodes (C' j)) k)
    (ok : ∀ j ∈ is, ∀ o, C' j = some o → o.Ok cfg h')
    (sep : ∀ j ∈ is, ∀ j' ∈ is, j ≠ j' → ∀ a ∈ onodes (C' j), a ∉ onodes (C' j')) : InvL cfg L C' ⟨h', vars'⟩ := by
  have others : ∀ j, j ∉ is → ∀ a ∈ onodes (C j), a ∉ (is.flatMap fun j => onodes (C j)) ∧ a ∉ (is.flatMap fun j => onodes (C' j)) := by
    intro j hj a ha
    have h1 : a ∉ is.flatMap fun j => onodes (C j) := by
      intro hm
      obtain ⟨j', hj', hm⟩ := List.mem_flatMap.1 hm
      exact I.sep j j' (by rintro rfl; exact hj hj') a ha hm
    exact ⟨h1, (s.live h1 (I.live ha)).1⟩
  refine ⟨hv, ?_, ?_, ?_, s.bal, ?_⟩
  · intro j o ho
    by_cases hj : j ∈ is
    · exact ok j hj o ho
    · rw [hC j hj] at ho
      exact (I.ok j o ho).step s fun a ha => (others j hj a (by rw [ho]; exact ha)).1
  · intro j j' hne a ha ha'
    by_cases hj : j ∈ is
    · by_cases hj' : j' ∈ is
      · exact sep j hj j' hj' hne a ha ha'
      · rw [hC j' hj'] at ha'
        exact (others j' hj' a ha').2 (List.mem_flatMap.2 ⟨j, hj, ha⟩)
    · rw [hC j hj] at ha
      by_cases hj' : j' ∈ is
      · exact (others j hj a ha).2 (List.mem_flatMap.2 ⟨j', hj', ha'⟩)
      · rw [hC j' hj'] at ha'
        exact I.sep j j' hne a ha ha'
  · intro a ha
    by_cases hm : a ∈ is.flatMap fun j => onodes (C' j)
    · obtain ⟨j, _, hm⟩ := List.mem_flatMap.1 hm
      exact .inl ⟨j, hm⟩
    · by_cases hm0 : a ∈ is.flatMap fun j => onodes (C j)
      · exact absurd (s.gone a hm0 hm) ha
      · have hl : Live w.heap a := by rw [Live, ← s.frame a hm0 hm]; exact ha
        rcases I.kept a hl with ⟨j, hj⟩ | hj
        · have hjs : j ∉ is := fun hjs => hm0 (List.mem_flatMap.2 ⟨j, hjs, hj⟩)
          exact .inl ⟨j, by rw [hC j hjs]; exact hj⟩
        · exact .inr hj
  · intro a nd ha
    obtain ⟨h1, h2⟩ := I.lost a nd ha
    have hm0 : a ∉ is.flatMap fun j => onodes (C j) := fun hm => by
      obtain ⟨j, _, hm⟩ := List.mem_flatMap.1 hm
      exact h2 j hm
    obtain ⟨h3, -, h4⟩ := s.live hm0 (by rw [Live, h1]; simp)
    refine ⟨h4.trans h1, fun j hm => ?_⟩
    by_cases hj : j ∈ is
    · exact h3 (List.mem_flatMap.2 ⟨j, hj, hm⟩)
    · rw [hC j hj] at hm; exact h2 j hm

theorem InvL.put1 (I : InvL cfg L C w) (i : Nat) {o : Option (Obj α)} (s : Step w.heap (onodes (C i)) h' (onodes o) k)
    (ok : ∀ x, o = some x → x.Ok cfg h') : InvL cfg L (cput C i o) ⟨h', upd w.vars i (o.map Obj.fields)⟩ := by
  refine I.update [i] (fun j hj => cput_ne C o (by simpa using hj)) ?_ (k := k) ?_ ?_ ?_
  · intro j
    simp only [upd, cput]
    split
    · rfl
    · exact I.vars j
  · simpa using s
  · intro j hj x hx
    simp only [List.mem_singleton] at hj
    subst hj
    exact ok x (by simpa using hx)
  · intro j hj j' hj' hne
    simp only [List.mem_singleton] at hj hj'
    exact absurd (hj.trans hj'.symm) hne

theorem InvL.put2 (I : InvL cfg L C w) {i j : Nat} (hij : i ≠ j) {o o' : Option (Obj α)}
    (s : Step w.heap (onodes (C i) ++ onodes (C j)) h' (onodes o ++ onodes o') k)
    (ok : ∀ x, o = some x → x.Ok cfg h') (ok' : ∀ x, o' = some x → x.Ok cfg h') (hd : ∀ a ∈ onodes o, a ∉ onodes o') :
    InvL cfg L (cput (cput C i o) j o') ⟨h', upd (upd w.vars i (o.map Obj.fields)) j (o'.map Obj.fields)⟩ := by
  have e1 : cput (cput C i o) j o' i = o := by rw [cput_ne _ _ hij, cput_same]
  have e2 : cput (cput C i o) j o' j = o' := cput_same _ _ _
  refine I.update [i, j] ?_ ?_ (k := k) ?_ ?_ ?_
  · intro l hl
    simp only [List.mem_cons, List.not_mem_nil, or_false, not_or] at hl
    rw [cput_ne _ _ hl.2, cput_ne _ _ hl.1]
  · intro l
    simp only [upd, cput]
    split
    · rfl
    · split
      · rfl
      · exact I.vars l
  · simpa [e1, e2] using s
  · intro l hl x hx
    simp only [List.mem_cons, List.not_mem_nil, or_false] at hl
    rcases hl with rfl | rfl
    · rw [e1] at hx; exact ok x hx
    · rw [e2] at hx; exact ok' x hx
  · intro l hl l' hl' hne a ha ha'
    simp only [List.mem_cons, List.not_mem_nil, or_false] at hl hl'
    rcases hl with rfl | rfl <;> rcases hl' with rfl | rfl
    · exact hne rfl
    · rw [e1] at ha; rw [e2] at ha'; exact hd a ha ha'
    · rw [e2] at ha; rw [e1] at ha'; exact hd a ha' ha
    · exact hne rfl

/-! ## Reading the ghost state -/

theorem InvL.rep (I : InvL cfg L C w) (hi : C i = some (full hd tl cs own)) : Rep cfg w.heap hd tl cs own := I.ok i _ hi
theorem InvL.var (I : InvL cfg L C w) (hi : C i = some (full hd tl cs own)) : w.vars i = some (lst hd tl cs own) := by rw [I.vars, hi]; rfl
theorem InvL.disj (I : InvL cfg L C w) (hij : i ≠ j) (hi : C i = some (full hd tl cs own)) {own2 : Nat} (hj : C j = some (full hd2 tl2 ds own2)) :
    Disj hd tl cs hd2 tl2 ds := by
  have := I.sep i j hij
  rw [hi, hj] at this
  exact this

theorem ideal_some {v : Var α} (hi : ideal C i = some v) : ∃ o, C i = some o ∧ o.value = v := by
  rw [ideal] at hi
  cases hc : C i with
  | none => rw [hc] at hi; cases hi
  | some o => rw [hc] at hi; cases hi; exact ⟨o, rfl, rfl⟩

theorem ideal_full {v : Var α} {xs : List α} (hi : ideal C i = some v) (hx : v.items = some xs) :
    ∃ hd tl cs, C i = some (full hd tl cs v.alloc) ∧ vals cs = xs := by
  obtain ⟨⟨b, al⟩, ho, rfl⟩ := ideal_some hi
  cases b with
  | none => cases hx
  | some b =>
    obtain ⟨hd, tl, cs⟩ := b
    cases hx
    exact ⟨hd, tl, cs, ho, rfl⟩

theorem ideal_isNone (h : (ideal C i).isNone) : C i = none := by
  rw [ideal] at h
  cases hc : C i with
  | none => rfl
  | some o => rw [hc] at h; cases h

theorem value_full : (full hd tl cs own : Obj α).value = ⟨some (vals cs), own⟩ := rfl
theorem value_husk : (huskObj own : Obj α).value = ⟨none, own⟩ := rfl

/-! ## Running world programs -/

theorem var_run {l : Lst} (hv : w.vars i = some l) : Model.LL.var i w = .ok (l, w) := by simp only [Model.LL.var, hv]

theorem inHeap_run (f : M α β) (w : World α) : inHeap f w = (f w.heap >>= fun p => .ok (p.1, { w with heap := p.2 })) := rfl

theorem inHeap_ok {f : M α β} {b : β} (hf : f w.heap = .ok (b, h')) : inHeap f w = .ok (b, { w with heap := h' }) := by
  rw [inHeap_run, hf]; rfl

theorem setVar_run (i : Nat) (o : Option Lst) (w : World α) : setVar i o w = .ok ((), { w with vars := upd w.vars i o }) := rfl

variable {P : Cells α → Heap α → Prop}

/-- what a member function of list `i` has to deliver -/
def Edits (cfg : Cfg α) (h : Heap α) (hd tl : Nat) (cs : Cells α) (own : Nat) (P : Cells α → Heap α → Prop) (l : Lst) (h' : Heap α) : Prop :=
  ∃ cs' k, l = lst hd tl cs' own ∧ Edit cfg h hd tl cs own h' cs' k ∧ P cs' h'

theorem create_ok (I : InvL cfg L C w) (hi : C i = none) {f : M α Lst} (hf : (f w.heap).SafeIf (Refuses cfg) fun q =>
      ∃ hd tl cs k, q.1 = lst hd tl cs own ∧ Fresh cfg w.heap q.2 hd tl cs own k ∧ P cs q.2) :
    (create i f w).SafeIf (Refuses cfg) fun q => q.1 = .unit ∧ ∃ hd tl cs, InvL cfg L (cput C i (some (full hd tl cs own))) q.2 ∧ P cs q.2.heap := by
  simp only [create, Prog.bind_run, inHeap_run]
  refine Out.SafeIf.bind (P := fun q => ∃ hd tl cs k, q.1 = lst hd tl cs own ∧ Fresh cfg w.heap q.2.heap hd tl cs own k ∧ P cs q.2.heap ∧ q.2.vars = w.vars) ?_ ?_
  · refine hf.bind ?_
    rintro ⟨l, h'⟩ ⟨hd, tl, cs, k, e, f, p⟩
    exact ⟨hd, tl, cs, k, e, f, p, rfl⟩
  · rintro ⟨l, w'⟩ ⟨hd, tl, cs, k, e, f, p, ev⟩
    simp only at e f p ev
    subst e
    simp only [setVar_run, Out.bind_ok, Prog.pure_run, Out.safeIf_ok, ev]
    refine ⟨trivial, hd, tl, cs, ?_, p⟩
    refine I.put1 i (o := some (full hd tl cs own)) (by rw [hi]; exact f.step) ?_
    rintro x hx; cases hx; exact f.rep

theorem change_ok (I : InvL cfg L C w) (hi : C i = some (full hd tl cs own)) {f : Lst → M α Lst}
    (hf : (f (lst hd tl cs own) w.heap).SafeIf (Refuses cfg) fun q => Edits cfg w.heap hd tl cs own P q.1 q.2) :
    (change i f w).SafeIf (Refuses cfg) fun q => q.1 = .unit ∧ ∃ cs', InvL cfg L (cput C i (some (full hd tl cs' own))) q.2 ∧ P cs' q.2.heap := by
  simp only [change, Prog.bind_run, var_run (I.var hi), Out.bind_ok, inHeap_run]
  refine Out.SafeIf.bind (P := fun q => Edits cfg w.heap hd tl cs own P q.1 q.2.heap ∧ q.2.vars = w.vars) (hf.bind fun _ hq => ⟨hq, rfl⟩) ?_
  rintro ⟨l, w'⟩ ⟨⟨cs', k, e, ed, p⟩, ev⟩
  simp only at e ed p ev
  subst e
  simp only [setVar_run, Out.bind_ok, Prog.pure_run, Out.safeIf_ok, ev]
  refine ⟨trivial, cs', ?_, p⟩
  refine I.put1 i (o := some (full hd tl cs' own)) (by rw [hi]; exact ed.step) ?_
  rintro x hx; cases hx; exact ed.rep

theorem changeN_ok (I : InvL cfg L C w) (hi : C i = some (full hd tl cs own)) {f : Lst → M α (Lst × Nat)} {n : Nat}
    (hf : (f (lst hd tl cs own) w.heap).SafeIf (Refuses cfg) fun q => q.1.2 = n ∧ Edits cfg w.heap hd tl cs own P q.1.1 q.2) :
    (changeN i f w).SafeIf (Refuses cfg) fun q => q.1 = .num n ∧ ∃ cs', InvL cfg L (cput C i (some (full hd tl cs' own))) q.2 ∧ P cs' q.2.heap := by
  simp only [changeN, Prog.bind_run, var_run (I.var hi), Out.bind_ok, inHeap_run]
  refine Out.SafeIf.bind (P := fun q => (q.1.2 = n ∧ Edits cfg w.heap hd tl cs own P q.1.1 q.2.heap) ∧ q.2.vars = w.vars) (hf.bind fun _ hq => ⟨hq, rfl⟩) ?_
  rintro ⟨⟨l, m⟩, w'⟩ ⟨⟨hn, cs', k, e, ed, p⟩, ev⟩
  simp only at hn e ed p ev
  subst e hn
  simp only [setVar_run, Out.bind_ok, Prog.pure_run, Out.safeIf_ok, ev]
  refine ⟨trivial, cs', ?_, p⟩
  refine I.put1 i (o := some (full hd tl cs' own)) (by rw [hi]; exact ed.step) ?_
  rintro x hx; cases hx; exact ed.rep

theorem changeP_ok (I : InvL cfg L C w) (hi : C i = some (full hd tl cs own)) {f : Lst → M α (Lst × Ptr)} {n : Nat}
    (hf : (f (lst hd tl cs own) w.heap).SafeIf (Refuses cfg) fun q => distFrom q.1.2 (some hd) 0 q.2 = .ok (n, q.2) ∧
      Edits cfg w.heap hd tl cs own P q.1.1 q.2) :
    (changeP i f w).SafeIf (Refuses cfg) fun q => q.1 = .pos n ∧ ∃ cs', InvL cfg L (cput C i (some (full hd tl cs' own))) q.2 ∧ P cs' q.2.heap := by
  simp only [changeP, Prog.bind_run, var_run (I.var hi), Out.bind_ok, inHeap_run]
  refine Out.SafeIf.bind (P := fun q => (distFrom q.1.2 (some hd) 0 q.2.heap = .ok (n, q.2.heap) ∧ Edits cfg w.heap hd tl cs own P q.1.1 q.2.heap) ∧
    q.2.vars = w.vars) (hf.bind fun _ hq => ⟨hq, rfl⟩) ?_
  rintro ⟨⟨l, m⟩, w'⟩ ⟨⟨hn, cs', k, e, ed, p⟩, ev⟩
  simp only at hn e ed p ev
  subst e
  simp only [setVar_run, Out.bind_ok, Prog.pure_run, ev, show (lst hd tl cs' own).head = some hd from rfl, hn, Out.safeIf_ok]
  refine ⟨trivial, cs', ?_, p⟩
  refine I.put1 i (o := some (full hd tl cs' own)) (by rw [hi]; exact ed.step) ?_
  rintro x hx; cases hx; exact ed.rep

theorem look_ok {l : Lst} (hv : w.vars i = some l) {f : Lst → M α (Res α)} {r : Res α} (hf : f l w.heap = .ok (r, w.heap)) :
    look i f w = .ok (r, w) := by
  simp only [look, Prog.bind_run, var_run hv, Out.bind_ok, inHeap_run, hf]

/-- what a member function moving everything from list `j` to list `i` has to deliver; `o` is what is left of `j` -/
def Moves (cfg : Cfg α) (h : Heap α) (hd tl : Nat) (cs : Cells α) (own hd2 tl2 : Nat) (ds : Cells α) (cs' : Cells α) (o : Obj α)
    (q : (Lst × Lst) × Heap α) : Prop :=
  q.1 = (lst hd tl cs' own, o.fields) ∧ Rep cfg q.2 hd tl cs' own ∧ o.Ok cfg q.2 ∧ (∀ a ∈ nodes hd tl cs', a ∉ o.nodes) ∧
    Step h (nodes hd tl cs ++ nodes hd2 tl2 ds) q.2 (nodes hd tl cs' ++ o.nodes) 0

theorem change2_ok (I : InvL cfg L C w) (hij : i ≠ j) (hi : C i = some (full hd tl cs own)) {own2 : Nat} (hj : C j = some (full hd2 tl2 ds own2))
    {f : Lst → Lst → M α (Lst × Lst)} {o : Obj α} {q : (Lst × Lst) × Heap α}
    (hf : f (lst hd tl cs own) (lst hd2 tl2 ds own2) w.heap = .ok q) (mv : Moves cfg w.heap hd tl cs own hd2 tl2 ds cs' o q) :
    ∃ w', change2 i j f w = .ok (.unit, w') ∧ w'.heap = q.2 ∧ InvL cfg L (cput (cput C i (some (full hd tl cs' own))) j (some o)) w' := by
  obtain ⟨ql, qh⟩ := q
  obtain ⟨e, rp, ok, dj, st⟩ := mv
  simp only at e rp ok st
  subst e
  refine ⟨_, ?_, ?_, I.put2 hij (o := some (full hd tl cs' own)) (o' := some o) (h' := qh) (k := 0) ?_ ?_ ?_ ?_⟩
  · simp only [change2, Prog.bind_run, var_run (I.var hi), var_run (I.var hj), Out.bind_ok, inHeap_ok hf, setVar_run]
    rfl
  · rfl
  · rw [hi, hj]; exact st
  · rintro x hx; cases hx; exact rp
  · rintro x hx; cases hx; exact ok
  · exact dj

theorem Moved.moves {own hd2 tl2 : Nat} {l : Lst × Lst} (m : Moved cfg h hd tl cs own hd2 tl2 ds h' cs') (hj : Disj hd tl cs' hd2 tl2 ([] : Cells α))
    (e : l = (lst hd tl cs' own, lst hd2 tl2 ([] : Cells α) own)) :
    Moves cfg h hd tl cs own hd2 tl2 ds cs' (full hd2 tl2 [] own) (l, h') := by
  subst e
  exact ⟨rfl, m.rep, m.rep2, hj, m.step⟩

theorem MovedAll.moves {own hd2 tl2 : Nat} {l : Lst × Lst} (m : MovedAll cfg h hd tl cs own hd2 tl2 ds h' cs')
    (e : l = (lst hd tl cs' own, ⟨none, none, 0, own⟩)) :
    Moves cfg h hd tl cs own hd2 tl2 ds cs' (huskObj own) (l, h') := by
  subst e
  refine ⟨rfl, m.rep, trivial, fun a _ hm => (by cases hm), ?_⟩
  simpa [Obj.nodes] using m.step

end

end Verif.Proof.LL
