import Verif.Proof.VectorThrow2
/-! # Vector: programs whose element copies may throw -/
namespace Verif.Proof.Vector
open Verif Verif.Model.Mem Verif.Model.Vector Verif.Proof.Mem
open Verif.Spec.Vector hiding upd

variable {α : Type} {ty : ElemTy α} {bad : α → Bool}

/-! ## `Intact` -/

theorem own_slotAt {h : Heap α} {b cap owner : Nat} {s : List (Option α)} (ho : Own ty h (some b) cap owner s) (k : Nat) :
    slotAt h (some b) k = s[k]?.join := by
  simp only [Own] at ho
  simp only [Spec.Vector.slotAt, ho.1]
  cases s[k]? with
  | none => rfl
  | some o => cases o <;> rfl

theorem own_slotAt' {h : Heap α} {p : Option Nat} {cap owner : Nat} {s : List (Option α)} (ho : Own ty h p cap owner s) (k : Nat)
    (hk : ∀ x, s[k]? ≠ some (some x)) : slotAt h p k = none := by
  cases p with
  | none => rfl
  | some b =>
    rw [own_slotAt ho]
    cases h : s[k]? with
    | none => rfl
    | some o => cases o with
      | none => rfl
      | some x => exact absurd h (hk x)

theorem Inv.intact {A : Ideal α} {w : World α} (I : Inv ty A w) : Intact w := by
  refine ⟨?_, ?_⟩
  · intro i v hv k hk
    obtain ⟨a, _, r, _⟩ := I.rep_of hv
    have hl := r.len
    rw [r.slotAt (by omega), List.getElem?_eq_getElem (by omega)]; rfl
  · intro b hb
    obtain ⟨blk, hb⟩ := Option.ne_none_iff_exists'.1 hb
    obtain ⟨i, v, hv, hp⟩ := I.cover b blk hb
    refine ⟨i, v, hv, hp, ?_⟩
    intro k hk
    obtain ⟨a, _, r, _⟩ := I.rep_of hv
    have hl := r.len
    have ho := r.own
    rw [hp] at ho
    rw [own_slotAt ho] at hk
    refine Nat.lt_of_not_le fun hle => ?_
    rw [List.getElem?_append_right (by simp; omega)] at hk
    simp only [raws, List.getElem?_replicate] at hk
    split at hk <;> simp at hk

/-- after a step on variable `i`, the other variables are as before -/
theorem others {A : Ideal α} {w : World α} (I : Inv ty A w) {i : Nat} {o' : Option Vec} {h' : Heap α} {l' : List Nat} {k : Cost}
    (s : Step w.heap (ptrs (w.vars i)) h' l' k) {j : Nat} (hj : j ≠ i) : view ⟨h', bindVar w.vars i o'⟩ j = A j := by
  cases hv : w.vars j with
  | none =>
    have := I.ok j
    rw [hv] at this
    simp only [Spec.Vector.view, bindVar_ne _ _ hj, hv]
    cases ha : A j with
    | none => rfl
    | some a => rw [ha] at this; exact this.elim
  | some v =>
    obtain ⟨a, ha, r, hc, hl⟩ := I.rep_of hv
    have r' := r.keep s (fun b hb hm => by
      obtain ⟨v', hv', hb'⟩ := mem_ptrs.1 hm
      exact I.sep j i v v' b hj hv hv' hb hb')
    simp only [Spec.Vector.view, bindVar_ne _ _ hj, hv, Option.bind_some, r'.elems, Option.map_some, hc, hl, ha]

/-- What a throwing call leaves: the other variables, and either the state `c` or damage. -/
def Thrown (ty : ElemTy α) (A : Ideal α) (i : Nat) (c : Option (Ideal α)) (w : World α) : Prop :=
  (∀ j, j ≠ i → view w j = A j) ∧ match c with
    | some A' => Inv ty A' w
    | none => ¬ Intact w

theorem hurt_thrown {A : Ideal α} {w : World α} (I : Inv ty A w) {i : Nat} {v v' : Vec} {h' : Heap α} (hv : w.vars i = some v)
    (t : Hurt ty w.heap v.ptr v' h') : Thrown ty A i none ⟨h', bindVar w.vars i (some v')⟩ := by
  obtain ⟨k, s⟩ := t.step
  refine ⟨fun j hj => others I (s := by rw [hv]; exact s) hj, ?_⟩
  rintro ⟨h1, _⟩
  obtain ⟨xs, post, o, hlt, hh⟩ := t.own
  have := h1 i v' (bindVar_same _ _ _) xs.length hlt
  rw [own_slotAt' o xs.length] at this
  · cases this
  · intro x hx
    rw [List.getElem?_append_right (by simp)] at hx
    simp only [List.length_map, Nat.sub_self] at hx
    exact hh x (by rw [List.head?_eq_getElem?]; exact hx)

theorem leak_thrown {A : Ideal α} {w : World α} (I : Inv ty A w) {i : Nat} {h' : Heap α} (hi : A i = none)
    (t : Leak w.heap h') : Thrown ty A i none ⟨h', w.vars⟩ := by
  obtain ⟨b, k, hb, s⟩ := t
  have hn := I.get_none hi
  have e : w.vars = bindVar w.vars i none := by
    funext j; by_cases h : j = i
    · subst h; rw [bindVar_same, hn]
    · rw [bindVar_ne _ _ h]
  refine ⟨fun j hj => by
    have := others I (i := i) (o' := none) (h' := h') (l' := [b]) (k := k) (by rw [hn]; exact s) hj
    rw [← e] at this; exact this, ?_⟩
  rintro ⟨_, h2⟩
  obtain ⟨j, v, hv, hp, _⟩ := h2 b hb
  obtain ⟨a, _, r, _⟩ := I.rep_of hv
  obtain ⟨blk, hblk⟩ := r.block hp
  rw [s.fresh b (by simp) (by simp)] at hblk
  cases hblk

/-- an element past the counted ones stays behind -/
theorem surplus_thrown {A : Ideal α} {w : World α} (I : Inv ty A w) {i : Nat} {v v' : Vec} {h' : Heap α} {xs : List α}
    {post : List (Option α)} {k : Cost} (hv : w.vars i = some v) (s : Step w.heap v.ptr.toList h' v'.ptr.toList k)
    (o : Own ty h' v'.ptr v'.cap v'.alloc (xs.map some ++ post)) (hlt : v'.len < xs.length) :
    Thrown ty A i none ⟨h', bindVar w.vars i (some v')⟩ := by
  have s' : Step w.heap (ptrs (w.vars i)) h' v'.ptr.toList k := by rw [hv]; exact s
  refine ⟨fun j hj => others I s' hj, ?_⟩
  rintro ⟨_, h2⟩
  cases hp : v'.ptr with
  | none =>
    rw [hp] at o
    simp only [Own] at o
    have : xs.length = 0 := by
      have := congrArg List.length o.1
      simp only [List.length_append, List.length_map, List.length_nil] at this
      omega
    omega
  | some b =>
    rw [hp] at o s'
    have hbk : h'.blocks b ≠ none := by simp only [Own] at o; rw [o.1]; simp
    obtain ⟨j, u, hu, hup, hall⟩ := h2 b hbk
    simp only at hu hall
    have hj : j = i := by
      refine Decidable.byContradiction fun hj => ?_
      rw [bindVar_ne _ _ hj] at hu
      by_cases hm : b ∈ ptrs (w.vars i)
      · obtain ⟨v0, hv0, hp0⟩ := mem_ptrs.1 hm
        exact I.sep i j v0 u b (fun e => hj e.symm) hv0 hu hp0 hup
      · have h3 := s'.fresh b (by simp) hm
        obtain ⟨a, _, r, _⟩ := I.rep_of hu
        obtain ⟨blk, h4⟩ := r.block hup
        rw [h3] at h4; cases h4
    subst hj
    rw [bindVar_same] at hu
    cases hu
    have := hall v'.len (by
      rw [own_slotAt o, List.getElem?_append_left (by simpa using hlt), List.getElem?_map, List.getElem?_eq_getElem hlt]; rfl)
    omega

/-! ## The calls -/

theorem createT_thrown {w : World α} {i : Nat} {f : M α (Option Vec)} {P : World α → Prop}
    (hf : (f w.heap).Safe fun q => q.1 = none ∧ P ⟨q.2, w.vars⟩) :
    (createT i f w).Safe fun q => q.1 = none ∧ P q.2 := by
  simp only [createT, inHeap, Prog.bind_run]
  cases h : f w.heap with
  | ok p =>
    obtain ⟨o, h1⟩ := p
    rw [h] at hf
    obtain ⟨h2, h3⟩ := hf
    simp only at h2 h3
    subst h2
    exact ⟨rfl, h3⟩
  | oom => trivial
  | _ => rw [h] at hf; exact hf.elim

theorem changeT_thrown {w : World α} {i : Nat} {v : Vec} (hv : w.vars i = some v) {f : Vec → M α (Bool × Vec)} {r : Res α}
    {P : World α → Prop} (hf : (f v w.heap).Safe fun q => q.1.1 = true ∧ P ⟨q.2, bindVar w.vars i (some q.1.2)⟩) :
    (changeT i f r w).Safe fun q => q.1 = none ∧ P q.2 := by
  simp only [changeT, Prog.bind_run, run_var hv, Out.bind_ok, inHeap]
  cases h : f v w.heap with
  | ok p =>
    obtain ⟨⟨t, v1⟩, h1⟩ := p
    rw [h] at hf
    obtain ⟨h2, h3⟩ := hf
    simp only at h2 h3
    subst h2
    exact ⟨rfl, h3⟩
  | oom => trivial
  | _ => rw [h] at hf; exact hf.elim

theorem createT_leak {A : Ideal α} {w : World α} (I : Inv ty A w) {i : Nat} (hi : A i = none) {f : M α (Option Vec)}
    (hf : (f w.heap).Safe fun q => q.1 = none ∧ Leak w.heap q.2) :
    (createT i f w).Safe fun q => q.1 = none ∧ ∃ i', [i] = [i'] ∧ Thrown ty A i' none q.2 :=
  createT_thrown (P := fun w => ∃ i', [i] = [i'] ∧ Thrown ty A i' none w)
    (hf.mono fun _ hq => ⟨hq.1, i, rfl, leak_thrown I hi hq.2⟩)

theorem changeT_hurt {A : Ideal α} {w : World α} (I : Inv ty A w) {i : Nat} {v : Vec} (hv : w.vars i = some v)
    {f : Vec → M α (Bool × Vec)} {r : Res α} (hf : (f v w.heap).Safe fun q => q.1.1 = true ∧ Hurt ty w.heap v.ptr q.1.2 q.2) :
    (changeT i f r w).Safe fun q => q.1 = none ∧ ∃ i', [i] = [i'] ∧ Thrown ty A i' none q.2 :=
  changeT_thrown hv (P := fun w => ∃ i', [i] = [i'] ∧ Thrown ty A i' none w)
    (hf.mono fun _ hq => ⟨hq.1, i, rfl, hurt_thrown I hv hq.2⟩)

theorem split_bad {xs : List α} (h : ¬ ∀ x ∈ xs, bad x = false) :
    ∃ ys x zs, xs = ys ++ x :: zs ∧ (∀ y ∈ ys, bad y = false) ∧ bad x = true ∧ xs.takeWhile (fun x => !bad x) = ys := by
  induction xs with
  | nil => exact absurd (by simp) h
  | cons a xs ih =>
    by_cases ha : bad a = true
    · exact ⟨[], a, xs, rfl, by simp, ha, by simp [ha]⟩
    · replace ha : bad a = false := by simpa using ha
      obtain ⟨ys, x, zs, h1, h2, h3, h4⟩ := ih (fun hh => h (by simpa [ha] using hh))
      exact ⟨a :: ys, x, zs, by simp [h1], by simpa [ha] using h2, h3, by simp [ha, h4]⟩

theorem bad_replicate {n : Nat} {x : α} (h : ¬ ∀ y ∈ List.replicate n x, bad y = false) : 0 < n ∧ bad x = true := by
  refine ⟨?_, ?_⟩
  · rcases Nat.eq_zero_or_pos n with e | e
    · subst e; exact absurd (by simp) h
    · exact e
  · refine Decidable.byContradiction fun hx => h ?_
    intro y hy
    rw [(List.mem_replicate.1 hy).2]; simpa using hx

theorem newFillT_leak {h : Heap α} (hb : Bal h) {n a : Nat} {r : Ref α} {x : α} (hn : 0 < n) (ri : Stable h none r x)
    (hx : bad x = true) (hw : n * ty.size < wordSize) :
    (newFillT ty bad n r a h).Safe fun q => q.1 = none ∧ Leak h q.2 := by
  simp only [newFillT, Prog.bind_run]
  apply (assignFillT_hurt (rep_blank h a) hb hn ri hx hw).bind
  rintro ⟨⟨t, v1⟩, h1⟩ ⟨rfl, t⟩
  exact ⟨rfl, Hurt.leak t⟩

theorem newCopyT_leak {h : Heap α} {r : Vec} {ys us : List α} {x : α} (a : Nat) (hr : Rep ty h r (ys ++ x :: us)) (hb : Bal h)
    (hg : ∀ y ∈ ys, bad y = false) (hx : bad x = true) :
    (newCopyT ty bad r a h).Safe fun q => q.1 = none ∧ Leak h q.2 := by
  simp only [newCopyT, Prog.bind_run]
  apply (copyImplT_hurt a hr hb hg hx).bind
  rintro ⟨⟨t, v1⟩, h1⟩ ⟨rfl, t⟩
  exact ⟨rfl, Hurt.leak t⟩

theorem stepT_throws (op : Op α) {A : Ideal α} {w : World α} (I : Inv ty A w) {r : Res α} {A' : Ideal α}
    (hs : specStep false ty.size ty.dflt op A = some (r, A')) (hg : ¬ ∀ x ∈ copied ty.dflt A op, bad x = false) :
    (stepT ty bad op w).Safe fun q => q.1 = none ∧ ∃ i, writes op = [i] ∧ Thrown ty A i (caught bad A op) q.2 := by
  cases op with
  | newFill i n rf a =>
    simp only [specStep, Option.bind_eq_some_iff] at hs
    obtain ⟨x, hx, hs⟩ := hs
    obtain ⟨hw, hs⟩ := of_only hs
    obtain ⟨hi, _⟩ := of_born hs
    obtain ⟨ref, e1, st, _⟩ := arg_ok I hx
    simp only [stepT, Prog.bind_run, e1, Out.bind_ok]
    simp only [copied, hx, Option.getD_some] at hg
    obtain ⟨hn, hxb⟩ := bad_replicate hg
    exact createT_leak I hi (newFillT_leak I.bal hn (st none (by simp)) hxb hw)
  | newCount i n a =>
    obtain ⟨hw, hs⟩ := of_only hs
    obtain ⟨hi, _⟩ := of_born hs
    obtain ⟨hn, hxb⟩ := bad_replicate hg
    exact createT_leak I hi (newFillT_leak I.bal hn (stable_tmp _ _ _) hxb hw)
  | newList i xs a =>
    obtain ⟨hw, hs⟩ := of_only hs
    obtain ⟨hi, _⟩ := of_born hs
    obtain ⟨ys, x, zs, rfl, hy, hx, _⟩ := split_bad hg
    exact createT_leak I hi (newListT_leak I.bal hw hy hx)
  | newRange i xs a =>
    obtain ⟨hw, hs⟩ := of_only hs
    obtain ⟨hi, _⟩ := of_born hs
    obtain ⟨ys, x, zs, rfl, hy, hx, _⟩ := split_bad hg
    exact createT_leak I hi (newListT_leak I.bal hw hy hx)
  | newCopy i j =>
    simp only [specStep, Option.bind_eq_some_iff] at hs
    obtain ⟨a, ha, hs⟩ := hs
    obtain ⟨hi, _⟩ := of_born hs
    obtain ⟨v, hv, rv, _⟩ := I.get ha
    simp only [copied, ha, Option.map_some, Option.getD_some] at hg
    obtain ⟨ys, x, zs, e, hy, hx, _⟩ := split_bad hg
    rw [e] at rv
    simp only [stepT, Prog.bind_run, run_var hv, Out.bind_ok]
    exact createT_leak I hi (newCopyT_leak _ rv I.bal hy hx)
  | newCopyAlloc i j al =>
    simp only [specStep, Option.bind_eq_some_iff] at hs
    obtain ⟨a, ha, hs⟩ := hs
    obtain ⟨hi, _⟩ := of_born hs
    obtain ⟨v, hv, rv, _⟩ := I.get ha
    simp only [copied, ha, Option.map_some, Option.getD_some] at hg
    obtain ⟨ys, x, zs, e, hy, hx, _⟩ := split_bad hg
    rw [e] at rv
    simp only [stepT, Prog.bind_run, run_var hv, Out.bind_ok]
    exact createT_leak I hi (newCopyT_leak _ rv I.bal hy hx)
  | copyAssign i j =>
    simp only [specStep, Option.bind_eq_some_iff] at hs
    obtain ⟨b, hb, hs⟩ := hs
    obtain ⟨a, r', a', ha, hf, hp⟩ := of_upd hs; cases hp
    obtain ⟨v, hv, rv, hc, hl⟩ := I.get ha
    obtain ⟨u, hu, ru, hc', hl'⟩ := I.get hb
    by_cases hij : i = j
    · exact absurd (by simp [copied, hij]) hg
    simp only [copied, hij, if_false, hb, Option.map_some, Option.getD_some] at hg
    obtain ⟨ys, x, zs, e, hy, hx, hm⟩ := split_bad hg
    rw [e] at ru
    have hne : ∀ b, v.ptr = some b → u.ptr ≠ some b := fun b hb => I.sep i j v u b hij hv hu hb
    simp only [stepT, hij, if_false, Prog.bind_run, run_var hu, Out.bind_ok, caught, ha, hb, Option.bind_some, hm]
    by_cases hal : v.alloc = u.alloc
    · refine changeT_thrown hv (P := fun w => ∃ i', [i] = [i'] ∧ Thrown ty A i' _ w) ((copyAssignT_left rv ru I.bal hne hal hy hx).mono ?_)
      rintro ⟨⟨t, v1⟩, h1⟩ ⟨h2, h3, h4, h5, ⟨k, s⟩, o⟩
      simp only at h2 h3 h4 h5 s o
      refine ⟨h2, i, rfl, ?_⟩
      by_cases hle : ys.length ≤ a.xs.length
      · rw [if_pos ⟨by rw [← hl, ← hl']; exact hal, hle⟩]
        have s' : Step w.heap (ptrs (w.vars i)) h1 (ptrs (some v1)) k := by rw [hv]; exact s
        have I' : Inv ty (put A i (some ⟨ys ++ a.xs.drop ys.length, max a.cap b.cap, a.alloc⟩)) ⟨h1, bindVar w.vars i (some v1)⟩ :=
          I.put s' ⟨⟨by simp [h3]; omega, o⟩, by rw [h4, hc, hc'], by rw [h5, hl]⟩
        refine ⟨fun j hj => others I s' hj, I'⟩
      · rw [if_neg (by simp [hle])]
        exact surplus_thrown I hv s o (by simp; omega)
    · rw [if_neg (by rw [← hl, ← hl']; simp [hal])]
      refine changeT_hurt I hv ?_
      simp only [copyAssignT, if_neg hal, Prog.bind_run]
      obtain ⟨h1, e1, t1⟩ := clear_ok rv I.bal
      rw [e1, Out.bind_ok]
      have ru1 := ru.keep t1.step (by intro b hb1 hm; simp at hm; exact hne b hm hb1)
      refine (copyImplT_hurt v.alloc ru1 t1.bal hy hx).mono fun q hq => ⟨hq.1, hq.2.after t1.step⟩
  | push i rf =>
    simp only [specStep, Option.bind_eq_some_iff] at hs
    obtain ⟨x, hx, hs⟩ := hs
    obtain ⟨a, r', a', ha, hf, hp⟩ := of_upd hs; cases hp
    obtain ⟨hg', hf⟩ := of_only hf; cases hf
    obtain ⟨v, hv, rv, hc, hl⟩ := I.get ha
    obtain ⟨ref, e1, st, ins⟩ := arg_ok I hx
    simp only [stepT, Prog.bind_run, e1, Out.bind_ok]
    simp only [copied, hx, Option.getD_some, List.mem_singleton, forall_eq, Bool.not_eq_false] at hg
    exact changeT_hurt I hv (pushBackT_hurt rv I.bal hg
      (push_refs I ha hv (n := a.xs.length + 1) hc st ins (by simpa [Nat.succ_le_iff] using hg')))
  | assignFill i n rf =>
    simp only [specStep, Option.bind_eq_some_iff] at hs
    obtain ⟨x, hx, hs⟩ := hs
    obtain ⟨a, r', a', ha, hf, hp⟩ := of_upd hs; cases hp
    obtain ⟨hg', hf⟩ := of_only hf; cases hf
    obtain ⟨v, hv, rv, hc, hl⟩ := I.get ha
    obtain ⟨ref, e1, st, ins⟩ := arg_ok I hx
    simp only [stepT, Prog.bind_run, e1, Out.bind_ok]
    simp only [copied, hx, Option.getD_some] at hg
    obtain ⟨hn, hxb⟩ := bad_replicate hg
    exact changeT_hurt I hv (assignFillT_hurt rv I.bal hn (arg_outside I hv st (hg'.2.resolve_left (by omega))) hxb hg'.1)
  | assignList i xs =>
    obtain ⟨a, r', a', ha, hf, hp⟩ := of_upd hs; cases hp
    obtain ⟨hw, hf⟩ := of_only hf; cases hf
    obtain ⟨v, hv, rv, hc, hl⟩ := I.get ha
    obtain ⟨ys, x, zs, rfl, hy, hx, _⟩ := split_bad hg
    exact changeT_hurt I hv (assignListT_hurt rv I.bal hw hy hx)
  | set i k x =>
    obtain ⟨a, r', a', ha, hf, hp⟩ := of_upd hs; cases hp
    obtain ⟨v, hv, rv, hc, hl⟩ := I.get ha
    simp only [copied, List.mem_singleton, forall_eq, Bool.not_eq_false] at hg
    simp only [stepT, hg, if_true, Prog.bind_run, run_var hv, Out.bind_ok]
    exact ⟨rfl, i, rfl, fun j _ => by rw [I.view], I⟩
  | insert i p rf =>
    simp only [specStep, Option.bind_eq_some_iff] at hs
    obtain ⟨x, hx, hs⟩ := hs
    obtain ⟨a, r', a', ha, hf, hp⟩ := of_upd hs; cases hp
    obtain ⟨v, hv, rv, hc, hl⟩ := I.get ha
    obtain ⟨ref, e1, st, ins⟩ := arg_ok I hx
    have rd : deref ref w.heap = .ok (x, w.heap) := (st none (fun b h => by cases h)).now
    simp only [copied, hx, Option.getD_some, List.mem_singleton, forall_eq, Bool.not_eq_false] at hg
    simp only [stepT, Prog.bind_run, e1, Out.bind_ok]
    refine changeT_thrown hv (P := fun w => ∃ i', [i] = [i'] ∧ Thrown ty A i' (some A) w) ?_
    simp only [insertT, Prog.bind_run, rd, Out.bind_ok, hg, if_true, Prog.pure_run]
    have e : (⟨w.heap, bindVar w.vars i (some v)⟩ : World α) = w := by
      have : bindVar w.vars i (some v) = w.vars := by
        funext j; by_cases h : j = i
        · subst h; rw [bindVar_same, hv]
        · rw [bindVar_ne _ _ h]
      rw [this]
    refine ⟨rfl, i, rfl, ?_⟩
    simp only [e]
    exact ⟨fun j _ => by rw [I.view], I⟩
  | insertFill i p n rf =>
    simp only [specStep, Option.bind_eq_some_iff] at hs
    obtain ⟨x, hx, hs⟩ := hs
    obtain ⟨a, r', a', ha, hf, hp⟩ := of_upd hs; cases hp
    split at hf
    · rename_i hle
      obtain ⟨⟨h1, hn, hw, hal⟩, hf⟩ := of_only hf; cases hf
      obtain ⟨v, hv, rv, hc, hl⟩ := I.get ha
      obtain ⟨ref, e1, st, ins⟩ := arg_ok I hx
      simp only [copied, hx, Option.getD_some] at hg
      obtain ⟨hn0, hxb⟩ := bad_replicate hg
      simp only [stepT, Prog.bind_run, e1, Out.bind_ok]
      replace h1 : 1 ≤ p := h1.resolve_right (by omega)
      obtain ⟨hsp, hne, hpl, hll⟩ := take_drop_split hle h1
      rw [hsp] at rv
      refine changeT_hurt I hv (insertFillT_hurt (x := x) rv I.bal hne hn0 hpl hxb ?_ (by rw [hll]; exact hw))
      rcases hal with hal | hal | ⟨hcp, hal⟩
      · omega
      · exact .inl (arg_outside I hv st hal)
      · right
        refine ⟨by rw [hll, hc]; exact hcp, ?_⟩
        cases rf with
        | val => cases hal
        | elem j k =>
          simp only [insideBefore, Bool.and_eq_true, beq_iff_eq, decide_eq_true_eq] at hal
          obtain ⟨rfl, hk⟩ := hal
          obtain ⟨k', hk', h3, h4⟩ := arg_inside hv ha ins (by simp [inside])
          cases hk'
          exact ⟨k, h3, by rw [List.getElem?_take_of_lt hk]; exact h4⟩
    · cases hf
  | insertRange i p xs =>
    obtain ⟨a, r', a', ha, hf, hp⟩ := of_upd hs; cases hp
    split at hf
    · rename_i hle
      obtain ⟨hw, hf⟩ := of_only hf; cases hf
      obtain ⟨v, hv, rv, hc, hl⟩ := I.get ha
      obtain ⟨ys, x, zs, rfl, hy, hx, _⟩ := split_bad hg
      obtain ⟨h1, hn, hw⟩ := hw
      replace h1 : 1 ≤ p := h1.resolve_right (by simp)
      obtain ⟨hsp, hne, hpl, hll⟩ := take_drop_split hle h1
      rw [hsp] at rv
      exact changeT_hurt I hv (insertRangeT_hurt rv I.bal hne hpl (by rw [hll]; exact hw) hy hx)
    · cases hf
  | resizeFill i n rf =>
    simp only [specStep, Option.bind_eq_some_iff] at hs
    obtain ⟨x, hx, hs⟩ := hs
    obtain ⟨a, r', a', ha, hf, hp⟩ := of_upd hs; cases hp
    obtain ⟨hg', hf⟩ := of_only hf; cases hf
    obtain ⟨v, hv, rv, hc, hl⟩ := I.get ha
    obtain ⟨ref, e1, st, ins⟩ := arg_ok I hx
    simp only [stepT, Prog.bind_run, e1, Out.bind_ok]
    simp only [copied, hx, ha, Option.map_some, Option.getD_some] at hg
    obtain ⟨hn, hxb⟩ := bad_replicate hg
    exact changeT_hurt I hv (resizeFillT_hurt (x := x) rv I.bal (by omega)
      (push_refs I ha hv hc st ins (hg'.2.resolve_left (by omega))) hxb hg'.1)
  | _ => exact absurd (by simp [copied]) hg

/-! ## Programs -/

theorem stepT_ok (op : Op α) {A : Ideal α} {w : World α} (I : Inv ty A w) {r : Option (Res α)} {A' : Ideal α}
    (hs : specStepT bad ty.size ty.dflt op A = some (r, A')) :
    (stepT ty bad op w).Safe fun q => q.1 = r ∧ Inv ty A' q.2 := by
  simp only [specStepT, Option.bind_eq_some_iff] at hs
  obtain ⟨⟨r0, A0⟩, h0, hs⟩ := hs
  split at hs
  · rename_i hg
    cases hs
    rw [stepT_quiet op I h0 hg]
    exact (step_ok op I h0).bind fun q hq => ⟨by simp [hq.1], hq.2⟩
  · rename_i hg
    refine (stepT_throws op I h0 hg).mono ?_
    rintro q ⟨h1, i, _, _, h2⟩
    cases hc : caught bad A op with
    | none => rw [hc] at hs; cases hs
    | some A1 =>
      rw [hc] at hs h2
      cases hs
      exact ⟨h1, h2⟩

theorem runT_ok (ops : List (Op α)) {A : Ideal α} {w : World α} (I : Inv ty A w) {rs : List (Option (Res α))} {A' : Ideal α}
    (hs : specRunT bad ty.size ty.dflt ops A = some (rs, A')) :
    (runT ty bad ops w).Safe fun q => q.1 = rs ∧ Inv ty A' q.2 := by
  induction ops generalizing A w rs with
  | nil => cases hs; exact ⟨rfl, I⟩
  | cons op ops ih =>
    simp only [specRunT] at hs
    cases h1 : specStepT bad ty.size ty.dflt op A with
    | none => rw [h1] at hs; cases hs
    | some p =>
      obtain ⟨r, A1⟩ := p
      rw [h1] at hs
      simp only at hs
      cases h2 : specRunT bad ty.size ty.dflt ops A1 with
      | none => rw [h2] at hs; cases hs
      | some q =>
        obtain ⟨rs', A2⟩ := q
        rw [h2] at hs
        cases hs
        simp only [runT, Prog.bind_run]
        refine (stepT_ok op I h1).bind ?_
        rintro ⟨r', w1⟩ ⟨e1, I1⟩
        simp only at e1 I1 ⊢
        subst e1
        refine (ih I1 h2).bind ?_
        rintro ⟨rs2, w2⟩ ⟨e2, I2⟩
        exact ⟨by simp only at e2; simp [e2], I2⟩

theorem reachT_inv {w : World α} (hr : ReachT ty bad w) : Inv ty (view w) w := by
  obtain ⟨ops, rs, A, rs', hs, he⟩ := hr
  have := runT_ok ops inv_init hs
  rw [he] at this
  rw [Inv.view this.2]
  exact this.2

end Verif.Proof.Vector
