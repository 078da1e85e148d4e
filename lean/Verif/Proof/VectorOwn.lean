import Verif.Proof.VectorReach
import Verif.Spec.VectorOwn
/-! # Vectors and owning iterators -/
namespace Verif.Proof.VectorOwn
open Verif Verif.Model.Mem Verif.Model.Vector Verif.Model.VectorOwn Verif.Proof.Mem Verif.Proof.Vector Verif.Spec.VectorOwn
open Verif.Spec.Vector hiding upd

variable {α : Type} {ty : ElemTy α}

/-- `A` with the hidden vectors `H` beside. -/
def over (A H : Ideal α) : Ideal α := fun i =>
  match A i with
  | some a => some a
  | none => H i

theorem over_some {A H : Ideal α} {i : Nat} {a : Var α} (h : A i = some a) : over A H i = some a := by simp [over, h]
theorem over_none {A H : Ideal α} {i : Nat} (h : A i = none) : over A H i = H i := by simp [over, h]

theorem over_put {A H : Ideal α} {i : Nat} (x : Option (Var α)) (h : H i = none) :
    over (put A i x) H = put (over A H) i x := by
  funext j
  by_cases hj : j = i
  · subst hj; cases x <;> simp [over, Spec.Vector.put, h]
  · simp [over, Spec.Vector.put, hj]

theorem over_arg {A H : Ideal α} {r : Arg α} {x : α} (h : argVal A r = some x) : argVal (over A H) r = some x := by
  cases r with
  | val y => exact h
  | elem j k =>
    simp only [argVal, Option.bind_eq_some_iff] at h ⊢
    obtain ⟨a, ha, hk⟩ := h
    exact ⟨a, over_some ha, hk⟩

theorem over_born {A H : Ideal α} {i : Nat} {v : Var α} {p : Res α × Ideal α} (hH : H i = none) (h : born A i v = some p) :
    born (over A H) i v = some (p.1, over p.2 H) := by
  obtain ⟨hi, rfl⟩ := of_born h
  simp [born, over_none hi, hH, over_put _ hH]

theorem over_upd {A H : Ideal α} {i : Nat} {f : Var α → Option (Res α × Var α)} {p : Res α × Ideal α} (hH : H i = none)
    (h : Spec.Vector.upd A i f = some p) : Spec.Vector.upd (over A H) i f = some (p.1, over p.2 H) := by
  obtain ⟨a, r, a', ha, hf, rfl⟩ := of_upd h
  simp [Spec.Vector.upd, over_some ha, hf, over_put _ hH]

theorem over_ask {A H : Ideal α} {i : Nat} {f : Var α → Option (Res α)} {p : Res α × Ideal α}
    (h : ask A i f = some p) : ask (over A H) i f = some (p.1, over p.2 H) := by
  obtain ⟨a, r, ha, hf, rfl⟩ := of_ask h
  simp [ask, over_some ha, hf]

theorem over_only {β γ : Type} {full : Bool} {g : Prop} [Decidable g] {x : Option β} {x' : Option γ} {y : β} {y' : γ}
    (h : only full g x = some y) (hx : x = some y → x' = some y') : only full g x' = some y' := by
  unfold only at h ⊢
  split at h
  · rename_i hg; rw [if_pos hg]; exact hx h
  · cases h

theorem over_step {full : Bool} {size : Nat} {dflt : α} (op : Op α) {A H A' : Ideal α} {r : Res α}
    (hH : ∀ i ∈ writes op, H i = none) (hs : specStep full size dflt op A = some (r, A')) :
    specStep full size dflt op (over A H) = some (r, over A' H) := by
  cases op <;> simp only [specStep, writes, List.mem_singleton, List.mem_cons, List.not_mem_nil, forall_eq, or_false,
    forall_eq_or_imp] at hs hH ⊢
  case newDefault => exact over_born hH hs
  case newAlloc => exact over_born hH hs
  case newFill =>
    obtain ⟨x, hx, hs⟩ := Option.bind_eq_some_iff.1 hs
    rw [over_arg hx]; exact over_only hs (over_born hH)
  case newCount => exact over_only hs (over_born hH)
  case newList => exact over_only hs (over_born hH)
  case newRange => exact over_only hs (over_born hH)
  case newCopy =>
    obtain ⟨x, hx, hs⟩ := Option.bind_eq_some_iff.1 hs
    rw [over_some hx]; exact over_born hH hs
  case newCopyAlloc =>
    obtain ⟨x, hx, hs⟩ := Option.bind_eq_some_iff.1 hs
    rw [over_some hx]; exact over_born hH hs
  case newMove i j a =>
    obtain ⟨x, hx, hs⟩ := Option.bind_eq_some_iff.1 hs
    split at hs <;> cases hs
    rename_i hi
    rw [over_some hx, over_put _ hH.2, over_put _ hH.1]
    simp only [Option.isNone_iff_eq_none] at hi
    simp [over_none hi, hH.1]
  case fromIter => exact over_born hH hs
  case copyAssign =>
    obtain ⟨x, hx, hs⟩ := Option.bind_eq_some_iff.1 hs
    rw [over_some hx]; exact over_upd hH hs
  case moveAssign i j =>
    obtain ⟨x, hx, hs⟩ := Option.bind_eq_some_iff.1 hs
    obtain ⟨y, hy, hs⟩ := Option.bind_eq_some_iff.1 hs
    rw [over_some hx, over_some hy]
    simp only [Option.bind_some]
    by_cases hij : i = j
    · rw [if_pos hij] at hs ⊢; cases hs; rfl
    · rw [if_neg hij] at hs ⊢; cases hs; rw [over_put _ hH.2, over_put _ hH.1]
  case listAssign => exact over_only hs (over_upd hH)
  case swap =>
    obtain ⟨x, hx, hs⟩ := Option.bind_eq_some_iff.1 hs
    obtain ⟨y, hy, hs⟩ := Option.bind_eq_some_iff.1 hs
    cases hs
    rw [over_some hx, over_some hy, over_put _ hH.2, over_put _ hH.1]
    rfl
  case drop =>
    obtain ⟨x, hx, hs⟩ := Option.bind_eq_some_iff.1 hs
    cases hs
    rw [over_some hx, over_put _ hH]
    rfl
  case push =>
    obtain ⟨x, hx, hs⟩ := Option.bind_eq_some_iff.1 hs
    rw [over_arg hx]; exact over_upd hH hs
  case assignFill =>
    obtain ⟨x, hx, hs⟩ := Option.bind_eq_some_iff.1 hs
    rw [over_arg hx]; exact over_upd hH hs
  case insert =>
    obtain ⟨x, hx, hs⟩ := Option.bind_eq_some_iff.1 hs
    rw [over_arg hx]; exact over_upd hH hs
  case insertFill =>
    obtain ⟨x, hx, hs⟩ := Option.bind_eq_some_iff.1 hs
    rw [over_arg hx]; exact over_upd hH hs
  case resizeFill =>
    obtain ⟨x, hx, hs⟩ := Option.bind_eq_some_iff.1 hs
    rw [over_arg hx]; exact over_upd hH hs
  case equal =>
    obtain ⟨x, hx, hs⟩ := Option.bind_eq_some_iff.1 hs
    rw [over_some hx]; exact over_ask hs
  case compare =>
    obtain ⟨x, hx, hs⟩ := Option.bind_eq_some_iff.1 hs
    rw [over_some hx]; exact over_ask hs
  all_goals first | exact over_upd hH hs | exact over_ask hs

/-- variables a call does not write stay -/
theorem spec_frame {full : Bool} {size : Nat} {dflt : α} (op : Op α) {A A' : Ideal α} {r : Res α}
    (hs : specStep full size dflt op A = some (r, A')) {i : Nat} (hi : i ∉ writes op) : A' i = A i := by
  have born_fr : ∀ {j v p}, i ≠ j → born A j v = some p → p.2 i = A i := by
    intro j v p hj h
    obtain ⟨_, rfl⟩ := of_born h
    simp [Spec.Vector.put, hj]
  have upd_fr : ∀ {j f p}, i ≠ j → Spec.Vector.upd A j f = some p → p.2 i = A i := by
    intro j v p hj h
    obtain ⟨_, _, _, _, _, rfl⟩ := of_upd h
    simp [Spec.Vector.put, hj]
  have ask_fr : ∀ {j f p}, ask A j f = some p → p.2 i = A i := by
    intro j v p h
    obtain ⟨_, _, _, _, rfl⟩ := of_ask h
    rfl
  have un_only : ∀ {β : Type} {g : Prop} [Decidable g] {x : Option β} {y : β}, only full g x = some y → x = some y := by
    intro β g _ x y h
    unfold only at h
    split at h
    · exact h
    · cases h
  cases op <;> simp only [specStep, writes, List.mem_singleton, List.mem_cons, List.not_mem_nil, or_false, not_or] at hs hi
  case newFill => obtain ⟨x, hx, hs⟩ := Option.bind_eq_some_iff.1 hs; exact born_fr hi (un_only hs)
  case newCopy => obtain ⟨x, hx, hs⟩ := Option.bind_eq_some_iff.1 hs; exact born_fr hi hs
  case newCopyAlloc => obtain ⟨x, hx, hs⟩ := Option.bind_eq_some_iff.1 hs; exact born_fr hi hs
  case newMove =>
    obtain ⟨x, hx, hs⟩ := Option.bind_eq_some_iff.1 hs
    split at hs <;> cases hs
    simp [Spec.Vector.put, hi.1, hi.2]
  case copyAssign => obtain ⟨x, hx, hs⟩ := Option.bind_eq_some_iff.1 hs; exact upd_fr hi hs
  case moveAssign =>
    obtain ⟨x, hx, hs⟩ := Option.bind_eq_some_iff.1 hs
    obtain ⟨y, hy, hs⟩ := Option.bind_eq_some_iff.1 hs
    split at hs <;> cases hs
    · rfl
    · simp [Spec.Vector.put, hi.1, hi.2]
  case swap =>
    obtain ⟨x, hx, hs⟩ := Option.bind_eq_some_iff.1 hs
    obtain ⟨y, hy, hs⟩ := Option.bind_eq_some_iff.1 hs
    cases hs
    simp [Spec.Vector.put, hi.1, hi.2]
  case drop => obtain ⟨x, hx, hs⟩ := Option.bind_eq_some_iff.1 hs; cases hs; simp [Spec.Vector.put, hi]
  case push => obtain ⟨x, hx, hs⟩ := Option.bind_eq_some_iff.1 hs; exact upd_fr hi hs
  case assignFill => obtain ⟨x, hx, hs⟩ := Option.bind_eq_some_iff.1 hs; exact upd_fr hi hs
  case insert => obtain ⟨x, hx, hs⟩ := Option.bind_eq_some_iff.1 hs; exact upd_fr hi hs
  case insertFill => obtain ⟨x, hx, hs⟩ := Option.bind_eq_some_iff.1 hs; exact upd_fr hi hs
  case resizeFill => obtain ⟨x, hx, hs⟩ := Option.bind_eq_some_iff.1 hs; exact upd_fr hi hs
  case equal => obtain ⟨x, hx, hs⟩ := Option.bind_eq_some_iff.1 hs; exact ask_fr hs
  case compare => obtain ⟨x, hx, hs⟩ := Option.bind_eq_some_iff.1 hs; exact ask_fr hs
  all_goals first | exact born_fr hi hs | exact born_fr hi (un_only hs) | exact upd_fr hi hs | exact upd_fr hi (un_only hs) | exact ask_fr hs

/-- An iterator, what it is to give, and its hidden vector. -/
def ItOk : Option (It α) → Option Kind → Option (Var α) → Prop
  | none, none, none => True
  | some (.fwd ts), some (.fwd pos len), some a =>
    (ts = [] ∧ len ≤ pos ∧ a.xs = []) ∨ (ts ≠ [] ∧ ∃ zs, pos = zs.length ∧ len = zs.length + ts.length ∧ a.xs = zs ++ ts)
  | some (.rev ts), some .rev, some a => a.xs = ts.reverse
  | some .moved, some (.fwd _ _), some a => a.xs = []
  | _, _, _ => False

structure OInv (ty : ElemTy α) (s : State α) (H : Ideal α) (w : OWorld α) : Prop where
  inv : Inv ty (over s.vecs H) w.base
  it : ∀ i, ItOk (s.its i) (w.its i) (H i)
  disj : ∀ i, s.its i ≠ none → s.vecs i = none

theorem OInv.none_of {s : State α} {H : Ideal α} {w : OWorld α} (I : OInv ty s H w) {i : Nat} (h : s.its i = none) :
    H i = none ∧ w.its i = none := by
  have := I.it i
  rw [h] at this
  cases hk : w.its i <;> cases hh : H i <;> rw [hk, hh] at this <;> first | exact ⟨rfl, rfl⟩ | exact this.elim

theorem OInv.fwd_of {s : State α} {H : Ideal α} {w : OWorld α} (I : OInv ty s H w) {i : Nat} {ts : List α}
    (h : s.its i = some (.fwd ts)) : ∃ pos len a, w.its i = some (.fwd pos len) ∧ H i = some a ∧ ((ts = [] ∧ len ≤ pos ∧ a.xs = []) ∨
      (ts ≠ [] ∧ ∃ zs, pos = zs.length ∧ len = zs.length + ts.length ∧ a.xs = zs ++ ts)) := by
  have := I.it i
  rw [h] at this
  cases hk : w.its i with
  | none => rw [hk] at this; exact this.elim
  | some k =>
    cases hh : H i with
    | none => rw [hk, hh] at this; cases k <;> exact this.elim
    | some a =>
      rw [hk, hh] at this
      cases k with
      | rev => exact this.elim
      | fwd pos len => exact ⟨pos, len, a, rfl, rfl, this⟩

theorem OInv.rev_of {s : State α} {H : Ideal α} {w : OWorld α} (I : OInv ty s H w) {i : Nat} {ts : List α}
    (h : s.its i = some (.rev ts)) : ∃ a, w.its i = some .rev ∧ H i = some a ∧ a.xs = ts.reverse := by
  have := I.it i
  rw [h] at this
  cases hk : w.its i with
  | none => rw [hk] at this; exact this.elim
  | some k =>
    cases hh : H i with
    | none => rw [hk, hh] at this; cases k <;> exact this.elim
    | some a =>
      rw [hk, hh] at this
      cases k with
      | fwd => exact this.elim
      | rev => exact ⟨a, rfl, rfl, this⟩

theorem OInv.moved_of {s : State α} {H : Ideal α} {w : OWorld α} (I : OInv ty s H w) {i : Nat}
    (h : s.its i = some .moved) : ∃ pos len a, w.its i = some (.fwd pos len) ∧ H i = some a ∧ a.xs = [] := by
  have := I.it i
  rw [h] at this
  cases hk : w.its i with
  | none => rw [hk] at this; exact this.elim
  | some k =>
    cases hh : H i with
    | none => rw [hk, hh] at this; cases k <;> exact this.elim
    | some a =>
      rw [hk, hh] at this
      cases k with
      | rev => exact this.elim
      | fwd pos len => exact ⟨pos, len, a, rfl, rfl, this⟩

theorem OInv.some_of {s : State α} {H : Ideal α} {w : OWorld α} (I : OInv ty s H w) {i : Nat} {x : It α}
    (h : s.its i = some x) : (∃ k, w.its i = some k) ∧ (∃ a, H i = some a) ∧ s.vecs i = none := by
  have hv := I.disj i (by rw [h]; simp)
  cases x with
  | fwd ts => obtain ⟨p, l, a, h1, h2, _⟩ := I.fwd_of h; exact ⟨⟨_, h1⟩, ⟨_, h2⟩, hv⟩
  | rev ts => obtain ⟨a, h1, h2, _⟩ := I.rev_of h; exact ⟨⟨_, h1⟩, ⟨_, h2⟩, hv⟩
  | moved => obtain ⟨p, l, a, h1, h2, _⟩ := I.moved_of h; exact ⟨⟨_, h1⟩, ⟨_, h2⟩, hv⟩

theorem onBase_run {β : Type} (f : Prog (World α) β) (w : OWorld α) :
    onBase f w = f w.base >>= fun p => .ok (p.1, { w with base := p.2 }) := rfl

theorem run_kind {w : OWorld α} {i : Nat} {k : Kind} (h : w.its i = some k) : kind i w = .ok (k, w) := by simp [kind, h]

/-- what a step has to deliver -/
def OAgree (ty : ElemTy α) (m : Out (Res α × OWorld α)) (r : Res α) (s' : State α) : Prop :=
  m.Safe fun q => q.1 = r ∧ ∃ H', OInv ty s' H' q.2

/-- hiding a vector behind an iterator -/
theorem over_hide {A H : Ideal α} {i : Nat} (x : Option (Var α)) (h : A i = none) : over A (put H i x) = put (over A H) i x := by
  funext j
  by_cases hj : j = i
  · subst hj; simp [over, Spec.Vector.put, h]
  · simp [over, Spec.Vector.put, hj]

theorem ostep_vec (op : Op α) {s : State α} {H : Ideal α} {w : OWorld α} (I : OInv ty s H w) {r : Res α} {A' : Ideal α}
    (hw : ∀ i ∈ writes op, s.its i = none) (hs : specStep false ty.size ty.dflt op s.vecs = some (r, A')) :
    OAgree ty (ostep ty (.vec op) w) r { s with vecs := A' } := by
  have h1 := over_step op (H := H) (fun i hi => (I.none_of (hw i hi)).1) hs
  have h2 := step_ok op I.inv h1
  simp only [OAgree, ostep, onBase_run]
  refine h2.bind ?_
  rintro ⟨r', b⟩ ⟨e, J⟩
  refine ⟨e, H, J, I.it, fun i hi => ?_⟩
  have hn : i ∉ writes op := fun hm => hi (hw i hm)
  show A' i = none
  rw [spec_frame op hs hn]
  exact I.disj i hi

theorem free_of {s : State α} {i : Nat} (h : s.free i = true) : s.vecs i = none ∧ s.its i = none := by
  simpa [State.free] using h

/-- taking vector `j` over into iterator `i` -/
theorem hide_move {s : State α} {H : Ideal α} {w : OWorld α} (I : OInv ty s H w) {i j : Nat} {v : Var α}
    (hj : s.vecs j = some v) (hi : s.free i = true) :
    ∃ u, w.base.vars j = some u ∧ u.len = v.xs.length ∧
      Inv ty (over (put s.vecs j (some ⟨[], 0, v.alloc⟩)) (put H i (some v)))
        ⟨w.base.heap, bindVar (bindVar w.base.vars i (some u)) j (some (Vec.blank u.alloc))⟩ ∧ i ≠ j ∧ s.its j = none := by
  obtain ⟨hi1, hi2⟩ := free_of hi
  have hH := (I.none_of hi2).1
  have hij : i ≠ j := by rintro rfl; rw [hi1] at hj; cases hj
  have hjn : s.its j = none := by
    cases h : s.its j with
    | none => rfl
    | some x => have := I.disj j (by rw [h]; simp); rw [hj] at this; cases this
  have hHj := (I.none_of hjn).1
  obtain ⟨u, hu, ru, hc, hl⟩ := I.inv.get (over_some (H := H) hj)
  refine ⟨u, hu, ru.len, ?_, hij, hjn⟩
  have hsp : specStep false ty.size ty.dflt (.newMove i j dfltAlloc) (over s.vecs H) =
      some (.unit, put (put (over s.vecs H) i (some v)) j (some ⟨[], 0, v.alloc⟩)) := by
    simp [specStep, over_some (H := H) hj, over_none hi1, hH]
  have := step_ok (ty := ty) _ I.inv hsp
  simp only [step, Prog.bind_run, run_var hu, Out.bind_ok, setVar, newMove, moveImpl, Prog.pure_run, Agree, Out.safe_ok, true_and] at this
  rw [over_put, over_hide _ hi1]
  · exact this
  · simp [Spec.Vector.put, hij.symm, hHj]

theorem it_put {s : State α} {H : Ideal α} {w : OWorld α} (I : ∀ i, ItOk (s.its i) (w.its i) (H i)) {i : Nat} {x : Option (It α)}
    {k : Option Kind} {a : Option (Var α)} (h : ItOk x k a) (j : Nat) :
    ItOk ((fun j => if j = i then x else s.its j) j) ((fun j => if j = i then k else w.its j) j) (put H i a j) := by
  by_cases hj : j = i
  · simp only [hj, if_true, Spec.Vector.put]; exact h
  · simp only [hj, if_false, Spec.Vector.put]; exact I j

theorem ostep_make {s : State α} {H : Ideal α} {w : OWorld α} (I : OInv ty s H w) {i j : Nat} {v : Var α}
    (hj : s.vecs j = some v) (hi : s.free i = true) :
    OAgree ty (ostep ty (.make i j) w) .unit ((s.setVec j (some ⟨[], 0, v.alloc⟩)).setIt i (some (.fwd v.xs))) := by
  obtain ⟨u, hu, hl, J, hij, hjn⟩ := hide_move I hj hi
  simp only [OAgree, ostep, makeIter, intoIter, newMove, moveImpl, Prog.bind_run, onBase_run, run_var hu, Out.bind_ok, setVar,
    setKind, Prog.pure_run, Out.safe_ok, true_and]
  refine ⟨put H i (some v), J, fun k => it_put (s := s) (w := w) I.it ?_ k, fun k hk => ?_⟩
  · show _ ∨ _
    by_cases hx : v.xs = []
    · exact .inl ⟨hx, by rw [hl, hx]; exact Nat.le_refl _, hx⟩
    · exact .inr ⟨hx, [], rfl, by rw [hl]; simp, rfl⟩
  · by_cases hki : k = i
    · subst hki; simp [State.setIt, State.setVec, Spec.Vector.put, hij, (free_of hi).1]
    · have hk' : s.its k ≠ none := by simpa [State.setIt, State.setVec, hki] using hk
      have hkj : k ≠ j := by rintro rfl; exact hk' hjn
      simp [State.setIt, State.setVec, Spec.Vector.put, hkj, I.disj k hk']

theorem ostep_makeRev {s : State α} {H : Ideal α} {w : OWorld α} (I : OInv ty s H w) {i j : Nat} {v : Var α}
    (hj : s.vecs j = some v) (hi : s.free i = true) :
    OAgree ty (ostep ty (.makeRev i j) w) .unit ((s.setVec j (some ⟨[], 0, v.alloc⟩)).setIt i (some (.rev v.xs.reverse))) := by
  obtain ⟨u, hu, hl, J, hij, hjn⟩ := hide_move I hj hi
  simp only [OAgree, ostep, Model.VectorOwn.makeRev, newMove, moveImpl, Prog.bind_run, onBase_run, run_var hu, Out.bind_ok, setVar,
    setKind, Prog.pure_run, Out.safe_ok, true_and]
  refine ⟨put H i (some v), J, fun k => it_put (s := s) (w := w) I.it ?_ k, fun k hk => ?_⟩
  · show _ = _
    simp
  · by_cases hki : k = i
    · subst hki; simp [State.setIt, State.setVec, Spec.Vector.put, hij, (free_of hi).1]
    · have hk' : s.its k ≠ none := by simpa [State.setIt, State.setVec, hki] using hk
      have hkj : k ≠ j := by rintro rfl; exact hk' hjn
      simp [State.setIt, State.setVec, Spec.Vector.put, hkj, I.disj k hk']

theorem disj_set {s : State α} (D : ∀ i, s.its i ≠ none → s.vecs i = none) {i : Nat} (hi : s.vecs i = none) (x : Option (It α)) :
    ∀ k, (s.setIt i x).its k ≠ none → (s.setIt i x).vecs k = none := by
  intro k hk
  by_cases hki : k = i
  · subst hki; exact hi
  · exact D k (by simpa [State.setIt, hki] using hk)

theorem put_self {H : Ideal α} {i : Nat} {x : Option (Var α)} (h : H i = x) : put H i x = H := by
  funext j; by_cases hj : j = i
  · subst hj; simp [Spec.Vector.put, h]
  · simp [Spec.Vector.put, hj]

theorem bindVar_self {f : Nat → Option Vec} {i : Nat} {x : Option Vec} (h : f i = x) : bindVar f i x = f := by
  funext j; by_cases hj : j = i
  · subst hj; simp [bindVar, h]
  · simp [bindVar, hj]

theorem kind_self {f : Nat → Option Kind} {i : Nat} {x : Option Kind} (h : f i = x) : (fun j => if j = i then x else f j) = f := by
  funext j; by_cases hj : j = i
  · subst hj; simp [h]
  · simp [hj]

theorem ostep_next_fwd {s : State α} {H : Ideal α} {w : OWorld α} (I : OInv ty s H w) {i : Nat} {ts : List α}
    (hi : s.its i = some (.fwd ts)) :
    OAgree ty (ostep ty (.next i) w) (.opt ts.head?) (s.setIt i (some (.fwd ts.tail))) := by
  obtain ⟨pos, len, a, hk, hh, hst⟩ := I.fwd_of hi
  have hv := I.disj i (by rw [hi]; simp)
  obtain ⟨u, hu, ru, hc, hl⟩ := I.inv.get (show over s.vecs H i = some a by rw [over_none hv, hh])
  simp only [OAgree, ostep, next, Prog.bind_run, run_kind hk, onBase_run, run_var hu, Out.bind_ok]
  rcases hst with ⟨rfl, hle, ha⟩ | ⟨hne, zs, hp, hlen, ha⟩
  · have e : IntoIter.next ty ⟨u, pos, len⟩ w.base.heap = .ok ((none, ⟨u, pos, len⟩), w.base.heap) := by
      simp only [IntoIter.next, show ¬ pos < len by omega, if_false]; rfl
    simp only [inHeap_run, e, Out.bind_ok, setVar, setKind, Prog.bind_run, onBase_run, Prog.pure_run, Out.safe_ok, true_and,
      List.head?_nil]
    refine ⟨H, ?_, ?_, disj_set I.disj hv _⟩
    · simp only [bindVar_self hu]; exact I.inv
    · have := it_put (s := s) (w := w) I.it (i := i) (x := some (.fwd [])) (k := some (.fwd pos len)) (a := some a) (.inl ⟨rfl, hle, ha⟩)
      rw [put_self hh] at this
      exact this
  · cases ts with
    | nil => exact (hne rfl).elim
    | cons t ts =>
      have r : IntoRep ty w.base.heap ⟨u, pos, len⟩ (t :: ts) := ⟨.inr ⟨hne, zs, hp, hlen, by rw [← ha]; exact ru⟩⟩
      obtain ⟨it', h', k, e, r', b', st⟩ := intoNext_ok r I.inv.bal
      simp only [inHeap_run, e, Out.bind_ok, setVar, setKind, Prog.bind_run, onBase_run, Prog.pure_run, Out.safe_ok, true_and,
        List.head?_cons]
      have : ∃ b : Var α, Rep ty h' it'.vec b.xs ∧ it'.vec.cap = b.cap ∧ it'.vec.alloc = b.alloc ∧
          ItOk (some (.fwd ts)) (some (.fwd it'.pos it'.len)) (some b) := by
        rcases r'.rep with ⟨h1, h2, h3⟩ | ⟨h1, zs, h2, h3, h4⟩
        · exact ⟨⟨[], it'.vec.cap, it'.vec.alloc⟩, h3, rfl, rfl, .inl ⟨h1, by omega, rfl⟩⟩
        · exact ⟨⟨zs ++ ts, it'.vec.cap, it'.vec.alloc⟩, h4, rfl, rfl, .inr ⟨h1, zs, h2, h3, rfl⟩⟩
      obtain ⟨b, h1, h2, h3, h4⟩ := this
      refine ⟨put H i (some b), ?_, fun k => it_put (s := s) (w := w) I.it h4 k, disj_set I.disj hv _⟩
      have := I.inv.put (i := i) (o' := some it'.vec) (a' := some b) (h' := h') (k := k) (by rw [hu]; exact st) ⟨h1, h2, h3⟩
      rw [← over_hide _ hv] at this
      exact this

theorem ostep_next_rev {s : State α} {H : Ideal α} {w : OWorld α} (I : OInv ty s H w) {i : Nat} {ts : List α}
    (hi : s.its i = some (.rev ts)) :
    OAgree ty (ostep ty (.next i) w) (.opt ts.head?) (s.setIt i (some (.rev ts.tail))) := by
  obtain ⟨a, hk, hh, ha⟩ := I.rev_of hi
  have hv := I.disj i (by rw [hi]; simp)
  obtain ⟨u, hu, ru, hc, hl⟩ := I.inv.get (show over s.vecs H i = some a by rw [over_none hv, hh])
  simp only [OAgree, ostep, next, Prog.bind_run, run_kind hk, onBase_run, run_var hu, Out.bind_ok]
  rw [ha] at ru
  cases ts with
  | nil =>
    simp only [inHeap_run, intoNextReversed_end ru, Out.bind_ok, setVar, Prog.bind_run, onBase_run, Prog.pure_run, Out.safe_ok, true_and,
      List.head?_nil]
    refine ⟨H, ?_, ?_, disj_set I.disj hv _⟩
    · simp only [bindVar_self hu]; exact I.inv
    · have := it_put (s := s) (w := w) I.it (i := i) (x := some (.rev [])) (k := some .rev) (a := some a) ha
      rw [put_self hh, kind_self hk] at this
      exact this
  | cons t ts =>
    rw [List.reverse_cons] at ru
    obtain ⟨v', h', k, e, t1⟩ := intoNextReversed_ok ru I.inv.bal
    simp only [inHeap_run, e, Out.bind_ok, setVar, Prog.bind_run, onBase_run, Prog.pure_run, Out.safe_ok, true_and,
      List.head?_cons]
    refine ⟨put H i (some ⟨ts.reverse, u.cap, u.alloc⟩), ?_, ?_, disj_set I.disj hv _⟩
    · have := I.inv.put (i := i) (o' := some v') (a' := some ⟨ts.reverse, u.cap, u.alloc⟩) (h' := h') (k := k)
        (by rw [hu]; exact t1.step) ⟨t1.rep, t1.cap, t1.alloc⟩
      rw [← over_hide _ hv] at this
      exact this
    · have := it_put (s := s) (w := w) I.it (i := i) (x := some (.rev ts)) (k := some .rev)
        (a := some ⟨ts.reverse, u.cap, u.alloc⟩) rfl
      rw [kind_self hk] at this
      exact this

theorem ostep_drop {s : State α} {H : Ideal α} {w : OWorld α} (I : OInv ty s H w) {i : Nat} {x : It α}
    (hi : s.its i = some x) : OAgree ty (ostep ty (.drop i) w) .unit (s.setIt i none) := by
  obtain ⟨⟨k, hk⟩, ⟨a, hh⟩, hv⟩ := I.some_of hi
  obtain ⟨u, hu, ru, hc, hl⟩ := I.inv.get (show over s.vecs H i = some a by rw [over_none hv, hh])
  obtain ⟨h1, e1, t1⟩ := clear_ok ru I.inv.bal
  simp only [OAgree, ostep, drop, Prog.bind_run, run_kind hk, onBase_run, run_var hu, Out.bind_ok, inHeap_run, e1, setVar, setKind,
    Prog.pure_run, Out.safe_ok, true_and]
  refine ⟨put H i none, ?_, fun k => it_put (s := s) (w := w) I.it (x := none) (k := none) (a := none) trivial k, disj_set I.disj hv _⟩
  have := I.inv.put (i := i) (o' := none) (a' := none) (h' := h1) (by rw [hu]; exact t1.step) trivial
  rw [← over_hide _ hv] at this
  exact this

/-- the two base calls a move consists of -/
theorem base_move {A : Ideal α} {w : World α} (I : Inv ty A w) {i j : Nat} {a : Var α} (hi : A i = none) (hj : A j = some a) {u : Vec}
    (hu : w.vars j = some u) :
    (newDefault ty w.heap).Safe fun q => ∃ h', moveAssign ty q.1 u q.2 = .ok ((u, Vec.blank u.alloc), h') ∧
      Inv ty (put (put A i (some a)) j (some ⟨[], 0, a.alloc⟩)) ⟨h', bindVar (bindVar w.vars i (some u)) j (some (Vec.blank u.alloc))⟩ := by
  have hij : i ≠ j := by rintro rfl; rw [hi] at hj; cases hj
  have hji : j ≠ i := hij.symm
  have s1 : specStep false ty.size ty.dflt (.newDefault i) A = some (.unit, put A i (some ⟨[], 2, 0⟩)) := by
    simp [specStep, born, hi]
  have o1 := step_ok (ty := ty) _ I s1
  simp only [step, create, Prog.bind_run, inHeap_run, Agree] at o1
  cases hd : newDefault ty w.heap with
  | oom => trivial
  | ub => rw [hd] at o1; exact o1.elim
  | panic => rw [hd] at o1; exact o1.elim
  | div => rw [hd] at o1; exact o1.elim
  | ok q =>
    obtain ⟨v0, h1⟩ := q
    rw [hd] at o1
    simp only [Out.bind_ok, setVar, Prog.pure_run, Out.safe_ok, true_and] at o1
    have s2 : specStep false ty.size ty.dflt (.moveAssign i j) (put A i (some ⟨[], 2, 0⟩)) =
        some (.unit, put (put (put A i (some ⟨[], 2, 0⟩)) i (some a)) j (some ⟨[], 0, a.alloc⟩)) := by
      simp [specStep, Spec.Vector.put, hji, hj, hij]
    have o2 := step_ok (ty := ty) _ o1 s2
    obtain ⟨v, hv, rv, hc, hl⟩ := o1.get (i := i) (a := ⟨[], 2, 0⟩) (by simp [Spec.Vector.put])
    have hv0 : v = v0 := by simpa [bindVar] using hv.symm
    subst hv0
    obtain ⟨h2, e2, t2⟩ := clear_ok rv o1.bal
    simp only [Out.safe_ok]
    refine ⟨h2, by simp only [moveAssign, Prog.bind_run, e2, Out.bind_ok, Prog.pure_run, moveImpl]; rfl, ?_⟩
    simp only [step, hij, if_false, Prog.bind_run, run_var (w := ⟨h1, bindVar w.vars i (some v)⟩) (i := i) (v := v) (by simp [bindVar]),
      run_var (w := ⟨h1, bindVar w.vars i (some v)⟩) (i := j) (v := u) (by simp [bindVar, hji, hu]),
      Out.bind_ok, inHeap_run, moveAssign, e2, Prog.pure_run, setVar, moveImpl, Agree, Out.safe_ok, true_and] at o2
    have e1 : put (put (put A i (some ⟨[], 2, 0⟩)) i (some a)) j (some ⟨[], 0, a.alloc⟩) = put (put A i (some a)) j (some ⟨[], 0, a.alloc⟩) := by
      funext k; simp only [Spec.Vector.put]; split
      · rfl
      · split <;> rfl
    have e3 : bindVar (bindVar (bindVar w.vars i (some v)) i (some u)) j (some (Vec.blank u.alloc)) =
        bindVar (bindVar w.vars i (some u)) j (some (Vec.blank u.alloc)) := by
      funext k; simp only [bindVar]; split
      · rfl
      · split <;> rfl
    rw [e1] at o2
    rw [← e3]
    exact o2

theorem ostep_move {s : State α} {H : Ideal α} {w : OWorld α} (I : OInv ty s H w) {i j : Nat} {x : It α} {ts : List α}
    (hj : s.its j = some x) (hx : x = .fwd ts ∨ (x = .moved ∧ ts = [])) (hi : s.free i = true) :
    OAgree ty (ostep ty (.move i j) w) .unit ((s.setIt i (some (.fwd ts))).setIt j (some .moved)) := by
  obtain ⟨hi1, hi2⟩ := free_of hi
  obtain ⟨hHi, hki⟩ := I.none_of hi2
  have hij : i ≠ j := by rintro rfl; rw [hi2] at hj; cases hj
  have hvj := I.disj j (by rw [hj]; simp)
  have : ∃ pos len a, w.its j = some (.fwd pos len) ∧ H j = some a ∧
      ItOk (some (.fwd ts)) (some (.fwd pos a.xs.length)) (some a) := by
    rcases hx with rfl | ⟨rfl, rfl⟩
    · obtain ⟨pos, len, a, h1, h2, h3⟩ := I.fwd_of hj
      refine ⟨pos, len, a, h1, h2, ?_⟩
      rcases h3 with ⟨e1, e2, e3⟩ | ⟨e1, zs, e2, e3, e4⟩
      · exact .inl ⟨e1, by rw [e3]; exact Nat.zero_le _, e3⟩
      · exact .inr ⟨e1, zs, e2, by rw [e4]; simp, e4⟩
    · obtain ⟨pos, len, a, h1, h2, h3⟩ := I.moved_of hj
      exact ⟨pos, len, a, h1, h2, .inl ⟨rfl, by rw [h3]; exact Nat.zero_le _, h3⟩⟩
  obtain ⟨pos, len, a, hk, hh, hit⟩ := this
  have hCj : over s.vecs H j = some a := by rw [over_none hvj, hh]
  obtain ⟨u, hu, ru, hc, hl⟩ := I.inv.get hCj
  have key := base_move (ty := ty) I.inv (i := i) (j := j) (by rw [over_none hi1, hHi]) hCj hu
  simp only [OAgree, ostep, move, Prog.bind_run, run_kind hk, onBase_run, run_var hu, Out.bind_ok, inHeap_run]
  cases hd : newDefault ty w.base.heap with
  | oom => trivial
  | ub => rw [hd] at key; exact key.elim
  | panic => rw [hd] at key; exact key.elim
  | div => rw [hd] at key; exact key.elim
  | ok q =>
    rw [hd] at key
    obtain ⟨h', e, J⟩ := key
    simp only [Out.bind_ok, e, setVar, setKind, Prog.pure_run, Out.safe_ok, true_and]
    refine ⟨put (put H i (some a)) j (some ⟨[], 0, a.alloc⟩), ?_, ?_, ?_⟩
    · rw [← over_hide _ hi1, ← over_hide _ hvj] at J
      exact J
    · have it1 := it_put (s := s) (w := w) I.it (i := i) hit
      have it2 := it_put (s := s.setIt i (some (.fwd ts)))
        (w := { w with its := fun k => if k = i then some (.fwd pos a.xs.length) else w.its k })
        (H := put H i (some a)) it1 (i := j) (x := some .moved) (k := some (.fwd 0 len)) (a := some ⟨[], 0, a.alloc⟩) rfl
      simp only [ru.len]
      exact it2
    · exact disj_set (s := s.setIt i (some (.fwd ts))) (disj_set I.disj hi1 _) hvj _

theorem ostep_ok (op : OOp α) {s : State α} {H : Ideal α} {w : OWorld α} (I : OInv ty s H w) {r : Res α} {s' : State α}
    (hs : ownStep false ty.size ty.dflt op s = some (r, s')) : OAgree ty (ostep ty op w) r s' := by
  cases op with
  | vec op =>
    simp only [ownStep] at hs
    split at hs
    · rename_i hw
      cases hsp : specStep false ty.size ty.dflt op s.vecs with
      | none => rw [hsp] at hs; cases hs
      | some p =>
        rw [hsp] at hs; cases hs
        exact ostep_vec op I (by simpa using hw) hsp
    · cases hs
  | make i j =>
    simp only [ownStep, Option.bind_eq_some_iff] at hs
    obtain ⟨v, hv, hs⟩ := hs
    split at hs <;> cases hs
    exact ostep_make I hv (by assumption)
  | makeRev i j =>
    simp only [ownStep, Option.bind_eq_some_iff] at hs
    obtain ⟨v, hv, hs⟩ := hs
    split at hs <;> cases hs
    exact ostep_makeRev I hv (by assumption)
  | next i =>
    simp only [ownStep, Option.bind_eq_some_iff] at hs
    obtain ⟨x, hx, hs⟩ := hs
    cases x with
    | fwd ts => cases hs; exact ostep_next_fwd I hx
    | rev ts => cases hs; exact ostep_next_rev I hx
    | moved => exact (of_only hs).1.elim
  | move i j =>
    simp only [ownStep, Option.bind_eq_some_iff] at hs
    obtain ⟨x, hx, hs⟩ := hs
    split at hs
    · rename_i hf
      cases x with
      | fwd ts => cases hs; exact ostep_move I hx (.inl rfl) hf
      | moved => cases hs; exact ostep_move I hx (.inr ⟨rfl, rfl⟩) hf
      | rev ts => cases hs
    · cases hs
  | drop i =>
    simp only [ownStep, Option.bind_eq_some_iff] at hs
    obtain ⟨x, hx, hs⟩ := hs
    cases hs
    exact ostep_drop I hx

theorem oinv_init : OInv ty start (fun _ => none) ({} : OWorld α) :=
  { inv := inv_init, it := fun _ => trivial, disj := fun _ h => (h rfl).elim }

theorem orun_ok (ops : List (OOp α)) {s : State α} {H : Ideal α} {w : OWorld α} (I : OInv ty s H w) {rs : List (Res α)} {s' : State α}
    (hs : ownRun false ty.size ty.dflt ops s = some (rs, s')) :
    (orun ty ops w).Safe fun q => q.1 = rs ∧ ∃ H', OInv ty s' H' q.2 := by
  induction ops generalizing s H w rs with
  | nil => cases hs; exact ⟨rfl, H, I⟩
  | cons op ops ih =>
    simp only [ownRun, Option.bind_eq_some_iff, Option.map_eq_some_iff] at hs
    obtain ⟨⟨r, s1⟩, h1, ⟨rs', s2⟩, h2, e⟩ := hs
    cases e
    simp only [orun, Prog.bind_run]
    refine (ostep_ok op I h1).bind ?_
    rintro ⟨r', w1⟩ ⟨hr, H1, I1⟩
    simp only at hr I1 ⊢
    subst hr
    refine (ih I1 h2).bind ?_
    rintro ⟨rs'', w2⟩ ⟨hrs, H2, I2⟩
    simp only at hrs I2 ⊢
    subst hrs
    exact ⟨rfl, H2, I2⟩

end Verif.Proof.VectorOwn
