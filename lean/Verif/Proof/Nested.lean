import Verif.Spec.Nested
import Verif.Proof.VectorHist
/-! # Nested vectors: objects in buffers -/
namespace Verif.Proof.Nested
open Verif Verif.Model.Mem Verif.Proof.Mem Verif.Model.Nested Verif.Spec.Nested
open Verif.Model.Vector (Vec Vec.blank dfltAlloc moveImpl bindVar)
open Verif.Proof.Vector (raws raws_succ raws_zero raws_length liveSlots_raws raws_snoc raws_append)
open Verif.Spec.Vector (Var)

/-! ## Addresses -/

theorem slot_inj {b k b' k' : Nat} (h : slot b k = slot b' k') : b = b' ∧ k = k' := by
  unfold slot at h
  exact Nat.pair_eq_pair.1 (by omega)

theorem temp_ne_slot (i b k : Nat) : temp i ≠ slot b k := by unfold temp slot; omega

theorem temp_inj {i j : Nat} (h : temp i = temp j) : i = j := by unfold temp at h; omega

/-! ## Classes that keep their promises -/

section
variable {S : Sig} {σ V : Type}

/-- The class does what its meaning says, whatever other objects there are. -/
structure Law (C : Cls S σ) (μ : Meaning S V) where
  Inv : (Nat → Option V) → σ → Prop
  start : Inv (fun _ => none) C.start
  make : ∀ {A s n m x}, Inv A s → A n = none → μ.val m = some x →
    (C.make m n s).Safe fun q => Inv (place A n (some x)) q.2
  copy : ∀ {A s d e x}, Inv A s → A d = none → A e = some x → μ.cpOk x = true →
    (C.copy d e s).Safe fun q => Inv (place A d (some (μ.cp x))) q.2
  copyDead : ∀ {A s d e}, Inv A s → A e = none → C.copy d e s = .ub
  move : ∀ {A s d e x}, Inv A s → A d = none → A e = some x →
    (C.move d e s).Safe fun q => Inv (place (place A d (some x)) e (some (μ.left x))) q.2
  copyAssign : ∀ {A s d e t x}, Inv A s → d ≠ e → A d = some t → A e = some x → μ.cpOk x = true → μ.cpInto t x = true →
    (C.copyAssign d e s).Safe fun q => Inv (place A d (some (μ.cpAssign t x))) q.2
  copySelf : ∀ {A s d t}, Inv A s → A d = some t → μ.cpOk t = true → (C.copyAssign d d s).Safe fun q => Inv A q.2
  moveAssign : ∀ {A s d e t x}, Inv A s → d ≠ e → A d = some t → A e = some x → μ.mvInto t x = true →
    (C.moveAssign d e s).Safe fun q => Inv (place (place A d (some x)) e (some (μ.leftInto t x))) q.2
  moveSelf : ∀ {A s d t}, Inv A s → A d = some t → (C.moveAssign d d s).Safe fun q => Inv A q.2
  drop : ∀ {A s n x}, Inv A s → A n = some x → (C.drop n s).Safe fun q => Inv (place A n none) q.2
  call : ∀ {A s n x c r y}, Inv A s → A n = some x → μ.run c x = some (r, y) →
    (C.call c n s).Safe fun q => q.1 = r ∧ Inv (place A n (some y)) q.2
  newOk : ∀ {m x}, μ.val m = some x → μ.cpOk x = true
  cpOk : ∀ {x}, μ.cpOk x = true → μ.cpOk (μ.cp x) = true
  idle : ∀ {A s}, Inv A s → (∀ n, A n = none) → C.idle s

end

theorem place_same {V : Type} (A : Nat → Option V) (i : Nat) (x : Option V) : place A i x i = x := by simp [place]
theorem place_ne {V : Type} (A : Nat → Option V) {i j : Nat} (x : Option V) (h : j ≠ i) : place A i x j = A j := by
  simp [place, h]

variable {S : Sig} {σ V : Type} {C : Cls S σ} {μ : Meaning S V} (L : Law C μ) {ty : ElemTy Unit}

/-! ## Buffers with their objects -/

def unit? (o : Option V) : Option Unit := o.map fun _ => ()

@[simp] theorem unit?_none : unit? (none : Option V) = none := rfl
@[simp] theorem unit?_some (x : V) : unit? (some x) = some () := rfl

/-- The objects in buffer `p`. -/
def Cells (A : Nat → Option V) (p : Option Nat) (ol : List (Option V)) : Prop :=
  ∀ b, p = some b → ∀ k, A (slot b k) = (ol[k]?).join

structure NOwn (ty : ElemTy Unit) (h : Heap Unit) (A : Nat → Option V) (p : Option Nat) (cap al : Nat) (ol : List (Option V)) :
    Prop where
  own : Own ty h p cap al (ol.map unit?)
  cells : Cells A p ol

/-- A consistent state with objects `A`. -/
structure NS (s : St σ) (A : Nat → Option V) : Prop where
  inv : L.Inv A s.objs
  bal : Bal s.heap
  housed : ∀ b k, s.heap.blocks b = none → A (slot b k) = none

/-- From `s` to `s'` only the owned buffers, `l` before and `l'` after, and the objects in them and at `ts` changed. -/
structure NStep (s : St σ) (A : Nat → Option V) (l : List Nat) (s' : St σ) (A' : Nat → Option V) (l' : List Nat)
    (ts : List Nat) : Prop where
  step : ∃ k, Step s.heap l s'.heap l' k
  frame : ∀ m, (∀ b k, m = slot b k → b ∉ l ∧ b ∉ l') → m ∉ ts → A' m = A m

theorem NStep.refl (s : St σ) (A : Nat → Option V) (l : List Nat) (ts : List Nat) : NStep s A l s A l ts :=
  ⟨⟨0, Step.refl _ _⟩, fun _ _ _ => rfl⟩

variable {L}

theorem NStep.trans {s s' s'' : St σ} {A A' A'' : Nat → Option V} {l l' l'' ts ts' : List Nat} (n : NS L s A)
    (n'' : NS L s'' A'') (a : NStep s A l s' A' l' ts) (b : NStep s' A' l' s'' A'' l'' ts') :
    NStep s A l s'' A'' l'' (ts ++ ts') := by
  obtain ⟨k, sa⟩ := a.step
  obtain ⟨k', sb⟩ := b.step
  refine ⟨⟨_, sa.trans sb⟩, fun m hm ht => ?_⟩
  simp only [List.mem_append, not_or] at ht
  by_cases hx : ∃ b0 k0, m = slot b0 k0 ∧ b0 ∈ l'
  · obtain ⟨b0, k0, e, hb⟩ := hx
    subst e
    have := hm b0 k0 rfl
    rw [n''.housed b0 k0 (sb.gone b0 hb this.2), n.housed b0 k0 (sa.fresh b0 hb this.1)]
  · have hno : ∀ b0 k0, m = slot b0 k0 → b0 ∉ l' := fun b0 k0 e hb => hx ⟨b0, k0, e, hb⟩
    rw [b.frame m (fun b0 k0 e => ⟨hno b0 k0 e, (hm b0 k0 e).2⟩) ht.2,
      a.frame m (fun b0 k0 e => ⟨(hm b0 k0 e).1, hno b0 k0 e⟩) ht.1]

/-- fewer conditions: more touched -/
theorem NStep.more {s s' : St σ} {A A' : Nat → Option V} {l l' ts ts' : List Nat} (a : NStep s A l s' A' l' ts)
    (h : ∀ t, t ∈ ts → t ∈ ts') : NStep s A l s' A' l' ts' :=
  ⟨a.step, fun m hm ht => a.frame m hm fun hx => ht (h m hx)⟩

/-- touched objects in owned buffers need not be listed -/
theorem NStep.drop_slots {s s' : St σ} {A A' : Nat → Option V} {l l' ts ts' : List Nat} (a : NStep s A l s' A' l' ts)
    (h : ∀ t, t ∈ ts → t ∈ ts' ∨ ∃ b k, t = slot b k ∧ (b ∈ l ∨ b ∈ l')) : NStep s A l s' A' l' ts' := by
  refine ⟨a.step, fun m hm ht => a.frame m hm fun hx => ?_⟩
  rcases h m hx with h' | ⟨b, k, e, hb⟩
  · exact ht h'
  · have := hm b k e
    rcases hb with hb | hb
    · exact this.1 hb
    · exact this.2 hb

theorem NStep.weaken {s s' : St σ} {A A' : Nat → Option V} {l l' ts : List Nat} (a : NStep s A l s' A' l' ts) (m : List Nat) :
    NStep s A (m ++ l) s' A' (m ++ l') ts := by
  obtain ⟨k, st⟩ := a.step
  refine ⟨⟨k, st.weaken m⟩, fun x hx ht => a.frame x (fun b k' e => ?_) ht⟩
  have := hx b k' e
  simp only [List.mem_append, not_or] at this
  exact ⟨this.1.2, this.2.2⟩

theorem NStep.weaken' {s s' : St σ} {A A' : Nat → Option V} {l l' ts : List Nat} (a : NStep s A l s' A' l' ts) (m : List Nat) :
    NStep s A (l ++ m) s' A' (l' ++ m) ts := by
  obtain ⟨k, st⟩ := a.step
  refine ⟨⟨k, st.weaken' m⟩, fun x hx ht => a.frame x (fun b k' e => ?_) ht⟩
  have := hx b k' e
  simp only [List.mem_append, not_or] at this
  exact ⟨this.1.1, this.2.1⟩

theorem NOwn.block {h : Heap Unit} {A : Nat → Option V} {b cap al : Nat} {ol : List (Option V)}
    (o : NOwn ty h A (some b) cap al ol) : h.blocks b ≠ none := by
  have := o.own
  simp only [Own] at this
  rw [this.1]; simp

theorem NOwn.length {h : Heap Unit} {A : Nat → Option V} {p : Option Nat} {cap al : Nat} {ol : List (Option V)}
    (o : NOwn ty h A p cap al ol) : ol.length = cap := by
  have := o.own.length; simpa using this

/-- Buffers of others survive. -/
theorem NOwn.keep {s s' : St σ} {A A' : Nat → Option V} {p : Option Nat} {cap al : Nat} {ol : List (Option V)}
    {l l' ts : List Nat} (o : NOwn ty s.heap A p cap al ol) (st : NStep s A l s' A' l' ts)
    (hn : ∀ b, p = some b → b ∉ l) (ht : ∀ b k, p = some b → slot b k ∉ ts) : NOwn ty s'.heap A' p cap al ol := by
  obtain ⟨k, st0⟩ := st.step
  refine ⟨o.own.keep st0 hn, fun b hb k => ?_⟩
  rw [st.frame (slot b k) ?_ (ht b k hb)]
  · exact o.cells b hb k
  · intro b' k' e
    obtain ⟨rfl, _⟩ := slot_inj e
    refine ⟨hn b hb, fun hm => ?_⟩
    subst hb
    exact o.block (st0.fresh b hm (hn b rfl))

theorem NOwn.at {h : Heap Unit} {A : Nat → Option V} {b cap al : Nat} {ol : List (Option V)}
    (o : NOwn ty h A (some b) cap al ol) {k : Nat} {x : Option V} (hk : ol[k]? = some x) : A (slot b k) = x := by
  rw [o.cells b rfl k, hk]; rfl

/-- One object of the buffer is replaced. -/
theorem cells_set {A : Nat → Option V} {b : Nat} {pre post : List (Option V)} {o o' : Option V} {i : Nat}
    (hc : Cells A (some b) (pre ++ o :: post)) (hi : i = pre.length) :
    Cells (place A (slot b i) o') (some b) (pre ++ o' :: post) := by
  intro b' hb' k
  cases hb'
  by_cases hk : k = i
  · subst hk; rw [place_same, focus_get _ _ _ hi]; rfl
  · rw [place_ne _ _ (by intro e; exact hk (slot_inj e).2), hc b rfl k]
    subst hi
    rcases Nat.lt_or_ge k pre.length with h | h
    · rw [List.getElem?_append_left h, List.getElem?_append_left h]
    · rw [List.getElem?_append_right h, List.getElem?_append_right h]
      obtain ⟨d, hd⟩ : ∃ d, k - pre.length = d + 1 := ⟨k - pre.length - 1, by omega⟩
      rw [hd]; simp

theorem cells_other {A : Nat → Option V} {p : Option Nat} {ol : List (Option V)} {n : Nat} {o' : Option V}
    (hc : Cells A p ol) (hn : ∀ b k, p = some b → n ≠ slot b k) : Cells (place A n o') p ol := by
  intro b hb k
  rw [place_ne _ _ (fun e => hn b k hb e.symm)]
  exact hc b hb k

theorem run_inBuf {β : Type} (f : M Unit β) (s : St σ) :
    inBuf f s = (f s.heap >>= fun p => .ok (p.1, { s with heap := p.2 })) := rfl
theorem run_inObjs {β : Type} (f : Prog σ β) (s : St σ) :
    inObjs f s = (f s.objs >>= fun p => .ok (p.1, { s with objs := p.2 })) := rfl

/-! ## Primitives -/

section prims
variable {s : St σ} {A : Nat → Option V} {p : Option Nat} {i cap al src : Nat} {pre post : List (Option V)} {x : V}

theorem nown_some (h : NOwn ty s.heap A p cap al (pre ++ o :: post)) : ∃ b, p = some b := by
  cases p with
  | some b => exact ⟨b, rfl⟩
  | none => have := h.own; simp [Own] at this

/-- a consistent state after an object was put into or taken out of an owned buffer -/
theorem NS.set {h' : Heap Unit} {objs' : σ} {b : Nat} {A' : Nat → Option V} {c : Cost} {l : List Nat} (n : NS L s A) (hi : L.Inv A' objs')
    (hs : Step s.heap l h' l c) (hl : ∀ b, b ∈ l → h'.blocks b ≠ none)
    (hf : ∀ m, (∀ b k, m = slot b k → b ∉ l) → A' m = A m ∨ ∀ b k, m ≠ slot b k) : NS L ⟨h', objs'⟩ A' := by
  refine ⟨hi, hs.bal n.bal, fun b' k' hn => ?_⟩
  simp only at hn
  have e : b' ∉ l := fun hm => hl b' hm hn
  rcases hf (slot b' k') (by intro b k e'; obtain ⟨rfl, _⟩ := slot_inj e'; exact e) with h | h
  · rw [h]; exact n.housed b' k' (by rw [← hs.frame b' e e]; exact hn)
  · exact absurd rfl (h b' k')

theorem copyTo_ok (n : NS L s A) (o : NOwn ty s.heap A p cap al (pre ++ none :: post)) (hi : i = pre.length)
    (hsrc : A src = some x) (hok : μ.cpOk x = true) :
    (copyTo C p i src s).Safe fun q => ∃ A', NS L q.2 A' ∧
      NOwn ty q.2.heap A' p cap al (pre ++ some (μ.cp x) :: post) ∧ NStep s A p.toList q.2 A' p.toList [] := by
  obtain ⟨b, rfl⟩ := nown_some o
  have ho := o.own
  simp only [List.map_append, List.map_cons, unit?_none] at ho
  obtain ⟨h1, e1, o1, s1⟩ := construct_ok (x := ()) ho (by simpa using hi)
  have hd : A (slot b i) = none := o.at (focus_get _ _ _ hi)
  simp only [copyTo, address, Prog.bind_run, Prog.pure_run, run_inBuf, run_inObjs, e1, Out.bind_ok]
  apply (L.copy n.inv hd hsrc hok).bind
  rintro ⟨_, t⟩ it
  simp only [Out.safe_ok] at it ⊢
  have o' : NOwn ty h1 (place A (slot b i) (some (μ.cp x))) (some b) cap al (pre ++ some (μ.cp x) :: post) :=
    ⟨by simpa using o1, cells_set o.cells hi⟩
  have hf : ∀ m, (∀ b' k, m = slot b' k → b' ∉ [b]) → place A (slot b i) (some (μ.cp x)) m = A m := by
    intro m hm
    exact place_ne _ _ (fun e => (hm b i e) (by simp))
  refine ⟨_, n.set (b := b) it s1 ?_ fun m hm => .inl (hf m (by simpa using hm)), o', ⟨⟨_, s1⟩, fun m hm _ => hf m (fun b' k e => by simpa using (hm b' k e).1)⟩⟩
  intro b' hb'
  simp at hb'; subst hb'
  exact o'.block

theorem moveTo_ok (n : NS L s A) (o : NOwn ty s.heap A p cap al (pre ++ none :: post)) (hi : i = pre.length)
    (hsrc : A src = some x) (hne : ∀ b k, p = some b → src ≠ slot b k) (hh : ∀ b k, src = slot b k → s.heap.blocks b ≠ none) :
    (moveTo C p i src s).Safe fun q => ∃ A', NS L q.2 A' ∧ A' src = some (μ.left x) ∧
      NOwn ty q.2.heap A' p cap al (pre ++ some x :: post) ∧ NStep s A p.toList q.2 A' p.toList [src] := by
  obtain ⟨b, rfl⟩ := nown_some o
  have ho := o.own
  simp only [List.map_append, List.map_cons, unit?_none] at ho
  obtain ⟨h1, e1, o1, s1⟩ := construct_ok (x := ()) ho (by simpa using hi)
  have hd : A (slot b i) = none := o.at (focus_get _ _ _ hi)
  simp only [moveTo, address, Prog.bind_run, Prog.pure_run, run_inBuf, run_inObjs, e1, Out.bind_ok]
  apply (L.move n.inv hd hsrc).bind
  rintro ⟨_, t⟩ it
  simp only [Out.safe_ok] at it ⊢
  have o' : NOwn ty h1 (place (place A (slot b i) (some x)) src (some (μ.left x))) (some b) cap al (pre ++ some x :: post) :=
    ⟨by simpa using o1, cells_other (cells_set o.cells hi) hne⟩
  have hf : ∀ m, (∀ b' k, m = slot b' k → b' ∉ [b]) → m ≠ src →
      place (place A (slot b i) (some x)) src (some (μ.left x)) m = A m := by
    intro m hm hs
    rw [place_ne _ _ hs]
    exact place_ne _ _ (fun e => (hm b i e) (by simp))
  have bl : h1.blocks b ≠ none := o'.block
  refine ⟨_, ⟨it, s1.bal n.bal, ?_⟩, place_same _ _ _, o', ⟨⟨_, s1⟩, fun m hm ht => hf m (fun b' k e => by simpa using (hm b' k e).1) (by simpa using ht)⟩⟩
  intro b' k' hn
  simp only at hn
  have hb' : b' ≠ b := by rintro rfl; exact bl hn
  have hz : s.heap.blocks b' = none := by rw [← s1.frame b' (by simpa using hb') (by simpa using hb')]; exact hn
  rw [hf]
  · exact n.housed b' k' hz
  · intro b2 k2 e; obtain ⟨rfl, _⟩ := slot_inj e; simpa using hb'
  · intro e; exact hh b' k' e.symm hz

theorem destroyAt_ok (n : NS L s A) (o : NOwn ty s.heap A p cap al (pre ++ some x :: post)) (hi : i = pre.length) :
    (destroyAt C p i s).Safe fun q => ∃ A', NS L q.2 A' ∧
      NOwn ty q.2.heap A' p cap al (pre ++ none :: post) ∧ NStep s A p.toList q.2 A' p.toList [] := by
  obtain ⟨b, rfl⟩ := nown_some o
  have ho := o.own
  simp only [List.map_append, List.map_cons, unit?_some] at ho
  obtain ⟨h1, e1, o1, s1⟩ := destroy_ok ho (by simpa using hi)
  have hd : A (slot b i) = some x := o.at (focus_get _ _ _ hi)
  simp only [destroyAt, address, Prog.bind_run, Prog.pure_run, run_inBuf, run_inObjs, Out.bind_ok]
  refine Out.Safe.bind (P := fun q => q.2.heap = s.heap ∧ L.Inv (place A (slot b i) none) q.2.objs)
    ((L.drop n.inv hd).bind fun q hq => ⟨rfl, hq⟩) ?_
  rintro ⟨_, t⟩ ⟨ht, it⟩
  simp only at ht it ⊢
  rw [ht, e1, Out.bind_ok, Out.safe_ok]
  have o' : NOwn ty h1 (place A (slot b i) none) (some b) cap al (pre ++ none :: post) :=
    ⟨by simpa using o1, cells_set o.cells hi⟩
  have hf : ∀ m, (∀ b' k, m = slot b' k → b' ∉ [b]) → place A (slot b i) none m = A m := by
    intro m hm
    exact place_ne _ _ (fun e => (hm b i e) (by simp))
  refine ⟨_, n.set (b := b) it s1 ?_ fun m hm => .inl (hf m (by simpa using hm)), o', ⟨⟨_, s1⟩, fun m hm _ => hf m (fun b' k e => by simpa using (hm b' k e).1)⟩⟩
  intro b' hb'
  simp at hb'; subst hb'
  exact o'.block

end prims

/-! ## Loops -/

theorem destroyLoop_ok {s : St σ} {A : Nat → Option V} {p : Option Nat} {cap al : Nat} {pre post : List (Option V)}
    (xs : List V) {i m : Nat} (n : NS L s A) (o : NOwn ty s.heap A p cap al (pre ++ (xs.map some ++ post)))
    (hi : i = pre.length) (hm : m = xs.length) :
    (loopUp i m (fun i => destroyAt C p i) s).Safe fun q => ∃ A', NS L q.2 A' ∧
      NOwn ty q.2.heap A' p cap al (pre ++ (List.replicate m none ++ post)) ∧ NStep s A p.toList q.2 A' p.toList [] := by
  induction xs generalizing s A i pre m with
  | nil => subst hm; exact ⟨A, n, by simpa using o, NStep.refl _ _ _ _⟩
  | cons x xs ih =>
    subst hm
    simp only [List.length_cons, loopUp, Prog.bind_run]
    apply (destroyAt_ok n (pre := pre) (by simpa using o) hi).bind
    rintro ⟨_, s1⟩ ⟨A1, n1, o1, t1⟩
    apply (ih (s := s1) (i := i + 1) (pre := pre ++ [none]) n1 (by simpa using o1) (by simp [hi]) rfl).mono
    rintro ⟨_, s2⟩ ⟨A2, n2, o2, t2⟩
    exact ⟨A2, n2, by simpa [List.replicate_succ] using o2, t1.trans n n2 t2⟩

/-- copy-constructing one after the other, from sources outside the buffer -/
theorem copyLoop_ok {A : Nat → Option V} {p : Option Nat} {cap al : Nat} {pre post : List (Option V)}
    {f : Nat → Nat → Prop} {g : Nat → Prog (St σ) Unit} (hg : ∀ j s a, f j a → g j s = copyTo C p j a s)
    (hfr : ∀ j a b k, f j a → p = some b → a ≠ slot b k)
    (xs : List V) {s : St σ} {i m : Nat} (n : NS L s A)
    (hl : ∀ j a, f j a → ∀ b k, a = slot b k → s.heap.blocks b ≠ none)
    (hx : ∀ k x, xs[k]? = some x → ∃ a, f (i + k) a ∧ A a = some x) (hok : ∀ x ∈ xs, μ.cpOk x = true)
    (o : NOwn ty s.heap A p cap al (pre ++ (List.replicate m none ++ post))) (hi : i = pre.length) (hm : m = xs.length) :
    (loopUp i m g s).Safe fun q => ∃ A', NS L q.2 A' ∧
      NOwn ty q.2.heap A' p cap al (pre ++ ((xs.map μ.cp).map some ++ post)) ∧ NStep s A p.toList q.2 A' p.toList [] := by
  induction xs generalizing s A i pre m with
  | nil => subst hm; exact ⟨A, n, by simpa using o, NStep.refl _ _ _ _⟩
  | cons x xs ih =>
    subst hm
    simp only [List.length_cons, loopUp, Prog.bind_run]
    obtain ⟨a, ha, hax⟩ := hx 0 x rfl
    have ha : f i a := ha
    rw [hg i s a ha]
    apply (copyTo_ok n (pre := pre) (by simpa [List.replicate_succ] using o) hi hax (hok x (by simp))).bind
    rintro ⟨_, s1⟩ ⟨A1, n1, o1, t1⟩
    obtain ⟨k1, st1⟩ := t1.step
    have notp : ∀ j a, f j a → ∀ b k, a = slot b k → b ∉ p.toList := by
      intro j a h b k e hb
      simp at hb
      exact hfr j a b k h hb e
    have hkeep : ∀ j a, f j a → A1 a = A a := fun j a h => t1.frame a (fun b k e => ⟨notp j a h b k e, notp j a h b k e⟩) (by simp)
    have hx' : ∀ k y, xs[k]? = some y → ∃ a, f (i + 1 + k) a ∧ A1 a = some y := by
      intro k y hk
      obtain ⟨a, h1, h2⟩ := hx (k + 1) y (by simpa using hk)
      rw [show i + (k + 1) = i + 1 + k by omega] at h1
      exact ⟨a, h1, by rw [hkeep _ a h1]; exact h2⟩
    have hl1 : ∀ j a, f j a → ∀ b k, a = slot b k → s1.heap.blocks b ≠ none := by
      intro j a h b k e
      have := notp j a h b k e
      rw [st1.frame b this this]
      exact hl j a h b k e
    apply (ih (s := s1) (i := i + 1) (pre := pre ++ [some (μ.cp x)]) n1 hl1 hx' (fun y hy => hok y (by simp [hy])) (by simpa using o1) (by simp [hi]) rfl).mono
    rintro ⟨_, s2⟩ ⟨A2, n2, o2, t2⟩
    exact ⟨A2, n2, by simpa using o2, t1.trans n n2 t2⟩

/-- the loop of allocate_reserve -/
theorem moveLoop_ok {A : Nat → Option V} {b b' : Nat} {cap al cap' al' : Nat} {pre post pre' post' : List (Option V)}
    (hbb : b ≠ b') (xs : List V) {s : St σ} {i m : Nat} (n : NS L s A)
    (o : NOwn ty s.heap A (some b) cap al (pre ++ (xs.map some ++ post)))
    (o' : NOwn ty s.heap A (some b') cap' al' (pre' ++ (List.replicate m none ++ post')))
    (hi : i = pre.length) (hi' : i = pre'.length) (hm : m = xs.length) :
    (loopUp i m (fun i => do
        let src ← address (some b) i
        moveTo C (some b') i src) s).Safe fun q => ∃ A', NS L q.2 A' ∧
      NOwn ty q.2.heap A' (some b) cap al (pre ++ ((xs.map μ.left).map some ++ post)) ∧
      NOwn ty q.2.heap A' (some b') cap' al' (pre' ++ (xs.map some ++ post')) ∧ NStep s A [b, b'] q.2 A' [b, b'] [] := by
  induction xs generalizing s A i pre pre' m with
  | nil => subst hm; exact ⟨A, n, by simpa using o, by simpa using o', NStep.refl _ _ _ _⟩
  | cons x xs ih =>
    subst hm
    simp only [List.length_cons, loopUp, Prog.bind_run, address, Prog.pure_run, Out.bind_ok]
    have hsrc : A (slot b i) = some x := o.at (by simpa using focus_get _ _ _ hi)
    apply (moveTo_ok n (pre := pre') (by simpa [List.replicate_succ] using o') hi' hsrc
      (by intro b2 k e h; cases e; exact hbb (slot_inj h).1)
      (by intro b2 k e; obtain ⟨rfl, _⟩ := slot_inj e; exact o.block)).bind
    rintro ⟨_, s1⟩ ⟨A1, n1, hs1, o1', t1⟩
    obtain ⟨k1, st1⟩ := t1.step
    have o1 : NOwn ty s1.heap A1 (some b) cap al (pre ++ some (μ.left x) :: (xs.map some ++ post)) := by
      have oo := o.own.keep st1 (by intro b2 e h; cases e; simp at h; exact hbb h)
      refine ⟨by simpa using oo, ?_⟩
      have := cells_set (o' := some (μ.left x)) (by simpa using o.cells : Cells A (some b) (pre ++ some x :: (xs.map some ++ post))) hi
      intro b2 e k
      cases e
      rw [← this b rfl k]
      by_cases hk : k = i
      · subst hk; rw [place_same]; exact hs1
      · rw [place_ne _ _ (fun e => hk (slot_inj e).2)]
        apply t1.frame
        · intro b2 k2 e; obtain ⟨rfl, _⟩ := slot_inj e; simp [hbb]
        · simp; exact fun e => hk (slot_inj e).2
    have t1' : NStep s A [b, b'] s1 A1 [b, b'] [] :=
      (t1.weaken [b]).drop_slots (by intro t ht; simp at ht; subst ht; exact .inr ⟨b, i, rfl, by simp⟩)
    apply (ih (s := s1) (i := i + 1) (pre := pre ++ [some (μ.left x)]) (pre' := pre' ++ [some x]) n1 (by simpa using o1)
      (by simpa using o1') (by simp [hi]) (by simp [hi']) rfl).mono
    rintro ⟨_, s2⟩ ⟨A2, n2, o2, o2', t2⟩
    exact ⟨A2, n2, by simpa using o2, by simpa using o2', t1'.trans n n2 t2⟩

/-! ## Vectors of objects -/

/-- A well-formed vector of objects with the values `xs`. -/
structure NRep (ty : ElemTy Unit) (s : St σ) (A : Nat → Option V) (v : Vec) (xs : List V) : Prop where
  len : v.len = xs.length
  own : NOwn ty s.heap A v.ptr v.cap v.alloc (xs.map some ++ List.replicate (v.cap - xs.length) none)

variable (L) in
/-- The result of a member that turns the buffer `p` of `s` into vector `v'` of `s'`. -/
structure NTo (ty : ElemTy Unit) (s : St σ) (A : Nat → Option V) (p : Option Nat) (xs : List V) (cap alloc : Nat) (v' : Vec)
    (s' : St σ) (A' : Nat → Option V) (ts : List Nat) : Prop where
  rep : NRep ty s' A' v' xs
  ns : NS L s' A'
  step : NStep s A p.toList s' A' v'.ptr.toList ts
  cap : v'.cap = cap
  alloc : v'.alloc = alloc

section
variable {s : St σ} {A : Nat → Option V} {v : Vec} {xs : List V}

theorem NRep.le (r : NRep ty s A v xs) : xs.length ≤ v.cap := by
  have := r.own.length; simp at this; omega

theorem NRep.keep {s' : St σ} {A' : Nat → Option V} {l l' ts : List Nat} (r : NRep ty s A v xs) (st : NStep s A l s' A' l' ts)
    (hn : ∀ b, v.ptr = some b → b ∉ l) (ht : ∀ b k, v.ptr = some b → slot b k ∉ ts) : NRep ty s' A' v xs :=
  ⟨r.len, r.own.keep st hn ht⟩

theorem NRep.elem (r : NRep ty s A v xs) {k : Nat} {x : V} (hk : xs[k]? = some x) :
    ∃ b, v.ptr = some b ∧ A (slot b k) = some x := by
  have hlt : k < xs.length := by rw [List.getElem?_eq_some_iff] at hk; exact hk.1
  cases hp : v.ptr with
  | none =>
    have := r.own.own; rw [hp] at this; simp only [Own] at this
    have h2 := r.le; rw [this.2] at h2; omega
  | some b =>
    have o := r.own; rw [hp] at o
    exact ⟨b, rfl, o.at (by rw [List.getElem?_append_left (by simpa using hlt)]; simp [hk])⟩

theorem NTo.same (r : NRep ty s A v xs) (n : NS L s A) : NTo L ty s A v.ptr xs v.cap v.alloc v s A [] :=
  ⟨r, n, NStep.refl _ _ _ _, rfl, rfl⟩

theorem NTo.trans {s' s'' : St σ} {A' A'' : Nat → Option V} {p : Option Nat} {v' : Vec} {ys : List V} {c a c' a' : Nat}
    {ts ts' : List Nat} (n : NS L s A) (t : NTo L ty s A p xs c a v s' A' ts)
    (t' : NTo L ty s' A' v.ptr ys c' a' v' s'' A'' ts') : NTo L ty s A p ys c' a' v' s'' A'' (ts ++ ts') :=
  ⟨t'.rep, t'.ns, t.step.trans n t'.ns t'.step, t'.cap, t'.alloc⟩

theorem NTo.cast {s' : St σ} {A' : Nat → Option V} {p : Option Nat} {ys : List V} {c a c' a' : Nat} {ts : List Nat}
    (t : NTo L ty s A p xs c a v s' A' ts) (hx : xs = ys) (hc : c = c') (ha : a = a') :
    NTo L ty s A p ys c' a' v s' A' ts := by
  subst hx hc ha; exact t

theorem destroyAll_ok (n : NS L s A) (r : NRep ty s A v xs) :
    (destroyAll C v s).Safe fun q => q.1 = { v with len := 0 } ∧ ∃ A', NTo L ty s A v.ptr [] v.cap v.alloc q.1 q.2 A' [] := by
  simp only [destroyAll, Prog.bind_run, Prog.pure_run]
  apply (destroyLoop_ok xs n (pre := []) (i := 0) (by simpa using r.own) rfl r.len).bind
  rintro ⟨_, s1⟩ ⟨A1, n1, o1, t1⟩
  refine ⟨rfl, A1, ⟨⟨rfl, ?_⟩, n1, t1, rfl, rfl⟩⟩
  have hle := r.le
  have hl := r.len
  simp only [List.nil_append, List.replicate_append_replicate] at o1
  rw [show v.len + (v.cap - xs.length) = v.cap by omega] at o1
  simpa using o1

theorem replicate_join (c k : Nat) : ((List.replicate c (none : Option V))[k]?).join = none := by
  rw [List.getElem?_replicate]; split <;> rfl

theorem free_ok' {p : Option Nat} {cap al : Nat} (n : NS L s A) (o : NOwn ty s.heap A p cap al (List.replicate cap none)) :
    ∃ h', free ty al p cap s.heap = .ok ((), h') ∧ NS L ⟨h', s.objs⟩ A ∧ NStep s A p.toList ⟨h', s.objs⟩ A [] [] := by
  obtain ⟨h', e, st⟩ := Vector.free_own o.own (by simp)
  refine ⟨h', e, ⟨n.inv, st.bal n.bal, fun b k hb => ?_⟩, ⟨⟨_, st⟩, fun _ _ _ => rfl⟩⟩
  simp only at hb
  by_cases hm : p = some b
  · subst hm
    rw [o.cells b rfl k]
    exact replicate_join cap k
  · exact n.housed b k (by rw [← st.frame b (by simpa using hm) (by simp)]; exact hb)

theorem clear_ok (n : NS L s A) (r : NRep ty s A v xs) :
    (clear ty C v s).Safe fun q => q.1 = Vec.blank v.alloc ∧ ∃ A', NTo L ty s A v.ptr [] 0 v.alloc q.1 q.2 A' [] := by
  simp only [clear, deallocate, Prog.bind_run, Prog.pure_run, run_inBuf]
  apply (destroyAll_ok n r).bind
  rintro ⟨v1, s1⟩ ⟨e1, A1, t1⟩
  simp only at e1 t1
  subst e1
  obtain ⟨h2, e2, n2, t2⟩ := free_ok' t1.ns (by simpa using t1.rep.own)
  rw [e2]
  simp only [Out.bind_ok, Out.safe_ok]
  refine ⟨rfl, A1, ⟨⟨rfl, ?_⟩, n2, t1.step.trans n n2 t2, rfl, rfl⟩⟩
  exact ⟨by simp [Own], fun b hb => by cases hb⟩

/-- a fresh buffer -/
theorem alloc_ok' {al m : Nat} (n : NS L s A) (hw : m * ty.size < wordSize) :
    (alloc ty al m s.heap).Safe fun q => NS L ⟨q.2, s.objs⟩ A ∧
      NOwn ty q.2 A (some q.1) m al (List.replicate m none) ∧ NStep s A [] ⟨q.2, s.objs⟩ A [q.1] [] ∧
      s.heap.blocks q.1 = none := by
  apply (alloc_ok ty s.heap al m n.bal hw).mono
  rintro ⟨b, h⟩ ⟨hb, hlim, st⟩
  simp only at hb st ⊢
  have hf := st.fresh b (by simp) (by simp)
  refine ⟨⟨n.inv, st.bal n.bal, fun b' k hb' => ?_⟩, ⟨?_, ?_⟩, ⟨⟨_, st⟩, fun _ _ _ => rfl⟩, hf⟩
  · simp only at hb'
    have hne : b' ≠ b := by rintro rfl; rw [hb] at hb'; cases hb'
    exact n.housed b' k (by rw [← st.frame b' (by simp) (by simpa using hne)]; exact hb')
  · simp only [Own]; exact ⟨by simpa using hb, by simp, hlim⟩
  · intro b' e k
    cases e
    rw [n.housed b k hf]
    exact (replicate_join m k).symm

theorem allocateReserve_ok (n : NS L s A) (r : NRep ty s A v xs) {m : Nat} (hm : v.len ≤ m) (hw : m * ty.size < wordSize) :
    (allocateReserve ty C v m s).Safe fun q => ∃ A', NTo L ty s A v.ptr xs m v.alloc q.1 q.2 A' [] ∧
      (∀ b, v.ptr = some b → q.1.ptr ≠ some b) := by
  unfold allocateReserve
  simp only [Prog.bind_run, run_inBuf]
  refine Out.Safe.bind (P := fun q => NS L q.2 A ∧ NOwn ty q.2.heap A (some q.1) m v.alloc (List.replicate m none) ∧
    NStep s A [] q.2 A [q.1] [] ∧ s.heap.blocks q.1 = none) ((alloc_ok' n hw).bind fun q hq => by simpa only [Out.safe_ok] using hq) ?_
  rintro ⟨b, s1⟩ ⟨n1, o1, t1, hf⟩
  simp only at n1 o1 t1 hf ⊢
  have r1 : NRep ty s1 A v xs := r.keep t1 (by simp) (by simp)
  have hne : ∀ b', v.ptr = some b' → b' ≠ b := by
    rintro b' hb' rfl
    have o := r.own; rw [hb'] at o
    exact o.block hf
  have hlen := r.len
  have key : (loopUp 0 v.len (fun i => do
        let src ← address v.ptr i
        moveTo C (some b) i src) s1).Safe fun q => ∃ A' ys, NS L q.2 A' ∧ NRep ty q.2 A' v ys ∧
      NOwn ty q.2.heap A' (some b) m v.alloc (xs.map some ++ List.replicate (m - xs.length) none) ∧
      NStep s1 A (v.ptr.toList ++ [b]) q.2 A' (v.ptr.toList ++ [b]) [] := by
    cases hp : v.ptr with
    | none =>
      have h0 : xs = [] := by
        have h1 := r1.own.own; rw [hp] at h1; simp only [Own] at h1
        have h2 := r1.le; rw [h1.2] at h2
        exact List.length_eq_zero_iff.1 (by omega)
      subst h0
      rw [hlen]
      exact ⟨A, [], n1, ⟨hlen, by simpa using r1.own⟩, by simpa using o1, NStep.refl _ _ _ _⟩
    | some b0 =>
      have ro := r1.own
      rw [hp] at ro
      have oo : NOwn ty s1.heap A (some b) m v.alloc ([] ++ (List.replicate xs.length none ++ List.replicate (m - xs.length) none)) := by
        rw [List.nil_append, List.replicate_append_replicate, show xs.length + (m - xs.length) = m by omega]; exact o1
      rw [hlen]
      apply (moveLoop_ok (hne b0 hp) xs n1 (pre := []) (i := 0) (by simpa using ro) oo rfl rfl rfl).mono
      rintro ⟨_, s2⟩ ⟨A2, n2, o2, o2', t2⟩
      refine ⟨A2, xs.map μ.left, n2, ⟨by simpa using hlen, ?_⟩, by simpa using o2', by simpa using t2⟩
      rw [hp]; simpa using o2
  apply key.bind
  rintro ⟨_, s2⟩ ⟨A2, ys, n2, r2, o2, t2⟩
  simp only at n2 r2 o2 t2 ⊢
  apply (clear_ok n2 r2).bind
  rintro ⟨v3, s3⟩ ⟨e3, A3, t3⟩
  simp only at e3 t3
  subst e3
  simp only [Prog.pure_run, Out.safe_ok]
  have o3 : NOwn ty s3.heap A3 (some b) m v.alloc (xs.map some ++ List.replicate (m - xs.length) none) :=
    o2.keep t3.step (by intro b' e hm'; cases e; simp at hm'; exact hne b hm' rfl) (by simp)
  refine ⟨A3, ⟨⟨hlen, o3⟩, t3.ns, ?_, rfl, rfl⟩, ?_⟩
  · have := ((t1.weaken v.ptr.toList).trans (by simpa using n) n2 (by simpa using t2)).trans n t3.ns (t3.step.weaken' [b])
    simpa [Vec.blank] using this
  · intro b' hb' e
    cases e
    exact hne b hb' rfl

theorem reserve_ok (n : NS L s A) (r : NRep ty s A v xs) {m : Nat} (hw : m * ty.size < wordSize) :
    (reserve ty C v m s).Safe fun q => ∃ A', NTo L ty s A v.ptr xs (max v.cap m) v.alloc q.1 q.2 A' [] ∧
      (m ≤ v.cap → q.1 = v ∧ q.2 = s ∧ A' = A) ∧ (v.cap < m → ∀ b, v.ptr = some b → q.1.ptr ≠ some b) := by
  unfold reserve
  by_cases hc : m > v.cap
  · rw [if_pos hc]
    apply (allocateReserve_ok n r (by have := r.le; have := r.len; omega) hw).mono
    rintro q ⟨A', t, hne⟩
    rw [Nat.max_eq_right (by omega)]
    exact ⟨A', t, fun h => by omega, fun _ => hne⟩
  · rw [if_neg hc, Nat.max_eq_left (by omega)]
    exact ⟨A, NTo.same r n, fun _ => ⟨rfl, rfl, rfl⟩, fun h => by omega⟩

theorem extendSpace_ok (n : NS L s A) (r : NRep ty s A v xs) :
    (extendSpace ty C v s).Safe fun q => ∃ A', NTo L ty s A v.ptr xs (Spec.Vector.doubled v.cap) v.alloc q.1 q.2 A' [] ∧
      (∀ b, v.ptr = some b → q.1.ptr ≠ some b) := by
  have hsm := r.own.own.small
  have hcl := r.own.own.cap_lt
  have hW : wordSize = 18446744073709551616 := rfl
  have hwr : wrap (2 * v.cap) = 2 * v.cap := wrap_of_lt (by omega)
  simp only [extendSpace, hwr]
  have hg : (if v.cap = 0 then 2 else 2 * v.cap) = Spec.Vector.doubled v.cap := rfl
  rw [hg]
  have hgt : Spec.Vector.doubled v.cap > v.cap := by unfold Spec.Vector.doubled; split <;> omega
  have hw : Spec.Vector.doubled v.cap * ty.size < wordSize := by
    unfold Spec.Vector.doubled; split
    · have := ty.size_lt; omega
    · rw [Nat.mul_assoc]; omega
  simp only [reserve, if_pos hgt]
  exact allocateReserve_ok n r (by have := r.le; have := r.len; omega) hw

theorem doubled_pos (c : Nat) : c < Spec.Vector.doubled c := by unfold Spec.Vector.doubled; split <;> omega

/-- room for one more -/
theorem room_ok (n : NS L s A) (r : NRep ty s A v xs) :
    ((if v.len ≥ v.cap then extendSpace ty C v else pure v : Prog (St σ) Vec) s).Safe fun q =>
      ∃ A', NTo L ty s A v.ptr xs (Spec.Vector.afterPush xs.length v.cap) v.alloc q.1 q.2 A' [] ∧ xs.length < q.1.cap ∧
        (v.len < v.cap → q.1 = v ∧ q.2 = s ∧ A' = A) := by
  have hl := r.len
  have hle := r.le
  by_cases hc : v.len ≥ v.cap
  · rw [if_pos hc]
    apply (extendSpace_ok n r).mono
    rintro q ⟨A', t, _⟩
    refine ⟨A', t.cast rfl (by rw [Spec.Vector.afterPush, if_neg (by omega)]) rfl, ?_, fun h => by omega⟩
    rw [t.cap]; have := doubled_pos v.cap; omega
  · rw [if_neg hc]
    exact ⟨A, (NTo.same r n).cast rfl (by rw [Spec.Vector.afterPush, if_pos (by omega)]) rfl, by simp only [Prog.pure]; omega,
      fun _ => ⟨rfl, rfl, rfl⟩⟩

theorem NRep.hole (r : NRep ty s A v xs) (h : xs.length < v.cap) :
    NOwn ty s.heap A v.ptr v.cap v.alloc (xs.map some ++ none :: List.replicate (v.cap - xs.length - 1) none) := by
  have := r.own
  rw [show v.cap - xs.length = (v.cap - xs.length - 1) + 1 by omega, List.replicate_succ] at this
  exact this

/-- one object is constructed behind the last one -/
theorem NRep.grow (r : NRep ty s A v xs) (h : xs.length < v.cap) {s' : St σ} {A' : Nat → Option V} {x : V}
    (o : NOwn ty s'.heap A' v.ptr v.cap v.alloc (xs.map some ++ some x :: List.replicate (v.cap - xs.length - 1) none)) :
    NRep ty s' A' { v with len := v.len + 1 } (xs ++ [x]) := by
  refine ⟨by simp [r.len], ?_⟩
  have : v.cap - (xs ++ [x]).length = v.cap - xs.length - 1 := by simp; omega
  simp only [this]
  simpa using o

theorem frame_temp {s' : St σ} {A' : Nat → Option V} {l l' ts : List Nat} (t : NStep s A l s' A' l' ts) {j : Nat}
    (h : temp j ∉ ts) : A' (temp j) = A (temp j) :=
  t.frame _ (fun b k e => absurd e (temp_ne_slot _ _ _)) h

theorem pushMove_ok (n : NS L s A) (r : NRep ty s A v xs) {j : Nat} {x : V} (hx : A (temp j) = some x) :
    (pushMove ty C v (temp j) s).Safe fun q => ∃ A',
      NTo L ty s A v.ptr (xs ++ [x]) (Spec.Vector.afterPush xs.length v.cap) v.alloc q.1 q.2 A' [temp j] ∧
      A' (temp j) = some (μ.left x) := by
  simp only [pushMove, Prog.bind_run]
  apply (room_ok n r).bind
  rintro ⟨v1, s1⟩ ⟨A1, t1, hlt, _⟩
  simp only at t1 hlt ⊢
  have hx1 : A1 (temp j) = some x := by rw [frame_temp t1.step (by simp)]; exact hx
  apply (moveTo_ok t1.ns (t1.rep.hole hlt) (by simpa using t1.rep.len) hx1 (fun b k _ => temp_ne_slot _ _ _)
    (fun b k e => absurd e (temp_ne_slot _ _ _))).bind
  rintro ⟨_, s2⟩ ⟨A2, n2, hl, o2, t2⟩
  refine ⟨A2, ⟨t1.rep.grow hlt o2, n2, by simpa using t1.step.trans n n2 t2, t1.cap, t1.alloc⟩, hl⟩

/-- Where the argument of `push_back(const T&)` may be: outside, or in the vector if there is room. -/
def Steady (v : Vec) (src : Nat) : Prop := (∃ j, src = temp j) ∨ v.len < v.cap

theorem pushCopy_ok (n : NS L s A) (r : NRep ty s A v xs) {src : Nat} {x : V} (hx : A src = some x) (hok : μ.cpOk x = true) (hst : Steady v src) :
    (pushCopy ty C v src s).Safe fun q => ∃ A',
      NTo L ty s A v.ptr (xs ++ [μ.cp x]) (Spec.Vector.afterPush xs.length v.cap) v.alloc q.1 q.2 A' [] := by
  simp only [pushCopy, Prog.bind_run]
  apply (room_ok n r).bind
  rintro ⟨v1, s1⟩ ⟨A1, t1, hlt, hsame⟩
  simp only at t1 hlt hsame ⊢
  have hx1 : A1 src = some x := by
    rcases hst with ⟨j, rfl⟩ | h
    · rw [frame_temp t1.step (by simp)]; exact hx
    · rw [(hsame h).2.2]; exact hx
  apply (copyTo_ok t1.ns (t1.rep.hole hlt) (by simpa using t1.rep.len) hx1 hok).bind
  rintro ⟨_, s2⟩ ⟨A2, n2, o2, t2⟩
  exact ⟨A2, ⟨t1.rep.grow hlt o2, n2, by simpa using t1.step.trans n n2 t2, t1.cap, t1.alloc⟩⟩

theorem popBack_ok (n : NS L s A) {x : V} (r : NRep ty s A v (xs ++ [x])) :
    (popBack C v s).Safe fun q => ∃ A', NTo L ty s A v.ptr xs v.cap v.alloc q.1 q.2 A' [] ∧ q.1 = { v with len := xs.length } := by
  have hl : v.len = xs.length + 1 := by simpa using r.len
  have hle := r.le
  simp at hle
  have hc := r.own.own.cap_lt
  have hsub : wsub v.len 1 = xs.length := by
    rw [hl, wsub_of_le (by omega) (by have : wordSize = 18446744073709551616 := rfl; omega)]; omega
  simp only [popBack, Prog.bind_run, hsub]
  apply (destroyAt_ok n (pre := xs.map some) (x := x) (by simpa using r.own) (by simp)).bind
  rintro ⟨_, s1⟩ ⟨A1, n1, o1, t1⟩
  refine ⟨A1, ⟨⟨rfl, ?_⟩, n1, t1, rfl, rfl⟩, rfl⟩
  simp only at o1 ⊢
  rw [show v.cap - xs.length = (v.cap - (xs.length + 1)) + 1 by omega, List.replicate_succ]
  exact o1

end
end Verif.Proof.Nested
