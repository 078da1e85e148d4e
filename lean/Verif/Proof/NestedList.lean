import Verif.Proof.Nested
import Verif.Proof.LLSteps
/-!
# Linked lists of objects: the same nodes, as a linked list of the values of the objects

A state of `Model/Nested.lean` with nodes and objects corresponds to a heap of `Model/LinkedList.lean` whose elements are the
values of the objects.  Each function on lists of objects follows the function on lists of values.
-/
namespace Verif.Proof.Nested
open Verif Verif.Model.Nested Verif.Spec.Nested
open Verif.Model (LL.Ptr LL.Lst)

/-! ## Following a program on another state -/

/-- `x` ends as `o` does, in related states, or runs out of memory. -/
def Follows {σ τ β γ : Type} (R : σ → τ → Prop) (g : β → γ) (o : Out (β × τ)) (x : Out (γ × σ)) : Prop :=
  match o with
  | .ok q => x.Safe fun r => r.1 = g q.1 ∧ R r.2 q.2
  | .oom => x = .oom
  | .panic => x = .panic ∨ x = .oom
  | .ub => True
  | .div => True

/-- `P` follows `Q`, from states related by `R` to states related by `R'`. -/
def Sim {σ τ β γ : Type} (R R' : σ → τ → Prop) (g : β → γ) (P : Prog σ γ) (Q : Prog τ β) : Prop :=
  ∀ s t, R s t → Follows R' g (Q t) (P s)

section
variable {σ τ β γ δ ε : Type} {R R' R'' : σ → τ → Prop}

theorem Sim.pure {g : β → γ} {b : β} : Sim R R g (Pure.pure (g b)) (Pure.pure b) := fun _ _ h => ⟨rfl, h⟩

theorem Sim.ret {g : β → γ} {b : β} {c : γ} (h : c = g b) : Sim R R g (Pure.pure c) (Pure.pure b) := h ▸ Sim.pure

theorem Sim.bind {g : β → γ} {k : δ → ε} {P : Prog σ γ} {Q : Prog τ β} {P' : γ → Prog σ ε} {Q' : β → Prog τ δ}
    (h : Sim R R' g P Q) (h' : ∀ b, Sim R' R'' k (P' (g b)) (Q' b)) : Sim R R'' k (P >>= P') (Q >>= Q') := by
  intro s t hr
  have h1 := h s t hr
  rw [Prog.bind_run, Prog.bind_run]
  cases hq : Q t with
  | ok q =>
    rw [hq] at h1
    simp only [Out.bind_ok]
    cases hp : P s with
    | ok r =>
      rw [hp] at h1
      obtain ⟨e, hr'⟩ := h1
      obtain ⟨c, s'⟩ := r
      simp only at e; subst e
      exact h' q.1 s' q.2 hr'
    | oom =>
      rw [Out.bind_oom]
      cases hq' : Q' q.1 q.2 with
      | ok _ => trivial
      | oom => rfl
      | panic => exact .inr rfl
      | ub => trivial
      | div => trivial
    | _ => rw [hp] at h1; exact h1.elim
  | oom => rw [hq] at h1; have h1 : P s = .oom := h1; rw [h1]; rfl
  | panic =>
    rw [hq] at h1
    rcases h1 with h1 | h1 <;> rw [h1]
    · exact .inl rfl
    · exact .inr rfl
  | ub => trivial
  | div => trivial

theorem Sim.ite {g : β → γ} {c : Prop} [Decidable c] {P P' : Prog σ γ} {Q Q' : Prog τ β} (h : Sim R R' g P Q)
    (h' : Sim R R' g P' Q') : Sim R R' g (if c then P else P') (if c then Q else Q') := by
  split <;> assumption

theorem Sim.iff {g : β → γ} {P : Prog σ γ} {Q : Prog τ β} : Sim R R' g P Q ↔ ∀ t s, R s t → Follows R' g (Q t) (P s) :=
  ⟨fun h t s => h s t, fun h s t => h t s⟩

theorem Sim.adm {g : β → γ} {P : Prog σ γ} : Lean.Order.admissible fun Q : Prog τ β => Sim R R' g P Q := by
  rw [show (fun Q : Prog τ β => Sim R R' g P Q) = fun Q => ∀ t s, R s t → Follows R' g (Q t) (P s) from funext fun Q => propext Sim.iff]
  refine Lean.Order.admissible_pi_apply (β := fun _ : τ => Out (β × τ))
    (fun t (o : Out (β × τ)) => ∀ s, R s t → Follows R' g o (P s)) fun t => ?_
  exact Lean.Order.admissible_flatOrder (b := (Out.div : Out (β × τ))) (fun o => ∀ s, R s t → Follows R' g o (P s)) (fun s _ => trivial)

/-- the conclusion for a run that is safe -/
theorem Follows.safe {g : β → γ} {o : Out (β × τ)} {x : Out (γ × σ)} (h : Follows R g o x) {p : β × τ → Prop} (hs : o.Safe p) :
    x.Safe fun r => ∃ q, p q ∧ r.1 = g q.1 ∧ R r.2 q.2 := by
  cases o with
  | ok q => exact h.mono fun r hr => ⟨q, hs, hr⟩
  | oom => have h : x = .oom := h; rw [h]; trivial
  | _ => exact hs.elim

end

/-! ## Objects in nodes -/

section
variable {V : Type}

/-- objects in nodes and temporaries -/
def glue (E T : Nat → Option V) : Nat → Option V := fun m => if m % 2 = 0 then T (m / 2) else E (m / 2)

theorem glue_cell (E T : Nat → Option V) (a : Nat) : glue E T (cell a) = E a := by
  unfold glue cell
  rw [if_neg (by omega)]
  congr 1; omega

theorem glue_temp (E T : Nat → Option V) (k : Nat) : glue E T (temp k) = T k := by
  unfold glue temp
  rw [if_pos (by omega)]
  congr 1; omega

theorem place_cell (E T : Nat → Option V) (a : Nat) (o : Option V) : place (glue E T) (cell a) o = glue (place E a o) T := by
  funext m
  unfold place glue cell
  by_cases h : m % 2 = 0
  · rw [if_pos h, if_pos h, if_neg (by omega)]
  · rw [if_neg h, if_neg h]
    show _ = if m / 2 = a then o else E (m / 2)
    by_cases h2 : m / 2 = a
    · rw [if_pos h2, if_pos (by omega)]
    · rw [if_neg h2, if_neg (by omega)]

theorem place_temp (E T : Nat → Option V) (k : Nat) (o : Option V) : place (glue E T) (temp k) o = glue E (place T k o) := by
  funext m
  unfold place glue temp
  by_cases h : m % 2 = 0
  · rw [if_pos h, if_pos h]
    show _ = if m / 2 = k then o else T (m / 2)
    by_cases h2 : m / 2 = k
    · rw [if_pos h2, if_pos (by omega)]
    · rw [if_neg h2, if_neg (by omega)]
  · rw [if_neg h, if_neg h, if_neg (by omega)]

/-- the value in a node -/
def valueIn : Option (Model.LL.Info V) → Option V
  | some ⟨_, _, .live x⟩ => some x
  | _ => none

def elems (H : Model.LL.Heap V) : Nat → Option V := fun a => valueIn (H.info a)

def bare : Model.LL.Data V → Model.LL.Data Unit
  | .null => .null
  | .raw => .raw
  | .live _ => .live ()

def bareInfo (o : Option (Model.LL.Info V)) : Option (Model.LL.Info Unit) := o.map fun i => ⟨i.owner, i.bytes, bare i.data⟩

/-- the nodes without the values -/
def bareHeap (H : Model.LL.Heap V) : Model.LL.Heap Unit :=
  { info := fun a => bareInfo (H.info a), nxt := H.nxt, prv := H.prv, next := H.next, ctors := H.ctors, dtors := H.dtors,
    newBytes := H.newBytes, freeBytes := H.freeBytes }

/-- the configuration of the corresponding lists of values; `x0` plays no role -/
def valued (lcfg : Model.LL.Cfg Unit) (x0 : V) : Model.LL.Cfg V :=
  ⟨lcfg.dbl, lcfg.debug, lcfg.vsize, lcfg.dsize, id, x0, lcfg.refuse⟩

/-- the nodes correspond, the values are `E` -/
structure NodeRel (E : Nat → Option V) (h : Model.LL.Heap Unit) (H : Model.LL.Heap V) : Prop where
  bare : h = bareHeap H
  vals : elems H = E
  fresh : ∀ a, H.next ≤ a → H.info a = none

variable {S : Sig} {σ : Type} {C : Cls S σ} {μ : Meaning S V} (L : Law C μ)

/-- nodes and objects correspond; `T` are the temporaries -/
structure ElemRel (T : Nat → Option V) (s : LSt σ) (H : Model.LL.Heap V) : Prop where
  bare : s.nodes = bareHeap H
  inv : L.Inv (glue (elems H) T) s.objs
  fresh : ∀ a, H.next ≤ a → H.info a = none

/-- The same on nodes alone, for any values. -/
def NodeSim {β : Type} (P : Model.LL.M Unit β) (Q : Model.LL.M V β) : Prop := ∀ E, Sim (NodeRel E) (NodeRel E) id P Q

variable {L} {β γ : Type} {T T' : Nat → Option V}

theorem NodeSim.up {P : Model.LL.M Unit β} {Q : Model.LL.M V β} (h : NodeSim P Q) :
    Sim (ElemRel L T) (ElemRel L T) id (inNodes P) Q := by
  intro s H r
  have h1 := h (elems H) s.nodes H ⟨r.bare, rfl, r.fresh⟩
  unfold inNodes
  cases hq : Q H with
  | ok q =>
    rw [hq] at h1
    refine Out.Safe.bind h1 fun p hp => ?_
    obtain ⟨e, r'⟩ := hp
    exact ⟨e, r'.bare, by rw [r'.vals]; exact r.inv, r'.fresh⟩
  | oom => rw [hq] at h1; have h1 : P s.nodes = .oom := h1; rw [h1]; rfl
  | panic =>
    rw [hq] at h1
    rcases h1 with h1 | h1 <;> rw [h1]
    · exact .inl rfl
    · exact .inr rfl
  | ub => trivial
  | div => trivial

theorem NodeSim.bind {P : Model.LL.M Unit β} {Q : Model.LL.M V β} {P' : β → Model.LL.M Unit γ} {Q' : β → Model.LL.M V γ}
    (h : NodeSim P Q) (h' : ∀ b, NodeSim (P' b) (Q' b)) : NodeSim (P >>= P') (Q >>= Q') :=
  fun E => (h E).bind fun b => h' b E

theorem NodeSim.pure (b : β) : NodeSim (V := V) (Pure.pure b) (Pure.pure b) := fun _ => Sim.pure

theorem NodeSim.ite (c : Bool) {P P' : Model.LL.M Unit β} {Q Q' : Model.LL.M V β} (h : NodeSim P Q) (h' : NodeSim P' Q') :
    NodeSim (if c = true then P else P') (if c = true then Q else Q') := fun E => Sim.ite (h E) (h' E)

/-- a node that exists -/
theorem nodeSim_with {p : LL.Ptr} {k : Nat → Model.LL.Info Unit → Model.LL.M Unit β} {k' : Nat → Model.LL.Info V → Model.LL.M V β}
    (h : ∀ a i E h H, NodeRel E h H → H.info a = some i → Follows (NodeRel E) id (k' a i H) (k a ⟨i.owner, i.bytes, bare i.data⟩ h)) :
    NodeSim (Model.LL.withNode p k) (Model.LL.withNode p k') := by
  intro E hh H r
  unfold Model.LL.withNode
  cases p with
  | none => trivial
  | some a =>
    cases hi : H.info a with
    | none => simp only [hi]; trivial
    | some i =>
      have : hh.info a = some ⟨i.owner, i.bytes, bare i.data⟩ := by rw [r.bare]; simp only [bareHeap, bareInfo, hi, Option.map_some]
      simp only [hi, this]
      exact h a i E hh H r hi

theorem sim_getNext (p : LL.Ptr) : NodeSim (V := V) (Model.LL.getNext p) (Model.LL.getNext p) := by
  refine nodeSim_with fun a i E h H r hi => ?_
  have : h.nxt = H.nxt := by rw [r.bare]; rfl
  rw [this]
  cases H.nxt a with
  | none => trivial
  | some q => exact ⟨rfl, r⟩

theorem sim_getPrev (p : LL.Ptr) : NodeSim (V := V) (Model.LL.getPrev p) (Model.LL.getPrev p) := by
  refine nodeSim_with fun a i E h H r hi => ?_
  have : h.prv = H.prv := by rw [r.bare]; rfl
  rw [this]
  cases H.prv a with
  | none => trivial
  | some q => exact ⟨rfl, r⟩

theorem sim_putNext (p q : LL.Ptr) : NodeSim (V := V) (Model.LL.putNext p q) (Model.LL.putNext p q) := by
  refine nodeSim_with fun a i E h H r hi => ?_
  obtain ⟨rfl, rfl, f⟩ := r
  exact ⟨rfl, rfl, rfl, f⟩

theorem sim_putPrev (p q : LL.Ptr) : NodeSim (V := V) (Model.LL.putPrev p q) (Model.LL.putPrev p q) := by
  refine nodeSim_with fun a i E h H r hi => ?_
  obtain ⟨rfl, rfl, f⟩ := r
  exact ⟨rfl, rfl, rfl, f⟩

theorem sim_dataNull (p : LL.Ptr) : NodeSim (V := V) (Model.LL.dataNull p) (Model.LL.dataNull p) := by
  refine nodeSim_with fun a i E h H r hi => ?_
  obtain ⟨o, b, d⟩ := i
  cases d <;> exact ⟨rfl, r⟩

variable {lcfg : Model.LL.Cfg Unit} {x0 : V}

theorem sim_dbg (b : Bool) : NodeSim (Model.LL.dbgAssert lcfg b) (Model.LL.dbgAssert (valued lcfg x0) b) := by
  intro E h H r
  show Follows (NodeRel E) id ((if (lcfg.debug && !b) = true then Prog.panic else pure ()) H)
    ((if (lcfg.debug && !b) = true then Prog.panic else pure ()) h)
  by_cases hb : (lcfg.debug && !b) = true
  · rw [if_pos hb, if_pos hb]; exact Or.inl rfl
  · rw [if_neg hb, if_neg hb]; exact ⟨rfl, r⟩

theorem sim_setNext (p q : LL.Ptr) : NodeSim (Model.LL.setNext lcfg p q) (Model.LL.setNext (valued lcfg x0) p q) := by
  refine (sim_putNext p q).bind fun _ => ?_
  refine NodeSim.ite lcfg.dbl ?_ (.pure _)
  cases q
  · exact .pure _
  · exact sim_putPrev _ _

theorem bareInfo_upd (f : Nat → Option (Model.LL.Info V)) (a : Nat) (o : Option (Model.LL.Info V)) :
    (fun b => bareInfo (Model.LL.upd f a o b)) = Model.LL.upd (fun b => bareInfo (f b)) a (bareInfo o) := by
  funext b; simp only [Model.LL.upd]; split <;> rfl

theorem elems_upd (f : Nat → Option (Model.LL.Info V)) (a : Nat) (o : Option (Model.LL.Info V)) :
    (fun b => valueIn (Model.LL.upd f a o b)) = place (fun b => valueIn (f b)) a (valueIn o) := by
  funext b; simp only [Model.LL.upd, place]; split <;> rfl

theorem place_idem {X : Type} (E : Nat → Option X) {a : Nat} {o : Option X} (h : E a = o) : place E a o = E := by
  funext b
  by_cases e : b = a
  · subst e; rw [place_same, h]
  · rw [place_ne _ _ e]

theorem fresh_upd {H : Model.LL.Heap V} (f : ∀ a, H.next ≤ a → H.info a = none) {a : Nat} (h : a < H.next ∨ o = none) :
    ∀ b, H.next ≤ b → Model.LL.upd H.info a o b = none := by
  intro b hb
  simp only [Model.LL.upd]
  split
  · rename_i e
    rcases h with h | h
    · omega
    · exact h
  · exact f b hb

theorem fresh_lt {H : Model.LL.Heap V} (f : ∀ a, H.next ≤ a → H.info a = none) {a : Nat} {i : Model.LL.Info V} (h : H.info a = some i) :
    a < H.next := by
  rcases Nat.lt_or_ge a H.next with h' | h'
  · exact h'
  · rw [f a h'] at h; cases h

theorem sim_alloc_null (own bytes : Nat) :
    NodeSim (Model.LL.allocNode lcfg own bytes .null) (Model.LL.allocNode (valued lcfg x0) own bytes .null) := by
  intro E h H r
  obtain ⟨rfl, rfl, f⟩ := r
  unfold Model.LL.allocNode
  by_cases hr : lcfg.refuse H.next bytes = true
  · rw [if_pos (show (valued lcfg x0).refuse H.next bytes = true from hr), if_pos (show lcfg.refuse (bareHeap H).next bytes = true from hr)]
    rfl
  · rw [if_neg (show ¬ (valued lcfg x0).refuse H.next bytes = true from hr), if_neg (show ¬ lcfg.refuse (bareHeap H).next bytes = true from hr)]
    refine ⟨rfl, ?_, ?_, ?_⟩
    · simp only [bareHeap, bareInfo_upd]; rfl
    · unfold elems
      rw [elems_upd]
      exact place_idem _ (by rw [f _ (Nat.le_refl _)]; rfl)
    · intro b hb
      have hb : H.next + 1 ≤ b := hb
      show Model.LL.upd H.info H.next _ b = none
      rw [Proof.LL.upd_ne _ _ (by omega)]
      exact f b (by omega)

theorem sim_buildVirtual (own : Nat) : NodeSim (Model.LL.buildVirtual lcfg own) (Model.LL.buildVirtual (valued lcfg x0) own) := by
  refine (sim_alloc_null own _).bind fun n => (sim_putNext n none).bind fun _ => ?_
  exact NodeSim.ite lcfg.dbl ((sim_putPrev n none).bind fun _ => .pure _) (.pure _)

theorem sim_initEmpty (own : Nat) : NodeSim (Model.LL.initEmpty lcfg own) (Model.LL.initEmpty (valued lcfg x0) own) :=
  (sim_buildVirtual own).bind fun _ => (sim_buildVirtual own).bind fun _ => (sim_setNext _ _).bind fun _ => .pure _

theorem sim_newAlloc (own : Nat) : NodeSim (Model.LL.newAlloc lcfg own) (Model.LL.newAlloc (valued lcfg x0) own) :=
  (sim_initEmpty own).bind fun _ => .pure _

theorem sim_advance (n : Nat) (p : LL.Ptr) : NodeSim (V := V) (Model.LL.advance n p) (Model.LL.advance n p) := by
  induction n generalizing p with
  | zero => exact .pure _
  | succ n ih => exact (sim_getNext p).bind fun _ => ih _

theorem sim_retreat (n : Nat) (p : LL.Ptr) : NodeSim (V := V) (Model.LL.retreat n p) (Model.LL.retreat n p) := by
  induction n generalizing p with
  | zero => exact .pure _
  | succ n ih => exact (sim_getPrev p).bind fun _ => ih _

theorem sim_iterAt (l : LL.Lst) (n : Nat) : NodeSim (V := V) (Model.LL.iterAt l n) (Model.LL.iterAt l n) := sim_advance _ _

theorem sim_distFrom (it p : LL.Ptr) (n : Nat) : NodeSim (V := V) (Model.LL.distFrom it p n) (Model.LL.distFrom it p n) := by
  intro E
  refine Model.LL.distFrom.fixpoint_induct (α := V) it (fun f => ∀ p n, Sim (NodeRel E) (NodeRel E) id (Model.LL.distFrom it p n) (f p n)) ?_ ?_ p n
  · exact Lean.Order.admissible_pi_apply
      (fun p (g : Nat → Model.LL.M V Nat) => ∀ n, Sim (NodeRel E) (NodeRel E) id (Model.LL.distFrom it p n) (g n))
      fun p => Lean.Order.admissible_pi_apply
        (fun n (g : Model.LL.M V Nat) => Sim (NodeRel E) (NodeRel E) id (Model.LL.distFrom it p n) g) fun n => Sim.adm
  · intro f ih p n
    dsimp only
    rw [Model.LL.distFrom]
    exact Sim.ite Sim.pure ((sim_getNext p E).bind fun _ => ih _ _)

theorem sim_reverseLoop (tail p pr : LL.Ptr) :
    NodeSim (Model.LL.reverseLoop lcfg tail p pr) (Model.LL.reverseLoop (valued lcfg x0) tail p pr) := by
  intro E
  refine Model.LL.reverseLoop.fixpoint_induct (valued lcfg x0) tail
    (fun f => ∀ p pr, Sim (NodeRel E) (NodeRel E) id (Model.LL.reverseLoop lcfg tail p pr) (f p pr)) ?_ ?_ p pr
  · exact Lean.Order.admissible_pi_apply
      (fun p (g : LL.Ptr → Model.LL.M V LL.Ptr) => ∀ pr, Sim (NodeRel E) (NodeRel E) id (Model.LL.reverseLoop lcfg tail p pr) (g pr))
      fun p => Lean.Order.admissible_pi_apply
        (fun pr (g : Model.LL.M V LL.Ptr) => Sim (NodeRel E) (NodeRel E) id (Model.LL.reverseLoop lcfg tail p pr) g) fun pr => Sim.adm
  · intro f ih p pr
    dsimp only
    rw [Model.LL.reverseLoop]
    exact Sim.ite Sim.pure ((sim_getNext p E).bind fun _ => (sim_setNext p pr E).bind fun _ => ih _ _)

theorem sim_reverseLoop2 (p ap : LL.Ptr) : NodeSim (V := V) (Model.LL.reverseLoop2 p ap) (Model.LL.reverseLoop2 p ap) := by
  intro E
  refine Model.LL.reverseLoop2.fixpoint_induct (α := V)
    (fun f => ∀ p ap, Sim (NodeRel E) (NodeRel E) id (Model.LL.reverseLoop2 p ap) (f p ap)) ?_ ?_ p ap
  · exact Lean.Order.admissible_pi_apply
      (fun p (g : LL.Ptr → Model.LL.M V Unit) => ∀ ap, Sim (NodeRel E) (NodeRel E) id (Model.LL.reverseLoop2 p ap) (g ap))
      fun p => Lean.Order.admissible_pi_apply
        (fun ap (g : Model.LL.M V Unit) => Sim (NodeRel E) (NodeRel E) id (Model.LL.reverseLoop2 p ap) g) fun ap => Sim.adm
  · intro f ih p ap
    dsimp only
    rw [Model.LL.reverseLoop2]
    refine Sim.ite Sim.pure ((sim_getNext p E).bind fun _ => (sim_getPrev p E).bind fun _ => (sim_putNext p _ E).bind fun _ =>
      (sim_putPrev p _ E).bind fun _ => ?_)
    cases ap with
    | none => exact Sim.bind (Sim.pure (g := id)) fun _ => ih _ _
    | some a => exact (sim_getNext (some a) E).bind fun _ => ih _ _

theorem sim_reverse (l : LL.Lst) : NodeSim (Model.LL.reverse lcfg l) (Model.LL.reverse (valued lcfg x0) l) :=
  (sim_dbg _).bind fun _ => NodeSim.ite lcfg.dbl ((sim_getNext _).bind fun _ => (sim_reverseLoop2 _ _).bind fun _ => .pure _)
    fun E => Sim.ite Sim.pure ((sim_getNext _ E).bind fun _ => (sim_reverseLoop _ _ _ E).bind fun _ => (sim_setNext _ _ E).bind fun _ => Sim.pure)

/-! ## Constructing and destroying elements -/

/-- what a constructor of an element has to do -/
def Inits (L : Law C μ) (E T T' : Nat → Option V) (init : Nat → Prog σ Unit) (x : V) : Prop :=
  ∀ s a, L.Inv (glue E T) s → E a = none → (init (cell a) s).Safe fun q => L.Inv (glue (place E a (some x)) T') q.2

theorem newElem_elems (cfg : Model.LL.Cfg V) (own : Nat) (x : V) (H : Model.LL.Heap V) :
    elems (Proof.LL.newElem cfg own x H) = place (elems H) H.next (some x) := by
  unfold elems Proof.LL.newElem
  exact elems_upd _ _ _

theorem construct_refused {own : Nat} {x : V} {H : Model.LL.Heap V} (hr : lcfg.refuse H.next lcfg.dsize = true) :
    Model.LL.constructNode (valued lcfg x0) own x H = .oom ∧ Model.LL.constructNode lcfg own () (bareHeap H) = .oom := by
  constructor
  · simp only [Model.LL.constructNode, Prog.bind_run, Model.LL.allocNode, valued, hr, if_true, Out.bind_oom]
  · simp only [Model.LL.constructNode, Prog.bind_run, Model.LL.allocNode, bareHeap, hr, if_true, Out.bind_oom]

theorem construct_done {own : Nat} {x : V} {H : Model.LL.Heap V} (hr : ¬ lcfg.refuse H.next lcfg.dsize = true) :
    Model.LL.constructNode (valued lcfg x0) own x H = .ok (some H.next, Proof.LL.newElem (valued lcfg x0) own x H) ∧
    Model.LL.constructNode lcfg own () (bareHeap H) = .ok (some H.next, bareHeap (Proof.LL.newElem (valued lcfg x0) own x H)) := by
  constructor
  · simp only [Model.LL.constructNode, Prog.bind_run, Model.LL.allocNode, valued, hr]
    simp [Model.LL.constructData, Model.LL.dataNull, Model.LL.withNode, Model.LL.dbgAssert, Prog.bind_run, Proof.LL.newElem]
  · simp only [Model.LL.constructNode, Prog.bind_run, Model.LL.allocNode, bareHeap, hr]
    simp [Model.LL.constructData, Model.LL.dataNull, Model.LL.withNode, Model.LL.dbgAssert, Prog.bind_run, Proof.LL.newElem, bareInfo_upd]
    exact ⟨rfl, rfl⟩

theorem follows_nodeOf {init : Nat → Prog σ Unit} {x : V} {s : LSt σ} {H : Model.LL.Heap V} (r : ElemRel L T s H)
    (hi : Inits L (elems H) T T' init x) (own : Nat) :
    Follows (ElemRel L T') id (Model.LL.constructNode (valued lcfg x0) own x H) (nodeOf lcfg own init s) := by
  obtain ⟨rb, ri, f⟩ := r
  have hn : elems H H.next = none := by unfold elems; rw [f _ (Nat.le_refl _)]; rfl
  unfold nodeOf
  simp only [Prog.bind_run, inNodes, rb]
  by_cases hr : lcfg.refuse H.next lcfg.dsize = true
  · rw [(construct_refused hr).1, (construct_refused (x0 := x0) (x := x) hr).2]; rfl
  · rw [(construct_done hr).1, (construct_done (x0 := x0) (x := x) hr).2]
    simp only [Out.bind_ok, dataOf, Prog.pure_run, inElems]
    refine Out.Safe.bind (P := fun q => q.2.nodes = bareHeap (Proof.LL.newElem (valued lcfg x0) own x H) ∧
      L.Inv (glue (place (elems H) H.next (some x)) T') q.2.objs) ((hi _ _ ri hn).bind fun q hq => ⟨rfl, hq⟩) ?_
    rintro ⟨_, t⟩ ⟨h1, h2⟩
    refine ⟨rfl, h1, ?_, ?_⟩
    · simp only
      rw [newElem_elems]; exact h2
    · intro b hb
      have hb : H.next + 1 ≤ b := hb
      show Model.LL.upd H.info H.next _ b = none
      rw [Proof.LL.upd_ne _ _ (by omega)]
      exact f b (by omega)

theorem sim_nodeOf {init : Nat → Prog σ Unit} {x : V} (hi : ∀ E, Inits L E T T' init x) (own : Nat) :
    Sim (ElemRel L T) (ElemRel L T') id (nodeOf lcfg own init) (Model.LL.constructNode (valued lcfg x0) own x) :=
  fun _ _ r => follows_nodeOf r (hi _) own

theorem inits_copyTemp {k : Nat} {x : V} (hk : T k = some x) (hok : μ.cpOk x = true) (E : Nat → Option V) :
    Inits L E T T (fun d => C.copy d (temp k)) (μ.cp x) := by
  intro s a I ha
  have := L.copy (d := cell a) (e := temp k) (x := x) I (by rw [glue_cell]; exact ha) (by rw [glue_temp]; exact hk) hok
  rw [place_cell] at this
  exact this

theorem inits_moveTemp {k : Nat} {x : V} (hk : T k = some x) (E : Nat → Option V) :
    Inits L E T (place T k (some (μ.left x))) (fun d => C.move d (temp k)) x := by
  intro s a I ha
  have := L.move (d := cell a) (e := temp k) (x := x) I (by rw [glue_cell]; exact ha) (by rw [glue_temp]; exact hk)
  rw [place_cell, place_temp] at this
  exact this

/-- `*p` copied into a new node: the corresponding program on values; `bad` if it may not be copied -/
def copyV (μ : Meaning S V) (cfg : Model.LL.Cfg V) (bad : Model.LL.M V LL.Ptr) (own : Nat) (p : LL.Ptr) : Model.LL.M V LL.Ptr := do
  let x ← Model.LL.load p
  if μ.cpOk x = true then Model.LL.constructNode cfg own (μ.cp x) else bad

/-- `bad` is what happens to elements that may not be copied -/
def Bad (L : Law C μ) (bad : Model.LL.M V LL.Ptr) : Prop := bad = Prog.ub ∨
  (bad = Prog.panic ∧ ∀ A s d e x, L.Inv A s → A e = some x → μ.cpOk x = false → C.copy d e s = .panic ∨ C.copy d e s = .oom)

theorem sim_copyNode {bad : Model.LL.M V LL.Ptr} (hb : Bad L bad) (own : Nat) (p : LL.Ptr) :
    Sim (ElemRel L T) (ElemRel L T) id (do let src ← dataOf p; nodeOf lcfg own fun d => C.copy d src) (copyV μ (valued lcfg x0) bad own p) := by
  intro s H r
  unfold copyV
  rw [Prog.bind_run]
  cases p with
  | none => trivial
  | some a =>
    simp only [Model.LL.load, Model.LL.withNode]
    cases hi : H.info a with
    | none => trivial
    | some i =>
      obtain ⟨o, b, d⟩ := i
      cases d with
      | null => trivial
      | raw => trivial
      | live x =>
        have hx : elems H a = some x := by unfold elems; rw [hi]; rfl
        simp only [Out.bind_ok, dataOf, Prog.bind_run, Prog.pure_run]
        by_cases hok : μ.cpOk x = true
        · rw [if_pos hok]
          refine follows_nodeOf r (fun s' d I hd => ?_) own
          have := L.copy (d := cell d) (e := cell a) (x := x) I (by rw [glue_cell]; exact hd) (by rw [glue_cell]; exact hx) hok
          rw [place_cell] at this
          exact this
        · rw [if_neg hok]
          rcases hb with hb | ⟨hb, hc⟩
          · rw [hb]; trivial
          · rw [hb]
            show nodeOf lcfg own (fun d => C.copy d (cell a)) s = .panic ∨ nodeOf lcfg own (fun d => C.copy d (cell a)) s = .oom
            have hcf : μ.cpOk x = false := by simpa using hok
            unfold nodeOf
            simp only [Prog.bind_run, inNodes, r.bare]
            by_cases hr : lcfg.refuse H.next lcfg.dsize = true
            · rw [(construct_refused (x0 := x0) (x := x) hr).2]; exact .inr rfl
            · rw [(construct_done (x0 := x0) (x := x) hr).2]
              simp only [Out.bind_ok, dataOf, Prog.pure_run, inElems]
              rcases hc _ _ (cell H.next) (cell a) x r.inv (by rw [glue_cell]; exact hx) hcf with h | h <;> rw [h]
              · exact .inl rfl
              · exact .inr rfl

theorem free_elems {H : Model.LL.Heap V} (o b : Nat) (a : Nat) {x : Option V} (hx : elems H a = x) :
    elems { H with info := Model.LL.upd H.info a none, freeBytes := H.freeBytes + b } = place (elems H) a none := by
  unfold elems
  exact elems_upd _ _ _

theorem sim_killNode (own : Nat) (p : LL.Ptr) :
    Sim (ElemRel L T) (ElemRel L T) id (killNode C lcfg own p) (Model.LL.destroyNode (valued lcfg x0) own p) := by
  intro s H r
  obtain ⟨hb, I, f⟩ := r
  cases p with
  | none => trivial
  | some a =>
    unfold Model.LL.destroyNode
    cases hi : H.info a with
    | none =>
      simp only [Prog.bind_run, Model.LL.dataNull, Model.LL.withNode, hi, Out.bind_ub]
      trivial
    | some i =>
      obtain ⟨o, b, d⟩ := i
      have hbi : (bareHeap H).info a = some ⟨o, b, bare d⟩ := by simp only [bareHeap, bareInfo, hi, Option.map_some]
      unfold killNode
      cases d with
      | null =>
        simp only [Prog.bind_run, Model.LL.dataNull, Model.LL.withNode, hi, inNodes, hb, hbi, bare, Out.bind_ok, if_true, Model.LL.freeNode]
        by_cases ho : o = own ∧ b = lcfg.vsize
        · rw [if_pos (show o = own ∧ b = (valued lcfg x0).vsize from ho), if_pos ho]
          refine ⟨rfl, ?_, ?_, ?_⟩
          · simp only [bareHeap, bareInfo_upd]; rfl
          · simp only
            rw [free_elems o b a rfl, place_idem _ (show elems H a = none by unfold elems; rw [hi]; rfl)]
            exact I
          · exact fresh_upd f (.inr rfl)
        · rw [if_neg (show ¬ (o = own ∧ b = (valued lcfg x0).vsize) from ho)]; trivial
      | raw =>
        simp only [Prog.bind_run, Model.LL.dataNull, Model.LL.withNode, hi, Out.bind_ok]
        simp [Prog.bind_run, Model.LL.destroyData, Model.LL.withNode, hi]
        trivial
      | live x =>
        have hx : elems H a = some x := by unfold elems; rw [hi]; rfl
        have hd := L.drop (n := cell a) (x := x) I (by rw [glue_cell]; exact hx)
        rw [place_cell] at hd
        simp only [Prog.bind_run, Model.LL.dataNull, Model.LL.withNode, hi, inNodes, hb, hbi, bare, Out.bind_ok]
        simp only [Bool.false_eq_true, if_false, Prog.bind_run, Prog.pure_run, Out.bind_ok, Model.LL.destroyData, Model.LL.withNode, hi, Model.LL.freeNode,
          Proof.LL.upd_same, dataOf, inElems, hbi]
        by_cases ho : o = own ∧ b = lcfg.dsize
        · rw [if_pos (show o = own ∧ b = (valued lcfg x0).dsize from ho)]
          cases hq : C.drop (cell a) s.objs with
          | ok q =>
            rw [hq] at hd
            simp only [Out.bind_ok, inNodes, Model.LL.withNode, hbi, bare, Proof.LL.upd_same, if_pos ho]
            refine ⟨rfl, ?_, ?_, ?_⟩
            · simp only [bareHeap, bareInfo_upd]; rfl
            · have : elems { H with info := Model.LL.upd (Model.LL.upd H.info a (some ⟨o, b, .raw⟩)) a none, dtors := H.dtors + 1, freeBytes := H.freeBytes + b } =
                  place (elems H) a none := by
                unfold elems
                simp only
                rw [elems_upd, elems_upd]
                funext c
                simp only [place]
                split <;> rfl
              simp only
              rw [this]; exact hd
            · intro c hc
              show Model.LL.upd (Model.LL.upd H.info a _) a none c = none
              simp only [Model.LL.upd]
              split
              · rfl
              · exact f c hc
          | oom => exact trivial
          | _ => rw [hq] at hd; exact hd.elim
        · rw [if_neg (show ¬ (o = own ∧ b = (valued lcfg x0).dsize) from ho)]; trivial

/-! ## The members of lists of objects follow those of lists of values -/

theorem prog_assoc {τ X Y Z : Type} (x : Prog τ X) (f : X → Prog τ Y) (g : Y → Prog τ Z) : ((x >>= f) >>= g) = x >>= fun a => f a >>= g := by
  funext t
  simp only [Prog.bind_run]
  cases x t <;> rfl

theorem deref_tmp {x : V} {f : V → Model.LL.M V β} : (Model.LL.deref (.tmp x) >>= f) = f x := rfl

theorem sim_chainFill {mk : Prog (LSt σ) LL.Ptr} {x : V} {own : Nat}
    (hmk : Sim (ElemRel L T) (ElemRel L T) id mk (Model.LL.constructNode (valued lcfg x0) own x)) (n : Nat) (p : LL.Ptr) :
    Sim (ElemRel L T) (ElemRel L T) id (chainFill lcfg mk n p) (Model.LL.fillLoop (valued lcfg x0) own (.tmp x) n p) := by
  induction n generalizing p with
  | zero => exact Sim.pure
  | succ n ih =>
    rw [chainFill, Model.LL.fillLoop, deref_tmp]
    exact hmk.bind fun tmp => (sim_setNext p tmp).up.bind fun _ => ih tmp

theorem sim_chainTemps (own : Nat) (xs : List V) (k : Nat) (hT : ∀ i x, xs[i]? = some x → T (k + i) = some x) (hok : ∀ x ∈ xs, μ.cpOk x = true)
    (p : LL.Ptr) : Sim (ElemRel L T) (ElemRel L T) id (chainTemps C lcfg own xs.length k p)
      (Model.LL.rangeLoop (valued lcfg x0) own (xs.map μ.cp) p) := by
  induction xs generalizing p k with
  | nil => exact Sim.pure
  | cons x xs ih =>
    refine (sim_nodeOf (inits_copyTemp (by simpa using hT 0 x rfl) (hok x (by simp))) own).bind fun tmp => (sim_setNext p tmp).up.bind fun _ => ?_
    refine ih (k + 1) (fun i y h => ?_) (fun y hy => hok y (by simp [hy])) tmp
    have := hT (i + 1) y (by simpa using h)
    rwa [show k + 1 + i = k + (i + 1) by omega]

theorem sim_newEnds {F : Prog (LSt σ) LL.Ptr} {own n : Nat} {h t : LL.Ptr} {G : Model.LL.M V LL.Ptr} (hf : Sim (ElemRel L T) (ElemRel L T) id F G) :
    Sim (ElemRel L T) (ElemRel L T) id
      (do let p ← F
          inNodes (Model.LL.setNext lcfg p t)
          inNodes (Model.LL.setNext lcfg t none)
          return (⟨h, t, n, own⟩ : LL.Lst))
      (do let p ← G
          Model.LL.setNext (valued lcfg x0) p t
          Model.LL.setNext (valued lcfg x0) t none
          return ⟨h, t, n, own⟩) :=
  hf.bind fun _ => (sim_setNext _ _).up.bind fun _ => (sim_setNext _ _).up.bind fun _ => Sim.pure

theorem sim_newFill {mk : Prog (LSt σ) LL.Ptr} {x : V} {a : Nat}
    (hmk : Sim (ElemRel L T) (ElemRel L T) id mk (Model.LL.constructNode (valued lcfg x0) a x)) (n : Nat) :
    Sim (ElemRel L T) (ElemRel L T) id (lnewFill lcfg mk n a) (Model.LL.newFill (valued lcfg x0) n (.tmp x) a) :=
  Sim.ite (sim_newAlloc a).up ((sim_buildVirtual a).up.bind fun h => (sim_buildVirtual a).up.bind fun _ => sim_newEnds (sim_chainFill hmk n h))

theorem sim_newRange {a : Nat} (xs : List V) (hT : ∀ i x, xs[i]? = some x → T i = some x) (hok : ∀ x ∈ xs, μ.cpOk x = true) :
    Sim (ElemRel L T) (ElemRel L T) id (lnewRange C lcfg xs.length a) (Model.LL.newRange (valued lcfg x0) (xs.map μ.cp) a) := by
  unfold lnewRange Model.LL.newRange
  cases xs with
  | nil => exact (sim_newAlloc a).up
  | cons x xs =>
    have h := fun p => sim_chainTemps (lcfg := lcfg) (x0 := x0) (L := L) a (x :: xs) 0 (by simpa using hT) hok p
    simp only [List.length_cons, Nat.add_one_ne_zero, if_false, List.map_cons, List.isEmpty_cons, Bool.false_eq_true, List.length_map]
    simp only [List.length_cons, List.map_cons] at h
    exact (sim_buildVirtual a).up.bind fun h' => (sim_buildVirtual a).up.bind fun _ => sim_newEnds (h h')

theorem sim_destroyLoop (own : Nat) (stop cur : LL.Ptr) :
    Sim (ElemRel L T) (ElemRel L T) id (ldestroyLoop C lcfg own stop cur) (Model.LL.destroyLoop (valued lcfg x0) own stop cur) := by
  refine Model.LL.destroyLoop.fixpoint_induct (valued lcfg x0) own stop
    (fun f => ∀ cur, Sim (ElemRel L T) (ElemRel L T) id (ldestroyLoop C lcfg own stop cur) (f cur)) ?_ ?_ cur
  · exact Lean.Order.admissible_pi_apply
      (fun cur (g : Model.LL.M V Unit) => Sim (ElemRel L T) (ElemRel L T) id (ldestroyLoop C lcfg own stop cur) g) fun cur => Sim.adm
  · intro f ih cur
    dsimp only
    rw [ldestroyLoop]
    exact Sim.ite Sim.pure ((sim_getNext cur).up.bind fun nx => (sim_killNode own cur).bind fun _ => ih _)

theorem sim_clear (l : LL.Lst) : Sim (ElemRel L T) (ElemRel L T) id (lclear C lcfg l) (Model.LL.clear (valued lcfg x0) l) :=
  (sim_getNext _).up.bind fun _ => (sim_destroyLoop _ _ _).bind fun _ => (sim_setNext _ _).up.bind fun _ => Sim.pure

theorem sim_destruct (l : LL.Lst) : Sim (ElemRel L T) (ElemRel L T) id (ldestruct C lcfg l) (Model.LL.destruct (valued lcfg x0) l) :=
  Sim.ite Sim.pure ((sim_clear l).bind fun _ => (sim_killNode _ _).bind fun _ => sim_killNode _ _)

theorem sim_moveAssign (l o : LL.Lst) : Sim (ElemRel L T) (ElemRel L T) id (lmoveAssign C lcfg l o) (Model.LL.moveAssign (valued lcfg x0) l o) :=
  (sim_destruct l).bind fun _ => Sim.pure

theorem sim_listAssign (l : LL.Lst) (xs : List V) (hT : ∀ i x, xs[i]? = some x → T i = some x) (hok : ∀ x ∈ xs, μ.cpOk x = true) :
    Sim (ElemRel L T) (ElemRel L T) id (llistAssign C lcfg l xs.length) (Model.LL.listAssign (valued lcfg x0) l (xs.map μ.cp)) := by
  unfold llistAssign Model.LL.listAssign
  rw [List.length_map]
  exact (sim_clear l).bind fun l' => (sim_chainTemps _ xs 0 (by simpa using hT) hok _).bind fun _ => (sim_setNext _ _).up.bind fun _ => Sim.pure

theorem sim_emplaceAfter {mk : Prog (LSt σ) LL.Ptr} {x : V} {l : LL.Lst}
    (hmk : Sim (ElemRel L T) (ElemRel L T') id mk (Model.LL.constructNode (valued lcfg x0) l.alloc x)) (pos : LL.Ptr) :
    Sim (ElemRel L T) (ElemRel L T') id (lemplaceAfter lcfg l pos mk) (Model.LL.emplaceAfter (valued lcfg x0) l pos (.tmp x)) := by
  unfold lemplaceAfter Model.LL.emplaceAfter
  simp only [deref_tmp]
  exact (sim_dbg _).up.bind fun _ => hmk.bind fun _ => (sim_getNext _).up.bind fun _ => (sim_setNext _ _).up.bind fun _ =>
    (sim_setNext _ _).up.bind fun _ => Sim.pure

theorem sim_emplace {mk : Prog (LSt σ) LL.Ptr} {x : V} {l : LL.Lst}
    (hmk : Sim (ElemRel L T) (ElemRel L T') id mk (Model.LL.constructNode (valued lcfg x0) l.alloc x)) (pos : LL.Ptr) :
    Sim (ElemRel L T) (ElemRel L T') id (lemplace lcfg l pos mk) (Model.LL.emplace (valued lcfg x0) l pos (.tmp x)) := by
  unfold lemplace Model.LL.emplace
  simp only [deref_tmp]
  exact (sim_dbg _).up.bind fun _ => hmk.bind fun _ => (sim_getPrev _).up.bind fun _ => (sim_setNext _ _).up.bind fun _ =>
    (sim_setNext _ _).up.bind fun _ => Sim.pure

theorem sim_pushFront {R : LSt σ → Model.LL.Heap V → Prop} {mk : Prog (LSt σ) LL.Ptr} {x : V} {l : LL.Lst}
    (hmk : Sim R (ElemRel L T) id mk (Model.LL.constructNode (valued lcfg x0) l.alloc x)) :
    Sim R (ElemRel L T) id (lpushFront lcfg l mk) (Model.LL.pushFront (valued lcfg x0) l (.tmp x)) := by
  unfold lpushFront Model.LL.pushFront
  rw [deref_tmp]
  exact hmk.bind fun _ => (sim_getNext _).up.bind fun _ => (sim_setNext _ _).up.bind fun _ => (sim_setNext _ _).up.bind fun _ => Sim.pure

theorem sim_pushBack {R : LSt σ → Model.LL.Heap V → Prop} {mk : Prog (LSt σ) LL.Ptr} {x : V} {l : LL.Lst}
    (hmk : Sim R (ElemRel L T) id mk (Model.LL.constructNode (valued lcfg x0) l.alloc x)) :
    Sim R (ElemRel L T) id (lpushBack lcfg l mk) (Model.LL.pushBack (valued lcfg x0) l (.tmp x)) := by
  unfold lpushBack Model.LL.pushBack
  rw [deref_tmp]
  exact hmk.bind fun _ => (sim_getPrev _).up.bind fun _ => (sim_setNext _ _).up.bind fun _ => (sim_setNext _ _).up.bind fun _ => Sim.pure

theorem sim_insertAfterFill {mk : Prog (LSt σ) LL.Ptr} {x : V} {l : LL.Lst}
    (hmk : Sim (ElemRel L T) (ElemRel L T) id mk (Model.LL.constructNode (valued lcfg x0) l.alloc x)) (pos : LL.Ptr) (n : Nat) :
    Sim (ElemRel L T) (ElemRel L T) id (linsertAfterFill lcfg l pos n mk) (Model.LL.insertAfterFill (valued lcfg x0) l pos n (.tmp x)) :=
  (sim_dbg _).up.bind fun _ => Sim.ite Sim.pure ((sim_getNext _).up.bind fun _ => (sim_chainFill hmk n _).bind fun _ =>
    (sim_setNext _ _).up.bind fun _ => (sim_getNext _).up.bind fun _ => Sim.pure)

theorem sim_insertFill {mk : Prog (LSt σ) LL.Ptr} {x : V} {l : LL.Lst}
    (hmk : Sim (ElemRel L T) (ElemRel L T) id mk (Model.LL.constructNode (valued lcfg x0) l.alloc x)) (pos : LL.Ptr) (n : Nat) :
    Sim (ElemRel L T) (ElemRel L T) id (linsertFill lcfg l pos n mk) (Model.LL.insertFill (valued lcfg x0) l pos n (.tmp x)) :=
  (sim_dbg _).up.bind fun _ => Sim.ite Sim.pure ((sim_getPrev _).up.bind fun _ => (sim_chainFill hmk n _).bind fun _ =>
    (sim_setNext _ _).up.bind fun _ => (sim_getNext _).up.bind fun _ => Sim.pure)

theorem sim_eraseAfter (l : LL.Lst) (pos : LL.Ptr) :
    Sim (ElemRel L T) (ElemRel L T) id (leraseAfter C lcfg l pos) (Model.LL.eraseAfter (valued lcfg x0) l pos) :=
  (sim_dbg _).up.bind fun _ => (sim_getNext _).up.bind fun _ => Sim.ite Sim.pure ((sim_getNext _).up.bind fun _ =>
    (sim_getNext _).up.bind fun _ => (sim_setNext _ _).up.bind fun _ => (sim_killNode _ _).bind fun _ => Sim.pure)

theorem sim_eraseAfterRange (l : LL.Lst) (first last : LL.Ptr) :
    Sim (ElemRel L T) (ElemRel L T) id (leraseAfterRange C lcfg l first last) (Model.LL.eraseAfterRange (valued lcfg x0) l first last) := by
  refine Model.LL.eraseAfterRange.fixpoint_induct (valued lcfg x0) first last
    (fun f => ∀ l, Sim (ElemRel L T) (ElemRel L T) id (leraseAfterRange C lcfg l first last) (f l)) ?_ ?_ l
  · exact Lean.Order.admissible_pi_apply
      (fun l (g : Model.LL.M V (LL.Lst × LL.Ptr)) => Sim (ElemRel L T) (ElemRel L T) id (leraseAfterRange C lcfg l first last) g) fun l => Sim.adm
  · intro f ih l
    dsimp only
    rw [leraseAfterRange]
    exact Sim.ite Sim.pure ((sim_getNext _).up.bind fun _ => Sim.ite Sim.pure ((sim_eraseAfter _ _).bind fun _ => ih _))

theorem sim_erase (l : LL.Lst) (pos : LL.Ptr) :
    Sim (ElemRel L T) (ElemRel L T) id (lerase C lcfg l pos) (Model.LL.erase (valued lcfg x0) l pos) :=
  Sim.ite Sim.pure ((sim_getPrev _).up.bind fun _ => (sim_getNext _).up.bind fun _ => (sim_setNext _ _).up.bind fun _ =>
    (sim_getNext _).up.bind fun _ => (sim_killNode _ _).bind fun _ => Sim.pure)

theorem sim_eraseLoop (own : Nat) (last first : LL.Ptr) (n : Nat) :
    Sim (ElemRel L T) (ElemRel L T) id (leraseLoop C lcfg own last first n) (Model.LL.eraseLoop (valued lcfg x0) own last first n) := by
  refine Model.LL.eraseLoop.fixpoint_induct (valued lcfg x0) own last
    (fun f => ∀ first n, Sim (ElemRel L T) (ElemRel L T) id (leraseLoop C lcfg own last first n) (f first n)) ?_ ?_ first n
  · exact Lean.Order.admissible_pi_apply
      (fun first (g : Nat → Model.LL.M V Nat) => ∀ n, Sim (ElemRel L T) (ElemRel L T) id (leraseLoop C lcfg own last first n) (g n))
      fun first => Lean.Order.admissible_pi_apply
        (fun n (g : Model.LL.M V Nat) => Sim (ElemRel L T) (ElemRel L T) id (leraseLoop C lcfg own last first n) g) fun n => Sim.adm
  · intro f ih first n
    dsimp only
    rw [leraseLoop]
    exact Sim.ite Sim.pure ((sim_getNext _).up.bind fun _ => (sim_killNode _ _).bind fun _ => ih _ _)

theorem sim_eraseRange (l : LL.Lst) (first last : LL.Ptr) :
    Sim (ElemRel L T) (ElemRel L T) id (leraseRange C lcfg l first last) (Model.LL.eraseRange (valued lcfg x0) l first last) := by
  unfold leraseRange Model.LL.eraseRange
  have h : ∀ first : LL.Ptr, Sim (ElemRel L T) (ElemRel L T) id
      (do let h ← inNodes (Model.LL.getPrev first)
          inNodes (Model.LL.setNext lcfg h last)
          let n ← leraseLoop C lcfg l.alloc last first l.len
          pure ({ l with len := n }, last))
      (do let h ← Model.LL.getPrev first
          Model.LL.setNext (valued lcfg x0) h last
          let n ← Model.LL.eraseLoop (valued lcfg x0) l.alloc last first l.len
          pure ({ l with len := n }, last)) := fun first =>
    (sim_getPrev _).up.bind fun _ => (sim_setNext _ _).up.bind fun _ => (sim_eraseLoop _ _ _ _).bind fun _ => Sim.pure
  exact Sim.ite Sim.pure (Sim.ite ((sim_getNext _).up.bind fun f => h f) (h first))

theorem sim_popFront (l : LL.Lst) : Sim (ElemRel L T) (ElemRel L T) id (lpopFront C lcfg l) (Model.LL.popFront (valued lcfg x0) l) :=
  (sim_getNext _).up.bind fun _ => (sim_dbg _).up.bind fun _ => (sim_getNext _).up.bind fun _ => (sim_setNext _ _).up.bind fun _ =>
    (sim_killNode _ _).bind fun _ => Sim.pure

theorem sim_popBack (l : LL.Lst) : Sim (ElemRel L T) (ElemRel L T) id (lpopBack C lcfg l) (Model.LL.popBack (valued lcfg x0) l) :=
  (sim_dbg _).up.bind fun _ => (sim_dbg _).up.bind fun _ => (sim_getPrev _).up.bind fun _ => (sim_getPrev _).up.bind fun _ =>
    (sim_setNext _ _).up.bind fun _ => (sim_killNode _ _).bind fun _ => Sim.pure

theorem sim_shorten (l : LL.Lst) (n : Nat) : Sim (ElemRel L T) (ElemRel L T) id (lshorten C lcfg l n) (Model.LL.shorten (valued lcfg x0) l n) := by
  unfold lshorten Model.LL.shorten
  have h : ∀ t : LL.Ptr, Sim (ElemRel L T) (ElemRel L T) id
      (do let p ← inNodes (Model.LL.getNext t)
          inNodes (Model.LL.setNext lcfg t l.tail)
          ldestroyLoop C lcfg l.alloc l.tail p
          pure { l with len := n })
      (do let p ← Model.LL.getNext t
          Model.LL.setNext (valued lcfg x0) t l.tail
          Model.LL.destroyLoop (valued lcfg x0) l.alloc l.tail p
          pure { l with len := n }) := fun t =>
    (sim_getNext _).up.bind fun _ => (sim_setNext _ _).up.bind fun _ => (sim_destroyLoop _ _ _).bind fun _ => Sim.pure
  dsimp only
  refine Sim.ite (c := lcfg.dbl = true ∧ l.len - n < l.len / 2) ?_ ((sim_advance _ _).up.bind fun t => h t)
  have e := fun k => prog_assoc (Model.LL.getPrev (α := V) l.tail) (Model.LL.retreat (l.len - n)) (k : LL.Ptr → Model.LL.M V LL.Lst)
  rw [← e]
  exact Sim.bind (NodeSim.up ((sim_getPrev _).bind fun _ => sim_retreat _ _)) fun t => h t

theorem sim_extendLoop {mk : Prog (LSt σ) LL.Ptr} {x : V} {own : Nat} {tail : LL.Ptr}
    (hmk : Sim (ElemRel L T) (ElemRel L T) id mk (Model.LL.constructNode (valued lcfg x0) own x)) (n : Nat) (p : LL.Ptr) :
    Sim (ElemRel L T) (ElemRel L T) id (lextendLoop lcfg tail mk n p) (Model.LL.extendLoop (valued lcfg x0) own tail (.tmp x) n p) := by
  induction n generalizing p with
  | zero => exact Sim.pure
  | succ n ih =>
    rw [lextendLoop, Model.LL.extendLoop, deref_tmp]
    exact hmk.bind fun tmp => (sim_setNext p tmp).up.bind fun _ => (sim_setNext _ _).up.bind fun _ => ih tmp

theorem sim_extend {mk : Prog (LSt σ) LL.Ptr} {x : V} {l : LL.Lst}
    (hmk : Sim (ElemRel L T) (ElemRel L T) id mk (Model.LL.constructNode (valued lcfg x0) l.alloc x)) (n : Nat) :
    Sim (ElemRel L T) (ElemRel L T) id (lextend lcfg l n mk) (Model.LL.extend (valued lcfg x0) l n (.tmp x)) :=
  by
  unfold lextend Model.LL.extend
  have h : ∀ p : LL.Ptr, Sim (ElemRel L T) (ElemRel L T) id
      (do lextendLoop lcfg l.tail mk (n - l.len) p
          pure { l with len := n })
      (do Model.LL.extendLoop (valued lcfg x0) l.alloc l.tail (.tmp x) (n - l.len) p
          pure { l with len := n }) := fun p => (sim_extendLoop hmk _ _).bind fun _ => Sim.pure
  exact Sim.ite (c := lcfg.dbl = true) ((sim_getPrev _).up.bind fun p => h p) ((sim_advance _ _).up.bind fun p => h p)

theorem sim_resizeFill {mk : Prog (LSt σ) LL.Ptr} {x : V} {l : LL.Lst}
    (hmk : Sim (ElemRel L T) (ElemRel L T) id mk (Model.LL.constructNode (valued lcfg x0) l.alloc x)) (n : Nat) :
    Sim (ElemRel L T) (ElemRel L T) id (lresizeFill C lcfg l n mk) (Model.LL.resizeFill (valued lcfg x0) l n (.tmp x)) :=
  Sim.ite (sim_clear l) (Sim.ite Sim.pure (Sim.ite (sim_extend hmk n) (sim_shorten l n)))

end

end Verif.Proof.Nested
