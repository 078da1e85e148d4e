import Verif.Model.NestedSift
import Verif.Proof.NestedCmp
/-!
# Proofs about `remove_if` and `unique` of linked lists of objects
-/
namespace Verif.Proof.Nested
open Verif Verif.Model.Nested Verif.Spec.Nested
open Verif.Model (LL.Ptr LL.Lst)

variable {S : Sig} {σ V β γ R : Type} {C : Cls S σ} {μ : Meaning S V} {L : Law C μ} {lcfg : Model.LL.Cfg Unit} {x0 : V} {T : Nat → Option V}

/-- The predicate answers `G` about values for which there is an answer, and leaves the objects what they are. -/
def Tells (L : Law C μ) (pred : Nat → Prog σ Bool) (G : V → Option Bool) : Prop :=
  ∀ A s a x b, L.Inv A s → A a = some x → G x = some b → (pred a s).Safe fun q => q.1 = b ∧ L.Inv A q.2

/-- the predicate on values -/
def gate (G : V → Option Bool) (_ : Unit) (x : V) : Model.LL.M V (Bool × Unit) :=
  match G x with
  | none => Prog.ub
  | some b => pure (b, ())

theorem sim_test {pred : Nat → Prog σ Bool} {G : V → Option Bool} (ht : Tells L pred G) (p : LL.Ptr) :
    Sim (ElemRel L T) (ElemRel L T) Prod.fst (do let a ← dataOf p; inElems (pred a)) (Model.LL.load p >>= gate G ()) := by
  intro s H r
  rw [Prog.bind_run]
  cases p with
  | none => trivial
  | some a =>
    simp only [Model.LL.load, Model.LL.withNode]
    cases hi : H.info a with
    | none => trivial
    | some i =>
      obtain ⟨o, b, d⟩ := i
      cases d with
      | null => trivial
      | raw => trivial
      | live x =>
        have hx : elems H a = some x := by unfold elems; rw [hi]; rfl
        simp only [Out.bind_ok, dataOf, Prog.bind_run, Prog.pure_run, gate]
        cases hg : G x with
        | none => trivial
        | some t =>
          refine (ht _ _ (cell a) x t r.inv (by rw [glue_cell]; exact hx) hg).bind ?_
          rintro q ⟨h1, h2⟩
          exact ⟨h1, r.bare, h2, r.fresh⟩

theorem load_cases (p : LL.Ptr) (H : Model.LL.Heap V) :
    Model.LL.load p H = .ub ∨ ∃ a x, p = some a ∧ elems H a = some x ∧ Model.LL.load p H = .ok (x, H) := by
  cases p with
  | none => exact .inl rfl
  | some a =>
    simp only [Model.LL.load, Model.LL.withNode]
    cases hi : H.info a with
    | none => exact .inl rfl
    | some i =>
      obtain ⟨o, b, d⟩ := i
      cases d with
      | null => exact .inl rfl
      | raw => exact .inl rfl
      | live x => exact .inr ⟨a, x, rfl, by unfold elems; rw [hi]; rfl, rfl⟩

theorem sim_test2 {f : Nat → Nat → Prog σ R} {g : V → V → R} (ht : Reads2 L f g) (p q : LL.Ptr) :
    Sim (ElemRel L T) (ElemRel L T) id (do let a ← dataOf p; let b ← dataOf q; inElems (f a b))
      (do let x ← Model.LL.load p; let y ← Model.LL.load q; return g x y) := by
  intro s H r
  rw [Prog.bind_run]
  rcases load_cases p H with h | ⟨a, x, rfl, hx, h⟩ <;> rw [h]
  · trivial
  simp only [Out.bind_ok, Prog.bind_run]
  rcases load_cases q H with h | ⟨b, y, rfl, hy, h⟩ <;> rw [h]
  · trivial
  simp only [Out.bind_ok, dataOf, Prog.pure_run, inElems]
  rw [ht _ _ (cell a) (cell b) x y r.inv (by rw [glue_cell]; exact hx) (by rw [glue_cell]; exact hy)]
  exact ⟨rfl, r⟩

theorem sim_removeLoop {pred : Nat → Prog σ Bool} {G : V → Option Bool} (ht : Tells L pred G) (own : Nat) (tail cur last : LL.Ptr) (len cnt : Nat) :
    Sim (ElemRel L T) (ElemRel L T) (fun r : Nat × Nat × Unit => (r.1, r.2.1)) (lremoveLoop C lcfg own tail pred cur last len cnt)
      (Model.LL.removeLoop (valued lcfg x0) own tail (gate G) () cur last len cnt) := by
  refine Model.LL.removeLoop.fixpoint_induct (valued lcfg x0) own tail (gate G)
    (fun f => ∀ (s : Unit) cur last len cnt, Sim (ElemRel L T) (ElemRel L T) (fun r : Nat × Nat × Unit => (r.1, r.2.1))
      (lremoveLoop C lcfg own tail pred cur last len cnt) (f s cur last len cnt)) ?_ ?_ () cur last len cnt
  · refine Lean.Order.admissible_pi_apply (fun (s : Unit) (g : LL.Ptr → LL.Ptr → Nat → Nat → Model.LL.M V (Nat × Nat × Unit)) =>
      ∀ cur last len cnt, Sim (ElemRel L T) (ElemRel L T) (fun r : Nat × Nat × Unit => (r.1, r.2.1))
        (lremoveLoop C lcfg own tail pred cur last len cnt) (g cur last len cnt)) fun _ => ?_
    refine Lean.Order.admissible_pi_apply (fun cur (g : LL.Ptr → Nat → Nat → Model.LL.M V (Nat × Nat × Unit)) =>
      ∀ last len cnt, Sim (ElemRel L T) (ElemRel L T) (fun r : Nat × Nat × Unit => (r.1, r.2.1))
        (lremoveLoop C lcfg own tail pred cur last len cnt) (g last len cnt)) fun cur => ?_
    refine Lean.Order.admissible_pi_apply (fun last (g : Nat → Nat → Model.LL.M V (Nat × Nat × Unit)) =>
      ∀ len cnt, Sim (ElemRel L T) (ElemRel L T) (fun r : Nat × Nat × Unit => (r.1, r.2.1))
        (lremoveLoop C lcfg own tail pred cur last len cnt) (g len cnt)) fun last => ?_
    refine Lean.Order.admissible_pi_apply (fun len (g : Nat → Model.LL.M V (Nat × Nat × Unit)) =>
      ∀ cnt, Sim (ElemRel L T) (ElemRel L T) (fun r : Nat × Nat × Unit => (r.1, r.2.1))
        (lremoveLoop C lcfg own tail pred cur last len cnt) (g cnt)) fun len => ?_
    exact Lean.Order.admissible_pi_apply (fun cnt (g : Model.LL.M V (Nat × Nat × Unit)) =>
      Sim (ElemRel L T) (ElemRel L T) (fun r : Nat × Nat × Unit => (r.1, r.2.1)) (lremoveLoop C lcfg own tail pred cur last len cnt) g)
      fun cnt => Sim.adm
  · intro f ih s cur last len cnt
    dsimp only
    rw [lremoveLoop]
    refine Sim.ite (Sim.ret rfl) ?_
    have h3 := Sim.bind (R'' := ElemRel L T) (k := fun r : Nat × Nat × Unit => (r.1, r.2.1)) (P' := fun t => if t = true then do
        let nx ← inNodes (Model.LL.getNext cur)
        inNodes (Model.LL.setNext lcfg last nx)
        killNode C lcfg own cur
        let cur' ← inNodes (Model.LL.getNext last)
        lremoveLoop C lcfg own tail pred cur' last (Model.LL.dec len) (cnt + 1)
      else do
        let cur' ← inNodes (Model.LL.getNext cur)
        let last' ← inNodes (Model.LL.getNext last)
        lremoveLoop C lcfg own tail pred cur' last' len cnt)
      (Q' := fun t => if t.1 = true then do
        let nx ← Model.LL.getNext cur
        Model.LL.setNext (valued lcfg x0) last nx
        Model.LL.destroyNode (valued lcfg x0) own cur
        let cur' ← Model.LL.getNext last
        f t.2 cur' last (Model.LL.dec len) (cnt + 1)
      else do
        let cur' ← Model.LL.getNext cur
        let last' ← Model.LL.getNext last
        f t.2 cur' last' len cnt) (sim_test (T := T) ht cur) fun b => Sim.ite
      ((sim_getNext cur).up.bind fun _ => (sim_setNext _ _).up.bind fun _ => (sim_killNode own cur).bind fun _ =>
        (sim_getNext last).up.bind fun _ => ih _ _ _ _ _)
      ((sim_getNext cur).up.bind fun _ => (sim_getNext last).up.bind fun _ => ih _ _ _ _ _)
    refine cast (congrArg₂ (Sim (ElemRel L T) (ElemRel L T) _) ?_ ?_) h3
    · funext t
      simp only [Prog.bind_run]
      cases dataOf cur t <;> rfl
    · funext t
      simp only [Prog.bind_run]
      cases Model.LL.load cur t <;> rfl

theorem sim_removeIf {pred : Nat → Prog σ Bool} {G : V → Option Bool} (ht : Tells L pred G) (l : LL.Lst) :
    Sim (ElemRel L T) (ElemRel L T) id (lremoveIf C lcfg pred l)
      (do let q ← Model.LL.removeIf (valued lcfg x0) l (gate G) (); return (q.1, q.2.1)) := by
  have : (do let q ← Model.LL.removeIf (valued lcfg x0) l (gate G) (); return (q.1, q.2.1) : Model.LL.M V (LL.Lst × Nat)) = (do
      Model.LL.dbgAssert (valued lcfg x0) l.head.isSome
      if l.len = 0 then return (l, 0)
      else do
        let cur ← Model.LL.getNext l.head
        let r ← Model.LL.removeLoop (valued lcfg x0) l.alloc l.tail (gate G) () cur l.head l.len 0
        return ({ l with len := r.1 }, r.2.1)) := by
    funext t
    simp only [Model.LL.removeIf, Prog.bind_run]
    cases Model.LL.dbgAssert (valued lcfg x0) l.head.isSome t with
    | ok q =>
      simp only [Out.bind_ok]
      split
      · rfl
      · simp only [Prog.bind_run]
        cases Model.LL.getNext l.head q.2 with
        | ok q => simp only [Out.bind_ok]; cases Model.LL.removeLoop (valued lcfg x0) l.alloc l.tail (gate G) () q.1 l.head l.len 0 q.2 <;> rfl
        | _ => rfl
    | _ => rfl
  rw [this]
  exact (sim_dbg _).up.bind fun _ => Sim.ite Sim.pure ((sim_getNext _).up.bind fun _ => (sim_removeLoop ht _ _ _ _ _ _).bind fun _ => Sim.pure)

theorem sim_uniqueLoop {pred : Nat → Nat → Prog σ Bool} {g : V → V → Bool} (ht : Reads2 L pred g) (own : Nat) (tail cur before last : LL.Ptr)
    (len cnt : Nat) :
    Sim (ElemRel L T) (ElemRel L T) id (luniqueLoop C lcfg own tail pred cur before last len cnt)
      (Model.LL.uniqueLoop (valued lcfg x0) own tail g cur before last len cnt) := by
  refine Model.LL.uniqueLoop.fixpoint_induct (valued lcfg x0) own tail g
    (fun f => ∀ cur before last len cnt, Sim (ElemRel L T) (ElemRel L T) id
      (luniqueLoop C lcfg own tail pred cur before last len cnt) (f cur before last len cnt)) ?_ ?_ cur before last len cnt
  · refine Lean.Order.admissible_pi_apply (fun cur (g : LL.Ptr → LL.Ptr → Nat → Nat → Model.LL.M V (Nat × Nat)) =>
      ∀ before last len cnt, Sim (ElemRel L T) (ElemRel L T) id
        (luniqueLoop C lcfg own tail pred cur before last len cnt) (g before last len cnt)) fun cur => ?_
    refine Lean.Order.admissible_pi_apply (fun before (g : LL.Ptr → Nat → Nat → Model.LL.M V (Nat × Nat)) =>
      ∀ last len cnt, Sim (ElemRel L T) (ElemRel L T) id
        (luniqueLoop C lcfg own tail pred cur before last len cnt) (g last len cnt)) fun before => ?_
    refine Lean.Order.admissible_pi_apply (fun last (g : Nat → Nat → Model.LL.M V (Nat × Nat)) =>
      ∀ len cnt, Sim (ElemRel L T) (ElemRel L T) id
        (luniqueLoop C lcfg own tail pred cur before last len cnt) (g len cnt)) fun last => ?_
    refine Lean.Order.admissible_pi_apply (fun len (g : Nat → Model.LL.M V (Nat × Nat)) =>
      ∀ cnt, Sim (ElemRel L T) (ElemRel L T) id
        (luniqueLoop C lcfg own tail pred cur before last len cnt) (g cnt)) fun len => ?_
    exact Lean.Order.admissible_pi_apply (fun cnt (g : Model.LL.M V (Nat × Nat)) =>
      Sim (ElemRel L T) (ElemRel L T) id (luniqueLoop C lcfg own tail pred cur before last len cnt) g)
      fun cnt => Sim.adm
  · intro f ih cur before last len cnt
    dsimp only
    rw [luniqueLoop]
    refine Sim.ite Sim.pure ?_
    have h := sim_test2 (T := T) ht cur last
    have h3 := Sim.bind (R'' := ElemRel L T) (k := id) (P' := fun t => if t = true then do
        let nx ← inNodes (Model.LL.getNext cur)
        inNodes (Model.LL.setNext lcfg before nx)
        killNode C lcfg own cur
        let cur' ← inNodes (Model.LL.getNext before)
        luniqueLoop C lcfg own tail pred cur' before last (Model.LL.dec len) (cnt + 1)
      else do
        let cur' ← inNodes (Model.LL.getNext cur)
        luniqueLoop C lcfg own tail pred cur' cur cur len cnt)
      (Q' := fun t => if t = true then do
        let nx ← Model.LL.getNext cur
        Model.LL.setNext (valued lcfg x0) before nx
        Model.LL.destroyNode (valued lcfg x0) own cur
        let cur' ← Model.LL.getNext before
        f cur' before last (Model.LL.dec len) (cnt + 1)
      else do
        let cur' ← Model.LL.getNext cur
        f cur' cur cur len cnt) h fun b => Sim.ite
      ((sim_getNext cur).up.bind fun _ => (sim_setNext _ _).up.bind fun _ => (sim_killNode own cur).bind fun _ =>
        (sim_getNext before).up.bind fun _ => ih _ _ _ _ _)
      ((sim_getNext cur).up.bind fun _ => ih _ _ _ _ _)
    refine cast (congrArg₂ (Sim (ElemRel L T) (ElemRel L T) id) ?_ ?_) h3
    · funext t
      simp only [Prog.bind_run]
      cases dataOf cur t with
      | ok q => simp only [Out.bind_ok]; cases dataOf last q.2 <;> rfl
      | _ => rfl
    · funext t
      simp only [Prog.bind_run]
      cases Model.LL.load cur t with
      | ok q => simp only [Out.bind_ok]; cases Model.LL.load last q.2 <;> rfl
      | _ => rfl

theorem sim_unique {pred : Nat → Nat → Prog σ Bool} {g : V → V → Bool} (ht : Reads2 L pred g) (l : LL.Lst) :
    Sim (ElemRel L T) (ElemRel L T) id (lunique C lcfg pred l) (Model.LL.unique (valued lcfg x0) l g) :=
  (sim_dbg _).up.bind fun _ => Sim.ite Sim.pure ((sim_getNext _).up.bind fun _ => (sim_getNext _).up.bind fun _ =>
    (sim_uniqueLoop ht _ _ _ _ _ _ _).bind fun _ => Sim.pure)

/-! ## At an address -/

/-- the count a member of a list of values returned -/
def countOf : Model.LL.Res V → Nat
  | .num n => n
  | _ => 0

theorem sim_changeCount {f : LL.Lst → Prog (LSt σ) (LL.Lst × Nat)} {Q : LL.Lst → Model.LL.M V (LL.Lst × Nat)}
    (h : ∀ l, Sim (ElemRel L (tt [])) (ElemRel L (tt [])) id (f l) (Q l)) (i : Nat) :
    Sim (WRel L) (WRel L) countOf (changeCount i f) (Model.LL.changeN i Q) :=
  (sim_obj i).bind fun l => (h l).inside.bind fun _ => (sim_setObj i _).bind fun _ => Sim.ret rfl

variable {A : Nat → Option (Spec.LL.Var V)} {w : LWorld σ} {i : Nat} {xs : List V} {own : Nat}

theorem uniqueAt_ok (I : (linkedLaw lcfg x0 L).Inv A w) (hi : A i = some ⟨some xs, own⟩) {pred : Nat → Nat → Prog σ Bool} {g : V → V → Bool}
    (ht : Reads2 L pred g) : (uniqueAt C lcfg pred i w).Safe fun q => q.1 = xs.length - (Spec.LL.uniqueBy g xs).length ∧
      (linkedLaw lcfg x0 L).Inv (place A i (some ⟨some (Spec.LL.uniqueBy g xs), own⟩)) q.2 := by
  refine linv_ok (g := countOf) (op := .unique i g) I (sim_changeCount (fun l => sim_unique ht l) i)
    (r := .num (xs.length - (Spec.LL.uniqueBy g xs).length)) ?_
  simp only [Spec.LL.specStep, Spec.LL.edit, hi, Option.bind_some, Option.map_some]
  rfl

theorem removeIf_value {cfg : Model.LL.Cfg V} {W : Model.LL.World V} (I : LInv cfg A W) (hi : A i = some ⟨some xs, own⟩) {G : V → Option Bool}
    {f : V → Bool} (hG : ∀ x ∈ xs, G x = some (f x)) :
    (Model.LL.changeN i (fun l => do let q ← Model.LL.removeIf cfg l (gate G) (); return (q.1, q.2.1)) W).Safe fun q =>
      q.1 = .num (xs.filter f).length ∧ LInv cfg (place A i (some ⟨some (xs.filter fun x => !f x), own⟩)) q.2 := by
  obtain ⟨D, I, rfl⟩ := I
  simp only [LL.ideal, Option.map_eq_some_iff] at hi
  obtain ⟨⟨body, own'⟩, ho, hv⟩ := hi
  match body, ho, hv with
  | none, _, hv => cases hv
  | some (hd, tl, cs), ho, hv =>
    cases hv
    have hm : ∀ c ∈ cs, G c.2 = some (f c.2) := fun c hc => hG _ (List.mem_map_of_mem (f := Prod.snd) hc)
    obtain ⟨h', e1, ed⟩ := LL.removeIf_ok I.bal (I.rep ho) (gate G) (fun _ x => (f x, ())) () (by
      intro u c v huv h' _
      simp only [gate, hm c (by rw [huv]; simp)]
      rfl)
    rw [LL.kept_pure, LL.gone_pure] at e1 ed
    have hf : ((fun l => do let q ← Model.LL.removeIf cfg l (gate G) (); return (q.1, q.2.1) : LL.Lst → Model.LL.M V (LL.Lst × Nat))
        (LL.lst hd tl cs own') W.heap).SafeIf (Model.LL.Refuses cfg) fun q => q.1.2 = (cs.filter fun c => f c.2).length ∧
          LL.Edits cfg W.heap hd tl cs own' (fun cs' _ => cs' = cs.filter fun c => !f c.2) q.1.1 q.2 := by
      simp only [Prog.bind_run, e1, Out.bind_ok]
      exact ⟨rfl, _, _, rfl, ed, rfl⟩
    have key := LL.changeN_ok (P := fun cs' _ => cs' = cs.filter fun c => !f c.2) (n := (cs.filter fun c => f c.2).length)
      (f := fun l => do let q ← Model.LL.removeIf cfg l (gate G) (); return (q.1, q.2.1)) I ho hf
    cases hq : Model.LL.changeN i (fun l => do let q ← Model.LL.removeIf cfg l (gate G) (); return (q.1, q.2.1)) W with
    | ok q =>
      rw [hq] at key
      obtain ⟨h1, cs', h2, rfl⟩ := key
      refine ⟨?_, _, h2, ?_⟩
      · rw [h1]; congr 1
        show _ = ((LL.vals cs).filter f).length
        rw [← LL.vals_filter]; simp [LL.vals]
      · rw [LL.ideal_put]
        show _ = place _ i (some (⟨some ((LL.vals cs).filter fun x => !f x), own'⟩ : Spec.LL.Var V))
        rw [← LL.vals_filter]
        rfl
    | oom => trivial
    | _ => rw [hq] at key; exact key.elim

theorem removeIfAt_ok (I : (linkedLaw lcfg x0 L).Inv A w) (hi : A i = some ⟨some xs, own⟩) {c : S.Call} {r : V → S.Ret}
    (hr : ∀ x ∈ xs, μ.run c x = some (r x, x)) (test : S.Ret → Bool) :
    (removeIfAt C lcfg c test i w).Safe fun q => q.1 = (xs.filter fun x => test (r x)).length ∧
      (linkedLaw lcfg x0 L).Inv (place A i (some ⟨some (xs.filter fun x => !test (r x)), own⟩)) q.2 := by
  classical
  obtain ⟨W, hW, hI⟩ := I
  let G : V → Option Bool := fun x => if μ.run c x = some (r x, x) then some (test (r x)) else none
  have ht : Tells L (fun a => do let b ← C.call c a; return test b) G := by
    intro A s a x b I ha hb
    simp only [G] at hb
    split at hb
    · rename_i hx
      cases hb
      show (C.call c a s >>= fun q => (pure (test q.1) : Prog σ Bool) q.2).Safe _
      refine (L.call I ha hx).bind ?_
      rintro q ⟨h1, h2⟩
      rw [place_own ha] at h2
      exact ⟨by rw [h1], h2⟩
    · cases hb
  have hv := removeIf_value (f := fun x => test (r x)) (G := G) hI hi fun x hx => if_pos (hr x hx)
  refine (((sim_changeCount (fun l => sim_removeIf ht l) i) w W hW).safe hv).mono ?_
  rintro q ⟨q', ⟨h1, h2⟩, h3, h4⟩
  exact ⟨by rw [h3, h1]; rfl, q'.2, h4, h2⟩

/-- a list that was moved from -/
theorem moved_fields (I : (linkedLaw lcfg x0 L).Inv A w) (hi : A i = some ⟨none, own⟩) : w.vars i = some ⟨none, none, 0, own⟩ := by
  obtain ⟨W, ⟨-, hv⟩, D, I, rfl⟩ := I
  simp only [LL.ideal, Option.map_eq_some_iff] at hi
  obtain ⟨⟨body, own'⟩, ho, he⟩ := hi
  rw [hv, I.vars i, ho]
  match body, he with
  | none, he => cases he; rfl

theorem sift_moved (I : (linkedLaw lcfg x0 L).Inv A w) (hi : A i = some ⟨none, own⟩) :
    (∀ c test, removeIfAt C lcfg c test i w = if lcfg.debug then .panic else .ok (0, w)) ∧
    ∀ pred, uniqueAt C lcfg pred i w = if lcfg.debug then .panic else .ok (0, w) := by
  have hv := moved_fields I hi
  have he : ({ w with vars := Model.LL.upd w.vars i (some ⟨none, none, 0, own⟩) } : LWorld σ) = w := by
    have : Model.LL.upd w.vars i (some ⟨none, none, 0, own⟩) = w.vars := by
      funext j
      simp only [Model.LL.upd]
      split
      · rename_i h; rw [h, hv]
      · rfl
    rw [this]
  constructor <;> intros <;> cases hd : lcfg.debug <;>
    simp [removeIfAt, uniqueAt, changeCount, lremoveIf, lunique, Prog.bind_run, lobj, hv, inLSt, inNodes, Model.LL.dbgAssert, hd, setLobj, he]

/-! ## Sorting -/

theorem sim_isEnd (p : LL.Ptr) : NodeSim (V := V) (Model.LL.isEnd p) (Model.LL.isEnd p) := by
  cases p with
  | none => exact .pure _
  | some a => exact sim_dataNull _

theorem sim_isRealEnd (p : LL.Ptr) : NodeSim (V := V) (Model.LL.isRealEnd p) (Model.LL.isRealEnd p) := by
  refine (sim_getNext p).bind fun nx => ?_
  cases nx with
  | none => exact .pure _
  | some a => exact sim_dataNull _

theorem sim_lastLoop (p : LL.Ptr) : NodeSim (V := V) (Model.LL.lastLoop p) (Model.LL.lastLoop p) := by
  intro E
  refine Model.LL.lastLoop.fixpoint_induct (α := V) (fun f => ∀ p, Sim (NodeRel E) (NodeRel E) id (Model.LL.lastLoop p) (f p)) ?_ ?_ p
  · exact Lean.Order.admissible_pi_apply (fun p (g : Model.LL.M V LL.Ptr) => Sim (NodeRel E) (NodeRel E) id (Model.LL.lastLoop p) g)
      fun p => Sim.adm
  · intro f ih p
    dsimp only
    rw [Model.LL.lastLoop]
    exact (sim_getNext p E).bind fun nx => (sim_isEnd nx E).bind fun e => Sim.ite Sim.pure (ih nx)

theorem sim_midLoop (p q : LL.Ptr) : NodeSim (V := V) (Model.LL.midLoop p q) (Model.LL.midLoop p q) := by
  intro E
  refine Model.LL.midLoop.fixpoint_induct (α := V) (fun f => ∀ p q, Sim (NodeRel E) (NodeRel E) id (Model.LL.midLoop p q) (f p q)) ?_ ?_ p q
  · refine Lean.Order.admissible_pi_apply
      (fun p (g : LL.Ptr → Model.LL.M V LL.Ptr) => ∀ q, Sim (NodeRel E) (NodeRel E) id (Model.LL.midLoop p q) (g q)) fun p => ?_
    exact Lean.Order.admissible_pi_apply (fun q (g : Model.LL.M V LL.Ptr) => Sim (NodeRel E) (NodeRel E) id (Model.LL.midLoop p q) g)
      fun q => Sim.adm
  · intro f ih p q
    dsimp only
    rw [Model.LL.midLoop]
    exact (sim_isRealEnd p E).bind fun _ => Sim.ite Sim.pure ((sim_getNext p E).bind fun fn => (sim_isRealEnd fn E).bind fun _ =>
      Sim.ite Sim.pure ((sim_getNext fn E).bind fun _ => (sim_getNext q E).bind fun _ => ih _ _))

section
variable {pred : Nat → Nat → Prog σ Bool} {g : V → V → Bool}

theorem sim_ask2 (ht : Reads2 L pred g) (p q : LL.Ptr) {k : β → γ} {P' : Bool → Prog (LSt σ) γ} (Q' : Bool → Model.LL.M V β)
    (h : ∀ t, Sim (ElemRel L T) (ElemRel L T) k (P' t) (Q' t)) :
    Sim (ElemRel L T) (ElemRel L T) k (do let a ← dataOf p; let b ← dataOf q; let t ← inElems (pred a b); P' t)
      (do let x ← Model.LL.load p; let y ← Model.LL.load q; Q' (g x y)) := by
  refine cast (congrArg₂ (Sim (ElemRel L T) (ElemRel L T) k) ?_ ?_) ((sim_test2 ht p q).bind h)
  · funext t
    simp only [Prog.bind_run]
    cases dataOf p t with
    | ok r => simp only [Out.bind_ok]; cases dataOf q r.2 <;> rfl
    | _ => rfl
  · funext t
    simp only [Prog.bind_run]
    cases Model.LL.load p t with
    | ok r => simp only [Out.bind_ok]; cases Model.LL.load q r.2 <;> rfl
    | _ => rfl

theorem sim_mergeLoop (ht : Reads2 L pred g) (a b p : LL.Ptr) :
    Sim (ElemRel L T) (ElemRel L T) id (lmergeLoop lcfg pred a b p) (Model.LL.mergeLoop (valued lcfg x0) g a b p) := by
  refine Model.LL.mergeLoop.fixpoint_induct (valued lcfg x0) g
    (fun f => ∀ a b p, Sim (ElemRel L T) (ElemRel L T) id (lmergeLoop lcfg pred a b p) (f a b p)) ?_ ?_ a b p
  · refine Lean.Order.admissible_pi_apply (fun a (g : LL.Ptr → LL.Ptr → Model.LL.M V (LL.Ptr × LL.Ptr × LL.Ptr)) =>
      ∀ b p, Sim (ElemRel L T) (ElemRel L T) id (lmergeLoop lcfg pred a b p) (g b p)) fun a => ?_
    refine Lean.Order.admissible_pi_apply (fun b (g : LL.Ptr → Model.LL.M V (LL.Ptr × LL.Ptr × LL.Ptr)) =>
      ∀ p, Sim (ElemRel L T) (ElemRel L T) id (lmergeLoop lcfg pred a b p) (g p)) fun b => ?_
    exact Lean.Order.admissible_pi_apply (fun p (g : Model.LL.M V (LL.Ptr × LL.Ptr × LL.Ptr)) =>
      Sim (ElemRel L T) (ElemRel L T) id (lmergeLoop lcfg pred a b p) g) fun p => Sim.adm
  · intro f ih a b p
    dsimp only
    rw [lmergeLoop]
    refine (sim_isEnd a).up.bind fun _ => Sim.ite Sim.pure ((sim_isEnd b).up.bind fun _ => Sim.ite Sim.pure ?_)
    exact sim_ask2 ht a b (fun t => if t = true then do
        Model.LL.setNext (valued lcfg x0) p a
        let a' ← Model.LL.getNext a
        let p' ← Model.LL.getNext p
        f a' b p'
      else do
        Model.LL.setNext (valued lcfg x0) p b
        let b' ← Model.LL.getNext b
        let p' ← Model.LL.getNext p
        f a b' p') fun t => Sim.ite
      ((sim_setNext p a).up.bind fun _ => (sim_getNext a).up.bind fun _ => (sim_getNext p).up.bind fun _ => ih _ _ _)
      ((sim_setNext p b).up.bind fun _ => (sim_getNext b).up.bind fun _ => (sim_getNext p).up.bind fun _ => ih _ _ _)

theorem sim_mergeChains (ht : Reads2 L pred g) (a b : LL.Ptr) :
    Sim (ElemRel L T) (ElemRel L T) id (lmergeChains lcfg pred a b) (Model.LL.mergeChains (valued lcfg x0) g a b) := by
  refine (sim_isEnd a).up.bind fun _ => Sim.ite Sim.pure ((sim_isEnd b).up.bind fun _ => Sim.ite Sim.pure ?_)
  have rest : ∀ res a b : LL.Ptr, Sim (ElemRel L T) (ElemRel L T) id (do
      let (a, b, p) ← lmergeLoop lcfg pred a b res
      let ea ← inNodes (Model.LL.isEnd a)
      if !ea then inNodes (Model.LL.setNext lcfg p a)
      else do
        let eb ← inNodes (Model.LL.isEnd b)
        if !eb then inNodes (Model.LL.setNext lcfg p b) else pure ()
      let t ← inNodes (Model.LL.lastLoop p)
      return (res, t)) (do
      let (a, b, p) ← Model.LL.mergeLoop (valued lcfg x0) g a b res
      let ea ← Model.LL.isEnd a
      if !ea then Model.LL.setNext (valued lcfg x0) p a
      else do
        let eb ← Model.LL.isEnd b
        if !eb then Model.LL.setNext (valued lcfg x0) p b else pure ()
      let t ← Model.LL.lastLoop p
      return (res, t)) := fun res a b =>
    (sim_mergeLoop ht a b res).bind fun ⟨_, _, _⟩ => (sim_isEnd _).up.bind fun _ => Sim.ite
      ((sim_setNext _ _).up.bind fun _ => (sim_lastLoop _).up.bind fun _ => Sim.pure)
      ((sim_isEnd _).up.bind fun _ => Sim.ite ((sim_setNext _ _).up.bind fun _ => (sim_lastLoop _).up.bind fun _ => Sim.pure)
        ((sim_lastLoop _).up.bind fun _ => Sim.pure))
  exact sim_ask2 ht a b (fun t => do
      let (res, a, b) ← if t then do
          let a' ← Model.LL.getNext a
          pure (a, a', b)
        else do
          let b' ← Model.LL.getNext b
          pure (b, a, b')
      let (a, b, p) ← Model.LL.mergeLoop (valued lcfg x0) g a b res
      let ea ← Model.LL.isEnd a
      if !ea then Model.LL.setNext (valued lcfg x0) p a
      else do
        let eb ← Model.LL.isEnd b
        if !eb then Model.LL.setNext (valued lcfg x0) p b else pure ()
      let t ← Model.LL.lastLoop p
      return (res, t)) fun t => Sim.ite
    ((sim_getNext a).up.bind fun _ => Sim.bind (Sim.pure (g := id)) fun ⟨r1, r2, r3⟩ => rest r1 r2 r3)
    ((sim_getNext b).up.bind fun _ => Sim.bind (Sim.pure (g := id)) fun ⟨r1, r2, r3⟩ => rest r1 r2 r3)

theorem sim_mergeSort (ht : Reads2 L pred g) (p : LL.Ptr) :
    Sim (ElemRel L T) (ElemRel L T) id (lmergeSort lcfg pred p) (Model.LL.mergeSort (valued lcfg x0) g p) := by
  refine Model.LL.mergeSort.fixpoint_induct (valued lcfg x0) g
    (fun f => ∀ p, Sim (ElemRel L T) (ElemRel L T) id (lmergeSort lcfg pred p) (f p)) ?_ ?_ p
  · exact Lean.Order.admissible_pi_apply (fun p (g : Model.LL.M V (LL.Ptr × LL.Ptr)) =>
      Sim (ElemRel L T) (ElemRel L T) id (lmergeSort lcfg pred p) g) fun p => Sim.adm
  · intro f ih p
    dsimp only
    rw [lmergeSort]
    exact Sim.ite Sim.pure ((sim_getNext p).up.bind fun _ => Sim.ite Sim.pure ((sim_midLoop _ _).up.bind fun _ => (sim_getNext _).up.bind fun _ =>
      (sim_putNext _ _).up.bind fun _ => (ih _).bind fun _ => (ih _).bind fun _ => sim_mergeChains ht _ _))

theorem sim_sort (ht : Reads2 L pred g) (l : LL.Lst) :
    Sim (ElemRel L T) (ElemRel L T) id (lsort lcfg pred l) (Model.LL.sort (valued lcfg x0) g l) :=
  (sim_dbg _).up.bind fun _ => (sim_getNext _).up.bind fun _ => (sim_mergeSort ht _).bind fun _ => (sim_setNext _ _).up.bind fun _ =>
    Sim.ite ((sim_setNext _ _).up.bind fun _ => Sim.pure) Sim.pure

theorem sort_value {cfg : Model.LL.Cfg V} {W : Model.LL.World V} (I : LInv cfg A W) (hi : A i = some ⟨some xs, own⟩) (hl : xs.length ≠ 1)
    (less : V → V → Bool) : (Model.LL.step cfg (.sort i less) W).Safe fun q =>
      q.1 = .unit ∧ LInv cfg (place A i (some ⟨some (LL.msortBy less xs), own⟩)) q.2 := by
  obtain ⟨D, I, rfl⟩ := I
  simp only [LL.ideal, Option.map_eq_some_iff] at hi
  obtain ⟨⟨body, own'⟩, ho, hv⟩ := hi
  match body, ho, hv with
  | none, _, hv => cases hv
  | some (hd, tl, cs), ho, hv =>
    cases hv
    have key := LL.s_sort I ho less (by simpa [LL.vals] using hl)
    cases hq : Model.LL.step cfg (.sort i less) W with
    | ok q =>
      rw [hq] at key
      obtain ⟨h1, cs', h2, rfl, -⟩ := key
      refine ⟨h1, _, h2, ?_⟩
      rw [LL.ideal_put]
      show _ = place _ i (some (⟨some (LL.msortBy less (LL.vals cs)), own'⟩ : Spec.LL.Var V))
      rw [← LL.vals_msort]
      rfl
    | oom => trivial
    | _ => rw [hq] at key; exact key.elim

theorem sortAt_ok (I : (linkedLaw lcfg x0 L).Inv A w) (hi : A i = some ⟨some xs, own⟩) (hl : xs.length ≠ 1) (ht : Reads2 L pred g) :
    (sortAt lcfg pred i w).Safe fun q => (linkedLaw lcfg x0 L).Inv (place A i (some ⟨some (LL.msortBy g xs), own⟩)) q.2 := by
  obtain ⟨W, hW, hI⟩ := I
  have hs : Sim (WRel L) (WRel L) (fun _ => ()) (sortAt lcfg pred i) (Model.LL.step (valued lcfg x0) (.sort i g)) :=
    (sim_obj i).bind fun l => (sim_sort ht l).inside.bind fun l' => by
      have := (sim_setObj (Ra := ElemRel L (tt [])) i (some l')).bind (R'' := WRel L) (k := fun _ : Model.LL.Res V => ()) (P' := fun _ => Pure.pure ())
        (Q' := fun _ => Pure.pure .unit) fun _ => Sim.ret rfl
      exact this
  refine ((hs w W hW).safe (sort_value hI hi hl g)).mono ?_
  rintro q ⟨q', ⟨h1, h2⟩, h3, h4⟩
  exact ⟨q'.2, h4, h2⟩

end

theorem lessBy_reads {cmp : Nat → Nat → Prog σ (Option Ordering)} {o : V → V → Option Ordering} (h : Reads2 L cmp o) :
    Reads2 L (lessBy cmp) fun x y => o x y == some .lt := by
  intro A s d e x y I hd he
  simp only [lessBy, Prog.bind_run, h A s d e x y I hd he, Out.bind_ok, Prog.pure_run]

end Verif.Proof.Nested
