import Verif.Model.NestedJoin
import Verif.Proof.NestedSift
/-!
# Proofs about `swap`, `splice` and `merge` of linked lists of objects
-/
namespace Verif.Proof.Nested
open Verif Verif.Model.Nested Verif.Spec.Nested
open Verif.Model (LL.Ptr LL.Lst)

variable {S : Sig} {σ V β γ R : Type} {C : Cls S σ} {μ : Meaning S V} {L : Law C μ} {lcfg : Model.LL.Cfg Unit} {x0 : V} {T : Nat → Option V}

theorem sim_realTailLoop (tail p : LL.Ptr) : NodeSim (V := V) (Model.LL.realTailLoop tail p) (Model.LL.realTailLoop tail p) := by
  intro E
  refine Model.LL.realTailLoop.fixpoint_induct (α := V) tail (fun f => ∀ p, Sim (NodeRel E) (NodeRel E) id (Model.LL.realTailLoop tail p) (f p)) ?_ ?_ p
  · exact Lean.Order.admissible_pi_apply (fun p (g : Model.LL.M V LL.Ptr) => Sim (NodeRel E) (NodeRel E) id (Model.LL.realTailLoop tail p) g)
      fun p => Sim.adm
  · intro f ih p
    dsimp only
    rw [Model.LL.realTailLoop]
    exact (sim_getNext p E).bind fun nx => Sim.ite Sim.pure (ih nx)

theorem sim_realTail (l : LL.Lst) : NodeSim (Model.LL.realTail lcfg l) (Model.LL.realTail (valued lcfg x0) l) :=
  NodeSim.ite lcfg.dbl (sim_getPrev _) (sim_realTailLoop _ _)

theorem sim_spliceAfter (l : LL.Lst) (p : LL.Ptr) (o : LL.Lst) :
    Sim (ElemRel L T) (ElemRel L T) id (lspliceAfter lcfg l p o) (Model.LL.spliceAfter (valued lcfg x0) l p o) :=
  (sim_getNext _).up.bind fun _ => (sim_realTail _).up.bind fun _ => (sim_getNext _).up.bind fun _ => (sim_setNext _ _).up.bind fun _ =>
    (sim_setNext _ _).up.bind fun _ => (sim_setNext _ _).up.bind fun _ => Sim.pure

theorem sim_splice (l : LL.Lst) (p : LL.Ptr) (o : LL.Lst) :
    Sim (ElemRel L T) (ElemRel L T) id (lsplice lcfg l p o) (Model.LL.splice (valued lcfg x0) l p o) :=
  (sim_getNext _).up.bind fun _ => (sim_realTail _).up.bind fun _ => (sim_getPrev _).up.bind fun _ => (sim_setNext _ _).up.bind fun _ =>
    (sim_setNext _ _).up.bind fun _ => (sim_setNext _ _).up.bind fun _ => Sim.pure

theorem sim_spliceAfterMove (l : LL.Lst) (p : LL.Ptr) (o : LL.Lst) :
    Sim (ElemRel L T) (ElemRel L T) id (lspliceAfterMove C lcfg l p o) (Model.LL.spliceAfterMove (valued lcfg x0) l p o) :=
  (sim_getNext _).up.bind fun _ => (sim_realTail _).up.bind fun _ => (sim_getNext _).up.bind fun _ => (sim_setNext _ _).up.bind fun _ =>
    (sim_setNext _ _).up.bind fun _ => (sim_killNode _ _).bind fun _ => (sim_killNode _ _).bind fun _ => Sim.pure

theorem sim_spliceMove (l : LL.Lst) (p : LL.Ptr) (o : LL.Lst) :
    Sim (ElemRel L T) (ElemRel L T) id (lspliceMove C lcfg l p o) (Model.LL.spliceMove (valued lcfg x0) l p o) :=
  (sim_getNext _).up.bind fun _ => (sim_realTail _).up.bind fun _ => (sim_getPrev _).up.bind fun _ => (sim_setNext _ _).up.bind fun _ =>
    (sim_setNext _ _).up.bind fun _ => (sim_killNode _ _).bind fun _ => (sim_killNode _ _).bind fun _ => Sim.pure

theorem sim_merge {pred : Nat → Nat → Prog σ Bool} {g : V → V → Bool} (ht : Reads2 L pred g) (l o : LL.Lst) :
    Sim (ElemRel L T) (ElemRel L T) id (lmerge lcfg pred l o) (Model.LL.merge (valued lcfg x0) g l o) :=
  (sim_dbg _).up.bind fun _ => (sim_dbg _).up.bind fun _ => Sim.ite Sim.pure ((sim_getNext _).up.bind fun _ => (sim_getNext _).up.bind fun _ =>
    (sim_setNext _ _).up.bind fun _ => (sim_mergeChains ht _ _).bind fun _ => (sim_setNext _ _).up.bind fun _ =>
    Sim.ite ((sim_setNext _ _).up.bind fun _ => Sim.pure) Sim.pure)

theorem sim_setThen {Ra : LSt σ → Model.LL.Heap V → Prop} (i : Nat) (o : Option LL.Lst) (r : Model.LL.Res V) :
    Sim (fun w W => Ra w.st W.heap ∧ w.vars = W.vars) (fun w W => Ra w.st W.heap ∧ w.vars = W.vars) (fun _ : Model.LL.Res V => ()) (setLobj i o)
      (do Model.LL.setVar i o; return r) := by
  rintro w W ⟨r, hv⟩
  exact ⟨rfl, r, by simp only [hv]⟩

theorem sim_changeTwo {f : LL.Lst → LL.Lst → Prog (LSt σ) (LL.Lst × LL.Lst)} {Q : LL.Lst → LL.Lst → Model.LL.M V (LL.Lst × LL.Lst)}
    (h : ∀ l o, Sim (ElemRel L (tt [])) (ElemRel L (tt [])) id (f l o) (Q l o)) (i j : Nat) :
    Sim (WRel L) (WRel L) (fun _ => ()) (changeTwo i j f) (Model.LL.change2 i j Q) :=
  (sim_obj i).bind fun l => (sim_obj j).bind fun o => (h l o).inside.bind fun _ => (sim_setObj i _).bind fun _ => sim_setThen j _ _

theorem sim_swap (i j : Nat) : Sim (WRel L) (WRel L) (fun _ => ()) (swapAt i j) (Model.LL.step (valued lcfg x0) (.swap i j)) :=
  (sim_obj i).bind fun _ => (sim_obj j).bind fun _ => (sim_setObj i _).bind fun _ => sim_setThen j _ _

variable {A : Nat → Option (Spec.LL.Var V)} {w : LWorld σ} {i j p : Nat} {xs ys : List V} {own : Nat}

theorem swapAt_ok (I : (linkedLaw lcfg x0 L).Inv A w) {u v : Spec.LL.Var V} (hi : A i = some u) (hj : A j = some v) :
    (swapAt i j w).Safe fun q => (linkedLaw lcfg x0 L).Inv (place (place A i (some v)) j (some u)) q.2 := by
  refine (linv_ok (op := .swap i j) (r := .unit) I (sim_swap i j) ?_).mono fun q hq => hq.2
  simp only [Spec.LL.specStep, hi, hj, Option.bind_some]
  rfl

theorem spliceAt_ok (I : (linkedLaw lcfg x0 L).Inv A w) (hij : i ≠ j) (hi : A i = some ⟨some xs, own⟩) (hj : A j = some ⟨some ys, own⟩) (hy : ys ≠ [])
    (y : Way) (hp : if y.after then p ≤ xs.length else lcfg.dbl = true ∧ 1 ≤ p ∧ p ≤ xs.length + 1) :
    (spliceAt C lcfg y i p j w).Safe fun q => (linkedLaw lcfg x0 L).Inv (place (place A i (some
      ⟨some (xs.take (if y.after then p else p - 1) ++ (ys ++ xs.drop (if y.after then p else p - 1))), own⟩)) j
      (some ⟨if y.moved then none else some [], own⟩)) q.2 := by
  obtain ⟨a, m⟩ := y
  cases a <;> cases m
  · refine (linv_ok (op := .splice i p j) (r := .unit) I (sim_changeTwo (fun l o => (sim_iterAt l p).up.bind fun it => sim_splice l it o) i j) ?_).mono
      fun q hq => hq.2
    simp only [Bool.false_eq_true, if_false] at hp
    simp only [Spec.LL.specStep, Spec.LL.edit2, Spec.LL.needs, Spec.LL.only, hi, hj, Option.bind_some, hp, hij, hy, ne_eq, not_false_eq_true,
      and_self, if_true, or_true, Option.map_some]
    rfl
  · refine (linv_ok (op := .spliceMove i p j) (r := .unit) I (sim_changeTwo (fun l o => (sim_iterAt l p).up.bind fun it => sim_spliceMove l it o) i j) ?_).mono
      fun q hq => hq.2
    simp only [Bool.false_eq_true, if_false] at hp
    simp only [Spec.LL.specStep, Spec.LL.edit2, Spec.LL.needs, Spec.LL.only, hi, hj, Option.bind_some, hp, hij, hy, ne_eq, not_false_eq_true,
      and_self, if_true, or_true, Option.map_some]
    rfl
  · refine (linv_ok (op := .spliceAfter i p j) (r := .unit) I (sim_changeTwo (fun l o => (sim_iterAt l p).up.bind fun it => sim_spliceAfter l it o) i j) ?_).mono
      fun q hq => hq.2
    simp only [if_true] at hp
    simp only [Spec.LL.specStep, Spec.LL.edit2, Spec.LL.needs, Spec.LL.only, hi, hj, Option.bind_some, hp, hij, hy, ne_eq, not_false_eq_true,
      and_self, if_true, or_true, Option.map_some]
    rfl
  · refine (linv_ok (op := .spliceAfterMove i p j) (r := .unit) I
      (sim_changeTwo (fun l o => (sim_iterAt l p).up.bind fun it => sim_spliceAfterMove l it o) i j) ?_).mono fun q hq => hq.2
    simp only [if_true] at hp
    simp only [Spec.LL.specStep, Spec.LL.edit2, Spec.LL.needs, Spec.LL.only, hi, hj, Option.bind_some, hp, hij, hy, ne_eq, not_false_eq_true,
      and_self, if_true, or_true, Option.map_some]
    rfl

theorem mergeAt_ok (I : (linkedLaw lcfg x0 L).Inv A w) (hij : i ≠ j) (hi : A i = some ⟨some xs, own⟩) (hj : A j = some ⟨some ys, own⟩)
    {pred : Nat → Nat → Prog σ Bool} {g : V → V → Bool} (ht : Reads2 L pred g) (hs : Spec.LL.swoOn g (xs ++ ys) = true)
    (hx : Spec.LL.sorted g xs = true) (hy : Spec.LL.sorted g ys = true) (hne : xs ≠ [] ∨ ys = []) :
    (mergeAt lcfg pred i j w).Safe fun q =>
      (linkedLaw lcfg x0 L).Inv (place (place A i (some ⟨some (Spec.LL.sortBy g (ys ++ xs)), own⟩)) j (some ⟨some [], own⟩)) q.2 := by
  refine (linv_ok (op := .merge i j g) (g := fun _ => ()) (r := .unit) I ?_ ?_).mono fun q hq => hq.2
  · have : Sim (WRel L) (WRel L) (fun _ => ()) (changeTwo i j (lmerge lcfg pred)) (Model.LL.change2 i j (Model.LL.merge (valued lcfg x0) g)) :=
      sim_changeTwo (fun l o => sim_merge ht l o) i j
    simp only [mergeAt, Model.LL.step, if_neg hij]
    exact this
  · simp only [Spec.LL.specStep, Spec.LL.edit2, Spec.LL.needs, Spec.LL.only, hi, hj, Option.bind_some, hij, hs, hx, hy, hne, ne_eq, not_false_eq_true,
      and_self, if_true, or_true, Option.map_some, if_false, Bool.false_eq_true]
    rfl

/-- `x.merge(x)` does nothing -/
theorem mergeAt_same (I : (linkedLaw lcfg x0 L).Inv A w) (hi : A i = some ⟨some xs, own⟩) (pred : Nat → Nat → Prog σ Bool) :
    mergeAt lcfg pred i i w = .ok ((), w) := by
  obtain ⟨W, ⟨-, hv⟩, D, I, rfl⟩ := I
  simp only [LL.ideal, Option.map_eq_some_iff] at hi
  obtain ⟨⟨body, own'⟩, ho, he⟩ := hi
  have hw := (congrFun hv i).trans (I.vars i)
  rw [ho] at hw
  match body, he with
  | some (hd, tl, cs), he =>
    have hw : w.vars i = some (LL.lst hd tl cs own') := hw
    simp [mergeAt, lobj, Prog.bind_run, hw, inLSt, inNodes, Model.LL.dbgAssert, LL.lst]

end Verif.Proof.Nested
