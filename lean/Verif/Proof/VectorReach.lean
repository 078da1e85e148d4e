import Verif.Proof.VectorCost
import Verif.Spec.VectorView
/-! # Vector: reachable states and their views -/
namespace Verif.Proof.Vector
open Verif Verif.Model.Mem Verif.Model.Vector Verif.Proof.Mem
open Verif.Spec.Vector hiding upd

variable {α : Type} {ty : ElemTy α}

theorem Safe.and {β : Type} {x : Out β} {P Q : β → Prop} (h : x.Safe P) (h' : x.Safe Q) : x.Safe fun b => P b ∧ Q b := by
  cases x <;> simp_all

theorem Safe.of_ok {β : Type} {x : Out β} {P : β → Prop} (h : x.Safe P) {b : β} (hb : x = .ok b) : P b := by
  subst hb; exact h

theorem Rep.slotAt {h : Heap α} {v : Vec} {xs : List α} (r : Rep ty h v xs) {i : Nat} (hi : i < xs.length) :
    slotAt h v.ptr i = xs[i]? := by
  have ho := r.own
  have hle := r.le
  cases hp : v.ptr with
  | none => rw [hp] at ho; simp only [Own] at ho; omega
  | some b =>
    rw [hp] at ho; simp only [Own] at ho
    simp only [Spec.Vector.slotAt, ho.1]
    rw [List.getElem?_append_left (by simpa using hi), List.getElem?_map]
    cases h : xs[i]? <;> rfl

theorem elemsFrom_eq {h : Heap α} {p : Option Nat} {xs : List α} (hs : ∀ i, i < xs.length → Spec.Vector.slotAt h p i = xs[i]?)
    (n k : Nat) (hk : k + n = xs.length) : elemsFrom h p k n = some (xs.drop k) := by
  induction n generalizing k with
  | zero => simp only [elemsFrom]; rw [List.drop_of_length_le (by omega)]
  | succ n ih =>
    rw [elemsFrom, hs k (by omega), List.getElem?_eq_getElem (by omega), ih (k + 1) (by omega)]
    simp

theorem Rep.elems {h : Heap α} {v : Vec} {xs : List α} (r : Rep ty h v xs) : elems h v = some xs := by
  rw [Spec.Vector.elems, elemsFrom_eq (fun i hi => r.slotAt hi) v.len 0 (by rw [r.len, Nat.zero_add])]
  rfl

theorem Inv.view {A : Ideal α} {w : World α} (I : Inv ty A w) : view w = A := by
  funext i
  cases ha : A i with
  | none => simp only [Spec.Vector.view, I.get_none ha]; rfl
  | some a =>
    obtain ⟨v, hv, r, hc, hl⟩ := I.get ha
    simp only [Spec.Vector.view, hv, Option.bind_some, r.elems, Option.map_some, hc, hl]

theorem reach_inv {w : World α} (hr : Reach ty w) : Inv ty (view w) w := by
  obtain ⟨ops, rs, A, rs', hs, he⟩ := hr
  have := run_ok ops inv_init hs
  rw [he] at this
  rw [Inv.view this.2]
  exact this.2

theorem specRun_snoc {full : Bool} {size : Nat} {dflt : α} (ops : List (Op α)) (op : Op α) {A A' A'' : Ideal α} {rs : List (Res α)}
    {r : Res α} (h1 : specRun full size dflt ops A = some (rs, A')) (h2 : specStep full size dflt op A' = some (r, A'')) :
    specRun full size dflt (ops ++ [op]) A = some (rs ++ [r], A'') := by
  induction ops generalizing A rs with
  | nil => cases h1; simp [specRun, h2]
  | cons o ops ih =>
    simp only [specRun, List.cons_append] at h1 ⊢
    cases hs : specStep full size dflt o A with
    | none => rw [hs] at h1; cases h1
    | some p =>
      rw [hs] at h1
      simp only at h1 ⊢
      cases hr : specRun full size dflt ops p.2 with
      | none => rw [hr] at h1; cases h1
      | some q =>
        rw [hr] at h1
        cases h1
        rw [ih hr]
        rfl

theorem run_snoc (ops : List (Op α)) (op : Op α) {w w' w'' : World α} {rs : List (Res α)} {r : Res α}
    (h1 : run ty ops w = .ok (rs, w')) (h2 : step ty op w' = .ok (r, w'')) : run ty (ops ++ [op]) w = .ok (rs ++ [r], w'') := by
  induction ops generalizing w rs with
  | nil => cases h1; simp [run, Prog.bind_run, h2]
  | cons o ops ih =>
    simp only [run, List.cons_append, Prog.bind_run] at h1 ⊢
    cases hs : step ty o w with
    | ok p =>
      rw [hs] at h1
      simp only [Out.bind_ok] at h1 ⊢
      cases hr : run ty ops p.2 with
      | ok q =>
        rw [hr] at h1
        cases h1
        rw [ih hr]
        rfl
      | _ => rw [hr] at h1; cases h1
    | _ => rw [hs] at h1; cases h1

/-- one allowed call from a reachable state -/
theorem reach_step {w : World α} (hr : Reach ty w) {op : Op α} {r : Res α} {A' : Ideal α}
    (hs : specStep false ty.size ty.dflt op (Spec.Vector.view w) = some (r, A')) :
    (Model.Vector.step ty op w).Safe fun q => q.1 = r ∧ Spec.Vector.view q.2 = A' ∧ Reach ty q.2 := by
  have I := reach_inv hr
  have hok := step_ok op I hs
  cases he : Model.Vector.step ty op w with
  | ok p =>
    rw [he] at hok
    refine ⟨hok.1, Inv.view hok.2, ?_⟩
    obtain ⟨ops, rs, A, rs', h1, h2⟩ := hr
    have hA : Spec.Vector.view w = A := by
      have := run_ok ops inv_init h1; rw [h2] at this; exact Inv.view this.2
    rw [hA] at hs
    exact ⟨ops ++ [op], _, _, _, specRun_snoc ops op h1 hs, run_snoc ops op h2 he⟩
  | oom => trivial
  | _ => rw [he] at hok; exact hok.elim

theorem reach_run {w : World α} (hr : Reach ty w) (ops : List (Op α)) {rs : List (Res α)} {A' : Ideal α}
    (hs : specRun false ty.size ty.dflt ops (Spec.Vector.view w) = some (rs, A')) :
    (Model.Vector.run ty ops w).Safe fun q => q.1 = rs ∧ Spec.Vector.view q.2 = A' ∧ Reach ty q.2 := by
  induction ops generalizing w rs with
  | nil => cases hs; exact ⟨rfl, rfl, hr⟩
  | cons op ops ih =>
    simp only [specRun] at hs
    cases h1 : specStep false ty.size ty.dflt op (Spec.Vector.view w) with
    | none => rw [h1] at hs; cases hs
    | some p =>
      obtain ⟨r, A1⟩ := p
      rw [h1] at hs
      simp only at hs
      cases h2 : specRun false ty.size ty.dflt ops A1 with
      | none => rw [h2] at hs; cases hs
      | some q =>
        obtain ⟨rs', A2⟩ := q
        rw [h2] at hs
        cases hs
        simp only [Model.Vector.run, Prog.bind_run]
        refine (reach_step hr h1).bind ?_
        rintro ⟨r', w1⟩ ⟨e1, e2, r1⟩
        simp only at e1 e2 r1 ⊢
        subst e1 e2
        refine (ih r1 h2).bind ?_
        rintro ⟨rs'', w2⟩ ⟨e1, e2, r2⟩
        simp only at e1 e2 r2 ⊢
        subst e1 e2
        exact ⟨rfl, rfl, r2⟩

/-- the vector behind a view -/
theorem reach_get {w : World α} (hr : Reach ty w) {i : Nat} {a : Var α} (hi : view w i = some a) :
    ∃ v, w.vars i = some v ∧ Rep ty w.heap v a.xs ∧ v.cap = a.cap ∧ v.alloc = a.alloc := (reach_inv hr).get hi

theorem reach_bal {w : World α} (hr : Reach ty w) : Bal w.heap := (reach_inv hr).bal

/-- a call on one vector, in terms of the member called -/
theorem change_safe {w : World α} {i : Nat} {v : Vec} (hv : w.vars i = some v) {f : Vec → M α Vec} {P : Vec → Heap α → Prop}
    (hf : (f v w.heap).Safe fun q => P q.1 q.2) :
    (change i f w).Safe fun q => ∃ v', q.2.vars = bindVar w.vars i (some v') ∧ P v' q.2.heap := by
  simp only [change, Prog.bind_run, run_var hv, Out.bind_ok, inHeap_run]
  refine Out.Safe.bind (P := fun p => P p.1 p.2.heap ∧ p.2.vars = w.vars) ?_ ?_
  · exact hf.bind fun q hq => ⟨hq, rfl⟩
  · rintro ⟨v', w'⟩ ⟨hp, hw⟩
    simp only at hp hw
    simp only [setVar, Out.bind_ok, Prog.pure_run, Out.safe_ok, hw]
    exact ⟨v', rfl, hp⟩

theorem change'_safe {w : World α} {i : Nat} {v : Vec} (hv : w.vars i = some v) {f : Vec → M α (Vec × Option Nat)}
    {P : Vec → Heap α → Prop} (hf : (f v w.heap).Safe fun q => P q.1.1 q.2) :
    (change' i f w).Safe fun q => ∃ v', q.2.vars = bindVar w.vars i (some v') ∧ P v' q.2.heap := by
  simp only [change', Prog.bind_run, run_var hv, Out.bind_ok, inHeap_run]
  refine Out.Safe.bind (P := fun p => P p.1.1 p.2.heap ∧ p.2.vars = w.vars) ?_ ?_
  · exact hf.bind fun q hq => ⟨hq, rfl⟩
  · rintro ⟨v', w'⟩ ⟨hp, hw⟩
    simp only at hp hw
    simp only [setVar, Out.bind_ok, Prog.pure_run, Out.safe_ok, hw]
    exact ⟨v'.1, rfl, hp⟩

theorem change_out {w : World α} {i : Nat} {v : Vec} (hv : w.vars i = some v) {f : Vec → M α Vec}
    (hf : f v w.heap = .ub ∨ f v w.heap = .oom) : change i f w = .ub ∨ change i f w = .oom := by
  simp only [change, Prog.bind_run, run_var hv, Out.bind_ok, inHeap_run]
  rcases hf with h | h
  · left; rw [h]; rfl
  · right; rw [h]; rfl

theorem change'_out {w : World α} {i : Nat} {v : Vec} (hv : w.vars i = some v) {f : Vec → M α (Vec × Option Nat)}
    (hf : f v w.heap = .ub ∨ f v w.heap = .oom) : change' i f w = .ub ∨ change' i f w = .oom := by
  simp only [change', Prog.bind_run, run_var hv, Out.bind_ok, inHeap_run]
  rcases hf with h | h
  · left; rw [h]; rfl
  · right; rw [h]; rfl

theorem look_ok {w : World α} {i : Nat} {v : Vec} (hv : w.vars i = some v) {f : Vec → M α (Res α)} {r : Res α}
    (hf : f v w.heap = .ok (r, w.heap)) : look i f w = .ok (r, w) := by
  simp only [look, Prog.bind_run, run_var hv, Out.bind_ok, inHeap_run, hf]

theorem sum_range (n : Nat) (f : Nat → Nat) : ((List.range n).map f).sum = sumTo n f := by
  induction n with
  | zero => rfl
  | succ n ih => rw [List.range_succ, List.map_append, List.sum_append, ih]; simp [sumTo]

theorem liveIn_eq (o : Option (Block α)) : liveIn o = liveOf o := by
  cases o with
  | none => rfl
  | some blk =>
    simp only [liveIn, liveOf]
    induction blk.slots with
    | nil => rfl
    | cons o os ih => cases o <;> simp [liveSlots, live, ih]; omega

theorem bytesIn_eq (o : Option (Block α)) : bytesIn o = bytesOf o := by
  cases o <;> rfl

/-! Checking concrete histories -/

def isOk {β : Type} (P : β → Bool) : Out β → Bool
  | .ok b => P b
  | _ => false

def isUb {β : Type} : Out β → Bool
  | .ub => true
  | _ => false

theorem of_isOk {β : Type} {P : β → Bool} {x : Out β} (h : isOk P x = true) : ∃ b, x = .ok b ∧ P b = true := by
  cases x <;> simp_all [isOk]

theorem of_isUb {β : Type} {x : Out β} (h : isUb x = true) : x = .ub := by
  cases x <;> simp_all [isUb]

theorem reach_of (ops : List (Op α)) (P : Ideal α → Bool)
    (h1 : (specRun false ty.size ty.dflt ops (fun _ => none)).any (fun p => P p.2) = true)
    (h2 : isOk (fun _ => true) (Model.Vector.run ty ops {}) = true) : ∃ w, Reach ty w ∧ P (view w) = true := by
  obtain ⟨⟨rs', w⟩, he, _⟩ := of_isOk h2
  cases hs : specRun false ty.size ty.dflt ops (fun _ => none) with
  | none => rw [hs] at h1; cases h1
  | some p =>
    obtain ⟨rs, A⟩ := p
    rw [hs] at h1
    have hr : Reach ty w := ⟨ops, rs, A, rs', hs, he⟩
    have := run_ok ops inv_init hs
    rw [he] at this
    refine ⟨w, hr, ?_⟩
    rw [Inv.view this.2]
    simpa using h1

end Verif.Proof.Vector
