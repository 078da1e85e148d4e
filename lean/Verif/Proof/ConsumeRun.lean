import Verif.Spec.Consume
import Verif.Proof.Consume
import Verif.Proof.LLWork
/-! # Pipelines that consume a list: the whole expression -/
namespace Verif.Proof.Consume
open Verif Verif.Model.Collect
open Verif.Model.Iter (Next Pipe fold)
open Verif.Spec.Pipe
open Verif.Proof.Pipe Verif.Proof.Collect
open Verif.Proof.LL (Cells lst)
open Verif.Spec.Collect (Good plain made Unused)
open Verif.Spec.Consume (Free Below Others plainly copies newElems newNodes)
open Verif.Model.Consume (Call stages adapt adapts)

variable {κ M α β γ : Type}

/-! ## The loop -/

theorem apart_vecs : Apart (vecs : Part (Memory α β) _) lists := ⟨fun _ _ => rfl, fun _ _ => rfl, fun _ _ _ => rfl⟩
theorem apart_vecs' : Apart (vecs' : Part (Memory α β) _) lists := ⟨fun _ _ => rfl, fun _ _ => rfl, fun _ _ _ => rfl⟩
theorem apart_lists' : Apart (lists' : Part (Memory α β) _) lists := ⟨fun _ _ => rfl, fun _ _ => rfl, fun _ _ _ => rfl⟩

/-- a variable that is not the list being made -/
def Avoids (u : Nat) : Dst α β γ → Prop
  | .list i => i ≠ u
  | _ => True

section
variable {K : Kinds α β} {d : Dst α β γ} {pipe : Pipe κ α γ} {w : World κ (Memory α β)} {u hd tl own : Nat} {cs : Cells α}

/-- taking an element, in the whole memory -/
def popMem (cfg : Model.LL.Cfg α) (u hd tl own : Nat) (c : Nat × α) (cs : Cells α) (m : Memory α β) : Memory α β :=
  lists.put m (popWorld cfg u hd tl own c cs (lists.get m))

theorem vec_takes {F : Part (Memory α β) (Model.Vector.World γ)} (hF : Part.Lawful F) (hA : Apart F (lists : Part (Memory α β) _))
    {ty : Model.Mem.ElemTy γ} {i : Nat} (hb : Mem.Bal (F.get w.mem).heap) (hs : Src K.cfg u hd tl own cs w.mem.lists) :
    Takes (fun s => lists.on (Model.Consume.next K.cfg u s)) (popMem K.cfg u hd tl own)
      (fun v x => F.on (Model.Vector.inHeap (Model.Vector.pushBack ty v (.tmp x)))) (fun v => F.on (Model.Vector.setVar i (some v)))
      (fun r cs m => VecGrows ty none r (F.get m) ∧ Src K.cfg u hd tl own cs (lists.get m)) ∧
    (F.on (Model.Vector.inHeap (Model.Vector.newDefault ty)) w.mem).Safe fun q =>
      VecGrows ty none q.1 (F.get q.2) ∧ Src K.cfg u hd tl own cs (lists.get q.2) := by
  constructor
  · refine takes_apart hA lawful_lists (J := fun r m => VecGrows ty none r m) ?_ hF
    intro r s b hj
    have := grows_vec (F := (⟨id, fun _ s => s⟩ : Part (Model.Vector.World γ) _)) ⟨fun _ _ => rfl, fun _ _ _ => rfl, fun _ => rfl⟩ ty none
      (H' := fun _ => True) (fun _ _ h => h) r b s ⟨hj, trivial⟩
    simp only [Part.on] at this
    cases he : Model.Vector.inHeap (Model.Vector.pushBack ty r (.tmp b)) s with
    | ok q => rw [show Model.Vector.inHeap (Model.Vector.pushBack ty r (.tmp b)) (id s) = _ from he] at this; exact this.1
    | oom => trivial
    | _ => rw [show Model.Vector.inHeap (Model.Vector.pushBack ty r (.tmp b)) (id s) = _ from he] at this; exact this.elim
  · exact vec_start (w := w) (o := none) (H' := fun m => Src K.cfg u hd tl own cs (lists.get m)) hb (by rintro _ ⟨⟩) hF
      (fun m s h => by rw [hA.put_get]; exact h) hs

theorem list_takes (hb : LL.Bal w.mem.lists'.heap) {i : Nat} (hs : Src K.cfg u hd tl own cs w.mem.lists) :
    (lists'.on (Model.LL.inHeap (Model.LL.newAlloc K.cfg' Model.LL.dfltAlloc)) w.mem).Safe fun q =>
      Takes (fun s => lists.on (Model.Consume.next K.cfg u s)) (popMem K.cfg u hd tl own)
        (fun p x => lists'.on (Model.LL.inHeap (pushNode K.cfg' q.1.alloc p x))) (listFin lists' K.cfg' i q.1)
        (fun r cs m => ListGrows K.cfg' none r (lists'.get m) ∧ Src K.cfg u hd tl own cs (lists.get m)) ∧
      (ListGrows K.cfg' none (q.1.head, q.1.len) (lists'.get q.2) ∧ Src K.cfg u hd tl own cs (lists.get q.2)) ∧ q.1.len = 0 := by
  have := list_start (w := w) (F := lists') (o := none) (cfg := K.cfg') (H' := fun m => Src K.cfg u hd tl own cs (lists.get m)) hb
    (by rintro _ ⟨⟩) lawful_lists' (fun m s h => h) hs
  refine Out.Safe.mono this ?_
  rintro ⟨l, m⟩ h
  refine ⟨?_, h⟩
  have e : listFin lists' K.cfg' i l = fun q => (lists' : Part (Memory α β) _).on
      (Model.LL.inHeap (Model.LL.setNext K.cfg' q.1 l.tail) >>= fun _ => Model.LL.setVar i (some { l with len := q.2 })) := by
    funext q
    rw [on_bind lawful_lists']
    rfl
  rw [e]
  refine takes_apart (J := fun r m => ListGrows K.cfg' none r m) apart_lists' lawful_lists ?_ lawful_lists'
  intro r s b hj
  have := grows_list (F := (⟨id, fun _ s => s⟩ : Part (Model.LL.World β) _)) ⟨fun _ _ => rfl, fun _ _ _ => rfl, fun _ => rfl⟩ K.cfg' l.alloc none
    (H' := fun _ => True) (fun _ _ h => h) r b s ⟨hj, trivial⟩
  simp only [Part.on] at this
  cases he : Model.LL.inHeap (pushNode K.cfg' l.alloc r b) s with
  | ok q => rw [show Model.LL.inHeap (pushNode K.cfg' l.alloc r b) (id s) = _ from he] at this; exact this.1
  | oom => trivial
  | _ => rw [show Model.LL.inHeap (pushNode K.cfg' l.alloc r b) (id s) = _ from he] at this; exact this.elim

theorem both_takes {i : Nat} (hi : i ≠ u) (hs : Src K.cfg u hd tl own cs w.mem.lists) :
    (lists.on (Model.LL.inHeap (Model.LL.newAlloc K.cfg Model.LL.dfltAlloc)) w.mem).Safe fun q =>
      Takes (fun s => lists.on (Model.Consume.next K.cfg u s)) (popMem K.cfg u hd tl own)
        (fun p x => (lists : Part (Memory α β) _).on (Model.LL.inHeap (pushNode K.cfg q.1.alloc p x))) (listFin lists K.cfg i q.1)
        (fun r cs m => ∃ t, q.1.tail = some t ∧ Both K.cfg u hd tl own t r cs (lists.get m)) ∧
      (∃ t, q.1.tail = some t ∧ Both K.cfg u hd tl own t (q.1.head, q.1.len) cs (lists.get q.2)) ∧ q.1.len = 0 := by
  simp only [Part.on, Model.LL.inHeap, lists]
  have := LL.newAlloc_ok (cfg := K.cfg) hs.bal Model.LL.dfltAlloc
  cases he : Model.LL.newAlloc K.cfg Model.LL.dfltAlloc w.mem.lists.heap with
  | ok q =>
    rw [he] at this
    obtain ⟨hd', tl', e, f⟩ := this
    simp only [Out.bind_ok, Out.safe_ok]
    have hne : ∀ x, x ∈ LL.nodes hd' tl' ([] : Cells α) → x ∉ LL.nodes hd tl cs := fun x hx hm =>
      hs.rep.live hm (f.step.fresh x hx (by simp))
    rw [e]
    refine ⟨?_, ⟨tl', rfl, ⟨hs.var, hs.rep.step f.step (by simp), f.step.bal⟩, ⟨hd', rfl, f.rep.vhd.live, hne _ (by simp [LL.nodes])⟩,
      f.rep.vtl.live, hne _ (by simp [LL.nodes])⟩, rfl⟩
    have T := takes_both (α := α) (cfg := K.cfg) (hd := hd) (tl := tl) (own := own) (G := (lists : Part (Memory α β) _)) (i := i) (u := u)
      lawful_lists (l := lst hd' tl' ([] : Cells α) Model.LL.dfltAlloc) (t := tl') rfl hi
    refine ⟨?_, ?_, ?_, ?_, ?_, ?_⟩
    · rintro r m ⟨_, ⟨⟩, b⟩; exact T.stop b
    · rintro r c cs m ⟨_, ⟨⟩, b⟩; exact T.more b
    · rintro r c cs m ⟨_, ⟨⟩, b⟩; exact ⟨_, rfl, T.popped b⟩
    · rintro r cs m x ⟨_, ⟨⟩, b⟩; exact Out.Safe.mono (T.pushed x b) fun q hq => ⟨_, rfl, hq⟩
    · rintro r c cs m x ⟨_, ⟨⟩, b⟩; exact T.comm x b
    · rintro r c cs m ⟨_, ⟨⟩, b⟩; exact T.fin_comm b
  | oom => trivial
  | _ => rw [he] at this; exact this.elim

theorem collect_ok (hg : Good K w.mem) (hs : Src K.cfg u hd tl own cs w.mem.lists) (hu : Avoids u d) {ys : List γ} {k : κ}
    (ha : all (one pipe) (LL.vals cs) w.client = .ok (ys, k)) :
    d.collect K ((lift pipe).next fun s => onMem (lists.on (Model.Consume.next K.cfg u s))) () w =
      plain K ys d w.mem >>= fun q => .ok (q.1, ⟨k, pops (popMem K.cfg u hd tl own) cs q.2⟩) := by
  cases d with
  | vec i =>
    obtain ⟨T, h⟩ := vec_takes (F := vecs) (ty := K.ty) (i := i) lawful_vecs apart_vecs (Vector.reach_bal hg.vecs) hs
    exact toVec_takes lawful_vecs T h ha
  | vec' i =>
    obtain ⟨T, h⟩ := vec_takes (F := vecs') (ty := K.ty') (i := i) lawful_vecs' apart_vecs' (Vector.reach_bal hg.vecs') hs
    exact toVec_takes lawful_vecs' T h ha
  | list' i => exact toList_takes (J := fun _ r cs m => ListGrows K.cfg' none r (lists'.get m) ∧ Src K.cfg u hd tl own cs (lists.get m)) lawful_lists' (list_takes (i := i) (list_bal hg.lists') hs) ha
  | list i => exact toList_takes (J := fun l r cs m => ∃ t, l.tail = some t ∧ Both K.cfg u hd tl own t r cs (lists.get m)) lawful_lists (both_takes (i := i) hu hs) ha

theorem collect_fails (hg : Good K w.mem) (hs : Src K.cfg u hd tl own cs w.mem.lists) (hu : Avoids u d)
    (ha : ∀ q, all (one pipe) (LL.vals cs) w.client ≠ .ok q) (f : List γ × κ → Out (Unit × World κ (Memory α β))) :
    d.collect K ((lift pipe).next fun s => onMem (lists.on (Model.Consume.next K.cfg u s))) () w = .oom ∨
    d.collect K ((lift pipe).next fun s => onMem (lists.on (Model.Consume.next K.cfg u s))) () w =
      all (one pipe) (LL.vals cs) w.client >>= f := by
  cases d with
  | vec i =>
    obtain ⟨T, h⟩ := vec_takes (F := vecs) (ty := K.ty) (i := i) lawful_vecs apart_vecs (Vector.reach_bal hg.vecs) hs
    exact toVec_fails T h ha f
  | vec' i =>
    obtain ⟨T, h⟩ := vec_takes (F := vecs') (ty := K.ty') (i := i) lawful_vecs' apart_vecs' (Vector.reach_bal hg.vecs') hs
    exact toVec_fails T h ha f
  | list' i => exact toList_fails (J := fun _ r cs m => ListGrows K.cfg' none r (lists'.get m) ∧ Src K.cfg u hd tl own cs (lists.get m)) (list_takes (i := i) (list_bal hg.lists') hs) ha f
  | list i => exact toList_fails (J := fun l r cs m => ∃ t, l.tail = some t ∧ Both K.cfg u hd tl own t r cs (lists.get m)) (both_takes (i := i) hu hs) ha f

end

/-! ## Emptying the iterator object -/

section
open Verif.Model.LL
open Verif.Proof.LL (Rep Bal)

variable {cfg : Cfg α} {u hd tl own : Nat} {cs : Cells α} {w : Model.LL.World α}

/-- the heap after taking all elements -/
def popsHeap (cfg : Cfg α) (hd tl own : Nat) : Cells α → Heap α → Heap α := pops (popHeap cfg hd tl own)

theorem drain_run {h : Heap α} (hb : Bal h) (r : Rep cfg h hd tl cs own) :
    ∃ os, drain cfg (lst hd tl cs own) (List.replicate cs.length .front) h =
      destruct cfg (lst hd tl ([] : Cells α) own) (popsHeap cfg hd tl own cs h) >>= fun q => .ok (os, q.2) := by
  induction cs generalizing h with
  | nil =>
    refine ⟨[], ?_⟩
    simp only [List.length_nil, List.replicate_zero, drain, Prog.bind_run, popsHeap, pops]
    cases destruct cfg (lst hd tl ([] : Cells α) own) h <;> rfl
  | cons c cs ih =>
    have ed := popHeap_edit hb r
    obtain ⟨os, e⟩ := ih ed.bal ed.rep
    refine ⟨some c.2 :: os, ?_⟩
    simp only [List.length_cons, List.replicate_succ, drain, Prog.bind_run, intoNext_run hb r, Out.bind_ok, e]
    simp only [popsHeap, pops]
    cases destruct cfg (lst hd tl ([] : Cells α) own) (pops (popHeap cfg hd tl own) cs (popHeap cfg hd tl own c cs h)) <;> rfl

theorem pops_world (w : Model.LL.World α) (hv : w.vars u = some (lst hd tl cs own)) :
    pops (popWorld cfg u hd tl own) cs w = ⟨popsHeap cfg hd tl own cs w.heap, upd w.vars u (some (lst hd tl ([] : Cells α) own))⟩ := by
  induction cs generalizing w with
  | nil =>
    have e2 : upd w.vars u (some (lst hd tl ([] : Cells α) own)) = w.vars := by
      funext i
      simp only [upd]
      split
      · rename_i hi; rw [hi, hv]
      · rfl
    rw [e2]; rfl
  | cons c cs ih =>
    simp only [pops, popsHeap]
    rw [ih _ (by simp [popWorld])]
    simp only [popWorld, LL.upd_upd]
    rfl

/-- destroying the emptied iterator object is what destroying it right away and taking all elements before is -/
theorem drop_drain (hs : Src cfg u hd tl own cs w) (ops : List (Op α)) :
    (Model.LL.run cfg (.drop u :: ops) >>= fun _ => pure ()) (pops (popWorld cfg u hd tl own) cs w) =
      (Model.LL.run cfg (.drain u (List.replicate cs.length .front) :: .drop u :: ops) >>= fun _ => pure ()) w := by
  rw [pops_world w hs.var]
  obtain ⟨os, e⟩ := drain_run hs.bal hs.rep
  simp only [Model.LL.run, step, Prog.bind_run, var, setVar, hs.var, Out.bind_ok, LL.upd_same, inHeap, newMove, e]
  cases hd' : destruct cfg (lst hd tl ([] : Cells α) own) (popsHeap cfg hd tl own cs w.heap) with
  | ok q =>
    have e2 : destruct cfg (husk (lst hd tl cs own)) q.2 = .ok ((), q.2) := by simp [destruct, husk]
    simp only [Out.bind_ok, e2, LL.upd_same, LL.upd_upd, Prog.pure_run]
    cases Model.LL.run cfg ops ⟨q.2, upd w.vars u none⟩ <;> rfl
  | _ => rfl

end

theorem pops_mem {cfg : Model.LL.Cfg α} {u hd tl own : Nat} (cs : Cells α) (m : Memory α β) :
    pops (popMem cfg u hd tl own) cs m = lists.put m (pops (popWorld cfg u hd tl own) cs (lists.get m)) := by
  induction cs generalizing m with
  | nil => rfl
  | cons c cs ih => simp only [pops]; rw [ih]; rfl

/-! ## The calls before and after the loop -/

section
open Verif.Model.LL (Op Res)
open Verif.Spec.LL (Ideal Var specRun specStep put work workRun lenOf nothing build lose)

variable {dbl : Bool} {dflt : α} {A : Ideal α} {xs : List α} {a : Nat}

theorem specRun_append {full : Bool} (ops ops' : List (Op α)) {A A' A'' : Ideal α} {rs rs' : List (Res α)}
    (h1 : specRun full dbl dflt ops A = some (rs, A')) (h2 : specRun full dbl dflt ops' A' = some (rs', A'')) :
    specRun full dbl dflt (ops ++ ops') A = some (rs ++ rs', A'') := by
  induction ops generalizing A rs with
  | nil => cases h1; simpa using h2
  | cons o ops ih =>
    simp only [specRun, List.cons_append] at h1 ⊢
    cases hs : specStep full dbl dflt o A with
    | none => rw [hs] at h1; cases h1
    | some p =>
      rw [hs] at h1
      simp only at h1 ⊢
      cases hr : specRun full dbl dflt ops p.2 with
      | none => rw [hr] at h1; cases h1
      | some q =>
        rw [hr] at h1
        cases h1
        rw [ih hr]
        rfl

theorem adapt_spec {t : Nat} (ht : A t = some ⟨some xs, a⟩) (hn : ∀ i, t < i → A i = none) :
    specRun false dbl dflt (adapt t) A = some ([.unit, .unit, .unit, .unit, .unit, .unit], put (put A t none) (t + 3) (some ⟨some xs, a⟩)) := by
  have h1 := hn (t + 1) (by omega)
  have h2 := hn (t + 2) (by omega)
  have h3 := hn (t + 3) (by omega)
  simp only [adapt, specRun, specStep, Spec.LL.born, Spec.LL.needs, put, ht, h1, h2, h3]
  simp [put, h1, h2, h3]
  funext l
  simp only [put]
  by_cases e0 : l = t
  · simp [e0]
  · by_cases e1 : l = t + 1
    · simp [e1, h1]
    · by_cases e2 : l = t + 2
      · simp [e2, h2]
      · simp [e0, e1, e2]

theorem adapt_work {t : Nat} (ht : A t = some ⟨some xs, a⟩) (hn : ∀ i, t < i → A i = none) :
    workRun dbl dflt (adapt t) A = ⟨xs.length, xs.length, xs.length + 2⟩ := by
  have h1 := hn (t + 1) (by omega)
  have h2 := hn (t + 2) (by omega)
  have h3 := hn (t + 3) (by omega)
  simp only [adapt, workRun, specStep, Spec.LL.born, Spec.LL.needs, put, ht, h1, h2, h3]
  simp [put, h1, h2, h3, work, lenOf, Var.elems, nothing, build, lose, LL.work_add]

theorem adapts_spec (n : Nat) : ∀ {t : Nat} {A : Ideal α}, A t = some ⟨some xs, a⟩ → (∀ i, t < i → A i = none) →
    ∃ rs, specRun false dbl dflt (adapts t n) A = some (rs, put (put A t none) (t + 3 * n) (some ⟨some xs, a⟩)) := by
  induction n with
  | zero =>
    intro t A ht hn
    refine ⟨[], ?_⟩
    simp only [adapts, specRun, Option.some.injEq, Prod.mk.injEq, true_and]
    funext l
    simp only [put]
    split
    · rename_i h; rw [h]; exact ht
    · split
      · omega
      · rfl
  | succ n ih =>
    intro t A ht hn
    obtain ⟨rs, e⟩ := ih (t := t + 3) (A := put (put A t none) (t + 3) (some ⟨some xs, a⟩)) (by simp [put])
      (fun i hi => by simp [put, show i ≠ t + 3 by omega, show i ≠ t by omega, hn i (by omega)])
    have e' := specRun_append _ _ (adapt_spec ht hn) e
    have hp : put (put (put (put A t none) (t + 3) (some ⟨some xs, a⟩)) (t + 3) none) (t + 3 + 3 * n) (some ⟨some xs, a⟩) =
        put (put A t none) (t + 3 * (n + 1)) (some ⟨some xs, a⟩) := by
      funext l
      simp only [put, show t + 3 + 3 * n = t + 3 * (n + 1) by omega]
      by_cases e2 : l = t + 3 * (n + 1)
      · simp only [if_pos e2]
      · simp only [if_neg e2]
        by_cases e1 : l = t + 3
        · rw [if_pos e1, if_neg (by omega), hn l (by omega)]
        · rw [if_neg e1, if_neg e1]
    rw [hp] at e'
    exact ⟨_, e'⟩

theorem adapts_work (n : Nat) : ∀ {t : Nat} {A : Ideal α}, A t = some ⟨some xs, a⟩ → (∀ i, t < i → A i = none) →
    workRun dbl dflt (adapts t n) A = ⟨n * xs.length, n * xs.length, n * (xs.length + 2)⟩ := by
  induction n with
  | zero => intro t A ht hn; simp [adapts, workRun, nothing]
  | succ n ih =>
    intro t A ht hn
    rw [adapts, LL.workRun_append dbl dflt _ _ (adapt_spec ht hn), adapt_work ht hn,
      ih (t := t + 3) (A := put (put A t none) (t + 3) (some ⟨some xs, a⟩)) (by simp [put])
        (fun i hi => by simp [put, show i ≠ t + 3 by omega, show i ≠ t by omega, hn i (by omega)]), LL.work_add]
    simp only [Nat.add_mul, Nat.one_mul, Nat.add_comm, Nat.add_left_comm]

/-- the copies of the list that a call of `collect` makes -/
def extra : Call → Nat
  | .piped => 1
  | .direct => 0

/-- the parameters of the call -/
def Params (A : Ideal α) (b : Nat) (xs : List α) (a : Nat) : Call → Prop
  | .piped => A b = some ⟨some xs, a⟩ ∧ A (b + 1) = some ⟨none, a⟩
  | .direct => A b = some ⟨none, a⟩

theorem entry_full {j t : Nat} (n : Nat) (call : Call) (hj : A j = some ⟨some xs, a⟩) (hn : ∀ i, t ≤ i → A i = none) :
    ∃ rs A', specRun false dbl dflt (.newMove t j :: (adapts t n ++ call.enter (t + 3 * n))) A = some (rs, A') ∧
      A' (call.param (t + 3 * n)) = some ⟨some xs, a⟩ ∧ A' j = some ⟨none, a⟩ ∧ (∀ l, l < t → l ≠ j → A' l = A l) ∧
      (∀ l, t ≤ l → l < t + 3 * n ∨ call.param (t + 3 * n) < l → A' l = none) ∧
      (∀ l, t + 3 * n ≤ l → l ≤ call.param (t + 3 * n) → (A' l).isSome = true) ∧
      workRun dbl dflt (.newMove t j :: (adapts t n ++ call.enter (t + 3 * n))) A =
        ⟨n * xs.length + extra call * xs.length, n * xs.length, n * (xs.length + 2) + extra call * (xs.length + 2)⟩ ∧
      Params A' (t + 3 * n) xs a call := by
  have hjt : j < t := by
    by_contra h
    rw [hn j (by omega)] at hj; cases hj
  have ht := hn t (Nat.le_refl _)
  have e1 : specStep false dbl dflt (.newMove t j) A = some (.unit, put (put A t (some ⟨some xs, a⟩)) j (some ⟨none, a⟩)) := by
    simp only [specStep, hj, Option.bind_some, Spec.LL.needs, ht]; rfl
  obtain ⟨rs, e2⟩ := adapts_spec (dbl := dbl) (dflt := dflt) n (t := t) (A := put (put A t (some ⟨some xs, a⟩)) j (some ⟨none, a⟩)) (xs := xs) (a := a)
    (by simp [put, show t ≠ j by omega]) (fun i hi => by simp [put, show i ≠ j by omega, show i ≠ t by omega, hn i (by omega)])
  let b := t + 3 * n
  let B : Ideal α := put (put (put (put A t (some ⟨some xs, a⟩)) j (some ⟨none, a⟩)) t none) b (some ⟨some xs, a⟩)
  have hb : t ≤ b := by simp only [b]; omega
  have hB : ∀ l, b < l → B l = none := fun l hl => by
    simp [B, put, show l ≠ b by omega, show l ≠ t by omega, show l ≠ j by omega, hn l (by omega)]
  have hBb : B b = some ⟨some xs, a⟩ := by simp [B, put]
  have hBj : B j = some ⟨none, a⟩ := by simp [B, put, show j ≠ b by omega, show j ≠ t by omega]
  have hBlow : ∀ l, l < t → l ≠ j → B l = A l := fun l hl hlj => by
    simp [B, put, show l ≠ b by omega, show l ≠ t by omega, hlj]
  have hBmid : ∀ l, t ≤ l → l < b → B l = none := fun l h1 h2 => by
    simp only [B, put]
    rw [if_neg (by omega)]
    by_cases e : l = t
    · rw [if_pos e]
    · rw [if_neg e, if_neg (by omega), if_neg e, hn l h1]
  have h1 := hB (b + 1) (by omega)
  have h2 := hB (b + 2) (by omega)
  have fin : ∀ {ops : List (Op α)} {rs' A'}, specRun false dbl dflt ops B = some (rs', A') →
      ∃ rs, specRun false dbl dflt (.newMove t j :: (adapts t n ++ ops)) A = some (rs, A') := by
    intro ops rs' A' h
    have := specRun_append _ _ e2 h
    exact ⟨.unit :: (rs ++ rs'), by simp only [specRun, e1, this]⟩
  have wrk : ∀ ops : List (Op α), workRun dbl dflt (.newMove t j :: (adapts t n ++ ops)) A =
      ⟨n * xs.length, n * xs.length, n * (xs.length + 2)⟩ + workRun dbl dflt ops B := by
    intro ops
    rw [workRun, e1]
    simp only
    rw [LL.workRun_append dbl dflt _ _ e2, adapts_work n (xs := xs) (a := a)
      (by simp [put, show t ≠ j by omega]) (fun i hi => by simp [put, show i ≠ j by omega, show i ≠ t by omega, hn i (by omega)]), work, LL.Work.zero_add']
  cases call with
  | direct =>
    obtain ⟨rs, e⟩ := fin (ops := [.newMove (b + 1) b]) (rs' := [.unit])
      (A' := put (put B (b + 1) (some ⟨some xs, a⟩)) b (some ⟨none, a⟩)) (by
        simp only [specRun, specStep, hBb, Option.bind_some, Spec.LL.needs, h1]; rfl)
    refine ⟨rs, _, e, ?_, ?_, ?_, ?_, ?_, ?_, ?_⟩
    · simp [Call.param, put, b]
    · simp [put, show j ≠ b by omega, show j ≠ b + 1 by omega, hBj]
    · intro l hl hlj; simp [put, show l ≠ b by omega, show l ≠ b + 1 by omega, hBlow l hl hlj]
    · intro l hl h
      simp only [Call.param] at h
      simp only [put]
      rw [if_neg (by omega), if_neg (by omega)]
      rcases h with h | h
      · exact hBmid l hl h
      · exact hB l (by omega)
    · intro l h3 h4
      simp only [Call.param] at h4
      simp only [put]
      by_cases e5 : l = b
      · rw [if_pos e5]; rfl
      · rw [if_neg e5, if_pos (by omega)]; rfl
    · rw [Call.enter, wrk]
      simp only [workRun, specStep, hBb, Option.bind_some, Spec.LL.needs, h1, b]
      simp [work, nothing, LL.work_add, extra]
    · simp [Params, put, b]
  | piped =>
    obtain ⟨rs, e⟩ := fin (ops := [.newCopy (b + 1) b, .newMove (b + 2) (b + 1)]) (rs' := [.unit, .unit])
      (A' := put (put (put B (b + 1) (some ⟨some xs, a⟩)) (b + 2) (some ⟨some xs, a⟩)) (b + 1) (some ⟨none, a⟩)) (by
        simp [specRun, specStep, hBb, Spec.LL.needs, Spec.LL.born, h1, h2, put])
    refine ⟨rs, _, e, ?_, ?_, ?_, ?_, ?_, ?_, ?_⟩
    · simp [Call.param, put, b]
    · simp [put, show j ≠ b + 2 by omega, show j ≠ b + 1 by omega, hBj]
    · intro l hl hlj; simp [put, show l ≠ b + 2 by omega, show l ≠ b + 1 by omega, hBlow l hl hlj]
    · intro l hl h
      simp only [Call.param] at h
      simp only [put]
      rw [if_neg (by omega), if_neg (by omega), if_neg (by omega)]
      rcases h with h | h
      · exact hBmid l hl h
      · exact hB l (by omega)
    · intro l h3 h4
      simp only [Call.param] at h4
      simp only [put]
      by_cases e5 : l = b
      · rw [if_neg (by omega), if_neg (by omega), if_neg (by omega), e5, hBb]; rfl
      · by_cases e6 : l = b + 1
        · rw [if_pos e6]; rfl
        · rw [if_neg e6, if_pos (by omega)]; rfl
    · rw [Call.enter, wrk]
      have hbb : B (t + 3 * n) = some ⟨some xs, a⟩ := hBb
      simp [workRun, specStep, hbb, Spec.LL.needs, Spec.LL.born, h1, h2, put, b, work, nothing, LL.work_add, extra, build, lenOf, Var.elems]
    · have hbb : B (t + 3 * n) = some ⟨some xs, a⟩ := hBb
      simp [Params, put, b, hbb]

theorem entry_spec {j t : Nat} (n : Nat) (call : Call) (hj : A j = some ⟨some xs, a⟩) (hn : ∀ i, t ≤ i → A i = none) :
    ∃ rs A', specRun false dbl dflt (.newMove t j :: (adapts t n ++ call.enter (t + 3 * n))) A = some (rs, A') ∧
      A' (call.param (t + 3 * n)) = some ⟨some xs, a⟩ ∧ A' j = some ⟨none, a⟩ ∧ (∀ l, l < t → l ≠ j → A' l = A l) ∧
      (∀ l, t ≤ l → l < t + 3 * n ∨ call.param (t + 3 * n) < l → A' l = none) ∧
      (∀ l, t + 3 * n ≤ l → l ≤ call.param (t + 3 * n) → (A' l).isSome = true) := by
  obtain ⟨rs, A', h1, h2, h3, h4, h5, h6, -⟩ := entry_full (dbl := dbl) (dflt := dflt) n call hj hn
  exact ⟨rs, A', h1, h2, h3, h4, h5, h6⟩

theorem leave_work {b n : Nat} (call : Call) (hu : A (call.param b) = some ⟨some xs, a⟩) (hp : Params A b xs a call) :
    workRun dbl dflt (.drain (call.param b) (List.replicate n .front) :: call.leave b) A = ⟨0, xs.length + extra call * xs.length, 0⟩ := by
  have hal : (List.replicate n Spec.End.front).all (· == .front) = true := by simp
  have ha : ∀ e, e ∈ List.replicate n Spec.End.front → e = .front := fun e h => (List.mem_replicate.1 h).2
  cases call with
  | direct =>
    simp only [Call.param, Params] at hu hp
    simp only [workRun, specStep, Call.param, Call.leave, hu, Option.bind_some, Spec.LL.needs]
    rw [if_pos (.inr hal)]
    simp [put, hp, work, lenOf, hu, Var.elems, lose, nothing, LL.work_add, extra]
  | piped =>
    simp only [Call.param, Params] at hu hp
    simp only [workRun, specStep, Call.param, Call.leave, hu, Option.bind_some, Spec.LL.needs]
    rw [if_pos (.inr hal)]
    simp [put, hp.1, hp.2, work, lenOf, hu, Var.elems, lose, nothing, LL.work_add, extra]

theorem leave_spec {b n : Nat} (call : Call) (hu : A (call.param b) = some ⟨some xs, a⟩)
    (hs : ∀ l, b ≤ l → l ≤ call.param b → (A l).isSome = true) :
    ∃ rs, specRun false dbl dflt (.drain (call.param b) (List.replicate n .front) :: call.leave b) A =
      some (rs, fun l => if b ≤ l ∧ l ≤ call.param b then none else A l) := by
  have hal : (List.replicate n Spec.End.front).all (· == .front) = true := by simp
  cases call with
  | direct =>
    have h0 := hs b (Nat.le_refl _) (by simp [Call.param])
    obtain ⟨v0, e0⟩ := Option.isSome_iff_exists.1 h0
    simp only [Call.param] at hu
    refine ⟨[.opts (Spec.takes (List.replicate n .front) xs).1, .unit, .unit], ?_⟩
    simp only [specRun, specStep, Call.param, Call.leave, hu, Option.bind_some, Spec.LL.needs]
    rw [if_pos (.inr hal)]
    simp [put, e0]
    funext l
    simp only [put]
    by_cases e1 : l = b
    · simp [e1]
    · by_cases e2 : l = b + 1
      · simp [e2]
      · simp only [if_neg e1, if_neg e2]; exact (if_neg (by omega)).symm
  | piped =>
    have h0 := hs b (Nat.le_refl _) (by simp [Call.param])
    have h1 := hs (b + 1) (by omega) (by simp [Call.param])
    obtain ⟨v0, e0⟩ := Option.isSome_iff_exists.1 h0
    obtain ⟨v1, e1⟩ := Option.isSome_iff_exists.1 h1
    simp only [Call.param] at hu
    refine ⟨[.opts (Spec.takes (List.replicate n .front) xs).1, .unit, .unit, .unit], ?_⟩
    simp only [specRun, specStep, Call.param, Call.leave, hu, Option.bind_some, Spec.LL.needs]
    rw [if_pos (.inr hal)]
    simp [put, e0, e1]
    funext l
    simp only [put]
    by_cases e1 : l = b
    · simp [e1]
    · by_cases e2 : l = b + 1
      · simp [e2]
      · by_cases e3 : l = b + 2
        · simp [e3]
        · simp only [if_neg e1, if_neg e2, if_neg e3]; exact (if_neg (by omega)).symm

end

/-! ## The whole expression -/

section
variable {K : Kinds α β} {d : Dst α β γ} {pipe : Pipe κ α γ} {w : World κ (Memory α β)} {j t a : Nat} {xs : List α}

/-- what remains is to run the calls before the loop, the loop, and the calls after it -/
theorem run_split {w' : Model.LL.World α} {rs : List (Model.LL.Res α)} {call : Call}
    (he : Model.LL.run K.cfg (.newMove t j :: (adapts t (stages pipe) ++ call.enter (t + 3 * stages pipe))) w.mem.lists = .ok (rs, w')) :
    Model.Consume.run K j t pipe call d w =
      (d.collect K ((lift pipe).next fun s => onMem (lists.on (Model.Consume.next K.cfg (call.param (t + 3 * stages pipe)) s))) () >>= fun _ =>
        onMem (lists.on (Model.LL.run K.cfg (call.leave (t + 3 * stages pipe)) >>= fun _ => pure ()))) ⟨w.client, lists.put w.mem w'⟩ := by
  simp only [Model.Consume.run, Prog.bind_run, onMem, Part.on, show lists.get w.mem = w.mem.lists from rfl, he, Out.bind_ok]
  cases d.collect K ((lift pipe).next fun s => onMem (lists.on (Model.Consume.next K.cfg (call.param (t + 3 * stages pipe)) s))) ()
      ⟨w.client, lists.put w.mem w'⟩ with
  | ok q =>
    simp only [Out.bind_ok]
    cases Model.LL.run K.cfg (call.leave (t + 3 * stages pipe)) (lists.get q.2.mem) <;> rfl
  | _ => rfl

theorem Good.put_lists {m : Memory α β} (hg : Good K m) {w' : Model.LL.World α} (hr : Spec.LL.Reach K.cfg w') : Good K (lists.put m w') :=
  ⟨hg.vecs, hr, hg.vecs', hg.lists'⟩

theorem src_of_view {w' : Model.LL.World α} (hr : Spec.LL.Reach K.cfg w') {u : Nat} (hv : Spec.LL.view w' u = some ⟨some xs, a⟩) :
    ∃ C hd tl cs, LL.Inv K.cfg C w' ∧ C u = some (LL.full hd tl cs a) ∧ LL.vals cs = xs ∧ Src K.cfg u hd tl a cs w' := by
  obtain ⟨C, hd, tl, cs, I, hC, hx, -⟩ := LL.reach_get hr hv
  exact ⟨C, hd, tl, cs, I, hC, hx, I.var hC, I.rep hC, I.bal⟩

/-- making the new container leaves the iterator object alone -/
theorem plain_src {m : Memory α β} {u hd tl : Nat} {cs : Cells α} {C : LL.Ghost α} (I : LL.Inv K.cfg C m.lists)
    (hC : C u = some (LL.full hd tl cs a)) (hu : Avoids u d) (hd' : Unused m d) (ys : List γ) {q : Unit × Memory α β}
    (he : plain K ys d m = .ok q) : Src K.cfg u hd tl a cs q.2.lists := by
  have h0 : Src K.cfg u hd tl a cs m.lists := ⟨I.var hC, I.rep hC, I.bal⟩
  cases d with
  | list i =>
    have hs : Spec.LL.specStep false K.cfg.dbl K.cfg.dflt (.fromIter i ys) (LL.ideal C) =
        some (.unit, Spec.LL.put (LL.ideal C) i (some ⟨some ys, 0⟩)) := by
      have h1 : LL.ideal C i = none := by rw [← I.view]; exact hd'
      simp only [Spec.LL.specStep, Spec.LL.born, Spec.LL.needs]; rw [if_pos (by rw [h1]; rfl)]
    have := LL.step_ok (.fromIter i ys) I hs
    simp only [plain, Part.on, Prog.bind_run, lists] at he
    cases hx : Model.LL.step K.cfg (.fromIter i ys) m.lists with
    | ok p =>
      rw [hx] at he this
      obtain ⟨-, C', I', -, hf⟩ := this
      cases he
      have hCu : C' u = some (LL.full hd tl cs a) := by
        rw [hf u (by simp only [Spec.LL.writes, List.mem_singleton]; exact Ne.symm hu)]; exact hC
      exact ⟨I'.var hCu, I'.rep hCu, I'.bal⟩
    | _ => rw [hx] at he; cases he
  | vec i =>
    simp only [plain, Part.on] at he
    cases hx : (Model.Vector.step K.ty (.fromIter i ys) >>= fun _ => pure ()) (vecs.get m) with
    | ok p => rw [hx] at he; cases he; exact h0
    | _ => rw [hx] at he; cases he
  | vec' i =>
    simp only [plain, Part.on] at he
    cases hx : (Model.Vector.step K.ty' (.fromIter i ys) >>= fun _ => pure ()) (vecs'.get m) with
    | ok p => rw [hx] at he; cases he; exact h0
    | _ => rw [hx] at he; cases he
  | list' i =>
    simp only [plain, Part.on] at he
    cases hx : (Model.LL.step K.cfg' (.fromIter i ys) >>= fun _ => pure ()) (lists'.get m) with
    | ok p => rw [hx] at he; cases he; exact h0
    | _ => rw [hx] at he; cases he

theorem leave_drop (call : Call) (b : Nat) : ∃ ops : List (Model.LL.Op α), call.leave b = .drop (call.param b) :: ops := by
  cases call
  · exact ⟨_, rfl⟩
  · exact ⟨_, rfl⟩

theorem avoids_of_below {u : Nat} (hB : Below t d) (hu : t ≤ u) : Avoids u d := by
  cases d with
  | list i => exact Nat.ne_of_lt (Nat.lt_of_lt_of_le hB hu)
  | _ => trivial

theorem param_ge (call : Call) (b : Nat) : b ≤ call.param b := by cases call <;> simp [Call.param]

/-- the state before the loop -/
theorem entered (hg : Good K w.mem) (hx : Spec.LL.view w.mem.lists j = some ⟨some xs, a⟩) (hf : Free w.mem t) (n : Nat) (call : Call) :
    (Model.LL.run K.cfg (.newMove t j :: (adapts t n ++ call.enter (t + 3 * n))) w.mem.lists).Safe fun q =>
      Spec.LL.Reach K.cfg q.2 ∧
      Spec.LL.view q.2 (call.param (t + 3 * n)) = some ⟨some xs, a⟩ ∧ Spec.LL.view q.2 j = some ⟨none, a⟩ ∧
      (∀ l, l < t → l ≠ j → Spec.LL.view q.2 l = Spec.LL.view w.mem.lists l) ∧
      (∀ l, t ≤ l → l < t + 3 * n ∨ call.param (t + 3 * n) < l → Spec.LL.view q.2 l = none) ∧
      (∀ l, t + 3 * n ≤ l → l ≤ call.param (t + 3 * n) → (Spec.LL.view q.2 l).isSome = true) := by
  obtain ⟨rs, A', e, h⟩ := entry_spec (dbl := K.cfg.dbl) (dflt := K.cfg.dflt) n call hx hf
  have := LL.reach_run hg.lists _ e
  cases he : Model.LL.run K.cfg (.newMove t j :: (adapts t n ++ call.enter (t + 3 * n))) w.mem.lists with
  | ok q =>
    rw [he] at this
    obtain ⟨-, hv, hr⟩ := this
    refine ⟨hr, ?_⟩
    rw [hv]
    exact h
  | oom => trivial
  | _ => rw [he] at this; exact this.elim

theorem unused_entered {m : Memory α β} {w' : Model.LL.World α} (hd : Unused m d) (hB : Below t d) (hj : Spec.LL.view m.lists j ≠ none)
    (hlow : ∀ l, l < t → l ≠ j → Spec.LL.view w' l = Spec.LL.view m.lists l) : Unused (lists.put m w') d := by
  cases d with
  | list i =>
    have hij : i ≠ j := by rintro rfl; exact hj hd
    exact (hlow i hB hij).trans hd
  | _ => exact hd

theorem run_eq (hg : Good K w.mem) (hx : Spec.LL.view w.mem.lists j = some ⟨some xs, a⟩) (hf : Free w.mem t) (hB : Below t d)
    (hd : Unused w.mem d) (call : Call) {ys : List γ} {k : κ} (ha : all (one pipe) xs w.client = .ok (ys, k)) :
    Model.Consume.run K j t pipe call d w = plainly K j t (stages pipe) xs.length call ys d w.mem >>= fun q => .ok (q.1, ⟨k, q.2⟩) := by
  have hent := entered hg hx hf (stages pipe) call
  cases he : Model.LL.run K.cfg (.newMove t j :: (adapts t (stages pipe) ++ call.enter (t + 3 * stages pipe))) w.mem.lists with
  | ok q =>
    obtain ⟨rs, w'⟩ := q
    rw [he] at hent
    obtain ⟨hr, hu, hj, hlow, hgone, hsome⟩ := hent
    have hu' : Avoids (call.param (t + 3 * stages pipe)) d := avoids_of_below hB (by have := param_ge call (t + 3 * stages pipe); omega)
    obtain ⟨C, h', tl, cs, I, hC, hv, hs⟩ := src_of_view hr hu
    have hd' : Unused (lists.put w.mem w') d := unused_entered hd hB (by rw [hx]; simp) hlow
    rw [run_split he]
    subst hv
    have hcol := collect_ok (w := ⟨w.client, lists.put w.mem w'⟩) (Good.put_lists hg hr) hs hu' ha
    obtain ⟨ops, hops⟩ := leave_drop (α := α) call (t + 3 * stages pipe)
    simp only [plainly, Prog.bind_run, hcol, Part.on, show lists.get w.mem = w.mem.lists from rfl, he, Out.bind_ok]
    cases hp : plain K ys d (lists.put w.mem w') with
    | ok p =>
      have hs2 := plain_src (m := lists.put w.mem w') I hC hu' hd' ys hp
      simp only [Out.bind_ok, onMem, pops_mem, hops, Part.on, show ∀ (m : Memory α β) s, lists.get (lists.put m s) = s from fun _ _ => rfl]
      have := drop_drain hs2 ops
      rw [show lists.get p.2 = p.2.lists from rfl, this, List.length_map]
      simp only [Prog.bind_run]
      cases Model.LL.run K.cfg (.drain (call.param (t + 3 * stages pipe)) (List.replicate cs.length .front) ::
        .drop (call.param (t + 3 * stages pipe)) :: ops) p.2.lists <;> rfl
    | _ => rfl
  | _ =>
    simp only [Model.Consume.run, plainly, Prog.bind_run, onMem, Part.on, show lists.get w.mem = w.mem.lists from rfl, he]
    rfl

theorem run_fails (hg : Good K w.mem) (hx : Spec.LL.view w.mem.lists j = some ⟨some xs, a⟩) (hf : Free w.mem t) (hB : Below t d)
    (call : Call) (ha : ∀ q, all (one pipe) xs w.client ≠ .ok q) (f : List γ × κ → Out (Unit × World κ (Memory α β))) :
    Model.Consume.run K j t pipe call d w = .oom ∨ Model.Consume.run K j t pipe call d w = all (one pipe) xs w.client >>= f := by
  have hent := entered hg hx hf (stages pipe) call
  cases he : Model.LL.run K.cfg (.newMove t j :: (adapts t (stages pipe) ++ call.enter (t + 3 * stages pipe))) w.mem.lists with
  | ok q =>
    obtain ⟨rs, w'⟩ := q
    rw [he] at hent
    obtain ⟨hr, hu, hj, hlow, hgone, hsome⟩ := hent
    have hu' : Avoids (call.param (t + 3 * stages pipe)) d := avoids_of_below hB (by have := param_ge call (t + 3 * stages pipe); omega)
    obtain ⟨C, h', tl, cs, I, hC, hv, hs⟩ := src_of_view hr hu
    rw [run_split he]
    subst hv
    have hcol := collect_fails (w := ⟨w.client, lists.put w.mem w'⟩) (Good.put_lists hg hr) hs hu' ha (fun _ => .oom)
    simp only [Prog.bind_run]
    rcases hcol with h | h
    · rw [h]; exact .inl rfl
    · rw [h]
      right
      cases hy : all (one pipe) (LL.vals cs) w.client with
      | ok q => exact absurd hy (ha q)
      | _ => rfl
  | oom =>
    left
    simp only [Model.Consume.run, Prog.bind_run, onMem, Part.on, show lists.get w.mem = w.mem.lists from rfl, he]
    rfl
  | _ => rw [he] at hent; exact hent.elim

theorem entered_work (hg : Good K w.mem) (hx : Spec.LL.view w.mem.lists j = some ⟨some xs, a⟩) (hf : Free w.mem t) (n : Nat) (call : Call)
    {q : List (Model.LL.Res α) × Model.LL.World α}
    (he : Model.LL.run K.cfg (.newMove t j :: (adapts t n ++ call.enter (t + 3 * n))) w.mem.lists = .ok q) :
    LL.Did w.mem.lists.heap q.2.heap
        ⟨n * xs.length + extra call * xs.length, n * xs.length, n * (xs.length + 2) + extra call * (xs.length + 2)⟩ ∧
      Params (Spec.LL.view q.2) (t + 3 * n) xs a call := by
  obtain ⟨rs, A', e, h⟩ := entry_full (dbl := K.cfg.dbl) (dflt := K.cfg.dflt) n call hx hf
  have h1 := LL.reach_run hg.lists _ e
  have h2 := LL.reach_workRun _ hg.lists e he
  rw [he] at h1
  obtain ⟨-, hv, -⟩ := h1
  rw [h.2.2.2.2.2.1] at h2
  rw [hv]
  exact ⟨h2, h.2.2.2.2.2.2⟩

theorem params_congr {A B : Spec.LL.Ideal α} {b : Nat} {call : Call} (h : Params A b xs a call) (e : ∀ l, b ≤ l → B l = A l) : Params B b xs a call := by
  cases call with
  | piped => exact ⟨(e b (by omega)).trans h.1, (e (b + 1) (by omega)).trans h.2⟩
  | direct => exact (e b (by omega)).trans h

/-- the work of making the new container, on lists of `α` -/
theorem plain_work {m : Memory α β} (hg : Good K m) (hd : Unused m d) (ys : List γ) {q : Unit × Memory α β} (he : plain K ys d m = .ok q) :
    LL.Did m.lists.heap q.2.lists.heap ⟨newElems ys.length d, 0, newNodes ys.length d⟩ := by
  cases d with
  | list i =>
    have hs : Spec.LL.specStep false K.cfg.dbl K.cfg.dflt (.fromIter i ys) (Spec.LL.view m.lists) =
        some (.unit, Spec.LL.put (Spec.LL.view m.lists) i (some ⟨some ys, 0⟩)) := by
      simp only [Spec.LL.specStep, Spec.LL.born, Spec.LL.needs]; rw [if_pos (by rw [show Spec.LL.view m.lists i = none from hd]; rfl)]
    simp only [plain, Part.on, Prog.bind_run, lists] at he
    cases hx : Model.LL.step K.cfg (.fromIter i ys) m.lists with
    | ok p =>
      rw [hx] at he
      cases he
      exact LL.reach_work hg.lists hs hx
    | _ => rw [hx] at he; cases he
  | vec i =>
    simp only [plain, Part.on] at he
    cases hx : (Model.Vector.step K.ty (.fromIter i ys) >>= fun _ => pure ()) (vecs.get m) with
    | ok p => rw [hx] at he; cases he; exact ⟨rfl, rfl, rfl⟩
    | _ => rw [hx] at he; cases he
  | vec' i =>
    simp only [plain, Part.on] at he
    cases hx : (Model.Vector.step K.ty' (.fromIter i ys) >>= fun _ => pure ()) (vecs'.get m) with
    | ok p => rw [hx] at he; cases he; exact ⟨rfl, rfl, rfl⟩
    | _ => rw [hx] at he; cases he
  | list' i =>
    simp only [plain, Part.on] at he
    cases hx : (Model.LL.step K.cfg' (.fromIter i ys) >>= fun _ => pure ()) (lists'.get m) with
    | ok p => rw [hx] at he; cases he; exact ⟨rfl, rfl, rfl⟩
    | _ => rw [hx] at he; cases he

theorem stages_eq {κ α γ : Type} (pipe : Model.Iter.Pipe κ α γ) : Model.Consume.stages pipe = Spec.Consume.adapters pipe := by
  induction pipe with
  | source => rw [Model.Consume.stages, Spec.Consume.adapters]
  | map pipe f ih => rw [Model.Consume.stages, Spec.Consume.adapters, ih]
  | filter pipe p ih => rw [Model.Consume.stages, Spec.Consume.adapters, ih]

/-- what the calls one after the other do -/
theorem plainly_ok (hg : Good K w.mem) (hx : Spec.LL.view w.mem.lists j = some ⟨some xs, a⟩) (hf : Free w.mem t) (hB : Below t d)
    (hd : Unused w.mem d) (n m : Nat) (call : Call) (ys : List γ) :
    (plainly K j t n m call ys d w.mem).Safe fun q =>
      Good K q.2 ∧ made q.2 d = some ys ∧ Spec.LL.view q.2.lists j = some ⟨none, a⟩ ∧ Others w.mem q.2 j d := by
  have hent := entered hg hx hf n call
  have hjt : j < t := by
    by_contra h
    rw [hf j (by omega)] at hx; cases hx
  simp only [plainly, Prog.bind_run, Part.on, show lists.get w.mem = w.mem.lists from rfl]
  cases he : Model.LL.run K.cfg (.newMove t j :: (adapts t n ++ call.enter (t + 3 * n))) w.mem.lists with
  | ok q =>
    obtain ⟨rs, w'⟩ := q
    rw [he] at hent
    obtain ⟨hr, hu, hj, hlow, hgone, hsome⟩ := hent
    have hd' : Unused (lists.put w.mem w') d := unused_entered hd hB (by rw [hx]; simp) hlow
    have hpl := plain_ok (w := ⟨w.client, lists.put w.mem w'⟩) (Good.put_lists hg hr) hd' ys
    simp only [Out.bind_ok]
    cases hp : plain K ys d (lists.put w.mem w') with
    | ok p =>
      rw [show plain K ys d (⟨w.client, lists.put w.mem w'⟩ : World κ (Memory α β)).mem = _ from hp] at hpl
      obtain ⟨hg2, hm, ho⟩ := hpl
      simp only [Out.bind_ok]
      have hb := param_ge call (t + 3 * n)
      -- the lists after the new container was made
      have hL : (∀ l, (∀ i, ¬ (∃ h : γ = α, (h ▸ d : Dst α β α) = .list i ∧ l = i)) → Spec.LL.view p.2.lists l = Spec.LL.view w' l) := by
        intro l hl
        cases d with
        | list i => exact ho.1 l fun e => hl i ⟨rfl, rfl, e⟩
        | vec i => rw [ho.2.1]; rfl
        | vec' i => rw [ho.2.2.1]; rfl
        | list' i => rw [ho.2.2.1]; rfl
      have hT : ∀ l, t ≤ l → Spec.LL.view p.2.lists l = Spec.LL.view w' l := by
        intro l hl
        refine hL l fun i => ?_
        rintro ⟨h, e, rfl⟩
        subst h; subst e
        exact absurd hB (by simp only [Below]; omega)
      have hJ : Spec.LL.view p.2.lists j = some ⟨none, a⟩ := by
        rw [← hj]
        refine hL j fun i => ?_
        rintro ⟨h, e, rfl⟩
        subst h; subst e
        rw [show Spec.LL.view w.mem.lists j = none from hd] at hx; cases hx
      obtain ⟨rs2, e2⟩ := leave_spec (b := t + 3 * n) (n := m) (A := Spec.LL.view p.2.lists) (dbl := K.cfg.dbl) (dflt := K.cfg.dflt) call
        (by rw [hT _ (by omega)]; exact hu) (fun l h1 h2 => by rw [hT l (by omega)]; exact hsome l h1 h2)
      have hrun := LL.reach_run hg2.lists _ e2
      rw [show lists.get p.2 = p.2.lists from rfl]
      cases he2 : Model.LL.run K.cfg (.drain (call.param (t + 3 * n)) (List.replicate m .front) :: call.leave (t + 3 * n)) p.2.lists with
      | ok q2 =>
        rw [he2] at hrun
        obtain ⟨-, hv2, hr2⟩ := hrun
        simp only [Out.bind_ok, Prog.pure_run, Out.safe_ok]
        have hlo : ∀ l, l < t → Spec.LL.view q2.2 l = Spec.LL.view p.2.lists l := by
          intro l hl; rw [hv2]; exact if_neg (by omega)
        have hhi : ∀ l, t ≤ l → Spec.LL.view q2.2 l = none := by
          intro l hl
          rw [hv2]
          simp only
          split
          · rfl
          · rename_i hn; rw [hT l hl]; exact hgone l hl (by omega)
        have hw : ∀ l, l ≠ j → (t ≤ l ∨ Spec.LL.view p.2.lists l = Spec.LL.view w' l) → Spec.LL.view q2.2 l = Spec.LL.view w.mem.lists l := by
          intro l h1 h2
          by_cases h3 : t ≤ l
          · rw [hhi l h3, hf l h3]
          · rw [hlo l (Nat.lt_of_not_le h3), h2.resolve_left h3]; exact hlow l (Nat.lt_of_not_le h3) h1
        refine ⟨⟨hg2.vecs, hr2, hg2.vecs', hg2.lists'⟩, ?_, ?_, ?_⟩
        · cases d with
          | list i => rw [← hm]; simp only [made]; exact congrArg (fun v => v.bind Spec.LL.Var.items) (hlo i hB)
          | _ => exact hm
        · exact (hlo j hjt).trans hJ
        · cases d with
          | list i => exact ⟨fun l h1 h2 => hw l h2 (.inr (ho.1 l h1)), ho.2⟩
          | vec i => exact ⟨ho.1, fun l h1 => hw l h1 (.inr (by rw [ho.2.1]; rfl)), ho.2.2⟩
          | vec' i => exact ⟨ho.1, fun l h1 => hw l h1 (.inr (by rw [ho.2.2.1]; rfl)), ho.2.1, ho.2.2.2⟩
          | list' i => exact ⟨ho.1, fun l h1 => hw l h1 (.inr (by rw [ho.2.2.1]; rfl)), ho.2.1, ho.2.2.2⟩
      | oom => trivial
      | _ => rw [he2] at hrun; exact hrun.elim
    | oom => trivial
    | _ => rw [show plain K ys d (⟨w.client, lists.put w.mem w'⟩ : World κ (Memory α β)).mem = _ from hp] at hpl; exact hpl.elim
  | oom => trivial
  | _ => rw [he] at hent; exact hent.elim

/-- what the calls one after the other cost -/
theorem plainly_work (hg : Good K w.mem) (hx : Spec.LL.view w.mem.lists j = some ⟨some xs, a⟩) (hf : Free w.mem t) (hB : Below t d)
    (hd : Unused w.mem d) (n m : Nat) (call : Call) (ys : List γ) :
    ∀ q, plainly K j t n m call ys d w.mem = .ok q → LL.Did w.mem.lists.heap q.2.lists.heap
      ⟨copies n call * xs.length + newElems ys.length d, copies n call * xs.length + xs.length,
        copies n call * (xs.length + 2) + newNodes ys.length d⟩ := by
  intro q hq
  have hent := entered hg hx hf n call
  have hjt : j < t := by
    by_contra h
    rw [hf j (by omega)] at hx; cases hx
  simp only [plainly, Prog.bind_run, Part.on, show lists.get w.mem = w.mem.lists from rfl] at hq
  cases he : Model.LL.run K.cfg (.newMove t j :: (adapts t n ++ call.enter (t + 3 * n))) w.mem.lists with
  | ok q1 =>
    obtain ⟨rs, w'⟩ := q1
    obtain ⟨d1, hpar⟩ := entered_work hg hx hf n call he
    rw [he] at hent hq
    obtain ⟨hr, hu, hj, hlow, hgone, hsome⟩ := hent
    have hd' : Unused (lists.put w.mem w') d := unused_entered hd hB (by rw [hx]; simp) hlow
    have hpl := plain_ok (w := ⟨w.client, lists.put w.mem w'⟩) (Good.put_lists hg hr) hd' ys
    simp only [Out.bind_ok] at hq
    cases hp : plain K ys d (lists.put w.mem w') with
    | ok p =>
      rw [show plain K ys d (⟨w.client, lists.put w.mem w'⟩ : World κ (Memory α β)).mem = _ from hp] at hpl
      obtain ⟨hg2, hm, ho⟩ := hpl
      have d2 := plain_work (m := lists.put w.mem w') (Good.put_lists hg hr) hd' ys hp
      rw [hp] at hq
      simp only [Out.bind_ok] at hq
      have hb := param_ge call (t + 3 * n)
      -- the lists after the new container was made
      have hL : (∀ l, (∀ i, ¬ (∃ h : γ = α, (h ▸ d : Dst α β α) = .list i ∧ l = i)) → Spec.LL.view p.2.lists l = Spec.LL.view w' l) := by
        intro l hl
        cases d with
        | list i => exact ho.1 l fun e => hl i ⟨rfl, rfl, e⟩
        | vec i => rw [ho.2.1]; rfl
        | vec' i => rw [ho.2.2.1]; rfl
        | list' i => rw [ho.2.2.1]; rfl
      have hT : ∀ l, t ≤ l → Spec.LL.view p.2.lists l = Spec.LL.view w' l := by
        intro l hl
        refine hL l fun i => ?_
        rintro ⟨h, e, rfl⟩
        subst h; subst e
        exact absurd hB (by simp only [Below]; omega)
      have hJ : Spec.LL.view p.2.lists j = some ⟨none, a⟩ := by
        rw [← hj]
        refine hL j fun i => ?_
        rintro ⟨h, e, rfl⟩
        subst h; subst e
        rw [show Spec.LL.view w.mem.lists j = none from hd] at hx; cases hx
      obtain ⟨rs2, e2⟩ := leave_spec (b := t + 3 * n) (n := m) (A := Spec.LL.view p.2.lists) (dbl := K.cfg.dbl) (dflt := K.cfg.dflt) call
        (by rw [hT _ (by omega)]; exact hu) (fun l h1 h2 => by rw [hT l (by omega)]; exact hsome l h1 h2)
      have hwk := leave_work (n := m) (A := Spec.LL.view p.2.lists) (dbl := K.cfg.dbl) (dflt := K.cfg.dflt) call
        (by rw [hT _ (by omega)]; exact hu) (params_congr hpar fun l hl => hT l (by omega))
      rw [show lists.get p.2 = p.2.lists from rfl] at hq
      cases he2 : Model.LL.run K.cfg (.drain (call.param (t + 3 * n)) (List.replicate m .front) :: call.leave (t + 3 * n)) p.2.lists with
      | ok q2 =>
        have d3 := LL.reach_workRun _ hg2.lists e2 he2
        rw [hwk] at d3
        rw [he2] at hq
        cases hq
        refine LL.did_of ((d1.trans d2).trans d3) ?_
        simp only [LL.work_add]
        cases call <;> simp [copies, extra, Nat.add_mul] <;> omega
      | _ => rw [he2] at hq; cases hq
    | _ => rw [hp] at hq; cases hq
  | _ => rw [he] at hq; cases hq

end

end Verif.Proof.Consume
