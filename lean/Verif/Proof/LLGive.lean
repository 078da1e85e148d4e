import Verif.Proof.LLKeep
import Verif.Spec.LinkedListGive
/-! # Moving elements out of lists: proofs -/
namespace Verif.Proof.LLGive
open Verif Verif.Model.LL Verif.Proof.LL
open Verif.Model.LLGive
open Verif.Spec.LL hiding sorted
open Verif.Spec.LLGive

variable {α β : Type} {cfg : Cfg α} {C : Ghost α} {w : World α}

/-- A heap with the same nodes linked the same way. -/
structure Same (h h' : Heap α) : Prop where
  nodes : ∀ a, h.info a = none ↔ h'.info a = none
  nxt : h.nxt = h'.nxt

theorem store_same {p : Ptr} {y : α} {h h' : Heap α} (hs : store p y h = .ok ((), h')) : Same h h' := by
  simp only [store, withNode] at hs
  repeat' split at hs
  all_goals first | (cases hs; done) | skip
  rename_i b _ i hb _ _ _
  cases hs
  refine ⟨fun c => ?_, rfl⟩
  simp only [upd]
  split
  · subst_vars; simp_all
  · rfl

theorem getNext_same {h h' : Heap α} (e : Same h h') (p : Ptr) :
    (∃ q, getNext p h = .ok (q, h) ∧ getNext p h' = .ok (q, h')) ∨ (getNext p h = .ub ∧ getNext p h' = .ub) := by
  simp only [getNext, withNode]
  cases p with
  | none => exact .inr ⟨rfl, rfl⟩
  | some a =>
    simp only
    have := e.nodes a
    cases ha : h.info a with
    | none => rw [this.1 ha]; exact .inr ⟨rfl, rfl⟩
    | some i =>
      cases ha' : h'.info a with
      | none => rw [this.2 ha'] at ha; cases ha
      | some i' =>
        simp only [← e.nxt]
        cases h.nxt a with
        | none => exact .inr ⟨rfl, rfl⟩
        | some q => exact .inl ⟨q, rfl, rfl⟩

theorem advance_same {h h' : Heap α} (e : Same h h') (n : Nat) (p : Ptr) :
    (∃ q, advance n p h = .ok (q, h) ∧ advance n p h' = .ok (q, h')) ∨ (advance n p h = .ub ∧ advance n p h' = .ub) := by
  induction n generalizing p with
  | zero => exact .inl ⟨p, rfl, rfl⟩
  | succ n ih =>
    simp only [advance, Prog.bind_run]
    rcases getNext_same e p with ⟨q, h1, h2⟩ | ⟨h1, h2⟩
    · rw [h1, h2, Out.bind_ok, Out.bind_ok]; exact ih q
    · rw [h1, h2]; exact .inr ⟨rfl, rfl⟩

theorem moveOut_some {mv : α → α} {A A1 : Ideal α} {j k : Nat} {x : α} (h : moveOut mv A j k = some (x, A1)) :
    ∃ v xs, A j = some v ∧ v.items = some xs ∧ xs[k]? = some x ∧ A1 = put A j (some ⟨some (xs.set k (mv x)), v.alloc⟩) := by
  simp only [moveOut, Option.bind_eq_some_iff, Option.map_eq_some_iff] at h
  obtain ⟨v, hv, xs, hxs, y, hy, e⟩ := h
  cases e
  exact ⟨v, xs, hv, hxs, hy, rfl⟩

/-- Moving out element `k` of list `j`: the node found, what `take` does, and the invariant afterwards. -/
theorem take_ok {A1 : Ideal α} (I : Inv cfg C w) {j k : Nat} {x : α} (h : moveOut cfg.mv (ideal C) j k = some (x, A1)) :
    ∃ r h' C1, nodeAt j k w = .ok (r, w) ∧ take cfg r w.heap = .ok (x, h') ∧ Same w.heap h' ∧
      Inv cfg C1 { w with heap := h' } ∧ ideal C1 = A1 := by
  obtain ⟨v, xs, hv, hxs, hx, rfl⟩ := moveOut_some h
  have hk : k < xs.length := (List.getElem?_eq_some_iff.1 hx).1
  have G := step_ok (cfg := cfg) (.get j (k + 1)) I (r := .val x) (A' := ideal C) (by
    simp [specStep, ask, hv, hxs, hx, needs])
  have S := step_ok (cfg := cfg) (.set j (k + 1) (cfg.mv x)) I (r := .unit)
    (A' := put (ideal C) j (some ⟨some (xs.set k (cfg.mv x)), v.alloc⟩)) (by
    simp [specStep, edit, hv, hxs, needs]; omega)
  obtain ⟨l, hl⟩ : ∃ l, w.vars j = some l := by
    rw [I.vars]
    simp only [ideal, Option.map_eq_some_iff] at hv
    obtain ⟨o, ho, -⟩ := hv
    rw [ho]; exact ⟨_, rfl⟩
  simp only [step, look, Prog.bind_run, var_run hl, Out.bind_ok, inHeap_run, iterAt, Prog.pure_run] at G S
  have hs0 : Same w.heap w.heap := ⟨fun _ => Iff.rfl, rfl⟩
  rcases advance_same hs0 (k + 1) l.head with ⟨r, h1, -⟩ | ⟨h1, -⟩
  swap
  · rw [h1] at S; exact S.elim
  rw [h1] at G S
  simp only [Out.bind_ok] at G S
  refine ⟨r, ?_⟩
  have hload : load r w.heap = .ok (x, w.heap) := by
    simp only [load, withNode] at G ⊢
    repeat' split at G
    all_goals first | exact G.elim | skip
    rename_i b _ i hb _ y hy
    simp only [Out.bind_ok] at G
    have := G.1
    simp only [Res.val.injEq] at this
    simp [hb, hy, this]
  cases hst : store r (cfg.mv x) w.heap with
  | ok q =>
    rw [hst] at S
    simp only [Out.bind_ok] at S
    obtain ⟨-, C1, I1, e1, -⟩ := S
    refine ⟨q.2, C1, ?_, ?_, store_same hst, I1, e1⟩
    · simp only [nodeAt, Prog.bind_run, var_run hl, Out.bind_ok, inHeap_run, iterAt, h1]
    · simp only [take, Prog.bind_run, hload, Out.bind_ok, hst, Prog.pure_run]
  | oom =>
    exfalso
    simp only [store, withNode] at hst
    repeat' split at hst
    all_goals cases hst
  | div => rw [hst] at S; exact S.elim
  | panic => rw [hst] at S; exact S.elim
  | ub => rw [hst] at S; exact S.elim

/-- Looking up a position before an element is moved out, or after. -/
theorem lookup_take {h h' : Heap α} (e : Same h h') {l : Lst} {p : Nat} {f g : Ptr → M α β} (hfg : ∀ q, f q h = g q h') :
    (iterAt l p >>= f : M α β) h = (iterAt l p >>= g : M α β) h' := by
  simp only [iterAt, Prog.bind_run]
  rcases advance_same e p l.head with ⟨q, h1, h2⟩ | ⟨h1, h2⟩
  · rw [h1, h2, Out.bind_ok, Out.bind_ok]; exact hfg q
  · rw [h1, h2]; rfl

theorem assert_take {h h' : Heap α} {r : Ptr} {x : α} (ht : take cfg r h = .ok (x, h')) (b : Bool) (f : α → M α β) :
    (dbgAssert cfg b >>= fun _ => take cfg r >>= f : M α β) h = (dbgAssert cfg b >>= fun _ => f x : M α β) h' := by
  simp only [Prog.bind_run, dbgAssert]
  split
  · rfl
  · simp only [Prog.pure_run, Out.bind_ok, ht]

theorem emplaceAfter_move {h h' : Heap α} {r : Ptr} {x : α} (ht : take cfg r h = .ok (x, h')) (l : Lst) (p : Ptr) :
    emplaceAfterMove cfg l p r h = emplaceAfter cfg l p (.tmp x) h' := by
  unfold emplaceAfterMove emplaceAfter
  rw [assert_take ht]
  rfl

theorem emplace_move {h h' : Heap α} {r : Ptr} {x : α} (ht : take cfg r h = .ok (x, h')) (l : Lst) (p : Ptr) :
    emplaceMove cfg l p r h = emplace cfg l p (.tmp x) h' := by
  unfold emplaceMove emplace
  rw [assert_take ht]
  rfl

theorem pushFront_move {h h' : Heap α} {r : Ptr} {x : α} (ht : take cfg r h = .ok (x, h')) (l : Lst) :
    pushFrontMove cfg l r h = pushFront cfg l (.tmp x) h' := by
  unfold pushFrontMove pushFront
  simp only [Prog.bind_run, ht, Out.bind_ok, deref, Prog.pure_run]

theorem pushBack_move {h h' : Heap α} {r : Ptr} {x : α} (ht : take cfg r h = .ok (x, h')) (l : Lst) :
    pushBackMove cfg l r h = pushBack cfg l (.tmp x) h' := by
  unfold pushBackMove pushBack
  simp only [Prog.bind_run, ht, Out.bind_ok, deref, Prog.pure_run]

/-- A member run on one heap instead of another. -/
theorem change_eq {i : Nat} {f g : Lst → M α Lst} {h' : Heap α} (hfg : ∀ l, f l w.heap = g l h') :
    change i f w = change i g { w with heap := h' } := by
  simp only [change, Prog.bind_run, var]
  cases w.vars i with
  | none => rfl
  | some l => simp only [Out.bind_ok, inHeap_run, hfg l]

theorem changeP_eq {i : Nat} {f g : Lst → M α (Lst × Ptr)} {h' : Heap α} (hfg : ∀ l, f l w.heap = g l h') :
    changeP i f w = changeP i g { w with heap := h' } := by
  simp only [changeP, Prog.bind_run, var]
  cases w.vars i with
  | none => rfl
  | some l => simp only [Out.bind_ok, inHeap_run, hfg l]

theorem look_eq {i : Nat} {f g : Lst → M α (Res α)} {h' : Heap α} (hfg : ∀ l, f l w.heap = g l h') :
    look i f w = look i g { w with heap := h' } := by
  simp only [look, Prog.bind_run, var]
  cases w.vars i with
  | none => rfl
  | some l => simp only [Out.bind_ok, inHeap_run, hfg l]

theorem of_needs {γ : Type} {g : Prop} [Decidable g] {x : Option γ} {y : γ} (h : needs g x = some y) : g ∧ x = some y := by
  simp only [needs] at h
  split at h
  · exact ⟨by assumption, h⟩
  · cases h

theorem step_give (op : GOp α) (I : Inv cfg C w) {r : Res α} {A' : Ideal α}
    (hs : giveStep false cfg.dbl cfg.dflt cfg.mv op (ideal C) = some (r, A')) :
    (gstep cfg op w).SafeIf (Refuses cfg) fun q => q.1 = r ∧ ∃ C', Inv cfg C' q.2 ∧ ideal C' = A' := by
  have fin : ∀ {C1 : Ghost α} {w1 : World α} {bop : Op α}, Inv cfg C1 w1 →
      specStep false cfg.dbl cfg.dflt bop (ideal C1) = some (r, A') → gstep cfg op w = step cfg bop w1 →
      (gstep cfg op w).SafeIf (Refuses cfg) fun q => q.1 = r ∧ ∃ C', Inv cfg C' q.2 ∧ ideal C' = A' := by
    intro C1 w1 bop I1 h1 e
    rw [e]
    refine (step_ok bop I1 h1).imp ?_
    rintro q ⟨h1, C', h2, h3, -⟩
    exact ⟨h1, C', h2, h3⟩
  cases op with
  | base op => exact fin I hs rfl
  | takeOut j k =>
    simp only [giveStep, Option.map_eq_some_iff] at hs
    obtain ⟨⟨x, A1⟩, h1, e⟩ := hs
    cases e
    obtain ⟨p, h', C1, e1, e2, -, I1, e3⟩ := take_ok I h1
    simp only [gstep, Prog.bind_run, e1, Out.bind_ok, inHeap_run, e2, Prog.pure_run]
    exact ⟨rfl, C1, I1, e3⟩
  | setMove i p j k =>
    simp only [giveStep] at hs
    obtain ⟨-, hs⟩ := of_needs hs
    simp only [Option.bind_eq_some_iff] at hs
    obtain ⟨⟨x, A1⟩, h1, h2⟩ := hs
    obtain ⟨r, h', C1, e1, e2, e4, I1, e3⟩ := take_ok I h1
    refine fin I1 (bop := .set i p x) (by rw [e3]; exact h2) ?_
    simp only [gstep, Prog.bind_run, e1, Out.bind_ok, step]
    refine look_eq fun l => lookup_take e4 fun q => ?_
    simp only [Prog.bind_run, e2, Out.bind_ok]
  | pushFront i j k =>
    simp only [giveStep, Option.bind_eq_some_iff] at hs
    obtain ⟨⟨x, A1⟩, h1, h2⟩ := hs
    obtain ⟨r, h', C1, e1, e2, e4, I1, e3⟩ := take_ok I h1
    refine fin I1 (bop := .pushFront i (.val x)) (by rw [e3]; exact h2) ?_
    simp only [gstep, Prog.bind_run, e1, Out.bind_ok, step, argRef, Prog.pure_run]
    exact change_eq fun l => pushFront_move e2 l
  | pushBack i j k =>
    simp only [giveStep] at hs
    obtain ⟨hd, hs⟩ := of_needs hs
    simp only [Option.bind_eq_some_iff] at hs
    obtain ⟨⟨x, A1⟩, h1, h2⟩ := hs
    obtain ⟨r, h', C1, e1, e2, e4, I1, e3⟩ := take_ok I h1
    refine fin I1 (bop := .pushBack i (.val x)) (by rw [e3]; simp only [specStep, needs, hd, if_true]; exact h2) ?_
    simp only [gstep, Prog.bind_run, e1, Out.bind_ok, step, argRef, Prog.pure_run]
    exact change_eq fun l => pushBack_move e2 l
  | insertAfter i p j k =>
    simp only [giveStep, Option.bind_eq_some_iff] at hs
    obtain ⟨⟨x, A1⟩, h1, h2⟩ := hs
    obtain ⟨r, h', C1, e1, e2, e4, I1, e3⟩ := take_ok I h1
    refine fin I1 (bop := .insertAfter i p (.val x)) (by rw [e3]; exact h2) ?_
    simp only [gstep, Prog.bind_run, e1, Out.bind_ok, step, argRef, Prog.pure_run]
    exact changeP_eq fun l => lookup_take e4 fun q => emplaceAfter_move e2 l q
  | insert i p j k =>
    simp only [giveStep] at hs
    obtain ⟨hd, hs⟩ := of_needs hs
    simp only [Option.bind_eq_some_iff] at hs
    obtain ⟨⟨x, A1⟩, h1, h2⟩ := hs
    obtain ⟨r, h', C1, e1, e2, e4, I1, e3⟩ := take_ok I h1
    refine fin I1 (bop := .insert i p (.val x)) (by rw [e3]; simp only [specStep, hd]; rw [needs, if_pos trivial]; exact h2) ?_
    simp only [gstep, Prog.bind_run, e1, Out.bind_ok, step, argRef, Prog.pure_run]
    exact changeP_eq fun l => lookup_take e4 fun q => emplace_move e2 l q

theorem run_give (ops : List (GOp α)) (I : Inv cfg C w) {rs : List (Res α)} {A' : Ideal α}
    (hs : giveRun false cfg.dbl cfg.dflt cfg.mv ops (ideal C) = some (rs, A')) :
    (grun cfg ops w).SafeIf (Refuses cfg) fun q => q.1 = rs ∧ ∃ C', Inv cfg C' q.2 ∧ ideal C' = A' := by
  induction ops generalizing C w rs with
  | nil => cases hs; exact ⟨rfl, C, I, rfl⟩
  | cons op ops ih =>
    simp only [giveRun, Option.bind_eq_some_iff, Option.map_eq_some_iff] at hs
    obtain ⟨⟨r, A1⟩, h1, ⟨rs', A2⟩, h2, e⟩ := hs
    cases e
    simp only [grun, Prog.bind_run]
    refine (step_give op I h1).bind ?_
    rintro ⟨r', w1⟩ ⟨hr, C1, I1, e1⟩
    simp only at hr I1 ⊢
    subst hr e1
    refine (ih I1 h2).bind ?_
    rintro ⟨rs1, w2⟩ ⟨hr, C2, I2, e2⟩
    simp only at hr I2 ⊢
    subst hr e2
    exact ⟨rfl, C2, I2, rfl⟩

end Verif.Proof.LLGive
