import Verif.Props.VectorEdit
import Verif.Proof.VectorExact
import Verif.Spec.VectorExact
/-! # Vectors: the restricted specification is the largest the code meets (C91) -/
namespace Verif.Props
open Verif Verif.Model.Mem Verif.Model.Vector Verif.Proof.Mem Verif.Proof.Vector
open Verif.Spec.Vector hiding upd

variable {α : Type} {ty : ElemTy α}

private theorem change_inv {w : World α} {i : Nat} {v : Vec} (hv : w.vars i = some v) {f : Vec → M α Vec} {q : Res α × World α}
    (e : change i f w = .ok q) : ∃ v', f v w.heap = .ok (v', q.2.heap) ∧
      q.2.vars i = some v' := by
  simp only [change, Prog.bind_run, run_var hv, Out.bind_ok, inHeap_run] at e
  obtain ⟨⟨v', w1⟩, e1, e⟩ := of_bind e
  obtain ⟨⟨v2, h2⟩, e2, e1⟩ := of_bind e1
  cases e1
  cases e
  exact ⟨v2, e2, by simp [bindVar]⟩

private theorem change'_inv {w : World α} {i : Nat} {v : Vec} (hv : w.vars i = some v) {f : Vec → M α (Vec × Option Nat)}
    {q : Res α × World α} (e : change' i f w = .ok q) :
    ∃ v' p h', f v w.heap = .ok ((v', p), h') ∧ q.2.heap = h' ∧ q.2.vars i = some v' := by
  simp only [change', Prog.bind_run, run_var hv, Out.bind_ok, inHeap_run] at e
  obtain ⟨⟨v', w1⟩, e1, e⟩ := of_bind e
  obtain ⟨⟨v2, h2⟩, e2, e1⟩ := of_bind e1
  cases e1
  cases e
  exact ⟨v2.1, v2.2, h2, e2, rfl, by simp [bindVar]⟩

private theorem elemsFrom_length {h : Heap α} {p : Option Nat} {n i : Nat} {xs : List α} (e : elemsFrom h p i n = some xs) : xs.length = n := by
  induction n generalizing i xs with
  | zero => cases e; rfl
  | succ n ih =>
    simp only [elemsFrom, Option.bind_eq_some_iff, Option.map_eq_some_iff] at e
    obtain ⟨x, _, ys, h1, rfl⟩ := e
    simp [ih h1]

private theorem seen {A : Ideal α} {w : World α} {i : Nat} {a : Var α} {v : Vec} (e : view w = put A i (some a)) (hv : w.vars i = some v) :
    elems w.heap v = some a.xs ∧ v.len = a.xs.length := by
  have h := congrFun e i
  simp only [view, hv, put, Option.bind_some, if_true, Option.map_eq_some_iff] at h
  obtain ⟨xs, h1, h2⟩ := h
  cases h2
  exact ⟨h1, (elemsFrom_length h1).symm⟩

private theorem only_true {β : Type} {g : Prop} [Decidable g] {x : Option β} : only true g x = x := by simp [only]
private theorem only_pos {β : Type} {b : Bool} {g : Prop} [Decidable g] {x : Option β} (h : g) : only b g x = x := by simp [only, h]

/-- C91.  In every reachable state, a call that returns what is specified and leaves every vector as specified is one of
the calls the restricted specification allows (so theorems about restricted histories leave out no call that the code
does correctly). -/
theorem C91_exact {w : World α} (hr : Reach ty w) {op : Op α} {r : Res α} {A' : Ideal α}
    (hs : specStep true ty.size ty.dflt op (view w) = some (r, A')) (hf : fits ty.size op (view w))
    (hc : ¬ coincidence op (view w)) {q : Res α × World α} (he : step ty op w = .ok q) (hA : view q.2 = A') :
    specStep false ty.size ty.dflt op (view w) = some (r, A') := by
  have I := reach_inv hr
  have hbal := reach_bal hr
  cases op with
  | newFill i n rf a | newCount i n a | newList i xs a | newRange i xs a | reserve i n | resize i n | assignList i xs =>
    simp only [fits] at hf
    simp only [specStep, only_true, only_pos hf] at hs ⊢
    exact hs
  | listAssign i xs => exact absurd he (C10_list_assign_fails.1 _ _ _ _)
  | push i rf =>
    simp only [specStep, only_true, Option.bind_eq_some_iff] at hs
    obtain ⟨x, hx, hs⟩ := hs
    have hs' := hs
    obtain ⟨a, r', a', ha, hf', hp⟩ := of_upd hs; cases hp
    by_cases hg : inside i rf = false ∨ a.xs.length < a.cap
    · simp only [specStep, hx, Option.bind_some, Spec.Vector.upd, ha, only_pos hg] at hs' ⊢
      exact hs'
    · exfalso
      rw [not_or] at hg
      obtain ⟨ref, e1, st, ins⟩ := arg_ok I hx
      obtain ⟨v, hv, rv, hcp, _⟩ := I.get ha
      obtain ⟨k, rfl, _, hk⟩ := arg_inside hv ha ins (by simpa using hg.1)
      have hle := rv.le
      have := (C14_alias_fails hr ha (List.getElem?_eq_some_iff.1 hk).1).1 (by omega)
      rw [he] at this
      rcases this with h | h <;> cases h
  | assignFill i n rf =>
    simp only [fits] at hf
    simp only [specStep, only_true, Option.bind_eq_some_iff] at hs
    obtain ⟨x, hx, hs⟩ := hs
    have hs' := hs
    obtain ⟨a, r', a', ha, hf', hp⟩ := of_upd hs; cases hp
    by_cases hg : n = 0 ∨ inside i rf = false
    · simp only [specStep, hx, Option.bind_some, Spec.Vector.upd, ha, only_pos (And.intro hf hg)] at hs' ⊢
      exact hs'
    · exfalso
      rw [not_or] at hg
      obtain ⟨ref, e1, st, ins⟩ := arg_ok I hx
      obtain ⟨v, hv, rv, hcp, _⟩ := I.get ha
      obtain ⟨k, rfl, _, hk⟩ := arg_inside hv ha ins (by simpa using hg.2)
      have := (C14_alias_fails hr ha (List.getElem?_eq_some_iff.1 hk).1).2.1 n (by omega) hf
      rw [he] at this
      rcases this with h | h <;> cases h
  | resizeFill i n rf =>
    simp only [fits] at hf
    simp only [specStep, only_true, Option.bind_eq_some_iff] at hs
    obtain ⟨x, hx, hs⟩ := hs
    have hs' := hs
    obtain ⟨a, r', a', ha, hf', hp⟩ := of_upd hs; cases hp
    by_cases hg : n ≤ a.xs.length ∨ inside i rf = false ∨ n ≤ a.cap
    · simp only [specStep, hx, Option.bind_some, Spec.Vector.upd, ha, only_pos (And.intro hf hg)] at hs' ⊢
      exact hs'
    · exfalso
      rw [not_or, not_or] at hg
      obtain ⟨ref, e1, st, ins⟩ := arg_ok I hx
      obtain ⟨v, hv, rv, hcp, _⟩ := I.get ha
      obtain ⟨k, rfl, _, hk⟩ := arg_inside hv ha ins (by simpa using hg.2.1)
      have := (C14_alias_fails hr ha (List.getElem?_eq_some_iff.1 hk).1).2.2 n (by omega) hf
      rw [he] at this
      rcases this with h | h <;> cases h
  | eraseRange i lo hi =>
    simp only [specStep, only_true] at hs
    have hs' := hs
    obtain ⟨a, r', a', ha, hf', hp⟩ := of_upd hs; cases hp
    split at hf'
    · rename_i hle
      by_cases hg : lo < hi ∨ hi = a.xs.length
      · simp only [specStep, Spec.Vector.upd, ha, Option.bind_some, only_pos hg] at hs' ⊢
        exact hs'
      · exfalso
        rw [not_or] at hg
        have heq : lo = hi := by omega
        subst heq
        rw [C07_erase_empty_range_fails hr ha (by omega)] at he
        cases he
    · cases hf'
  | insert i p rf =>
    simp only [specStep, only_true, Option.bind_eq_some_iff] at hs
    obtain ⟨x, hx, hs⟩ := hs
    have hs' := hs
    obtain ⟨a, r', a', ha, hf', hp⟩ := of_upd hs; cases hp
    split at hf'
    · rename_i hle
      by_cases hg : 1 ≤ p
      · simp only [specStep, hx, Option.bind_some, Spec.Vector.upd, ha, only_pos hg] at hs' ⊢
        exact hs'
      · exfalso
        have hp0 : p = 0 := by omega
        subst hp0
        cases hf'
        obtain ⟨v, hv, rv, hcp, _⟩ := I.get ha
        obtain ⟨ref, e1, st, ins⟩ := arg_ok I hx
        simp only [step, Prog.bind_run, e1, Out.bind_ok] at he
        obtain ⟨v', p', h0, e2, hh0, hv'⟩ := change'_inv hv he
        simp only [Model.Vector.insert, Prog.bind_run] at e2
        obtain ⟨q1, e3, e2⟩ := of_bind e2
        cases e2
        have rd : deref ref w.heap = .ok (x, w.heap) := by
          cases hin : inside i rf with
          | false => exact (arg_outside I hv st hin).now
          | true =>
            obtain ⟨k, _, h1, h2⟩ := arg_inside hv ha ins hin
            subst h1
            exact rv.slot h2
        rw [rd] at e3
        simp only [Out.bind_ok] at e3
        obtain ⟨⟨v2, h2⟩, e5, e3⟩ := of_bind e3
        cases e3
        by_cases hne : a.xs = []
        · rw [hne] at rv
          have := emplace_uncounted rv hbal e5
          have h3 := (seen hA hv').2
          simp only [List.length_append, List.length_cons] at h3 this
          omega
        · exact emplace_never rv hbal hne _ e5
    · cases hf'
  | emplace i p x =>
    simp only [specStep, only_true] at hs
    have hs' := hs
    obtain ⟨a, r', a', ha, hf', hp⟩ := of_upd hs; cases hp
    split at hf'
    · rename_i hle
      by_cases hg : 1 ≤ p
      · simp only [specStep, Option.bind_some, Spec.Vector.upd, ha, only_pos hg] at hs' ⊢
        exact hs'
      · exfalso
        have hp0 : p = 0 := by omega
        subst hp0
        cases hf'
        obtain ⟨v, hv, rv, hcp, _⟩ := I.get ha
        obtain ⟨v', e2, hv'⟩ := change_inv hv he
        by_cases hne : a.xs = []
        · rw [hne] at rv
          have := emplace_uncounted rv hbal e2
          have h3 := (seen hA hv').2
          simp only [List.length_append, List.length_cons] at h3 this
          omega
        · exact emplace_never rv hbal hne _ e2
    · cases hf'
  | insertRange i p ys =>
    simp only [specStep, only_true] at hs
    have hs' := hs
    obtain ⟨a, r', a', ha, hf', hp⟩ := of_upd hs; cases hp
    have hw := hf a ha
    split at hf'
    · rename_i hle
      by_cases hg : (1 ≤ p ∨ (a.xs = [] ∧ ys = [])) ∧ (0 < ys.length ∨ p = a.xs.length)
      · simp only [specStep, Option.bind_some, Spec.Vector.upd, ha, only_pos (And.intro hg.1 (And.intro hg.2 hw))] at hs' ⊢
        exact hs'
      · exfalso
        cases hf'
        obtain ⟨v, hv, rv, hcp, _⟩ := I.get ha
        obtain ⟨v', p', h0, e2, hh0, hv'⟩ := change'_inv hv he
        simp only [Prog.bind_run] at e2
        obtain ⟨⟨⟨v2, p2⟩, h2⟩, e3, e2⟩ := of_bind e2
        cases e2
        have h3 := seen hA hv'
        by_cases hne : a.xs = []
        · rw [hne] at rv hw hle hg h3
          have hp0 : p = 0 := by simpa using hle
          subst hp0
          have := insertRange_uncounted rv hbal (by simpa using hw) e3
          have h4 := h3.2
          simp only [List.take_nil, List.drop_nil, List.nil_append, List.append_nil] at h4 this
          have hy : ys = [] := List.length_eq_zero_iff.1 (by omega)
          exact hg ⟨.inr ⟨rfl, hy⟩, .inr rfl⟩
        · by_cases hp0 : p = 0
          · subst hp0
            exact insertRange_never rv hbal hne hw _ e3
          · have h0 : ys = [] ∧ p ≠ a.xs.length := by
              constructor
              · by_cases hy : ys = []
                · exact hy
                · exact absurd ⟨.inl (by omega), .inl (List.length_pos_iff.2 hy)⟩ hg
              · exact fun h => hg ⟨.inl (by omega), .inr h⟩
            obtain ⟨hsp, hzn, hpl, hll⟩ := take_drop_split hle (by omega)
            obtain ⟨rfl, hpn⟩ := h0
            rw [hsp] at rv
            obtain ⟨h', e4, hno⟩ := insertRange_none rv hzn (by
              intro h; rw [List.drop_eq_nil_iff] at h; omega)
            rw [← hpl] at e4
            rw [e4] at e3
            cases e3
            rw [hh0, hno] at h3
            cases h3.1
    · cases hf'
  | insertFill i p n rf =>
    simp only [specStep, only_true, Option.bind_eq_some_iff] at hs
    obtain ⟨x, hx, hs⟩ := hs
    have hs' := hs
    obtain ⟨a, r', a', ha, hf', hp⟩ := of_upd hs; cases hp
    have hw := hf a ha
    split at hf'
    · rename_i hle
      by_cases hg : (1 ≤ p ∨ (a.xs = [] ∧ n = 0)) ∧ (0 < n ∨ p = a.xs.length) ∧
          (n = 0 ∨ inside i rf = false ∨ (a.xs.length + n ≤ a.cap ∧ insideBefore i p rf = true))
      · simp only [specStep, hx, Option.bind_some, Spec.Vector.upd, ha,
          only_pos (And.intro hg.1 (And.intro hg.2.1 (And.intro hw hg.2.2)))] at hs' ⊢
        exact hs'
      · exfalso
        cases hf'
        obtain ⟨v, hv, rv, hcp, hal⟩ := I.get ha
        obtain ⟨ref, e1, st, ins⟩ := arg_ok I hx
        have he' := he
        simp only [step, Prog.bind_run, e1, Out.bind_ok] at he
        obtain ⟨v', p', h0, e2, hh0, hv'⟩ := change'_inv hv he
        simp only [Prog.bind_run] at e2
        obtain ⟨⟨⟨v2, p2⟩, h2⟩, e3, e2⟩ := of_bind e2
        cases e2
        have h3 := seen hA hv'
        by_cases hne : a.xs = []
        · have hl0 : v.len = 0 := by rw [rv.len, hne]; rfl
          rw [hne] at hle hg h3
          have hp0 : p = 0 := by simpa using hle
          subst hp0
          have := insertFill_uncounted hl0 e3
          have h4 := h3.2
          simp only [List.take_nil, List.drop_nil, List.nil_append, List.append_nil, List.length_replicate] at h4 this
          have hy : n = 0 := by omega
          exact hg ⟨.inr ⟨rfl, hy⟩, .inr rfl, .inl hy⟩
        · by_cases hp0 : p = 0
          · subst hp0
            exact insertFill_never rv hbal hne hw _ e3
          · obtain ⟨hsp, hzn, hpl, hll⟩ := take_drop_split hle (by omega)
            by_cases hn : n = 0
            · subst hn
              have hpn : p ≠ a.xs.length := fun h => hg ⟨.inl (by omega), .inr h, .inl rfl⟩
              rw [hsp] at rv
              obtain ⟨h', e4, hno⟩ := insertFill_none (r := ref) rv hzn (by
                intro h; rw [List.drop_eq_nil_iff] at h; omega)
              rw [← hpl] at e4
              rw [e4] at e3
              cases e3
              rw [hh0, hno] at h3
              cases h3.1
            · have hg2 : ¬ (inside i rf = false ∨ (a.xs.length + n ≤ a.cap ∧ insideBefore i p rf = true)) :=
                fun h => hg ⟨.inl (by omega), .inl (by omega), .inr h⟩
              rw [not_or] at hg2
              obtain ⟨k, rfl, rfl, hk⟩ := arg_inside hv ha ins (by simpa using hg2.1)
              have hkl := (List.getElem?_eq_some_iff.1 hk).1
              by_cases hbad : v.cap < a.xs.length + n ∨ (p ≤ k ∧ k < p + n)
              · rw [hsp] at rv
                refine insertFill_alias (n := n) (k := k) rv hbal hzn (by omega) (by rw [← hsp]; exact hkl)
                  (by rw [hll]; exact hw) ?_ _ (hpl ▸ e3)
                rw [hll, ← hpl]
                exact hbad
              · rw [not_or] at hbad
                have hkp : p ≤ k := by
                  refine Nat.le_of_not_lt fun hlt => hg2.2 ⟨by omega, ?_⟩
                  simp [insideBefore, hlt]
                have hkn : p + n ≤ k := by omega
                obtain ⟨y, hy⟩ : ∃ y, a.xs[k - n]? = some y := ⟨_, List.getElem?_eq_getElem (by omega)⟩
                rw [hsp] at rv
                obtain ⟨c, t, _⟩ := Safe.of_ok (insertFill_ok (x := y) (r := .slot v.ptr k) (pos := p) (n := n) rv hbal hzn
                  (.inl (by omega)) hpl (.inr (.inr ⟨by rw [hll]; omega, k, rfl, .inr ⟨by rw [← hpl]; exact hkn, by
                    rw [List.getElem?_drop, ← hpl, show p + (k - p - n) = k - n by omega]; exact hy⟩⟩))
                  (by rw [hll]; exact hw)) e3
                have h4 := h3.1
                rw [hh0, t.rep.elems] at h4
                simp only [Option.some.injEq, List.append_cancel_left_eq, List.append_cancel_right_eq] at h4
                have hxy : y = x := by
                  obtain ⟨m, rfl⟩ : ∃ m, n = m + 1 := ⟨n - 1, by omega⟩
                  simp only [List.replicate_succ, List.cons.injEq] at h4
                  exact h4.1
                subst hxy
                exact hc ⟨rfl, hkn, a, y, ha, hk, hy⟩
    · cases hf'
  | _ => exact hs

private def Sub {β : Type} (x y : Option β) : Prop := ∀ p, x = some p → y = some p

private theorem Sub.rfl {β : Type} {x : Option β} : Sub x x := fun _ h => h
private theorem Sub.only {β : Type} {g : Prop} [Decidable g] {x : Option β} : Sub (only false g x) (only true g x) := fun p h => by
  rw [only_true]; exact (of_only h).2
private theorem Sub.bind {β γ : Type} {x : Option β} {f g : β → Option γ} (h : ∀ b, Sub (f b) (g b)) : Sub (x.bind f) (x.bind g) := by
  intro p hp
  obtain ⟨b, hb, hp⟩ := Option.bind_eq_some_iff.1 hp
  exact Option.bind_eq_some_iff.2 ⟨b, hb, h b p hp⟩
private theorem Sub.ite {β : Type} {c : Prop} [Decidable c] {x y z : Option β} (h : Sub x y) : Sub (if c then x else z) (if c then y else z) := by
  split
  · exact h
  · exact Sub.rfl
private theorem Sub.upd {A : Ideal α} {i : Nat} {f g : Var α → Option (Res α × Var α)} (h : ∀ b, Sub (f b) (g b)) :
    Sub (Spec.Vector.upd A i f) (Spec.Vector.upd A i g) := by
  refine Sub.bind fun v p hp => ?_
  obtain ⟨q, hq, hp⟩ := Option.map_eq_some_iff.1 hp
  exact Option.map_eq_some_iff.2 ⟨q, h v q hq, hp⟩

/-- what the restricted specification allows, the full one allows with the same result -/
private theorem restricted_full {size : Nat} {dflt : α} {op : Op α} {A : Ideal α} {p : Res α × Ideal α}
    (h : specStep false size dflt op A = some p) : specStep true size dflt op A = some p := by
  suffices hs : Sub (specStep false size dflt op A) (specStep true size dflt op A) from hs p h
  cases op <;> simp only [specStep] <;>
    first
    | exact Sub.rfl
    | exact Sub.only
    | exact Sub.bind fun _ => Sub.only
    | exact Sub.upd fun _ => Sub.only
    | exact Sub.upd fun _ => Sub.ite Sub.only
    | exact Sub.bind fun _ => Sub.upd fun _ => Sub.only
    | exact Sub.bind fun _ => Sub.upd fun _ => Sub.ite Sub.only

/-- C91, both directions: in a reachable state, a call that returns has followed the full specification exactly when the
restricted one allows it. -/
theorem C91_exact_iff {w : World α} (hr : Reach ty w) {op : Op α} (hf : fits ty.size op (view w)) (hc : ¬ coincidence op (view w))
    {q : Res α × World α} (he : step ty op w = .ok q) :
    specStep true ty.size ty.dflt op (view w) = some (q.1, view q.2) ↔ (specStep false ty.size ty.dflt op (view w)).isSome := by
  constructor
  · intro h
    rw [C91_exact hr h hf hc he rfl]; rfl
  · intro h
    obtain ⟨⟨r, A'⟩, h⟩ := Option.isSome_iff_exists.1 h
    have := reach_step hr h
    rw [he] at this
    obtain ⟨h1, h2, _⟩ := this
    rw [h1, h2]
    exact restricted_full h

/-- Reaching the end of a vector: the hypotheses hold both of an allowed call and of one that is left out. -/
example : ∃ w, Reach exTy w ∧ view w 1 = some ⟨[1, 2, 3], 3, 0⟩ ∧
    fits exTy.size (.insertFill 1 1 0 (.val 5)) (view w) ∧ ¬ coincidence (.insertFill 1 1 0 (.val 5)) (view w) ∧
    (specStep true exTy.size exTy.dflt (.insertFill 1 1 0 (.val 5)) (view w)).isSome = true ∧
    (specStep false exTy.size exTy.dflt (.insertFill 1 1 0 (.val 5)) (view w)).isSome = false ∧
    fits exTy.size (.insertFill 1 1 4 (.elem 0 0)) (view w) ∧ ¬ coincidence (.insertFill 1 1 4 (.val 5)) (view w) ∧
    (specStep false exTy.size exTy.dflt (.insertFill 1 1 4 (.val 5)) (view w)).isSome = true := by
  obtain ⟨w, h, _, h1, _⟩ := exReach
  refine ⟨w, h, h1, ?_, id, ?_, ?_, ?_, id, ?_⟩
  · intro v hv; rw [h1] at hv; cases hv; decide
  · simp [specStep, argVal, Spec.Vector.upd, h1, only]
  · simp [specStep, argVal, Spec.Vector.upd, h1, only]
  · intro v hv; rw [h1] at hv; cases hv; decide
  · simp [specStep, argVal, Spec.Vector.upd, h1, only, inside, exTy, wordSize]

private theorem change'_ok {w : World α} {i : Nat} {v v' : Vec} (hv : w.vars i = some v) {f : Vec → M α (Vec × Option Nat)}
    {p : Option Nat} {h' : Heap α} (e : f v w.heap = .ok ((v', p), h')) :
    change' i f w = .ok (.pos p, ⟨h', bindVar w.vars i (some v')⟩) := by
  simp only [change', Prog.bind_run, run_var hv, Out.bind_ok, inHeap_run, e]
  rfl

/-- C06 is false of the code for every insertion of nothing in front of an element: the call returns, and the elements
from the position on can no longer be read although they are still counted. -/
theorem C06_insert_nothing_fails {w : World α} (hr : Reach ty w) {i p : Nat} {xs : List α} {cap a : Nat}
    (hv : view w i = some ⟨xs, cap, a⟩) (h1 : 1 ≤ p) (hp : p < xs.length) :
    (∀ r x, argVal (view w) r = some x →
      ∃ w' v', step ty (.insertFill i p 0 r) w = .ok (.pos (some p), w') ∧ w'.vars i = some v' ∧ v'.len = xs.length ∧ view w' i = none) ∧
    ∃ w' v', step ty (.insertRange i p []) w = .ok (.pos (some p), w') ∧ w'.vars i = some v' ∧ v'.len = xs.length ∧ view w' i = none := by
  have I := reach_inv hr
  obtain ⟨v, hw, rv, hcp, hal⟩ := I.get hv
  simp only at rv
  obtain ⟨hsp, hzn, hpl, hll⟩ := take_drop_split (Nat.le_of_lt hp) h1
  have hl := rv.len
  rw [hsp] at rv
  have htn : xs.drop p ≠ [] := by intro h; rw [List.drop_eq_nil_iff] at h; omega
  constructor
  · intro r x hx
    obtain ⟨ref, e1, _, _⟩ := arg_ok I hx
    obtain ⟨h', e, hno⟩ := insertFill_none (r := ref) rv hzn htn
    rw [← hpl] at e
    refine ⟨⟨h', bindVar w.vars i (some v)⟩, v, ?_, by simp [bindVar], hl, ?_⟩
    · simp only [step, Prog.bind_run, e1, Out.bind_ok]
      exact change'_ok (v' := v) (h' := h') (p := some p) hw (by simp only [Prog.bind_run, e, Out.bind_ok, Prog.pure_run])
    · simp [view, bindVar, hno]
  · obtain ⟨h', e, hno⟩ := insertRange_none rv hzn htn
    rw [← hpl] at e
    refine ⟨⟨h', bindVar w.vars i (some v)⟩, v, ?_, by simp [bindVar], hl, ?_⟩
    · exact change'_ok (v' := v) (h' := h') (p := some p) hw (by simp only [Prog.bind_run, e, Out.bind_ok, Prog.pure_run])
    · simp [view, bindVar, hno]

/-- C06 is false of the code for `begin()`: inserting any number of copies, or any list, there never returns in a vector
with elements, and is not counted in a vector without. -/
theorem C06_insert_many_begin_fails {w : World α} (hr : Reach ty w) {i : Nat} {xs : List α} {cap a : Nat}
    (hv : view w i = some ⟨xs, cap, a⟩) :
    (∀ n r x, argVal (view w) r = some x → (xs.length + n) * ty.size < wordSize → ∀ q, step ty (.insertFill i 0 n r) w = .ok q →
      xs = [] ∧ ∃ v', q.2.vars i = some v' ∧ v'.len = 0) ∧
    ∀ ys, (xs.length + ys.length) * ty.size < wordSize → ∀ q, step ty (.insertRange i 0 ys) w = .ok q →
      xs = [] ∧ ∃ v', q.2.vars i = some v' ∧ v'.len = 0 := by
  have I := reach_inv hr
  have hbal := reach_bal hr
  obtain ⟨v, hw, rv, hcp, hal⟩ := I.get hv
  simp only at rv
  constructor
  · intro n r x hx hfit q he
    obtain ⟨ref, e1, _, _⟩ := arg_ok I hx
    simp only [step, Prog.bind_run, e1, Out.bind_ok] at he
    obtain ⟨v', p', h0, e2, hh0, hv'⟩ := change'_inv hw he
    simp only [Prog.bind_run] at e2
    obtain ⟨⟨⟨v2, p2⟩, h2⟩, e3, e2⟩ := of_bind e2
    cases e2
    by_cases hne : xs = []
    · exact ⟨hne, _, hv', insertFill_uncounted (by rw [rv.len, hne]; rfl) e3⟩
    · exact absurd e3 (insertFill_never rv hbal hne hfit _)
  · intro ys hfit q he
    obtain ⟨v', p', h0, e2, hh0, hv'⟩ := change'_inv hw he
    simp only [Prog.bind_run] at e2
    obtain ⟨⟨⟨v2, p2⟩, h2⟩, e3, e2⟩ := of_bind e2
    cases e2
    by_cases hne : xs = []
    · subst hne
      exact ⟨rfl, _, hv', insertRange_uncounted rv hbal (by simpa using hfit) e3⟩
    · exact absurd e3 (insertRange_never rv hbal hne hfit _)

example : ∃ w, Reach exTy w ∧ view w 1 = some ⟨[1, 2, 3], 3, 0⟩ ∧ argVal (view w) (.elem 1 2) = some 3 ∧
    ([1, 2, 3].length + 7) * exTy.size < wordSize := by
  obtain ⟨w, h, _, h1, _⟩ := exReach
  exact ⟨w, h, h1, by simp [argVal, h1], by decide⟩

end Verif.Props
