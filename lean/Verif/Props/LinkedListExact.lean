import Verif.Props.LinkedListOps
import Verif.Spec.LinkedListExact
/-! # Lists: the restricted specification is the largest the code meets (C92) -/
namespace Verif.Props.Lists
open Verif Verif.Model.LL Verif.Proof.LL
open Verif.Spec.LL hiding sorted
open Verif.Spec (End takes givenAt)

variable {α : Type} {cfg : Cfg α} {w : World α}

private theorem only_true {β : Type} {g : Prop} [Decidable g] {x : Option β} : only true g x = x := by simp [only]
private theorem only_pos {β : Type} {b : Bool} {g : Prop} [Decidable g] {x : Option β} (h : g) : only b g x = x := by simp [only, h]
private theorem of_needs {β : Type} {g : Prop} [Decidable g] {x : Option β} {p : β} (h : needs g x = some p) : g ∧ x = some p := by
  unfold needs at h
  split at h
  · exact ⟨by assumption, h⟩
  · cases h

private theorem of_edit {A : Ideal α} {i : Nat} {f : List α → Option (Res α × List α)} {r : Res α} {A' : Ideal α}
    (h : edit A i f = some (r, A')) :
    ∃ xs a ys, A i = some ⟨some xs, a⟩ ∧ f xs = some (r, ys) ∧ A' = put A i (some ⟨some ys, a⟩) := by
  simp only [edit, Option.bind_eq_some_iff, Option.map_eq_some_iff, Prod.mk.injEq] at h
  obtain ⟨⟨it, a⟩, h1, xs, rfl, ⟨r', ys⟩, h3, rfl, rfl⟩ := h
  exact ⟨xs, a, ys, h1, h3, rfl⟩

private theorem of_edit2 {A : Ideal α} {i j : Nat} {f : List α → List α → Option (List α × Option (List α))} {r : Res α} {A' : Ideal α}
    (h : edit2 A i j f = some (r, A')) :
    ∃ xs ys a zs o, A i = some ⟨some xs, a⟩ ∧ A j = some ⟨some ys, a⟩ ∧ i ≠ j ∧ f xs ys = some (zs, o) ∧ r = .unit ∧
      A' = put (put A i (some ⟨some zs, a⟩)) j (some ⟨o, a⟩) := by
  simp only [edit2, Option.bind_eq_some_iff] at h
  obtain ⟨⟨it, a⟩, h1, xs, rfl, ⟨jt, b⟩, h3, ys, rfl, h⟩ := h
  obtain ⟨⟨hij, rfl⟩, h⟩ := of_needs h
  obtain ⟨⟨zs, o⟩, h5, h6⟩ := Option.map_eq_some_iff.1 h
  cases h6
  exact ⟨xs, ys, a, zs, o, h1, h3, hij, h5, rfl, rfl⟩

private theorem specRun_two {full dbl : Bool} {dflt : α} {op op' : Op α} {A A' A'' : Ideal α} {r r' : Res α}
    (h : specStep full dbl dflt op A = some (r, A')) (h' : specStep full dbl dflt op' A' = some (r', A'')) :
    specRun full dbl dflt [op, op'] A = some ([r, r'], A'') := by
  simp [specRun, h, h']

private theorem specRun_one {full dbl : Bool} {dflt : α} {op : Op α} {A A' : Ideal α} {r : Res α}
    (h : specStep full dbl dflt op A = some (r, A')) : specRun full dbl dflt [op] A = some ([r], A') := by
  simp [specRun, h]

private theorem traverse_spec {full dbl : Bool} {dflt : α} {A : Ideal α} {i : Nat} {xs : List α} {a : Nat} (h : A i = some ⟨some xs, a⟩) :
    specStep full dbl dflt (.traverse i) A = some (.seq xs, A) := by
  simp [specStep, ask, h]

/-- The call, followed by any number of traversals of any lists, gives the results the full specification asks for. -/
def LooksRight (cfg : Cfg α) (w : World α) (op : Op α) : Prop :=
  ∀ ops, (∀ o ∈ ops, ∃ i, o = Op.traverse i) → ∀ rs A'', specRun true cfg.dbl cfg.dflt (op :: ops) (view w) = some (rs, A'') →
    ∃ w'', run cfg (op :: ops) w = .ok (rs, w'')

/-- C92.  In every reachable state: if a call allowed by the full specification gives the result it asks for, and so do
traversals afterwards, then the restricted specification allows the call, with the same outcome (so theorems about
restricted histories leave out no call that the code does correctly). -/
theorem C92_exact (hr : Reach cfg w) (hm : ¬ Refuses cfg) {op : Op α} {r : Res α} {A' : Ideal α}
    (hs : specStep true cfg.dbl cfg.dflt op (view w) = some (r, A')) (hu : ¬ unseen cfg.dbl op (view w))
    (hok : LooksRight cfg w op) :
    specStep false cfg.dbl cfg.dflt op (view w) = some (r, A') := by
  -- a call after which list `i` holds `xs`: traversal must not be undefined
  have see : ∀ {i : Nat} {xs : List α} {a : Nat}, A' i = some ⟨some xs, a⟩ → run cfg [op, .traverse i] w ≠ .ub := by
    intro i xs a hA e
    obtain ⟨w'', h⟩ := hok [.traverse i] (by simp) _ _ (specRun_two hs (traverse_spec hA))
    rw [e] at h; cases h
  have one : ∃ w'', step cfg op w = .ok (r, w'') := by
    obtain ⟨w'', h⟩ := hok [] (by simp) _ _ (specRun_one hs)
    cases e : step cfg op w with
    | ok q =>
      simp only [run, Prog.bind_run, e, Out.bind_ok, Prog.pure_run] at h
      cases h
      exact ⟨_, rfl⟩
    | _ => simp only [run, Prog.bind_run, e] at h; cases h
  -- a call the restricted specification allows with another outcome
  have same : ∀ {i : Nat} {xs ys : List α} {a b : Nat} {r2 : Res α} {A2 : Ideal α}, A' i = some ⟨some xs, a⟩ → A2 i = some ⟨some ys, b⟩ →
      specStep false cfg.dbl cfg.dflt op (view w) = some (r2, A2) → xs = ys := by
    intro i xs ys a b r2 A2 hA hA2 h2
    obtain ⟨w'', h⟩ := hok [.traverse i] (by simp) _ _ (specRun_two hs (traverse_spec hA))
    have := reach_run hr [op, .traverse i] (specRun_two h2 (traverse_spec hA2))
    rw [h] at this
    obtain ⟨h1, _⟩ := this
    simp only [List.cons.injEq, and_true, Res.seq.injEq] at h1
    exact h1.2
  cases op with
  | newMoveAlloc i j a =>
    simp only [specStep, only_true, Option.bind_eq_some_iff] at hs
    obtain ⟨⟨it, b⟩, hj, ys, rfl, hs⟩ := hs
    obtain ⟨hi, hs⟩ := of_needs hs
    by_cases hab : a = b
    · simp only [specStep, hj, Option.bind_some, needs, hi, if_true, only_pos hab]
      exact hs
    · exfalso
      by_cases hy : ys = []
      · subst hy; exact hu ⟨b, hj, hab⟩
      · obtain ⟨w'', e⟩ := one
        rw [(C30_move_alloc_fails hr hj hab).1 hy hm] at e
        cases e
  | frontUncheckedConst i =>
    simp only [specStep, only_true, ask, Option.bind_eq_some_iff, Option.map_eq_some_iff] at hs
    obtain ⟨⟨it, a⟩, hi, xs, rfl, r', ⟨x, hx, rfl⟩, hA⟩ := hs
    cases hA
    by_cases hg : cfg.dbl = false ∨ xs.length = 1
    · simp [specStep, ask, hi, only_pos hg, hx]
    · exfalso
      rw [not_or] at hg
      obtain ⟨w'', e⟩ := one
      rcases List.eq_nil_or_concat xs with rfl | ⟨ys, y, rfl⟩
      · cases hx
      · simp only [List.concat_eq_append] at *
        rw [C29_const_front_fails hr (by simpa using hg.1) hi] at e
        cases e
        exact hu ⟨by simpa using hg.1, ys ++ [x], by simp [contents, hi], by rw [hx]; simp⟩
  | traverseRev i =>
    simp only [specStep] at hs
    obtain ⟨hd, hs⟩ := of_needs hs
    simp only [ask, only_true, Option.bind_eq_some_iff, Option.map_eq_some_iff] at hs
    obtain ⟨⟨it, a⟩, hi, xs, rfl, r', h4, hA⟩ := hs
    by_cases hx : xs = []
    · cases h4; cases hA
      simp [specStep, needs, hd, ask, hi, only_pos hx]
    · obtain ⟨w'', e⟩ := one
      rw [C33_reverse_iterators_fails hr hd hi hx] at e
      cases e
  | remove i eq rf =>
    simp only [specStep, only_true, Option.bind_eq_some_iff] at hs
    obtain ⟨x, hx, hs⟩ := hs
    obtain ⟨xs, a, ys, hi, hf, rfl⟩ := of_edit hs
    by_cases hg : outlives i eq xs rf = true
    · simp only [specStep, hx, Option.bind_some, edit, hi, only_pos hg]
      cases hf; rfl
    · exfalso
      cases rf with
      | val y => exact hg rfl
      | elem j k =>
        simp only [outlives, Bool.or_eq_true, not_or] at hg
        obtain ⟨⟨h1, h2⟩, h3⟩ := hg
        have hj : j = i := by simpa using h1
        subst hj
        have hxk : xs[k]? = some x := by simpa [argVal, contents, hi] using hx
        have hkl := (List.getElem?_eq_some_iff.1 hxk).1
        have hee : eq x x = true := by simpa [hxk] using h3
        have hk : k + 1 ≠ xs.length := by simpa using h2
        have hsp : xs = xs.take k ++ x :: xs.drop (k + 1) := by
          obtain ⟨_, h⟩ := List.getElem?_eq_some_iff.1 hxk
          rw [← h]; simp
        obtain ⟨w'', e⟩ := one
        rw [hsp] at hi
        have := C27_remove_own_element_fails hr hi (by intro h; rw [List.drop_eq_nil_iff] at h; omega) eq hee
        rw [List.length_take_of_le (by omega)] at this
        rw [this] at e
        cases e
  | sort i less =>
    simp only [specStep, only_true] at hs
    obtain ⟨xs, a, ys, hi, hf, rfl⟩ := of_edit hs
    obtain ⟨hw, hf⟩ := of_needs hf
    cases hf
    by_cases hl : xs.length ≠ 1
    · have h2 : specStep false cfg.dbl cfg.dflt (.sort i less) (view w) =
          some (.unit, put (view w) i (some ⟨some (sortBy less xs.reverse), a⟩)) := by
        simp [specStep, edit, hi, needs, hw, only_pos hl]
      have := same (i := i) (by simp [put]; exact ⟨rfl, rfl⟩) (by simp [put]; exact ⟨rfl, rfl⟩) h2
      rw [h2, ← this]
      rfl
    · exfalso
      obtain ⟨x, rfl⟩ := List.length_eq_one_iff.1 (Decidable.not_not.1 hl)
      exact see (i := i) (by simp [put]; exact ⟨rfl, rfl⟩) (C21_sort_single_fails hr hi less).1
  | merge i j less =>
    by_cases hij : i = j
    · simp only [specStep, hij, if_true] at hs ⊢
      exact hs
    · simp only [specStep, hij, if_false, only_true] at hs
      obtain ⟨xs, ys, a, zs, o, hi, hj, _, hf, rfl, rfl⟩ := of_edit2 hs
      obtain ⟨hw, hf⟩ := of_needs hf
      cases hf
      by_cases hl : xs ≠ [] ∨ ys = []
      · have h2 : specStep false cfg.dbl cfg.dflt (.merge i j less) (view w) =
            some (.unit, put (put (view w) i (some ⟨some (sortBy less (ys ++ xs)), a⟩)) j (some ⟨some [], a⟩)) := by
          simp [specStep, edit2, hi, hj, hij, needs, hw, only_pos hl]
        have := same (i := i) (by simp [put, hij]; exact ⟨rfl, rfl⟩) (by simp [put, hij]; exact ⟨rfl, rfl⟩) h2
        rw [h2, ← this]
        rfl
      · exfalso
        rw [not_or] at hl
        have hx : xs = [] := Decidable.not_not.1 hl.1
        subst hx
        exact see (i := i) (by simp [put, hij]; exact ⟨rfl, rfl⟩) (C23_merge_into_empty_fails hr hij hi hj hl.2 less)
  | mergeMove i j less =>
    by_cases hij : i = j
    · simp only [specStep, hij, if_true] at hs ⊢
      exact hs
    · simp only [specStep, hij, if_false, only_true] at hs
      obtain ⟨xs, ys, a, zs, o, hi, hj, _, hf, rfl, rfl⟩ := of_edit2 hs
      obtain ⟨hw, hf⟩ := of_needs hf
      by_cases hl : ys = []
      · simp only [specStep, hij, if_false, edit2, hi, hj, Option.bind_some, needs, hw, only_pos hl]
        rw [hf]
        simp [hij]
      · exfalso
        exact see (i := i) (by simp [put, hij]; exact ⟨rfl, rfl⟩) (C23_merge_rvalue_fails hr hij hi hj hl less)
  | spliceAfter i p j =>
    simp only [specStep, only_true] at hs
    obtain ⟨xs, ys, a, zs, o, hi, hj, hij, hf, rfl, rfl⟩ := of_edit2 hs
    obtain ⟨hp, hf⟩ := of_needs hf
    by_cases hl : ys ≠ []
    · simp [specStep, edit2, hi, hj, hij, needs, hp, only_pos hl]
      cases hf; rfl
    · exfalso
      have hy : ys = [] := Decidable.not_not.1 hl
      subst hy
      exact see (i := i) (by simp [put, hij]; exact ⟨rfl, rfl⟩) ((C24_splice_empty_fails hr hij hi hj).1 hp).1
  | spliceAfterMove i p j =>
    simp only [specStep, only_true] at hs
    obtain ⟨xs, ys, a, zs, o, hi, hj, hij, hf, rfl, rfl⟩ := of_edit2 hs
    obtain ⟨hp, hf⟩ := of_needs hf
    by_cases hl : ys ≠ []
    · simp [specStep, edit2, hi, hj, hij, needs, hp, only_pos hl]
      cases hf; rfl
    · exfalso
      have hy : ys = [] := Decidable.not_not.1 hl
      subst hy
      exact see (i := i) (by simp [put, hij]; exact ⟨rfl, rfl⟩) ((C24_splice_empty_fails hr hij hi hj).1 hp).2
  | splice i p j =>
    simp only [specStep, only_true] at hs
    obtain ⟨hd, hs⟩ := of_needs hs
    obtain ⟨xs, ys, a, zs, o, hi, hj, hij, hf, rfl, rfl⟩ := of_edit2 hs
    obtain ⟨hp, hf⟩ := of_needs hf
    by_cases hl : ys ≠ []
    · simp [specStep, hd, edit2, hi, hj, hij, needs, hp, only_pos hl]
      cases hf; rfl
    · exfalso
      have hy : ys = [] := Decidable.not_not.1 hl
      subst hy
      exact see (i := i) (by simp [put, hij]; exact ⟨rfl, rfl⟩) ((C24_splice_empty_fails hr hij hi hj).2 hd hp).1
  | spliceMove i p j =>
    simp only [specStep, only_true] at hs
    obtain ⟨hd, hs⟩ := of_needs hs
    obtain ⟨xs, ys, a, zs, o, hi, hj, hij, hf, rfl, rfl⟩ := of_edit2 hs
    obtain ⟨hp, hf⟩ := of_needs hf
    by_cases hl : ys ≠ []
    · simp [specStep, hd, edit2, hi, hj, hij, needs, hp, only_pos hl]
      cases hf; rfl
    · exfalso
      have hy : ys = [] := Decidable.not_not.1 hl
      subst hy
      exact see (i := i) (by simp [put, hij]; exact ⟨rfl, rfl⟩) ((C24_splice_empty_fails hr hij hi hj).2 hd hp).2
  | _ => exact hs

private theorem specRun_traverse {dbl : Bool} {dflt : α} (ops : List (Op α)) (h : ∀ o ∈ ops, ∃ i, o = Op.traverse i) (A : Ideal α) :
    specRun true dbl dflt ops A = specRun false dbl dflt ops A := by
  induction ops generalizing A with
  | nil => rfl
  | cons o ops ih =>
    obtain ⟨i, rfl⟩ := h o (by simp)
    have e : specStep true dbl dflt (.traverse i) A = specStep false dbl dflt (.traverse i) A := rfl
    simp only [specRun, e]
    cases specStep false dbl dflt (.traverse i) A with
    | none => rfl
    | some p => simp only [ih (fun o ho => h o (by simp [ho]))]

/-- C92, both directions. -/
theorem C92_exact_iff (hr : Reach cfg w) (hm : ¬ Refuses cfg) {op : Op α} {r : Res α} {A' : Ideal α}
    (hs : specStep true cfg.dbl cfg.dflt op (view w) = some (r, A')) (hu : ¬ unseen cfg.dbl op (view w)) :
    LooksRight cfg w op ↔ specStep false cfg.dbl cfg.dflt op (view w) = some (r, A') := by
  refine ⟨C92_exact hr hm hs hu, fun h ops ho rs A'' hrun => ?_⟩
  have : specRun false cfg.dbl cfg.dflt (op :: ops) (view w) = some (rs, A'') := by
    rw [← hrun]
    simp only [specRun, hs, h, specRun_traverse ops ho]
  obtain ⟨⟨rs', w''⟩, e, h1, _⟩ := (reach_run hr (op :: ops) this).ok_of hm
  exact ⟨w'', by rw [e]; simp only at h1; rw [h1]⟩

/-- The hypotheses hold of calls that are allowed and of calls that are left out. -/
example (dbl : Bool) : ∃ w, Reach (exCfg dbl) w ∧ ¬ Refuses (exCfg dbl) ∧
    (specStep true dbl 0 (.sort 3 (fun x y : Nat => decide (x < y))) (view w)).isSome = true ∧
    specStep false dbl 0 (.sort 3 (fun x y : Nat => decide (x < y))) (view w) = none ∧
    ¬ unseen dbl (.sort 3 (fun x y : Nat => decide (x < y))) (view w) ∧
    (specStep false dbl 0 (.sort 1 (fun x y : Nat => decide (x < y))) (view w)).isSome = true := by
  obtain ⟨w, h, hP⟩ := exReach dbl
  have h3 : view w 3 = some ⟨some [4], 9⟩ := hP 3 (by decide)
  have h1 : view w 1 = some ⟨some [5, 7], 0⟩ := hP 1 (by decide)
  refine ⟨w, h, exCfg_ok dbl, ?_, ?_, id, ?_⟩
  · simp [specStep, edit, h3, needs, only, swoOn]
  · simp [specStep, edit, h3, needs, only]
  · simp [specStep, edit, h1, needs, only, swoOn]

end Verif.Props.Lists
