import Verif.Model.TypeList
/-! # Property C66: type lists -/
namespace Verif.Props
open Verif.Model

variable {Ty : Type}

theorem filterAcc_eq (p : Ty → Bool) (ts out : List Ty) : TypeList.filterAcc p ts out = out ++ ts.filter p := by
  induction ts generalizing out with
  | nil => simp [TypeList.filterAcc]
  | cons t ts ih =>
    simp only [TypeList.filterAcc, ih, TypeList.append]
    cases h : p t <;> simp [h]

theorem typeMap_eq (f : Ty → Ty) (ts : List Ty) : TypeList.map f ts = ts.map f := by
  induction ts with
  | nil => rfl
  | cons t ts ih => simp [TypeList.map, ih]

/-- **C66.** For every list of types: `filter` keeps exactly the matching types in order, `map` transforms position by
position, `append`/`prepend` put new types after/before, `at<i>` is the `i`-th type and is rejected exactly when out of
range, `count` of a non-empty list is the number of occurrences, `==` is equality of lists. -/
theorem C66_type_list [DecidableEq Ty] (ts us : List Ty) (p : Ty → Bool) (f : Ty → Ty) (i : Nat) (t : Ty) :
    TypeList.filter p ts = ts.filter p ∧
    TypeList.map f ts = ts.map f ∧
    TypeList.append ts us = ts ++ us ∧
    TypeList.prepend ts us = us ++ ts ∧
    TypeList.argAt i ts = ts[i]? ∧
    (ts ≠ [] → TypeList.count t ts = some (ts.count t)) ∧
    (TypeList.equal ts us = true ↔ ts = us) ∧
    TypeList.size ts = ts.length := by
  refine ⟨by simp [TypeList.filter, filterAcc_eq], typeMap_eq f ts, rfl, rfl, ?_, ?_, ?_, rfl⟩
  · induction ts generalizing i with
    | nil => simp [TypeList.argAt]
    | cons a ts ih => cases i <;> simp [TypeList.argAt, ih]
  · induction ts with
    | nil => simp
    | cons a ts ih =>
      intro _
      cases ts with
      | nil =>
        by_cases h : t = a
        · simp [TypeList.count, h]
        · have : ¬ a = t := fun e => h e.symm
          simp [TypeList.count, h, this]
      | cons b ts =>
        rw [TypeList.count, ih (by simp), List.count_cons (a := t) (b := a)]
        · simp only [Option.map_some, beq_iff_eq, Option.some.injEq]
          by_cases h : t = a
          · simp [h, Nat.add_comm]
          · have : ¬ a = t := fun e => h e.symm
            simp [h, this]
        · simp
  · unfold TypeList.equal
    induction ts generalizing us with
    | nil => cases us <;> simp
    | cons a ts ih =>
      cases us with
      | nil => simp
      | cons b us =>
        have := ih us
        by_cases hl : ts.length = us.length
        · simp [hl] at this ⊢; simp [this]
        · have hne : ts ≠ us := fun e => hl (by rw [e])
          simp [hl, hne]

/-- laws: the order of `map` and `filter`, associativity, positions in an appended list -/
theorem C66_laws (ts us vs : List Ty) (p : Ty → Bool) (f g : Ty → Ty) (i : Nat) :
    TypeList.map g (TypeList.map f ts) = TypeList.map (g ∘ f) ts ∧
    TypeList.filter p (TypeList.map f ts) = TypeList.map f (TypeList.filter (p ∘ f) ts) ∧
    TypeList.append (TypeList.append ts us) vs = TypeList.append ts (TypeList.append us vs) ∧
    TypeList.prepend (TypeList.prepend ts us) vs = TypeList.prepend ts (TypeList.prepend us vs) ∧
    TypeList.argAt (TypeList.size ts + i) (TypeList.append ts us) = TypeList.argAt i us ∧
    TypeList.filter p (TypeList.append ts us) = TypeList.append (TypeList.filter p ts) (TypeList.filter p us) := by
  refine ⟨?_, ?_, ?_, ?_, ?_, ?_⟩
  · simp [typeMap_eq]
  · simp [typeMap_eq, TypeList.filter, filterAcc_eq, List.filter_map]
  · simp [TypeList.append]
  · simp [TypeList.prepend]
  · induction ts with
    | nil => simp [TypeList.size, TypeList.append]
    | cons a ts ih =>
      have : TypeList.size (a :: ts) + i = (TypeList.size ts + i) + 1 := by simp [TypeList.size]; omega
      rw [this]; exact ih
  · simp [TypeList.filter, filterAcc_eq, TypeList.append]

example : TypeList.filter (fun n => n < 8) [9, 4, 10, 1] = [4, 1] := by decide
example : TypeList.count 3 [3, 4, 3] = some 2 := by decide
/-- the empty list is rejected by `count` -/
example : TypeList.count 3 ([] : List Nat) = none := rfl

end Verif.Props
