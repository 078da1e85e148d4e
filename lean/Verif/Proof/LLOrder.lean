import Verif.Spec.LinkedList
import Mathlib.Tactic.Tauto
/-! # Merging and sorting lists of values

`mrgBy` is what `_private::merge` does to two sequences, `msortBy` what `mergeSort` does; here they are compared with the
insertion sort of the specification. -/
namespace Verif.Proof.LL
open Verif Verif.Spec.LL

variable {α β : Type}

/-- The front of `ys` is taken unless the front of `xs` is less. -/
def mrgBy (less : β → β → Bool) : List β → List β → List β
  | [], ys => ys
  | xs, [] => xs
  | x :: xs, y :: ys => if less x y then x :: mrgBy less xs (y :: ys) else y :: mrgBy less (x :: xs) ys

@[simp] theorem mrgBy_nil (less : β → β → Bool) (ys : List β) : mrgBy less [] ys = ys := by
  unfold mrgBy; cases ys <;> rfl
@[simp] theorem mrgBy_nil' (less : β → β → Bool) (xs : List β) : mrgBy less xs [] = xs := by cases xs <;> simp [mrgBy]
theorem mrgBy_cons (less : β → β → Bool) (x y : β) (xs ys : List β) :
    mrgBy less (x :: xs) (y :: ys) = if less x y then x :: mrgBy less xs (y :: ys) else y :: mrgBy less (x :: xs) ys := by
  rw [mrgBy]

theorem mrgBy_perm (less : β → β → Bool) (xs ys : List β) : (mrgBy less xs ys).Perm (xs ++ ys) := by
  induction xs generalizing ys with
  | nil => simp
  | cons x xs ih =>
    induction ys with
    | nil => simp
    | cons y ys ih2 =>
      rw [mrgBy_cons]
      split
      · exact (ih (y :: ys)).cons x
      · exact (ih2.cons y).trans (List.perm_middle.symm)

theorem mrgBy_map (f : β → α) (less : α → α → Bool) (xs ys : List β) :
    (mrgBy (fun a b => less (f a) (f b)) xs ys).map f = mrgBy less (xs.map f) (ys.map f) := by
  induction xs generalizing ys with
  | nil => simp
  | cons x xs ih =>
    induction ys with
    | nil => simp
    | cons y ys ih2 =>
      rw [mrgBy_cons, List.map_cons, List.map_cons, mrgBy_cons]
      split
      · rw [List.map_cons, ih, List.map_cons]
      · rw [List.map_cons, ih2, List.map_cons]

theorem mrgBy_flip (less : β → β → Bool) (xs ys : List β) : mrgBy (fun a b => !less b a) xs ys = mrgBy less ys xs := by
  induction xs generalizing ys with
  | nil => simp
  | cons x xs ih =>
    induction ys with
    | nil => simp
    | cons y ys ih2 =>
      rw [mrgBy_cons, mrgBy_cons, ih, ih2]
      cases less y x <;> simp

/-- Halves of `(n+1)/2` and `n/2` elements are sorted and merged. -/
def msortBy (less : β → β → Bool) (xs : List β) : List β :=
  if h : xs.length < 2 then xs
  else mrgBy less (msortBy less (xs.take ((xs.length + 1) / 2))) (msortBy less (xs.drop ((xs.length + 1) / 2)))
termination_by xs.length
decreasing_by all_goals simp; omega

theorem msortBy_short {less : β → β → Bool} {xs : List β} (h : xs.length < 2) : msortBy less xs = xs := by
  rw [msortBy, dif_pos h]

theorem msortBy_long {less : β → β → Bool} {xs ys : List β} (h : 2 ≤ xs.length + ys.length) (hx : xs.length = (xs.length + ys.length + 1) / 2) :
    msortBy less (xs ++ ys) = mrgBy less (msortBy less xs) (msortBy less ys) := by
  rw [msortBy, dif_neg (by simp; omega)]
  have e : ((xs ++ ys).length + 1) / 2 = xs.length := by simp; omega
  rw [e]
  simp

theorem half_split {xs : List β} (h : 2 ≤ xs.length) : ∃ ys zs, xs = ys ++ zs ∧ 2 ≤ ys.length + zs.length ∧
    ys.length = (ys.length + zs.length + 1) / 2 ∧ ys ≠ [] ∧ zs ≠ [] := by
  refine ⟨xs.take ((xs.length + 1) / 2), xs.drop ((xs.length + 1) / 2), (List.take_append_drop _ _).symm, ?_, ?_, ?_, ?_⟩
  · rw [← List.length_append, List.take_append_drop]; exact h
  · simp; omega
  · intro e; have := congrArg List.length e; rw [List.length_take, List.length_nil] at this; omega
  · intro e; have := congrArg List.length e; rw [List.length_drop, List.length_nil] at this; omega

/-- induction following the halving -/
theorem half_induction {P : List β → Prop} (short : ∀ xs, xs.length < 2 → P xs)
    (long : ∀ xs ys, 2 ≤ xs.length + ys.length → xs.length = (xs.length + ys.length + 1) / 2 → P xs → P ys → P (xs ++ ys)) (xs : List β) : P xs := by
  induction hn : xs.length using Nat.strongRecOn generalizing xs with
  | _ n ih =>
    by_cases h : xs.length < 2
    · exact short xs h
    · obtain ⟨ys, zs, rfl, h1, h2, h3, h4⟩ := half_split (xs := xs) (by omega)
      have := List.length_pos_iff.2 h3
      have := List.length_pos_iff.2 h4
      simp at hn
      exact long ys zs h1 h2 (ih _ (by omega) _ rfl) (ih _ (by omega) _ rfl)

theorem msortBy_perm (less : β → β → Bool) (xs : List β) : (msortBy less xs).Perm xs := by
  induction xs using half_induction with
  | short xs h => rw [msortBy_short h]
  | long xs ys h1 h2 ih1 ih2 => rw [msortBy_long h1 h2]; exact (mrgBy_perm _ _ _).trans (ih1.append ih2)

theorem msortBy_map (f : β → α) (less : α → α → Bool) (xs : List β) :
    (msortBy (fun a b => less (f a) (f b)) xs).map f = msortBy less (xs.map f) := by
  induction xs using half_induction with
  | short xs h => rw [msortBy_short h, msortBy_short (by simpa using h)]
  | long xs ys h1 h2 ih1 ih2 =>
    rw [msortBy_long h1 h2, mrgBy_map, ih1, ih2, List.map_append, msortBy_long (by simpa using h1) (by simpa using h2)]

/-! ## Strict weak orders -/

/-- `less` restricted to the values in `xs` is a strict weak order. -/
structure Swo (less : α → α → Bool) (xs : List α) : Prop where
  asymm : ∀ x ∈ xs, ∀ y ∈ xs, less x y = true → less y x = false
  split : ∀ x ∈ xs, ∀ y ∈ xs, ∀ z ∈ xs, less x z = true → less x y = true ∨ less y z = true

theorem swoOn_iff {less : α → α → Bool} {xs : List α} : swoOn less xs = true ↔ Swo less xs := by
  simp only [swoOn, List.all_eq_true, Bool.and_eq_true, Bool.not_eq_true', Bool.or_eq_true, Bool.and_eq_false_iff]
  constructor
  · intro h
    refine ⟨fun x hx y hy hxy => ?_, fun x hx y hy z hz hxz => ?_⟩
    · rcases (h x hx y hy).1 with h | h
      · rw [hxy] at h; cases h
      · exact h
    · rcases (h x hx y hy).2 z hz with (h | h) | h
      · rw [hxz] at h; cases h
      · exact .inl h
      · exact .inr h
  · intro h x hx y hy
    refine ⟨?_, fun z hz => ?_⟩
    · cases hxy : less x y
      · exact .inl rfl
      · exact .inr (h.asymm x hx y hy hxy)
    · cases hxz : less x z
      · exact .inl (.inl rfl)
      · rcases h.split x hx y hy z hz hxz with h | h
        · exact .inl (.inr h)
        · exact .inr h

theorem Swo.sub {less : α → α → Bool} {xs ys : List α} (h : Swo less xs) (hs : ∀ y ∈ ys, y ∈ xs) : Swo less ys :=
  ⟨fun x hx y hy => h.asymm x (hs x hx) y (hs y hy), fun x hx y hy z hz => h.split x (hs x hx) y (hs y hy) z (hs z hz)⟩

variable {less : α → α → Bool} {S : List α} (hs : Swo less S)
include hs

theorem Swo.trans {x y z : α} (hx : x ∈ S) (hy : y ∈ S) (hz : z ∈ S) (h1 : less x y = true) (h2 : less y z = true) : less x z = true := by
  rcases hs.split x hx z hz y hy h1 with h | h
  · exact h
  · rw [hs.asymm y hy z hz h2] at h; cases h

/-- `x` below `y` and `z` not below `y`: `x` below `z` -/
theorem Swo.lt_of_lt_of_le {x y z : α} (hx : x ∈ S) (hy : y ∈ S) (hz : z ∈ S) (h1 : less x y = true) (h2 : less z y = false) : less x z = true := by
  rcases hs.split x hx z hz y hy h1 with h | h
  · exact h
  · rw [h2] at h; cases h

omit hs in
theorem mem_insertBy {x y : α} {xs : List α} : x ∈ insertBy less y xs ↔ x = y ∨ x ∈ xs := by
  induction xs with
  | nil => simp [insertBy]
  | cons z xs ih =>
    rw [insertBy]
    split
    · simp [ih]; tauto
    · simp

omit hs in
theorem insertBy_perm {y : α} {xs : List α} : (insertBy less y xs).Perm (y :: xs) := by
  induction xs with
  | nil => simp [insertBy]
  | cons z xs ih =>
    rw [insertBy]
    split
    · exact (ih.cons z).trans (.swap y z xs)
    · exact .refl _

omit hs in
theorem sortBy_perm {xs : List α} : (sortBy less xs).Perm xs := by
  induction xs with
  | nil => exact .refl _
  | cons x xs ih => exact insertBy_perm.trans (ih.cons x)

omit hs in
theorem mem_sortBy {x : α} {xs : List α} : x ∈ sortBy less xs ↔ x ∈ xs := sortBy_perm.mem_iff

omit hs in
theorem sorted_cons {x : α} {xs : List α} : sorted less (x :: xs) = true ↔ (∀ y ∈ xs, less y x = false) ∧ sorted less xs = true := by
  simp [sorted]

theorem sorted_insertBy {y : α} {xs : List α} (hy : y ∈ S) (hx : ∀ x ∈ xs, x ∈ S) (h : sorted less xs = true) : sorted less (insertBy less y xs) = true := by
  induction xs with
  | nil => simp [insertBy, sorted]
  | cons z xs ih =>
    rw [sorted_cons] at h
    have hz : z ∈ S := hx z (by simp)
    rw [insertBy]
    split
    · rename_i hzy
      rw [sorted_cons]
      refine ⟨?_, ih (fun x h => hx x (by simp [h])) h.2⟩
      intro w hw
      rcases mem_insertBy.1 hw with rfl | hw
      · exact hs.asymm z hz w hy hzy
      · exact h.1 w hw
    · rename_i hzy
      rw [sorted_cons]
      refine ⟨?_, sorted_cons.2 h⟩
      intro w hw
      rcases List.mem_cons.1 hw with rfl | hw'
      · simpa using hzy
      · cases hwy : less w y
        · rfl
        · rcases hs.split w (hx w (by simp [hw'])) z hz y hy hwy with h' | h'
          · rw [h.1 w hw'] at h'; cases h'
          · exact absurd h' hzy

theorem sorted_sortBy {xs : List α} (hx : ∀ x ∈ xs, x ∈ S) : sorted less (sortBy less xs) = true := by
  induction xs with
  | nil => rfl
  | cons x xs ih =>
    exact sorted_insertBy hs (hx x (by simp)) (fun y hy => hx y (by simp [mem_sortBy.1 hy])) (ih (fun y hy => hx y (by simp [hy])))

omit hs in
theorem insertBy_front {y : α} {xs : List α} (h : ∀ x ∈ xs.head?, less x y = false) : insertBy less y xs = y :: xs := by
  cases xs with
  | nil => rfl
  | cons x xs => rw [insertBy, if_neg (by simp [h x (by simp)])]

omit hs in
theorem sortBy_sorted {xs : List α} (h : sorted less xs = true) : sortBy less xs = xs := by
  induction xs with
  | nil => rfl
  | cons x xs ih =>
    rw [sorted_cons] at h
    rw [sortBy, ih h.2, insertBy_front (fun y hy => h.1 y (List.mem_of_mem_head? hy))]

omit hs in
theorem head_mrgBy {xs ys : List α} {w : α} (h : w ∈ (mrgBy less xs ys).head?) : w ∈ xs.head? ∨ w ∈ ys.head? := by
  cases xs with
  | nil => simp at h; exact .inr h
  | cons x xs =>
    cases ys with
    | nil => simp at h; exact .inl (by simp [h])
    | cons y ys =>
      rw [mrgBy_cons] at h
      split at h
      · exact .inl (by simpa using h)
      · exact .inr (by simpa using h)

theorem mrgBy_insert {y : α} {xs ys : List α} (hy : y ∈ S) (hx : ∀ x ∈ xs, x ∈ S) (hys : ∀ x ∈ ys, x ∈ S) (h : ∀ z ∈ ys, less z y = false) :
    mrgBy less xs (y :: ys) = insertBy less y (mrgBy less xs ys) := by
  induction xs with
  | nil => simp; rw [insertBy_front (fun z hz => h z (List.mem_of_mem_head? hz))]
  | cons x xs ih =>
    have hxS := hx x (by simp)
    rw [mrgBy_cons]
    split
    · rename_i hxy
      have e : mrgBy less (x :: xs) ys = x :: mrgBy less xs ys := by
        cases ys with
        | nil => simp
        | cons z zs =>
          rw [mrgBy_cons, if_pos]
          exact hs.lt_of_lt_of_le hxS hy (hys z (by simp)) hxy (h z (by simp))
      rw [e, ih (fun x h => hx x (by simp [h])), insertBy, if_pos hxy]
    · rename_i hxy
      rw [insertBy_front]
      intro w hw
      rcases head_mrgBy hw with hw | hw
      · simp at hw; subst hw; simpa using hxy
      · exact h w (List.mem_of_mem_head? hw)

/-- merging a sorted `ys` is inserting its elements, last first -/
theorem mrgBy_foldr {xs ys : List α} (hx : ∀ x ∈ xs, x ∈ S) (hys : ∀ x ∈ ys, x ∈ S) (h : sorted less ys = true) :
    mrgBy less xs ys = ys.foldr (insertBy less) xs := by
  induction ys with
  | nil => simp
  | cons y ys ih =>
    rw [sorted_cons] at h
    have hys' : ∀ x ∈ ys, x ∈ S := fun x hx => hys x (by simp [hx])
    rw [mrgBy_insert hs (hys y (by simp)) hx hys' h.1, ih hys' h.2, List.foldr_cons]

theorem insertBy_comm {y z : α} {xs : List α} (hy : y ∈ S) (hz : z ∈ S) (hx : ∀ x ∈ xs, x ∈ S) (hzy : less z y = true) :
    insertBy less z (insertBy less y xs) = insertBy less y (insertBy less z xs) := by
  have hyz := hs.asymm z hz y hy hzy
  induction xs with
  | nil => simp [insertBy, hzy, hyz]
  | cons w xs ih =>
    have hw := hx w (by simp)
    have ih' := ih (fun x h => hx x (by simp [h]))
    cases hwz : less w z
    · cases hwy : less w y
      · simp [insertBy, hwz, hwy, hzy, hyz]
      · simp [insertBy, hwz, hwy, hzy]
    · have hwy := hs.trans hw hz hy hwz hzy
      simp [insertBy, hwz, hwy, ih']

omit hs in
theorem mem_foldr_insertBy {x : α} {xs r : List α} : x ∈ r.foldr (insertBy less) xs ↔ x ∈ r ∨ x ∈ xs := by
  induction r with
  | nil => simp
  | cons y r ih => simp [mem_insertBy, ih]; tauto

theorem foldr_insertBy {y : α} {xs t : List α} (hy : y ∈ S) (hx : ∀ x ∈ xs, x ∈ S) (ht : ∀ x ∈ t, x ∈ S) :
    (insertBy less y t).foldr (insertBy less) xs = insertBy less y (t.foldr (insertBy less) xs) := by
  induction t with
  | nil => rfl
  | cons z t ih =>
    have hz := ht z (by simp)
    have ht' : ∀ x ∈ t, x ∈ S := fun x h => ht x (by simp [h])
    rw [insertBy]
    split
    · rename_i hzy
      rw [List.foldr_cons, ih ht', List.foldr_cons]
      refine insertBy_comm hs hy hz ?_ hzy
      intro x hx'
      rcases mem_foldr_insertBy.1 hx' with h | h
      · exact ht' x h
      · exact hx x h
    · rfl

theorem foldr_sortBy {xs r : List α} (hx : ∀ x ∈ xs, x ∈ S) (hr : ∀ x ∈ r, x ∈ S) :
    (sortBy less r).foldr (insertBy less) xs = r.foldr (insertBy less) xs := by
  induction r with
  | nil => rfl
  | cons y r ih =>
    have hr' : ∀ x ∈ r, x ∈ S := fun x h => hr x (by simp [h])
    rw [sortBy, foldr_insertBy hs (hr y (by simp)) hx (fun x hx => hr' x (mem_sortBy.1 hx)), ih hr', List.foldr_cons]

omit hs in
theorem foldr_sortBy_append {xs r : List α} : r.foldr (insertBy less) (sortBy less xs) = sortBy less (r ++ xs) := by
  induction r with
  | nil => rfl
  | cons y r ih => rw [List.foldr_cons, ih, List.cons_append, sortBy]

theorem mrgBy_sortBy {xs ys : List α} (hx : ∀ x ∈ xs, x ∈ S) (hy : ∀ x ∈ ys, x ∈ S) :
    mrgBy less (sortBy less xs) (sortBy less ys) = sortBy less (ys ++ xs) := by
  rw [mrgBy_foldr hs (fun x h => hx x (mem_sortBy.1 h)) (fun x h => hy x (mem_sortBy.1 h)) (sorted_sortBy hs hy),
    foldr_sortBy hs (fun x h => hx x (mem_sortBy.1 h)) hy, foldr_sortBy_append]

/-- The library's sort: sorted, equivalent elements in reverse order. -/
theorem msortBy_eq {xs : List α} (hx : ∀ x ∈ xs, x ∈ S) : msortBy less xs = sortBy less xs.reverse := by
  induction xs using half_induction with
  | short xs h =>
    rw [msortBy_short h]
    match xs, h with
    | [], _ => rfl
    | [x], _ => rfl
    | _ :: _ :: _, h => simp at h; omega
  | long xs ys h1 h2 ih1 ih2 =>
    have hx1 : ∀ x ∈ xs, x ∈ S := fun x h => hx x (by simp [h])
    have hx2 : ∀ x ∈ ys, x ∈ S := fun x h => hx x (by simp [h])
    rw [msortBy_long h1 h2, ih1 hx1, ih2 hx2, mrgBy_sortBy hs (fun x h => hx1 x (by simpa using h)) (fun x h => hx2 x (by simpa using h)),
      List.reverse_append]

/-- With "not greater" as predicate it is a stable sort. -/
theorem msortBy_le {xs : List α} (hx : ∀ x ∈ xs, x ∈ S) : msortBy (fun x y => !less y x) xs = sortBy less xs := by
  induction xs using half_induction with
  | short xs h =>
    rw [msortBy_short h]
    match xs, h with
    | [], _ => rfl
    | [x], _ => rfl
    | _ :: _ :: _, h => simp at h; omega
  | long xs ys h1 h2 ih1 ih2 =>
    have hx1 : ∀ x ∈ xs, x ∈ S := fun x h => hx x (by simp [h])
    have hx2 : ∀ x ∈ ys, x ∈ S := fun x h => hx x (by simp [h])
    rw [msortBy_long h1 h2, ih1 hx1, ih2 hx2, mrgBy_flip, mrgBy_sortBy hs hx2 hx1]

theorem mrgBy_sorted {xs ys : List α} (hx : ∀ x ∈ xs, x ∈ S) (hy : ∀ x ∈ ys, x ∈ S) (sx : sorted less xs = true) (sy : sorted less ys = true) :
    mrgBy less xs ys = sortBy less (ys ++ xs) := by
  rw [← mrgBy_sortBy hs hx hy, sortBy_sorted sx, sortBy_sorted sy]

end Verif.Proof.LL
