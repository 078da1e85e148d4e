import Verif.Props.NestedResult
import Verif.Props.Vector
import Verif.Proof.NestedCmp
/-!
# Property C127: comparing vectors of vectors, results of vectors, ...

`eqAt eqA eqE c i j` is the program `a == b` for the objects of type `c` at addresses `i` and `j`, where `eqA` and `eqE` are `==` of the values at
the bottom and of the errors; `cmpAt` is `a <=> b`.  `Spec/NestedCmp.lean` says what they answer about values.
-/
namespace Verif.Props
open Verif Verif.Model.Mem Verif.Model.Nested Verif.Spec.Nested Verif.Proof.Nested
open Verif.Spec.Vector (Var eqSeq lexSeq)

variable {α ε : Type}

theorem eqSeq_map {V W : Type} {g : V → V → Bool} {n : V → W} (h : ∀ x y, g x y = true ↔ n x = n y) :
    ∀ xs ys : List V, eqSeq g xs ys = true ↔ xs.map n = ys.map n
  | [], [] => by simp [eqSeq]
  | [], _ :: _ => by simp [eqSeq]
  | _ :: _, [] => by simp [eqSeq]
  | x :: xs, y :: ys => by simp [eqSeq, h x y, eqSeq_map h xs ys]

/-- equality of values is equality of what is inside -/
theorem eqVal_iff {eqA : α → α → Bool} {eqE : ε → ε → Bool} (hA : ∀ x y, eqA x y = true ↔ x = y) (hE : ∀ x y, eqE x y = true ↔ x = y) :
    (c : Equated α) → ∀ x y : FVal ε c.full, eqVal eqA eqE c x y = true ↔ inside c x = inside c y
  | .values _, (x : Var α), (y : Var α) => by
    have := eqSeq_map (n := id) (fun a b => hA a b) x.xs y.xs
    simp only [List.map_id] at this
    exact this
  | .vector _ c, (x : Var (FVal ε c.full)), (y : Var (FVal ε c.full)) => eqSeq_map (eqVal_iff hA hE c) x.xs y.xs
  | .result c, (.ok x), (.ok y) => by
    refine (eqVal_iff hA hE c x y).trans ?_
    show _ ↔ (Except.ok (inside c x) : Except ε (Inside ε c)) = Except.ok (inside c y)
    simp
  | .result c, (.ok x), (.error y) => by
    show false = true ↔ (Except.ok (inside c x) : Except ε (Inside ε c)) = Except.error y
    simp
  | .result c, (.error x), (.ok y) => by
    show false = true ↔ (Except.error x : Except ε (Inside ε c)) = Except.ok (inside c y)
    simp
  | .result c, (.error x), (.error y) => by
    refine (hE x y).trans ?_
    show _ ↔ (Except.error x : Except ε (Inside ε c)) = Except.error y
    simp

section
variable (c : Equated α) (ops : List (NOp (c.full.sig ε))) {rs : List (Option (c.full.sig ε).Ret)} {A : Nat → Option (FVal ε c.full)}
  (h : nspecRun (fmeaning ε c.full) ops (fun _ => none) = some (rs, A)) {q : List (Option (c.full.sig ε).Ret) × c.full.State ε}
  (hq : nrun (c.full.cls ε) ops (c.full.cls ε).start = .ok q) {i j : Nat} {x y : FVal ε c.full}
include h hq

/-- C127.  After any program over nested vectors and results: `==` of two objects, or of an object with itself, answers whether the nested lists,
and errors, in them are equal, whatever their capacities and allocators, and changes nothing. -/
theorem C127_equal (hi : A i = some x) (hj : A j = some y) (eqA : α → α → Bool) (eqE : ε → ε → Bool)
    (hA : ∀ x y, eqA x y = true ↔ x = y) (hE : ∀ x y, eqE x y = true ↔ x = y) :
    ∃ r, eqAt eqA eqE c i j q.2 = .ok (r, q.2) ∧ (r = true ↔ inside c x = inside c y) :=
  ⟨_, eqAt_reads eqA eqE c _ _ _ _ _ _ (law_then (flaw ε c.full) h hq) hi hj, eqVal_iff hA hE c x y⟩

/-- C127, for any `==` of the values and errors: it is asked of the values at the bottom, in pairs, as the specification says. -/
theorem C127_equal_pointwise (hi : A i = some x) (hj : A j = some y) (eqA : α → α → Bool) (eqE : ε → ε → Bool) :
    eqAt eqA eqE c i j q.2 = .ok (eqVal eqA eqE c x y, q.2) :=
  eqAt_reads eqA eqE c _ _ _ _ _ _ (law_then (flaw ε c.full) h hq) hi hj
end

/-- copies have the same inside -/
theorem inside_copy : (c : Equated α) → (∀ x : FVal ε c.full, inside c ((fmeaning ε c.full).cp x) = inside c x) ∧
    ∀ t x : FVal ε c.full, inside c ((fmeaning ε c.full).cpAssign t x) = inside c x
  | .values _ => ⟨fun _ => rfl, fun _ _ => rfl⟩
  | .vector ty c => by
    obtain ⟨h1, h2⟩ := inside_copy c
    have h3 : ∀ xs : List (FVal ε c.full), (xs.map (fmeaning ε c.full).cp).map (inside c) = xs.map (inside c) := by
      intro xs; simp only [List.map_map]; exact List.map_congr_left fun x _ => h1 x
    have h4 : ∀ ts xs : List (FVal ε c.full), (assigned (fmeaning ε c.full) ts xs).map (inside c) = xs.map (inside c) := by
      intro ts
      induction ts with
      | nil => intro xs; simp only [assigned]; exact h3 xs
      | cons t ts ih =>
        intro xs
        cases xs with
        | nil => rfl
        | cons x xs => simp only [assigned, List.map_cons, h2, ih]
    refine ⟨fun (x : Var (FVal ε c.full)) => h3 x.xs, fun (t : Var (FVal ε c.full)) (x : Var (FVal ε c.full)) => ?_⟩
    show List.map (inside c) ((vectorMeaning ty.size (fmeaning ε c.full)).cpAssign t x).xs = List.map (inside c) x.xs
    simp only [vectorMeaning]
    split
    · exact h4 t.xs x.xs
    · exact h3 x.xs
  | .result c => by
    obtain ⟨h1, h2⟩ := inside_copy c
    refine ⟨fun x => ?_, fun t x => ?_⟩
    · match x with
      | .ok x => exact congrArg Except.ok (h1 x)
      | .error e => rfl
    · match t, x with
      | .ok t, .ok x => exact congrArg Except.ok (h2 t x)
      | .ok t, .error x => rfl
      | .error t, .ok x => rfl
      | .error t, .error x => rfl

section
variable (c : Equated α) (ops : List (NOp (c.full.sig ε))) {rs : List (Option (c.full.sig ε).Ret)} {A : Nat → Option (FVal ε c.full)}
  (h : nspecRun (fmeaning ε c.full) ops (fun _ => none) = some (rs, A)) {q : List (Option (c.full.sig ε).Ret) × c.full.State ε}
  (hq : nrun (c.full.cls ε) ops (c.full.cls ε).start = .ok q) {i j : Nat} {x t : FVal ε c.full}
  (eqA : α → α → Bool) (eqE : ε → ε → Bool) (hA : ∀ x y, eqA x y = true ↔ x = y) (hE : ∀ x y, eqE x y = true ↔ x = y)
include h hq hA hE

/-- C127.  After any program: a copy of an object, made by the copy constructor, is `==` to it. -/
theorem C127_copy_equal (hj : A j = some x) (hi : A i = none) (hok : (fmeaning ε c.full).cpOk x = true) :
    (nstep (c.full.cls ε) (.copy i j) q.2).Safe fun p => eqAt eqA eqE c i j p.2 = .ok (true, p.2) := by
  have hne : j ≠ i := by rintro rfl; rw [hi] at hj; cases hj
  have hs : nspecStep (fmeaning ε c.full) (.copy i j) A = some (none, place A i (some ((fmeaning ε c.full).cp x))) := by
    simp only [nspecStep, hi, hj, Option.bind_some, hok, if_true, Option.isNone_none]
  refine (nstep_ok (flaw ε c.full) (law_then (flaw ε c.full) h hq) hs).mono fun p hp => ?_
  rw [eqAt_reads eqA eqE c _ _ _ _ _ _ hp.2 (place_same _ _ _) (by rw [place_ne _ _ hne]; exact hj),
    (eqVal_iff hA hE c _ _).2 ((inside_copy c).1 x)]

/-- C127.  After any program: after `a = b`, where the objects may be assigned, `a == b`. -/
theorem C127_assign_equal (hij : i ≠ j) (hi : A i = some t) (hj : A j = some x) (hok : (fmeaning ε c.full).cpOk x = true)
    (hin : (fmeaning ε c.full).cpInto t x = true) :
    (nstep (c.full.cls ε) (.copyAssign i j) q.2).Safe fun p => eqAt eqA eqE c i j p.2 = .ok (true, p.2) := by
  refine (nstep_ok (flaw ε c.full) (law_then (flaw ε c.full) h hq) (nspec_assign hij hi hj hok hin)).mono fun p hp => ?_
  rw [eqAt_reads eqA eqE c _ _ _ _ _ _ hp.2 (place_same _ _ _) (by rw [place_ne _ _ (Ne.symm hij)]; exact hj),
    (eqVal_iff hA hE c _ _).2 ((inside_copy c).2 t x)]
end

section
variable (c : Ordered α) (ops : List (NOp (c.full.sig ε))) {rs : List (Option (c.full.sig ε).Ret)} {A : Nat → Option (FVal ε c.full)}
  (h : nspecRun (fmeaning ε c.full) ops (fun _ => none) = some (rs, A)) {q : List (Option (c.full.sig ε).Ret) × c.full.State ε}
  (hq : nrun (c.full.cls ε) ops (c.full.cls ε).start = .ok q) {i j : Nat} {x y : FVal ε c.full}
include h hq

/-- C127.  After any program over nested vectors: `<=>` of two objects, or of an object with itself, answers with the lexicographic order of the
nested lists in them, at every depth, whatever the capacities and allocators, and changes nothing. -/
theorem C127_compare (hi : A i = some x) (hj : A j = some y) (cmp : α → α → Option Ordering) :
    cmpAt ε cmp c i j q.2 = .ok (order cmp c (nest c x) (nest c y), q.2) :=
  cmpAt_reads cmp c _ _ _ _ _ _ (law_then (flaw ε c.full) h hq) hi hj

end

/-- C127.  The order of nested vectors is what one expects: "equal" is equality of the nested lists; the answer of `b <=> a` is opposite to that of
`a <=> b`; if the values at the bottom are always ordered, nested vectors are; "less" is transitive. -/
theorem C127_total_order (cmp : α → α → Option Ordering) (heq : ∀ x y, cmp x y = some .eq ↔ x = y) (hsym : ∀ x y, cmp y x = flip' (cmp x y))
    (htot : ∀ x y, cmp x y ≠ none) (htr : ∀ x y z, cmp x y = some .lt → cmp y z = some .lt → cmp x z = some .lt) : (c : Ordered α) →
    (∀ x y : Nest c, order cmp c x y = some .eq ↔ x = y) ∧ (∀ x y : Nest c, order cmp c y x = flip' (order cmp c x y)) ∧
    (∀ x y : Nest c, order cmp c x y ≠ none) ∧
    ∀ x y z : Nest c, order cmp c x y = some .lt → order cmp c y z = some .lt → order cmp c x z = some .lt := by
  have ne : ∀ {β : Type} (f : β → β → Option Ordering), (∀ x y, f x y ≠ none) → ∀ xs ys : List β, lexSeq f xs ys ≠ none := by
    intro β f hf xs
    induction xs with
    | nil => intro ys; cases ys <;> simp [lexSeq]
    | cons x xs ih =>
      intro ys
      cases ys with
      | nil => simp [lexSeq]
      | cons y ys =>
        simp only [lexSeq]; split
        · exact ih ys
        · exact hf x y
  intro c
  induction c with
  | values ety => exact ⟨lex_eq cmp heq, lex_flip cmp hsym, ne cmp htot, lex_trans cmp heq htr⟩
  | vector ty c ih =>
    obtain ⟨h1, h2, h3, h4⟩ := ih
    exact ⟨lex_eq _ h1, lex_flip _ h2, ne _ h3, lex_trans _ h1 h4⟩

/-- C127.  "Less", for vectors of vectors: the first is a shorter prefix of the second, or at the first place where they differ its element is
less; "less" of the elements being the same, one level down. -/
theorem C127_less (cmp : α → α → Option Ordering) (heq : ∀ x y, cmp x y = some .eq ↔ x = y) (ty : ElemTy Unit) (c : Ordered α)
    (xs ys : List (Nest c)) : order cmp (.vector ty c) xs ys = some .lt ↔ LexLt (order cmp c) xs ys := by
  refine lex_lt (order cmp c) ?_ xs ys
  clear xs ys
  induction c with
  | values ety => exact lex_eq cmp heq
  | vector ty c ih => exact lex_eq _ ih

/-! ## The hypotheses are met -/

section
/-- `Vector<Result<Vector<int>, int>>` -/
def cmpRows : Equated Nat := .vector (nestBuf 40 (by decide)) (.result (.values exTy))

def cmpProg : List (NOp (cmpRows.full.sig Nat)) :=
  [.make 0 (.list [.err 1, .ok (.list [1, 2] 0), .ok (.list [3] 0)] 0),
   .copy 1 0,
   .call 0 (.elem 2 (.unwrap (.push 4))),
   .call 0 (.reserve 9),
   .make 2 (.list [.err 1, .ok (.list [1, 2] 0), .ok (.list [3, 4] 0)] 5)]

/-- what `==` answers after the program, on memory: different; equal, with other capacities and allocators; equal to itself -/
example : (match nrun (cmpRows.full.cls Nat) cmpProg (cmpRows.full.cls Nat).start with
    | .ok p => (match eqAt (· == ·) (· == ·) cmpRows 0 1 p.2, eqAt (· == ·) (· == ·) cmpRows 0 2 p.2, eqAt (· == ·) (· == ·) cmpRows 1 1 p.2 with
      | .ok a, .ok b, .ok c => some (a.1, b.1, c.1)
      | _, _, _ => none)
    | _ => none) = some (false, true, true) := by decide +kernel

/-- the objects are there, and may be copied and assigned: `C127_equal`, `C127_copy_equal`, `C127_assign_equal` -/
example : (nspecRun (fmeaning Nat cmpRows.full) cmpProg fun _ => none).map (fun p => ((p.2 0).map (inside cmpRows), (p.2 1).map (inside cmpRows),
      (p.2 2).map (inside cmpRows), (p.2 3).isNone, (p.2 0).map (fmeaning Nat cmpRows.full).cpOk,
      (p.2 1).bind fun t => (p.2 0).map ((fmeaning Nat cmpRows.full).cpInto t))) =
    some (some [.error 1, .ok [1, 2], .ok [3, 4]], some [.error 1, .ok [1, 2], .ok [3]], some [.error 1, .ok [1, 2], .ok [3, 4]], true, some true,
      some true) := rfl

/-- `Vector<Vector<int>>` -/
def ordRows : Ordered Nat := .vector (nestBuf 24 (by decide)) (.values exTy)

def ordProg : List (NOp (ordRows.full.sig Nat)) :=
  [.make 0 (.list [.list [1, 2] 0, .list [] 0, .list [3] 0] 0), .copy 1 0, .call 0 (.elem 1 (.push 7)), .make 2 (.list [.list [1, 2] 0] 0)]

/-- what `<=>` answers after the program, on memory -/
example : (match nrun (ordRows.full.cls Nat) ordProg (ordRows.full.cls Nat).start with
    | .ok p => (match cmpAt Nat (fun a b => some (compare a b)) ordRows 0 1 p.2, cmpAt Nat (fun a b => some (compare a b)) ordRows 2 1 p.2 with
      | .ok a, .ok b => some (a.1, b.1)
      | _, _ => none)
    | _ => none) = some (some .gt, some .lt) := by decide +kernel

example : (nspecRun (fmeaning Nat ordRows.full) ordProg fun _ => none).map (fun p => ((p.2 0).map (nest ordRows), (p.2 1).map (nest ordRows),
      (p.2 2).map (nest ordRows))) = some (some [[1, 2], [7], [3]], some [[1, 2], [], [3]], some [[1, 2]]) := rfl
end

end Verif.Props
