import Verif.Props.NestedResult
import Verif.Proof.NestedShow
/-!
# Property C128: printing vectors and linked lists of vectors and linked lists

`showAt shw c i` is the program `os << a` for the object of type `c` at address `i`, where `shw` is what `<<` writes for the values at the bottom.
`Spec/NestedShow.lean` says what is written for a value.
-/
namespace Verif.Props
open Verif Verif.Model.Mem Verif.Model.Nested Verif.Spec.Nested Verif.Proof.Nested
open Verif.Spec.Vector (Var joinSeq)

variable {α : Type}

theorem mapM_some_iff {A B : Type} {g : A → Option B} : ∀ xs : List A, (xs.mapM g).isSome = true ↔ ∀ x ∈ xs, (g x).isSome = true
  | [] => by simp
  | x :: xs => by
    have := mapM_some_iff (g := g) xs
    simp only [List.mapM_cons, List.forall_mem_cons, ← this]
    cases g x <;> cases xs.mapM g <;> simp

/-- C128.  Something can be written for an object exactly if no linked list in it was moved from. -/
theorem C128_written_iff (shw : α → String) : (c : Printed α) → ∀ x : Val c.shape, (written shw c x).isSome = true ↔ Intact c x
  | .values _, _ => iff_of_true rfl trivial
  | .lists cfg, (v : Spec.LL.Var α) => by
    show (v.items.map fun xs => bracketed (listName cfg.dbl) (xs.map shw)).isSome = true ↔ v.items ≠ none
    cases v.items <;> simp
  | .vector _ c, (v : Var (Val c.shape)) => by
    show ((v.xs.mapM (written shw c)).map (bracketed "Vec")).isSome = true ↔ ∀ x ∈ v.xs, Intact c x
    rw [Option.isSome_map, mapM_some_iff]
    exact forall_congr' fun x => imp_congr_right fun _ => C128_written_iff shw c x
  | .linked cfg c, (v : Spec.LL.Var (Val c.shape)) => by
    show (v.items.bind fun xs => (xs.mapM (written shw c)).map (bracketed (listName cfg.dbl))).isSome = true ↔
      ∃ xs, v.items = some xs ∧ ∀ x ∈ xs, Intact c x
    cases v.items with
    | none => simp
    | some xs =>
      simp only [Option.bind_some, Option.isSome_map, Option.some.injEq, exists_eq_left', mapM_some_iff]
      exact forall_congr' fun x => imp_congr_right fun _ => C128_written_iff shw c x

theorem mapM_map {A B D : Type} {g : B → Option D} {g' : A → Option D} {f : A → B} (h : ∀ x, g (f x) = g' x) :
    ∀ xs : List A, (xs.map f).mapM g = xs.mapM g'
  | [] => rfl
  | x :: xs => by simp only [List.map_cons, List.mapM_cons, h, mapM_map h xs]

/-- C128.  The same is written for an object and its copies. -/
theorem C128_written_copy (shw : α → String) : (c : Printed α) → (∀ x, written shw c ((meaning c.shape).cp x) = written shw c x) ∧
    ∀ t x, written shw c ((meaning c.shape).cpAssign t x) = written shw c x
  | .values _ => ⟨fun _ => rfl, fun _ _ => rfl⟩
  | .lists cfg => ⟨fun _ => rfl, fun _ _ => rfl⟩
  | .vector ty c => by
    obtain ⟨h1, h2⟩ := C128_written_copy shw c
    have h4 : ∀ ts xs : List (Val c.shape), (assigned (meaning c.shape) ts xs).mapM (written shw c) = xs.mapM (written shw c) := by
      intro ts
      induction ts with
      | nil => intro xs; simp only [assigned]; exact mapM_map h1 xs
      | cons t ts ih =>
        intro xs
        cases xs with
        | nil => rfl
        | cons x xs => simp only [assigned, List.mapM_cons, h2, ih]
    refine ⟨fun (x : Var (Val c.shape)) => congrArg (Option.map (bracketed "Vec")) (mapM_map h1 x.xs),
      fun (t : Var (Val c.shape)) (x : Var (Val c.shape)) => congrArg (Option.map (bracketed "Vec")) ?_⟩
    show (((vectorMeaning ty.size (meaning c.shape)).cpAssign t x).xs).mapM (written shw c) = _
    simp only [vectorMeaning]
    split
    · exact h4 t.xs x.xs
    · exact mapM_map h1 x.xs
  | .linked cfg c => by
    obtain ⟨h1, h2⟩ := C128_written_copy shw c
    have h3 : ∀ o : Option (List (Val c.shape)),
        (o.map (List.map (meaning c.shape).cp)).bind (fun xs => (xs.mapM (written shw c)).map (bracketed (listName cfg.dbl))) =
          o.bind fun xs => (xs.mapM (written shw c)).map (bracketed (listName cfg.dbl)) := by
      intro o
      cases o with
      | none => rfl
      | some xs => simp only [Option.map_some, Option.bind_some, mapM_map h1 xs]
    exact ⟨fun (x : Spec.LL.Var (Val c.shape)) => h3 x.items, fun _ (x : Spec.LL.Var (Val c.shape)) => h3 x.items⟩

section
variable (c : Printed α) (ops : List (NOp c.shape.sig)) {rs : List (Option c.shape.sig.Ret)} {A : Nat → Option (Val c.shape)}
  (h : nspecRun (meaning c.shape) ops (fun _ => none) = some (rs, A)) {q : List (Option c.shape.sig.Ret) × c.shape.State}
  (hq : nrun c.shape.cls ops c.shape.cls.start = .ok q) {i j : Nat} {x t : Val c.shape} (shw : α → String)
include h hq

/-- C128.  After any program over nested vectors and linked lists: `os << a` writes the nested lists in `a`, every level with its name and
brackets, and changes nothing, if no list in `a` was moved from.  Missing: such lists, see `C128_moved_fails`. -/
theorem C128_print_partial (hi : A i = some x) (hx : Intact c x) :
    ∃ w, written shw c x = some w ∧ showAt shw c i q.2 = .ok (w, q.2) := by
  obtain ⟨w, hw⟩ := Option.isSome_iff_exists.1 ((C128_written_iff shw c x).2 hx)
  refine ⟨w, hw, ?_⟩
  rw [showAt_reads shw c _ _ _ _ (law_then (law c.shape) h hq) hi, hw]
  rfl

/-- C128 fails.  After any program: printing an object in which a linked list, at any depth, was moved from is undefined. -/
theorem C128_moved_fails (hi : A i = some x) (hx : ¬ Intact c x) : showAt shw c i q.2 = .ub := by
  have hw : written shw c x = none := by
    cases hw : written shw c x with
    | none => rfl
    | some w => exact absurd ((C128_written_iff shw c x).1 (by rw [hw]; rfl)) hx
  rw [showAt_reads shw c _ _ _ _ (law_then (law c.shape) h hq) hi, hw]
  rfl

/-- C128.  After any program: after `T a(b)` or `a = b`, what is written for `a` is what is, and was before, written for `b`. -/
theorem C128_copy_prints_same (hj : A j = some x) (hx : Intact c x) (hok : (meaning c.shape).cpOk x = true) :
    ∃ w, showAt shw c j q.2 = .ok (w, q.2) ∧
      (A i = none → (nstep c.shape.cls (.copy i j) q.2).Safe fun p => showAt shw c i p.2 = .ok (w, p.2) ∧ showAt shw c j p.2 = .ok (w, p.2)) ∧
      (i ≠ j → A i = some t → (meaning c.shape).cpInto t x = true →
        (nstep c.shape.cls (.copyAssign i j) q.2).Safe fun p => showAt shw c i p.2 = .ok (w, p.2) ∧ showAt shw c j p.2 = .ok (w, p.2)) := by
  obtain ⟨w, hw, e⟩ := C128_print_partial c ops h hq shw hj hx
  have hI := law_then (law c.shape) h hq
  have at' : ∀ {B s k y}, (law c.shape).Inv B s → B k = some y → written shw c y = some w → showAt shw c k s = .ok (w, s) := by
    intro B s k y I hy e
    rw [showAt_reads shw c _ _ _ _ I hy, e]
    rfl
  refine ⟨w, e, fun hi => ?_, fun hij hi hin => ?_⟩
  · have hne : j ≠ i := by rintro rfl; rw [hi] at hj; cases hj
    have hs : nspecStep (meaning c.shape) (.copy i j) A = some (none, place A i (some ((meaning c.shape).cp x))) := by
      simp only [nspecStep, hi, hj, Option.bind_some, hok, if_true, Option.isNone_none]
    refine (nstep_ok (law c.shape) hI hs).mono fun p hp => ⟨?_, ?_⟩
    · exact at' hp.2 (place_same _ _ _) (((C128_written_copy shw c).1 x).trans hw)
    · exact at' hp.2 (by rw [place_ne _ _ hne]; exact hj) hw
  · refine (nstep_ok (law c.shape) hI (nspec_assign hij hi hj hok hin)).mono fun p hp => ⟨?_, ?_⟩
    · exact at' hp.2 (place_same _ _ _) (((C128_written_copy shw c).2 t x).trans hw)
    · exact at' hp.2 (by rw [place_ne _ _ (Ne.symm hij)]; exact hj) hw

end

/-! ## The hypotheses are met -/

section
/-- `Vector<Vector<int>>` -/
def shownRows : Printed Nat := .vector (nestBuf 24 (by decide)) (.values exTy)

def shownProg : List (NOp shownRows.shape.sig) :=
  [.make 0 (.list [.list [1, 2] 0, .list [] 0, .list [3] 0] 0), .copy 1 0, .call 0 (.elem 1 (.push 7)), .call 0 (.reserve 9)]

/-- what is written after the program, on memory -/
example : (match nrun shownRows.shape.cls shownProg shownRows.shape.cls.start with
    | .ok p => (match showAt toString shownRows 0 p.2, showAt toString shownRows 1 p.2 with
      | .ok a, .ok b => some (a.1, b.1)
      | _, _ => none)
    | _ => none) = some ("Vec [Vec [1, 2], Vec [7], Vec [3]]", "Vec [Vec [1, 2], Vec [], Vec [3]]") := by decide +kernel

/-- the objects are there, may be copied and assigned: `C128_print_partial`, `C128_copy_prints_same` -/
example : (nspecRun (meaning shownRows.shape) shownProg fun _ => none).map (fun p => ((p.2 0).map (written toString shownRows),
      (p.2 0).map (meaning shownRows.shape).cpOk, (p.2 1).bind fun t => (p.2 0).map ((meaning shownRows.shape).cpInto t), (p.2 2).isNone)) =
    some (some (some "Vec [Vec [1, 2], Vec [7], Vec [3]]"), some true, some true, true) := by decide +kernel

/-- `ForwardList<Vector<List<int>>>` -/
def shownLinks : Printed Nat :=
  .linked { dbl := false, debug := true, vsize := 24, dsize := 72, mv := id, dflt := (), refuse := fun _ _ => false }
    (.vector (nestBuf 40 (by decide))
      (.lists { dbl := true, debug := true, vsize := 8, dsize := 72, mv := id, dflt := 0, refuse := fun _ _ => false }))

def shownLinksProg : List (NOp shownLinks.shape.sig) :=
  [.make 0 (.alloc 0), .call 0 (.pushFront (.list [.range [1, 2] 0, .alloc 0] 0)), .call 0 (.pushFront (.list [] 0)),
   .call 0 (.insertAfter 1 (.list [.range [3] 0] 0)), .copy 1 0, .move 2 0]

example : (nspecRun (meaning shownLinks.shape) shownLinksProg fun _ => none).map (fun p => ((p.2 0).map (written toString shownLinks),
      (p.2 1).map (written toString shownLinks))) =
    some (some none, some (some "ForwardList [Vec [], Vec [List [3]], Vec [List [1, 2], List []]]")) := by decide +kernel
end

end Verif.Props
