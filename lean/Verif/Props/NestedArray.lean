import Verif.Props.NestedCmp
import Verif.Proof.NestedArray
/-!
# Property C132: arrays of vectors, lists, results, ...

`arrayCls C dm N` is the class `Array<T, N>` for the class `T` given by `C`, whose default constructor is `dm`.
-/
namespace Verif.Props
open Verif Verif.Model.Mem Verif.Model.Nested Verif.Spec.Nested Verif.Proof.Nested

variable {α ε : Type}

section
variable (f : Full α) (N : Nat) {dm : (f.sig ε).Make} {dv : FVal ε f} (hd : (fmeaning ε f).val dm = some dv)
  (hmv : ∀ x, (fmeaning ε f).mvInto dv x = true)
include hd hmv

/-- C132.  A program over arrays of objects gives the results of the same program over `N` values each, and when all its arrays are destroyed, all
elements have ended and returned their memory, at every depth.  The elements are of a type of which a default-constructed object may be
move-assigned to; strings are not, because assigning strings of 16 bytes is undefined (C123), and options and results have no default constructor.  Missing:
iterators and `from_iter`. -/
theorem C132_history_partial (ops : List (NOp (arraySig (f.sig ε)))) {rs : List (Option (arraySig (f.sig ε)).Ret)} {A : Nat → Option (Fin N → FVal ε f)}
    (h : nspecRun (arrayMeaning (fmeaning ε f) dv N) ops (fun _ => none) = some (rs, A)) :
    (nrun (arrayCls (f.cls ε) dm N) ops (arrayCls (f.cls ε) dm N).start).Safe fun q =>
      q.1 = rs ∧ ((∀ i, A i = none) → (f.cls ε).idle q.2.objs) :=
  (nrun_ok (arrayLaw N dm dv (flaw ε f) hd hmv) ops (arrayLaw N dm dv (flaw ε f) hd hmv).start h).mono fun _ hq =>
    ⟨hq.1, (arrayLaw N dm dv (flaw ε f) hd hmv).idle hq.2⟩

/-- C132.  The same for vectors of arrays of objects. -/
theorem C132_vectors_of_arrays_partial (ty : ElemTy Unit) (ops : List (NOp (vectorSig (arraySig (f.sig ε)))))
    {rs : List (Option (vectorSig (arraySig (f.sig ε))).Ret)} {A : Nat → Option (Spec.Vector.Var (Fin N → FVal ε f))}
    (h : nspecRun (vectorMeaning ty.size (arrayMeaning (fmeaning ε f) dv N)) ops (fun _ => none) = some (rs, A)) :
    (nrun (vectorCls ty (arrayCls (f.cls ε) dm N)) ops (vectorCls ty (arrayCls (f.cls ε) dm N)).start).Safe fun q =>
      q.1 = rs ∧ ((∀ i, A i = none) → (vectorCls ty (arrayCls (f.cls ε) dm N)).idle q.2) :=
  (nrun_ok (vectorLaw ty (arrayLaw N dm dv (flaw ε f) hd hmv)) ops (vectorLaw ty (arrayLaw N dm dv (flaw ε f) hd hmv)).start h).mono fun _ hq =>
    ⟨hq.1, (vectorLaw ty (arrayLaw N dm dv (flaw ε f) hd hmv)).idle hq.2⟩

/-- C132.  The same for arrays of arrays of objects. -/
theorem C132_arrays_of_arrays_partial (M : Nat) (ops : List (NOp (arraySig (arraySig (f.sig ε)))))
    {rs : List (Option (arraySig (arraySig (f.sig ε))).Ret)} {A : Nat → Option (Fin M → Fin N → FVal ε f)}
    (h : nspecRun (arrayMeaning (arrayMeaning (fmeaning ε f) dv N) (fun _ => dv) M) ops (fun _ => none) = some (rs, A)) :
    (nrun (arrayCls (S := arraySig (f.sig ε)) (arrayCls (f.cls ε) dm N) AMake.dflt M) ops (arrayCls (S := arraySig (f.sig ε)) (arrayCls (f.cls ε) dm N) AMake.dflt M).start).Safe fun q =>
      q.1 = rs ∧ ((∀ i, A i = none) → (f.cls ε).idle q.2.objs.objs) :=
  have L := arrayLaw (S := arraySig (f.sig ε)) M AMake.dflt (fun _ => dv) (arrayLaw N dm dv (flaw ε f) hd hmv) rfl (fun x => by simp [arrayMeaning, hmv])
  (nrun_ok L ops L.start h).mono fun _ hq => ⟨hq.1, L.idle hq.2⟩

variable (ops : List (NOp (arraySig (f.sig ε)))) {rs : List (Option (arraySig (f.sig ε)).Ret)} {A : Nat → Option (Fin N → FVal ε f)}
  (h : nspecRun (arrayMeaning (fmeaning ε f) dv N) ops (fun _ => none) = some (rs, A))
  {q : List (Option (arraySig (f.sig ε)).Ret) × AWorld (f.State ε)}
  (hq : nrun (arrayCls (f.cls ε) dm N) ops (arrayCls (f.cls ε) dm N).start = .ok q)
include h hq

/-- C132.  After any program: an index that is not less than `N` aborts, for reading and for writing. -/
theorem C132_index_panics {i k : Nat} {x : Fin N → FVal ε f} (hi : A i = some x) (hk : N ≤ k) (c : (f.sig ε).Call) (m : (f.sig ε).Make) :
    nstep (arrayCls (f.cls ε) dm N) (.call i (.at k c)) q.2 = .panic ∧ nstep (arrayCls (f.cls ε) dm N) (.call i (.set k m)) q.2 = .panic :=
  index_panics (L := flaw ε f) (law_then (arrayLaw N dm dv (flaw ε f) hd hmv) h hq) hi hk c m

/-- C132.  After any program: a list with more than `N` elements aborts, unless there is no memory for its elements. -/
theorem C132_too_long_panics {i : Nat} (hi : A i = none) {ms : List (f.sig ε).Make} (hl : N < ms.length) {xs : List (FVal ε f)}
    (hx : ms.mapM (fmeaning ε f).val = some xs) :
    nstep (arrayCls (f.cls ε) dm N) (.make i (.list ms)) q.2 = .panic ∨ nstep (arrayCls (f.cls ε) dm N) (.make i (.list ms)) q.2 = .oom :=
  array_too_long (L := flaw ε f) hd (law_then (arrayLaw N dm dv (flaw ε f) hd hmv) h hq) hi hl hx
end

/-- C132.  After any program: `==` of two arrays, or of an array with itself, answers whether the nested lists, and errors, in their elements are
equal, at every depth, and changes nothing. -/
theorem C132_equal (c : Equated α) (N : Nat) {dm : (c.full.sig ε).Make} {dv : FVal ε c.full} (hd : (fmeaning ε c.full).val dm = some dv)
    (hmv : ∀ x, (fmeaning ε c.full).mvInto dv x = true) (ops : List (NOp (arraySig (c.full.sig ε)))) {rs : List (Option (arraySig (c.full.sig ε)).Ret)}
    {A : Nat → Option (Fin N → FVal ε c.full)} (h : nspecRun (arrayMeaning (fmeaning ε c.full) dv N) ops (fun _ => none) = some (rs, A))
    {q : List (Option (arraySig (c.full.sig ε)).Ret) × AWorld (c.full.State ε)}
    (hq : nrun (arrayCls (c.full.cls ε) dm N) ops (arrayCls (c.full.cls ε) dm N).start = .ok q) {i j : Nat} {x y : Fin N → FVal ε c.full}
    (hi : A i = some x) (hj : A j = some y) (eqA : α → α → Bool) (eqE : ε → ε → Bool) (hA : ∀ x y, eqA x y = true ↔ x = y)
    (hE : ∀ x y, eqE x y = true ↔ x = y) :
    ∃ r, arrayEq N (eqAt eqA eqE c) i j q.2 = .ok (r, q.2) ∧ (r = true ↔ ∀ k, inside c (x k) = inside c (y k)) := by
  obtain ⟨r, hr, hiff⟩ := arrayEq_ok (L := flaw ε c.full) (eqAt_reads eqA eqE c) (law_then (arrayLaw N dm dv (flaw ε c.full) hd hmv) h hq) hi hj
  exact ⟨r, hr, hiff.trans (forall_congr' fun k => eqVal_iff hA hE c _ _)⟩

/-- C132.  Vectors and linked lists of anything can be elements: they have default constructors, and may be move-assigned to. -/
theorem C132_elements (f : Full α) (ty : ElemTy Unit) (cfg : Model.LL.Cfg Unit) :
    ((fmeaning ε (.vector ty f)).val .dflt = some ⟨[], 2, 0⟩ ∧ ∀ x, (fmeaning ε (.vector ty f)).mvInto ⟨[], 2, 0⟩ x = true) ∧
    ((fmeaning ε (.linked cfg f)).val (.alloc 0) = some ⟨some [], 0⟩ ∧ ∀ x, (fmeaning ε (.linked cfg f)).mvInto ⟨some [], 0⟩ x = true) :=
  ⟨⟨rfl, fun _ => rfl⟩, rfl, fun _ => rfl⟩

/-! ## The hypotheses are met -/

section
/-- `Vector<Vector<int>>` -/
def arrElem : Full Nat := .vector (nestBuf 32 (by decide)) (.base (.values exTy))

/-- arrays of 3 of them -/
def arrProg : List (NOp (arraySig (arrElem.sig Nat))) :=
  [.make 0 (.list [.list [.list [1, 2] 0] 0, .dflt]), .call 0 (.at 1 (.push (.list [7] 0))), .copy 1 0, .call 1 (.set 2 (.list [.list [] 0, .list [5] 0] 0)),
   .move 2 0, .copyAssign 0 1, .moveAssign 2 1, .call 2 .size, .make 3 .dflt]

def arrView (o : Option (Fin 3 → FVal Nat arrElem)) : Option (List (List (List Nat))) :=
  o.map fun x => [x 0, x 1, x 2].map fun v : Spec.Vector.Var (Spec.Vector.Var Nat) => v.xs.map Spec.Vector.Var.xs

example : (nspecRun (arrayMeaning (fmeaning Nat arrElem) ⟨[], 2, 0⟩ 3) arrProg fun _ => none).map
      (fun p => (arrView (p.2 0), arrView (p.2 1), arrView (p.2 2), arrView (p.2 3))) =
    some (some [[[1, 2]], [[7]], [[], [5]]], some [[], [], []], some [[[1, 2]], [[7]], [[], [5]]], some [[], [], []]) := rfl

/-- the program runs on memory -/
example : (match nrun (arrayCls (arrElem.cls Nat) .dflt 3) arrProg (arrayCls (arrElem.cls Nat) .dflt 3).start with
    | .ok _ => true | _ => false) = true := by decide +kernel

/-- all arrays destroyed: the hypothesis on leaks is met -/
example : (nspecRun (arrayMeaning (fmeaning Nat arrElem) ⟨[], 2, 0⟩ 3) (arrProg ++ [.drop 1, .drop 0, .drop 3, .drop 2]) fun _ => none).map
      (fun p => (arrView (p.2 0), arrView (p.2 1), arrView (p.2 2), arrView (p.2 3))) = some (none, none, none, none) := rfl

/-- arrays 0 and 2 are equal, 0 and 1 are not (`C132_equal`; `arrElem` is `(Equated.vector _ (.values _)).full`) -/
example : (match (do let _ ← nrun (arrayCls (arrElem.cls Nat) .dflt 3) arrProg
                     let a ← arrayEq 3 (eqAt (ε := Nat) (· == ·) (· == ·) (.vector (nestBuf 32 (by decide)) (.values exTy))) 0 2
                     let b ← arrayEq 3 (eqAt (ε := Nat) (· == ·) (· == ·) (.vector (nestBuf 32 (by decide)) (.values exTy))) 0 1
                     return (a, b)) (arrayCls (arrElem.cls Nat) .dflt 3).start with
    | .ok p => some p.1 | _ => none) = some (true, false) := by decide +kernel

/-- a list of four: `C132_too_long_panics` -/
example : (([.dflt, .dflt, .dflt, .dflt] : List (arrElem.sig Nat).Make).mapM (fmeaning Nat arrElem).val).isSome = true := rfl

/-- from a C array -/
example : (nspecRun (arrayMeaning (fmeaning Nat arrElem) ⟨[], 2, 0⟩ 3) [.make 0 (.raw [.dflt, .list [.list [1] 0] 0, .dflt])] fun _ => none).map
      (fun p => arrView (p.2 0)) = some (some [[], [[1]], []]) := rfl

/-- `Vector<Array<Vector<Vector<int>>, 2>>` -/
example : (nspecRun (vectorMeaning 64 (arrayMeaning (fmeaning Nat arrElem) ⟨[], 2, 0⟩ 2))
      [.make 0 .dflt, .call 0 (.push (.list [.list [.list [1] 0] 0])), .call 0 (.push .dflt), .call 0 (.elem 1 (.set 0 (.list [.dflt] 0))),
       .copy 1 0, .call 1 (.erase 0)] fun _ => none).isSome = true := rfl

/-- `Array<Array<Vector<Vector<int>>, 2>, 2>` -/
example : (nspecRun (arrayMeaning (arrayMeaning (fmeaning Nat arrElem) ⟨[], 2, 0⟩ 2) (fun _ => ⟨[], 2, 0⟩) 2)
      [.make 0 (.list [.list [.list [.list [1] 0] 0]]), .move 1 0, .call 1 (.at 0 (.at 0 (.push (.dflt)))), .drop 0, .drop 1] fun _ => none).isSome = true := rfl
end
end Verif.Props
