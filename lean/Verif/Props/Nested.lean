import Verif.Proof.NestedTower
import Verif.Props.Vector
import Verif.Props.LinkedList
import Verif.Props.BString
/-!
# Properties C122 and C123: vectors of vectors of ... of values, linked lists or strings

`Shape α` is the type of the objects of a program: `Vector<α>`, `List<α>`, `ForwardList<α>`, strings, vectors, linked lists and options of these,
vectors, linked lists and options of those, and so on, to any depth, with the size of the elements and the failing allocations of each level.
`s.cls` is the class: its constructors, assignments, destructor and members as programs on memory, where growing, erasing, assigning and
destroying a vector or a list call the members of its elements.  `NOp s.sig` are the statements of a client with any number of objects of
that class; calls reach the elements at any depth (`v[k][l].push_back(x)`).  `Props/NestedLinked.lean` (C124) says more about linked lists
of objects, `Props/NestedOpt.lean` (C125) about options of objects.

`meaning s` (`Spec/Nested.lean`) says what these statements do to values: nested lists, with the capacity and allocator of each container;
no memory at all.  `nspecRun` runs a program on them; `none` means the client broke a rule (an index outside, a size that no memory has,
an object used before or after its life) or did one of the things the code does not support: `push_back(v[k])` on a full vector, see
`C122_own_element_fails`, inserting at the front, see `C122_insert_front_fails`, copying something that holds a linked list that was moved
from, see `C122_copy_moved_fails`, assigning strings of 16 bytes, also by erasing, see `C122_assign_fails` and C123, and the calls on lists
and strings that do not work (`Spec/LinkedList.lean`, `Spec/BString.lean`).

`Safe`: the program ends normally, or an allocation was refused; no undefined behaviour at any level, no abort, no endless loop.
-/
namespace Verif.Props
open Verif Verif.Model.Mem Verif.Model.Nested Verif.Spec.Nested Verif.Proof.Nested
open Verif.Spec.Vector (Var)

variable {α : Type}

/-- C122.  A program over nested vectors, linked lists and options of any depth gives the results of the same program over nested lists, and when all its objects are
destroyed, as many objects are destroyed as were constructed and as many bytes returned as were obtained, at every level.  Missing:
`push_back` of an own element on a full vector, inserting at the front, copying linked lists that were moved from and assigning strings of
16 bytes, for which this fails (and inserting 0 copies). -/
theorem C122_history_partial (s : Shape α) (ops : List (NOp s.sig)) {rs : List (Option s.sig.Ret)} {A : Nat → Option (Val s)}
    (h : nspecRun (meaning s) ops (fun _ => none) = some (rs, A)) :
    (nrun s.cls ops s.cls.start).Safe fun q => q.1 = rs ∧ ((∀ i, A i = none) → s.cls.idle q.2) :=
  (nrun_ok (law s) ops (law s).start h).mono fun _ hq => ⟨hq.1, (law s).idle hq.2⟩

/-- C122.  After any program, every further one: what a program does depends only on the values of the objects, not on where in memory they
and their elements have come to lie. -/
theorem C122_continue_partial (s : Shape α) (ops ops' : List (NOp s.sig)) {rs rs' : List (Option s.sig.Ret)}
    {A A' : Nat → Option (Val s)} (h : nspecRun (meaning s) ops (fun _ => none) = some (rs, A))
    (h' : nspecRun (meaning s) ops' A = some (rs', A')) {q : List (Option s.sig.Ret) × s.State}
    (hq : nrun s.cls ops s.cls.start = .ok q) : (nrun s.cls ops' q.2).Safe fun p => p.1 = rs' := by
  have := nrun_ok (law s) ops (law s).start h
  rw [hq] at this
  exact (nrun_ok (law s) ops' this.2 h').mono fun _ hp => hp.1

theorem contents_assigned {S : Sig} {V X : Type} (μ : Meaning S V) (f : V → X) (hcp : ∀ x, f (μ.cp x) = f x)
    (has : ∀ t x, f (μ.cpAssign t x) = f x) (ts xs : List V) : (assigned μ ts xs).map f = xs.map f := by
  induction ts generalizing xs with
  | nil => simp [assigned, hcp]
  | cons t ts ih =>
    cases xs with
    | nil => rfl
    | cons x xs => simp [assigned, has, ih]

/-- C122.  A copy has the contents of the original, at every depth; so has the target of a copy assignment, whatever it held. -/
theorem C122_copy_same (s : Shape α) : (∀ x, contents s ((meaning s).cp x) = contents s x) ∧
    ∀ t x, contents s ((meaning s).cpAssign t x) = contents s x := by
  induction s with
  | values ety => exact ⟨fun _ => rfl, fun _ _ => rfl⟩
  | lists cfg => exact ⟨fun _ => rfl, fun _ _ => rfl⟩
  | texts enc refuse => exact ⟨fun _ => rfl, fun _ _ => rfl⟩
  | vector ty s ih =>
    have hm : ∀ xs : List (Val s), (xs.map (meaning s).cp).map (contents s) = xs.map (contents s) := by
      intro xs; simp [Function.comp_def, ih.1]
    refine ⟨fun x => hm x.xs, fun t x => ?_⟩
    by_cases h : Var.alloc t = Var.alloc x
    · simp only [meaning, vectorMeaning, contents, if_pos h]
      exact contents_assigned _ _ ih.1 ih.2 _ _
    · simp only [meaning, vectorMeaning, contents, if_neg h]
      exact hm x.xs
  | linked cfg s ih =>
    have hm : ∀ o : Option (List (Val s)), (o.map fun xs => xs.map (meaning s).cp).map (fun xs => xs.map (contents s)) =
        o.map fun xs => xs.map (contents s) := by
      intro o; cases o <;> simp [Function.comp_def, ih.1]
    exact ⟨fun x => hm x.items, fun _ x => hm x.items⟩
  | option s ih =>
    have hm : ∀ o : Option (Val s), (o.map (meaning s).cp).map (contents s) = o.map (contents s) := by
      intro o; cases o <;> simp [ih.1]
    refine ⟨fun x => hm x, fun t x => ?_⟩
    match t, x with
    | some t, some x => exact congrArg some (ih.2 t x)
    | some _, none => exact hm none
    | none, x => exact hm x

/-- C122.  After any program that leaves every vector empty: as many elements are destroyed as were constructed, and the elements have
returned all their memory.  Elements end when they are removed, not only when the vector ends. -/
theorem C122_elements_end (ty : ElemTy Unit) (s : Shape α) (ops : List (NOp (Shape.vector ty s).sig))
    {rs : List (Option (Shape.vector ty s).sig.Ret)} {A : Nat → Option (Var (Val s))}
    (h : nspecRun (meaning (.vector ty s)) ops (fun _ => none) = some (rs, A)) (hA : ∀ i v, A i = some v → v.xs = []) :
    (nrun (Shape.vector ty s).cls ops (Shape.vector ty s).cls.start).Safe fun q => s.cls.idle q.2.st.objs :=
  (nrun_ok (law (.vector ty s)) ops (law (.vector ty s)).start h).mono fun _ hq => vector_elements (L := law s) hq.2 hA

/-- C122 fails.  `v.push_back(v[k])` on a full vector of vectors, after any program: the element is copied after it was destroyed (unless
the allocation is refused before). -/
theorem C122_own_element_fails (ty : ElemTy Unit) (s : Shape α) (ops : List (NOp (Shape.vector ty s).sig))
    {rs : List (Option (Shape.vector ty s).sig.Ret)} {A : Nat → Option (Val (.vector ty s))}
    (h : nspecRun (meaning (.vector ty s)) ops (fun _ => none) = some (rs, A)) {q : List (Option (Shape.vector ty s).sig.Ret) × (Shape.vector ty s).State}
    (hq : nrun (Shape.vector ty s).cls ops (Shape.vector ty s).cls.start = .ok q) {i k : Nat} {v : Var (Val s)} (hi : A i = some v)
    (hk : k < v.xs.length) (hfull : v.xs.length = v.cap) :
    nstep (Shape.vector ty s).cls (.call i (.pushElem k)) q.2 = .ub ∨ nstep (Shape.vector ty s).cls (.call i (.pushElem k)) q.2 = .oom := by
  have h1 := nrun_ok (law (.vector ty s)) ops (law (.vector ty s)).start h
  rw [hq] at h1
  have h2 := pushElem_full (law s) (ty := ty) h1.2 hi hk hfull
  exact nstep_call_bad (C := vectorCls ty s.cls) h2

/-- C122 fails.  `v.insert(v.begin(), T(m))` into a vector of vectors that is not empty, after any program: undefined (unless an allocation
is refused before).  The loop that makes room does not stop at the first element. -/
theorem C122_insert_front_fails (ty : ElemTy Unit) (s : Shape α) (ops : List (NOp (Shape.vector ty s).sig))
    {rs : List (Option (Shape.vector ty s).sig.Ret)} {A : Nat → Option (Val (.vector ty s))}
    (h : nspecRun (meaning (.vector ty s)) ops (fun _ => none) = some (rs, A)) {q : List (Option (Shape.vector ty s).sig.Ret) × (Shape.vector ty s).State}
    (hq : nrun (Shape.vector ty s).cls ops (Shape.vector ty s).cls.start = .ok q) {i : Nat} {v : Var (Val s)} (hi : A i = some v)
    (hne : v.xs ≠ []) {m : s.sig.Make} {x : Val s} (hx : (meaning s).val m = some x) :
    nstep (Shape.vector ty s).cls (.call i (.insert 0 m)) q.2 = .ub ∨ nstep (Shape.vector ty s).cls (.call i (.insert 0 m)) q.2 = .oom := by
  have h1 := nrun_ok (law (.vector ty s)) ops (law (.vector ty s)).start h
  rw [hq] at h1
  exact nstep_call_bad (C := vectorCls ty s.cls) (insert_front (law s) (ty := ty) h1.2 hi hne hx)

/-- C122 fails.  In a build with assertions, copying an object that holds, at any depth, a linked list that was moved from aborts the program
(unless an allocation is refused before), after any program. -/
theorem C122_copy_moved_fails (s : Shape α) (hs : Checked s) (ops : List (NOp s.sig)) {rs : List (Option s.sig.Ret)}
    {A : Nat → Option (Val s)} (h : nspecRun (meaning s) ops (fun _ => none) = some (rs, A)) {q : List (Option s.sig.Ret) × s.State}
    (hq : nrun s.cls ops s.cls.start = .ok q) {i j : Nat} {x : Val s} (hj : A j = some x) (hx : (meaning s).cpOk x = false) :
    nstep s.cls (.copy i j) q.2 = .panic ∨ nstep s.cls (.copy i j) q.2 = .oom := by
  have h1 := nrun_ok (law s) ops (law s).start h
  rw [hq] at h1
  exact abort_then (shape_abort s hs A q.2 i j x h1.2 hj hx)

/-- C122 fails.  An assignment between two objects that the specification leaves out, because it would assign from or to a string of 16
bytes at some depth, is undefined (unless an allocation is refused before), after any program. -/
theorem C122_assign_fails (s : Shape α) (ops : List (NOp s.sig)) {rs : List (Option s.sig.Ret)} {A : Nat → Option (Val s)}
    (h : nspecRun (meaning s) ops (fun _ => none) = some (rs, A)) {q : List (Option s.sig.Ret) × s.State}
    (hq : nrun s.cls ops s.cls.start = .ok q) {i j : Nat} {t x : Val s} (hij : i ≠ j) (hi : A i = some t) (hj : A j = some x) :
    ((meaning s).cpOk x = true → (meaning s).cpInto t x = false →
      nstep s.cls (.copyAssign i j) q.2 = .ub ∨ nstep s.cls (.copyAssign i j) q.2 = .oom) ∧
    ((meaning s).mvInto t x = false → nstep s.cls (.moveAssign i j) q.2 = .ub ∨ nstep s.cls (.moveAssign i j) q.2 = .oom) := by
  have h1 := nrun_ok (law s) ops (law s).start h
  rw [hq] at h1
  exact ⟨fun hok hin => bad_then ((shape_stuck s).copy A q.2 i j t x h1.2 hij hi hj hok hin),
    fun hin => bad_then ((shape_stuck s).move A q.2 i j t x h1.2 hij hi hj hin)⟩

/-! ## C123: vectors of strings -/

/-- `Vector<BasicString<enc>>`; `ty`: the size of a string object and the requests the allocator of the vectors refuses, `refuse`: those the
allocator of the strings refuses. -/
def textRow (ty : ElemTy Unit) (enc : Model.BStr.Enc) (refuse : Nat → Nat → Bool) : Shape α := .vector ty (.texts enc refuse)

theorem shift_texts (enc : Model.BStr.Enc) (t : List UInt8) (xs : List (List UInt8)) :
    shiftOk.go (textMeaning enc) t xs = true ↔ xs = [] ∨ (t.length ≠ 16 ∧ ∀ x ∈ xs, x.length ≠ 16) := by
  induction xs generalizing t with
  | nil => simp [shiftOk.go]
  | cons x xs ih =>
    simp only [shiftOk.go, Bool.and_eq_true, ih, List.forall_mem_cons, reduceCtorEq, false_or]
    simp only [textMeaning, Bool.and_eq_true, bne_iff_ne, ne_eq, List.length_nil]
    constructor
    · rintro ⟨⟨h1, h2⟩, h3⟩
      refine ⟨h1, h2, ?_⟩
      rcases h3 with rfl | h3
      · simp
      · exact h3.2
    · rintro ⟨h1, h2, h3⟩
      exact ⟨⟨h1, h2⟩, .inr ⟨by decide, h3⟩⟩

theorem erase_texts (enc : Model.BStr.Enc) {xs : List (List UInt8)} {p : Nat} (hp : p < xs.length) :
    shiftOk (textMeaning enc) (xs.drop p) = true ↔ p + 1 = xs.length ∨ ∀ x ∈ xs.drop p, x.length ≠ 16 := by
  rw [← List.getElem_cons_drop hp]
  simp only [shiftOk, shift_texts, List.forall_mem_cons, List.drop_eq_nil_iff]
  exact or_congr (by omega) Iff.rfl

theorem assign_texts (enc : Model.BStr.Enc) (ts xs : List (List UInt8)) :
    assignedOk (textMeaning enc) ts xs = true ↔ ∀ (k : Nat) t x, ts[k]? = some t → xs[k]? = some x → t.length ≠ 16 ∧ x.length ≠ 16 := by
  induction ts generalizing xs with
  | nil => simp [assignedOk]
  | cons t ts ih =>
    cases xs with
    | nil => simp [assignedOk]
    | cons x xs =>
      simp only [assignedOk, Bool.and_eq_true, ih]
      constructor
      · rintro ⟨h1, h2⟩ k t' x' ht hx
        cases k with
        | zero =>
          simp only [List.getElem?_cons_zero, Option.some.injEq] at ht hx
          subst ht hx
          simpa [textMeaning] using h1
        | succ k => exact h2 k t' x' (by simpa using ht) (by simpa using hx)
      · intro h
        exact ⟨by simpa [textMeaning] using h 0 t x rfl rfl, fun k t' x' ht hx => h (k + 1) t' x' (by simpa using ht) (by simpa using hx)⟩

theorem nspec_then {S : Sig} {V : Type} {μ : Meaning S V} {op : NOp S} {ops : List (NOp S)} {A B C : Nat → Option V} {r : Option S.Ret}
    {rs : List (Option S.Ret)} (h1 : nspecStep μ op A = some (r, B)) (h2 : nspecRun μ ops B = some (rs, C)) :
    nspecRun μ (op :: ops) A = some (r :: rs, C) := by
  simp only [nspecRun, h1, Option.bind_some, h2, Option.map_some]

theorem nspec_assign {S : Sig} {V : Type} {μ : Meaning S V} {A : Nat → Option V} {i j : Nat} {t x : V} (hij : i ≠ j) (hi : A i = some t)
    (hj : A j = some x) (hok : μ.cpOk x = true) (hin : μ.cpInto t x = true) :
    nspecStep μ (.copyAssign i j) A = some (none, place A i (some (μ.cpAssign t x))) := by
  simp only [nspecStep, hi, hj, Option.bind_some, hok, hin, if_neg hij, Bool.true_eq_false, if_false]

section
variable {ty : ElemTy Unit} {enc : Model.BStr.Enc} {refuse : Nat → Nat → Bool}
  (ops : List (NOp (textRow (α := α) ty enc refuse).sig)) {rs : List (Option (textRow (α := α) ty enc refuse).sig.Ret)}
  {A : Nat → Option (Var (List UInt8))}
  (h : nspecRun (meaning (textRow (α := α) ty enc refuse)) ops (fun _ => none) = some (rs, A))
  {q : List (Option (textRow (α := α) ty enc refuse).sig.Ret) × (textRow (α := α) ty enc refuse).State}
  (hq : nrun (textRow (α := α) ty enc refuse).cls ops (textRow (α := α) ty enc refuse).cls.start = .ok q)
  {i j p : Nat} {v u : Var (List UInt8)} (hi : A i = some v)
include h hq hi

/-- C123.  After any program: erasing string `p` of a vector of strings removes exactly that string, whatever the program does next, if
string `p` is the last one or no string from `p` on has 16 bytes.  Missing: the rest, see `C123_erase_fails`. -/
theorem C123_erase_partial (hp : p < v.xs.length) (h16 : p + 1 = v.xs.length ∨ ∀ x ∈ v.xs.drop p, x.length ≠ 16)
    (ops' : List (NOp (textRow (α := α) ty enc refuse).sig)) {rs' : List (Option (textRow (α := α) ty enc refuse).sig.Ret)}
    {A' : Nat → Option (Var (List UInt8))}
    (h' : nspecRun (meaning (textRow (α := α) ty enc refuse)) ops' (place A i (some ⟨v.xs.eraseIdx p, v.cap, v.alloc⟩)) = some (rs', A')) :
    (nrun (textRow (α := α) ty enc refuse).cls (.call i (.erase p) :: ops') q.2).Safe fun r =>
      r.1 = some (.pos (some p)) :: rs' := by
  refine C122_continue_partial (textRow (α := α) ty enc refuse) ops _ h (rs' := some (.pos (some p)) :: rs') (A' := A') ?_ hq
  have e : vrun ty.size (textMeaning enc) (.erase p) v = some (.pos (some p), ⟨v.xs.eraseIdx p, v.cap, v.alloc⟩) := by
    simp only [vrun]
    exact if_pos ⟨hp, (erase_texts enc hp).2 h16⟩
  have : nspecStep (meaning (textRow (α := α) ty enc refuse)) (.call i (.erase p)) A =
      some (some (.pos (some p)), place A i (some ⟨v.xs.eraseIdx p, v.cap, v.alloc⟩)) := by
    simp only [nspecStep, hi, Option.bind_some]
    exact congrArg (Option.map _) e
  exact nspec_then (μ := meaning (textRow (α := α) ty enc refuse)) this h'

/-- C123 fails.  Erasing a string that is not the last one is undefined if some string from there on has 16 bytes. -/
theorem C123_erase_fails (hp : p + 1 < v.xs.length) {x : List UInt8} (hx : x ∈ v.xs.drop p) (h16 : x.length = 16) :
    nstep (textRow (α := α) ty enc refuse).cls (.call i (.erase p)) q.2 = .ub ∨
      nstep (textRow (α := α) ty enc refuse).cls (.call i (.erase p)) q.2 = .oom := by
  have h1 := nrun_ok (law (textRow (α := α) ty enc refuse)) ops (law (textRow (α := α) ty enc refuse)).start h
  rw [hq] at h1
  refine nstep_call_bad (C := vectorCls ty (textCls (textCfg enc refuse)))
    (vector_erase_stuck (text_stuck enc refuse) h1.2 hi (by omega) (Bool.eq_false_iff.2 fun e => ?_))
  rcases (erase_texts enc (by omega)).1 e with e | e
  · omega
  · exact e x hx h16

/-- C123.  Assigning one vector of strings to another gives it the same strings, if the allocators differ or no string of 16 bytes stands
at an index that both have.  Missing: the rest, see `C123_assign_fails`. -/
theorem C123_assign_partial (hij : i ≠ j) (hj : A j = some u)
    (h16 : v.alloc = u.alloc → ∀ (k : Nat) t x, v.xs[k]? = some t → u.xs[k]? = some x → t.length ≠ 16 ∧ x.length ≠ 16) :
    ∃ w : Var (List UInt8), w.xs = u.xs ∧ ∀ (ops' : List (NOp (textRow (α := α) ty enc refuse).sig))
      (rs' : List (Option (textRow (α := α) ty enc refuse).sig.Ret)) (A' : Nat → Option (Var (List UInt8))),
      nspecRun (meaning (textRow (α := α) ty enc refuse)) ops' (place A i (some w)) = some (rs', A') →
      (nrun (textRow (α := α) ty enc refuse).cls (.copyAssign i j :: ops') q.2).Safe fun r => r.1 = none :: rs' := by
  refine ⟨(vectorMeaning ty.size (textMeaning enc)).cpAssign v u, ?_, fun ops' rs' A' h' => ?_⟩
  · have := (C122_copy_same (textRow (α := α) ty enc refuse)).2 v u
    change List.map (fun x : List UInt8 => x) (((vectorMeaning ty.size (textMeaning enc)).cpAssign v u).xs) = List.map (fun x : List UInt8 => x) u.xs at this
    simpa only [List.map_id'] using this
  · refine C122_continue_partial (textRow (α := α) ty enc refuse) ops _ h (rs' := none :: rs') (A' := A') ?_ hq
    have hok : (meaning (textRow (α := α) ty enc refuse)).cpOk u = true := List.all_eq_true.2 fun _ _ => rfl
    have hin : (meaning (textRow (α := α) ty enc refuse)).cpInto v u = true := by
      by_cases ha : v.alloc = u.alloc
      · exact Bool.or_eq_true_iff.2 (.inr ((assign_texts enc _ _).2 (h16 ha)))
      · exact Bool.or_eq_true_iff.2 (.inl (bne_iff_ne.2 ha))
    have : nspecStep (meaning (textRow (α := α) ty enc refuse)) (.copyAssign i j) A =
        some (none, place A i (some ((vectorMeaning ty.size (textMeaning enc)).cpAssign v u))) :=
      nspec_assign (μ := meaning (textRow (α := α) ty enc refuse)) hij hi hj hok hin
    exact nspec_then (μ := meaning (textRow (α := α) ty enc refuse)) this h'

/-- C123 fails.  Assigning between vectors of strings with the same allocator is undefined (unless an allocation is refused before) if a
string of 16 bytes stands, in either, at an index that both have. -/
theorem C123_assign_fails (hij : i ≠ j) (hj : A j = some u) (ha : v.alloc = u.alloc) {k : Nat} {t x : List UInt8}
    (ht : v.xs[k]? = some t) (hx : u.xs[k]? = some x) (h16 : t.length = 16 ∨ x.length = 16) :
    nstep (textRow (α := α) ty enc refuse).cls (.copyAssign i j) q.2 = .ub ∨
      nstep (textRow (α := α) ty enc refuse).cls (.copyAssign i j) q.2 = .oom := by
  refine (C122_assign_fails (textRow (α := α) ty enc refuse) ops h hq hij hi hj).1 (List.all_eq_true.2 fun _ _ => rfl) ?_
  refine Bool.eq_false_iff.2 fun e => ?_
  rcases Bool.or_eq_true_iff.1 e with e | e
  · exact bne_iff_ne.1 e ha
  · have := (assign_texts enc _ _).1 e k t x ht hx
    rcases h16 with h | h
    · exact this.1 h
    · exact this.2 h

end

/-! ## The hypotheses are met: vectors of vectors of vectors of numbers -/

section
def nestBuf (size : Nat) (h : 0 < size ∧ size < 9223372036854775808) : ElemTy Unit where
  size := size
  size_pos := h.1
  size_lt := h.2
  mv := id
  dflt := ()
  refuse _ n := decide (9223372036854775808 ≤ n)
  refuse_big := fun _ _ h => by simpa using h

/-- `Vector<Vector<Vector<int>>>` -/
def nestThree : Shape Nat := .vector (nestBuf 32 (by decide)) (.vector (nestBuf 32 (by decide)) (.values exTy))

/-- two rows of plane vectors; the copy is changed, the original grown, assigned over and shortened -/
def nestProg : List (NOp nestThree.sig) :=
  [.make 0 (.list [.list [.list [1, 2] 0, .dflt] 0, .fill 2 (.list [7] 1) 0] 0),
   .copy 1 0,
   .call 1 (.elem 0 (.elem 0 (.push 3))),
   .call 0 (.push (.list [.list [5] 0] 3)),
   .call 0 (.elem 2 (.elem 0 (.get 0))),
   .call 0 (.insert 2 (.list [.list [8, 9] 0] 0)),
   .call 0 (.elem 1 (.insertElem 1 0)),
   .call 0 (.elem 2 (.insertFill 1 2 (.list [4] 0))),
   .call 0 (.setElem 0 2),
   .call 0 (.erase 1),
   .copyAssign 1 0,
   .moveAssign 0 1,
   .call 0 .size]

/-- the program keeps the rules; it ends with object 0 holding three planes and object 1 moved from -/
example : (nspecRun (meaning nestThree) nestProg fun _ => none).map (fun p => (contents nestThree <$> p.2 0, contents nestThree <$> p.2 1)) =
    some (some [[[8, 9], [4], [4]], [[8, 9], [4], [4]], [[5]]], some []) := rfl

/-- and before the assignment, the copy held `{{{1, 2, 3}, {}}, {{7}, {7}}}` whatever happened to the original -/
example : (nspecRun (meaning nestThree) (nestProg.take 10) fun _ => none).map
    (fun p => (contents nestThree <$> p.2 0, contents nestThree <$> p.2 1)) =
    some (some [[[8, 9], [4], [4]], [[8, 9], [4], [4]], [[5]]], some [[[1, 2, 3], []], [[7], [7]]]) := rfl

/-- destroyed at the end: the hypothesis on leaks is met -/
example : (nspecRun (meaning nestThree) (nestProg ++ [.drop 0, .drop 1]) fun _ => none).map (fun p => (p.2 0, p.2 1)) =
    some (none, none) := rfl

/-- the program of the example runs on memory to its end -/
example : (match nrun nestThree.cls (nestProg ++ [.drop 0, .drop 1]) nestThree.cls.start with | .ok _ => true | _ => false) = true := by
  decide +kernel

/-- a full vector of vectors with an element of its own: `C122_own_element_fails` applies -/
example : (nspecRun (meaning nestThree) (nestProg.take 1) fun _ => none).bind (fun p => (p.2 0).map fun v => (v.xs.length, v.cap)) =
    some (2, 2) := rfl

/-- `Vector<Vector<List<int>>>` -/
def nestLists : Shape Nat := .vector (nestBuf 32 (by decide)) (.vector (nestBuf 32 (by decide)) (.lists (Lists.exCfg true)))

/-- Lists in vectors in vectors: built, grown, sorted and inserted into in place, copied, moved out of and assigned to. -/
def nestListProg : List (NOp nestLists.sig) :=
  [.make 0 (.list [.list [.range [3, 1, 2] 0, .alloc 0] 0, .fill 2 (.range [7] 1) 0] 0),
   .copy 1 0,
   .call 0 (.elem 0 (.elem 0 (.sort (· < ·)))),
   .call 0 (.elem 0 (.elem 1 (.pushBack 4))),
   .call 0 (.push (.list [.range [5, 6] 0] 0)),
   .call 0 (.elem 0 (.push (.fill 2 9 0))),
   .call 0 (.elem 0 (.elem 0 .traverse)),
   .call 0 (.elem 0 (.moveElem 1 2))]

/-- list 2 of row 0 was moved from, the copy in object 1 is as it was made -/
example : (nspecRun (meaning nestLists) nestListProg fun _ => none).map (fun p => (contents nestLists <$> p.2 0, contents nestLists <$> p.2 1)) =
    some (some [[some [1, 2, 3], some [9, 9], none], [some [7], some [7]], [some [5, 6]]],
      some [[some [3, 1, 2], some []], [some [7], some [7]]]) := rfl

/-- so object 0 cannot be copied now: `C122_copy_moved_fails` applies -/
example : (nspecRun (meaning nestLists) nestListProg fun _ => none).bind (fun p => (p.2 0).map (meaning nestLists).cpOk) = some false ∧
    Checked nestLists := ⟨rfl, rfl⟩

/-- it can again when the list was assigned to -/
example : (nspecRun (meaning nestLists) (nestListProg ++ [.call 0 (.elem 0 (.setElem 2 0)), .copyAssign 1 0]) fun _ => none).map
    (fun p => contents nestLists <$> p.2 1) =
    some (some [[some [1, 2, 3], some [9, 9], some [1, 2, 3]], [some [7], some [7]], [some [5, 6]]]) := rfl

/-- `Vector<String>` with objects of 48 bytes, no allocation refused to strings -/
def nestTexts : Shape Nat := textRow (nestBuf 48 (by decide)) .ascii fun _ _ => false

/-- Two vectors: one with strings of 1, 2, 40 and 16 bytes, one with strings of 1, 0 and 3 bytes, which grow and are copied in place. -/
def nestTextProg : List (NOp nestTexts.sig) :=
  [.make 0 (.list [.lit [97] 0, .lit [98, 99] 0, .lit (List.replicate 40 100) 0] 0),
   .call 0 (.push (.lit (List.replicate 16 101) 0)),
   .make 1 (.list [.lit [102] 0, .alloc 0] 0),
   .call 1 (.push (.lit [103, 104, 105] 0)),
   .call 1 (.elem 1 (.pushBack [106])),
   .copy 2 1,
   .call 2 (.setElem 0 2),
   .call 2 (.elem 0 .print)]

example : (nspecRun (meaning nestTexts) nestTextProg fun _ => none).map (fun p => (contents nestTexts <$> p.2 0, contents nestTexts <$> p.2 1,
      contents nestTexts <$> p.2 2)) =
    some (some [[97], [98, 99], List.replicate 40 100, List.replicate 16 101], some [[102], [106], [103, 104, 105]],
      some [[103, 104, 105], [106], [103, 104, 105]]) := rfl

/-- the program of the example runs on memory to its end -/
example : (match nrun nestTexts.cls nestTextProg nestTexts.cls.start with | .ok _ => true | _ => false) = true := by
  decide +kernel

/-- so `C123_erase_partial` applies to vector 1 and `C123_erase_fails` to vector 0, for every place but the last; `C123_assign_partial` applies
to 2 = 1 and, as vector 1 has only three strings, to 1 = 0 -/
example : (nspecRun (meaning nestTexts) (nestTextProg ++ [.call 1 (.erase 0), .copyAssign 2 1, .copyAssign 1 0]) fun _ => none).map
      (fun p => (contents nestTexts <$> p.2 1, contents nestTexts <$> p.2 2)) =
    some (some [[97], [98, 99], List.replicate 40 100, List.replicate 16 101], some [[106], [103, 104, 105]]) ∧
    (nspecRun (meaning nestTexts) (nestTextProg ++ [.call 0 (.erase 2)]) fun _ => none).isNone = true ∧
    (nspecRun (meaning nestTexts) (nestTextProg ++ [.copyAssign 1 0, .copy 3 1, .copyAssign 1 3]) fun _ => none).isNone = true := ⟨rfl, rfl, rfl⟩
end

end Verif.Props
