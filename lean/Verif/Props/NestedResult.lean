import Verif.Props.NestedOpt
import Verif.Proof.NestedResult
/-!
# Property C126: results of vectors, strings, linked lists, options, ...

`Full` are the types of the objects: results, vectors, lists and options of each other and of strings, to any depth; `resultCls (f.cls ε) ε` is
`Result<T, E>`, where `T` is the class of shape `f`, and `E` is a type without constructors and destructors, with values `ε`.  `resultMeaning` (`Spec/NestedResult.lean`) says what the statements of a client do to
results: a value or an error, `Except ε V`; no memory.  See `Props/Nested.lean` for programs and `Safe`.
-/
namespace Verif.Props
open Verif Verif.Model.Mem Verif.Model.Nested Verif.Spec.Nested Verif.Proof.Nested
open Verif.Spec.Vector (Var)

variable {α ε : Type}

/-- what a program does after another one -/
theorem law_then {S : Sig} {V σ : Type} {C : Cls S σ} {μ : Meaning S V} (L : Law C μ) {ops : List (NOp S)} {rs : List (Option S.Ret)}
    {A : Nat → Option V} (h : nspecRun μ ops (fun _ => none) = some (rs, A)) {q : List (Option S.Ret) × σ} (hq : nrun C ops C.start = .ok q) :
    L.Inv A q.2 := by
  have := nrun_ok L ops L.start h
  rw [hq] at this
  exact this.2

theorem nspec_call {S : Sig} {V : Type} {μ : Meaning S V} {A : Nat → Option V} {i : Nat} {x y : V} {c : S.Call} {r : S.Ret} (hi : A i = some x)
    (hc : μ.run c x = some (r, y)) : nspecStep μ (.call i c) A = some (some r, place A i (some y)) := by
  simp only [nspecStep, hi, Option.bind_some, hc, Option.map_some]

/-- a call that ends the program -/
theorem call_panics {S : Sig} {σ : Type} {C : Cls S σ} {i : Nat} {c : S.Call} {w : σ} (h : C.call c i w = .panic) :
    nstep C (.call i c) w = .panic := by
  simp only [nstep]
  rw [Prog.bind_run, h]
  rfl

theorem run_two {S : Sig} {σ : Type} (C : Cls S σ) (a b : NOp S) (w : σ) :
    nrun C [a, b] w = nstep C a w >>= fun p => nstep C b p.2 >>= fun p' => .ok ([p.1, p'.1], p'.2) := by
  simp only [nrun, Prog.bind_run, Prog.pure_run]
  cases nstep C a w with
  | ok p =>
    simp only [Out.bind_ok]
    cases nstep C b p.2 <;> rfl
  | _ => rfl

/-- C126.  A program over results, vectors, linked lists and options of each other, to any depth, gives the results of the same program over
values, and when all its objects are destroyed, everything is returned, at every level.  Missing: assignments between values and errors (also
by erasing from vectors), for which this fails (`C126_assign_err_fails`, `C126_assign_ok_fails`), and what does not work on the objects (C122). -/
theorem C126_nested_partial (f : Full α) (ops : List (NOp (f.sig ε))) {rs : List (Option (f.sig ε).Ret)} {A : Nat → Option (FVal ε f)}
    (h : nspecRun (fmeaning ε f) ops (fun _ => none) = some (rs, A)) :
    (nrun (f.cls ε) ops (f.cls ε).start).Safe fun q => q.1 = rs ∧ ((∀ i, A i = none) → (f.cls ε).idle q.2) :=
  (nrun_ok (flaw ε f) ops (flaw ε f).start h).mono fun _ hq => ⟨hq.1, (flaw ε f).idle hq.2⟩

section
variable (f : Full α) (ops : List (NOp (resultSig ε (f.sig ε)))) {rs : List (Option (resultSig ε (f.sig ε)).Ret)}
  {A : Nat → Option (Except ε (FVal ε f))} (h : nspecRun (resultMeaning ε (fmeaning ε f)) ops (fun _ => none) = some (rs, A))
include h

/-- C126.  A program over results of objects gives the results of the same program over values and errors, and when all results are destroyed,
the objects in them have ended and returned all their memory, at every depth.  Missing: assignments between values and errors, for which this
fails (`C126_assign_err_fails`, `C126_assign_ok_fails`), and what does not work on the objects (C122). -/
theorem C126_history_partial : (nrun (resultCls (f.cls ε) ε) ops (resultCls (f.cls ε) ε).start).Safe fun q =>
    q.1 = rs ∧ ((∀ i, A i = none) → (f.cls ε).idle q.2.objs) :=
  (nrun_ok (resultLaw ε (flaw ε f)) ops (resultLaw ε (flaw ε f)).start h).mono fun _ hq => ⟨hq.1, (resultLaw ε (flaw ε f)).idle hq.2⟩

/-- C126.  After any program that leaves no result with a value, no object is left, although the results with errors live. -/
theorem C126_objects_end (hA : ∀ i x, A i ≠ some (.ok x)) :
    (nrun (resultCls (f.cls ε) ε) ops (resultCls (f.cls ε) ε).start).Safe fun q => (f.cls ε).idle q.2.objs :=
  (nrun_ok (resultLaw ε (flaw ε f)) ops (resultLaw ε (flaw ε f)).start h).mono fun _ hq => result_objects (L := flaw ε f) hq.2 hA

variable {q : List (Option (resultSig ε (f.sig ε)).Ret) × RWorld ε (f.State ε)}
  (hq : nrun (resultCls (f.cls ε) ε) ops (resultCls (f.cls ε) ε).start = .ok q) {i j : Nat}
include hq

/-- C126.  After any program: `T x(r.unwrap())` gives `x` the value the result holds (every call `c` on it answers as on that value) and leaves
the result ok, with what the move leaves, whatever the program does next. -/
theorem C126_take {x y : FVal ε f} (hi : A i = some (.ok x)) {c : (f.sig ε).Call} {r : (f.sig ε).Ret} (hc : (fmeaning ε f).run c x = some (r, y))
    (ops' : List (NOp (resultSig ε (f.sig ε)))) {rs' : List (Option (resultSig ε (f.sig ε)).Ret)} {A' : Nat → Option (Except ε (FVal ε f))}
    (h' : nspecRun (resultMeaning ε (fmeaning ε f)) ops' (place A i (some (.ok ((fmeaning ε f).left x)))) = some (rs', A')) :
    (nrun (resultCls (f.cls ε) ε) (.call i (.take c) :: ops') q.2).Safe fun p => p.1 = some (.elem r) :: rs' := by
  refine (nrun_ok (resultLaw ε (flaw ε f)) _ (law_then (resultLaw ε (flaw ε f)) h hq) (nspec_then (μ := resultMeaning ε (fmeaning ε f))
    (nspec_call (μ := resultMeaning ε (fmeaning ε f)) (r := .elem r) (y := .ok ((fmeaning ε f).left x)) hi ?_) h')).mono fun _ hp => hp.1
  show rrun (fmeaning ε f) (.take c) (.ok x) = _
  simp only [rrun, hc, Option.map_some]
  rfl

/-- C126.  After any program: `r.ok().unwrap()` gives a copy, and leaves the result as it is. -/
theorem C126_ok_copies {x y : FVal ε f} (hi : A i = some (.ok x)) (hok : (fmeaning ε f).cpOk x = true) {c : (f.sig ε).Call} {r : (f.sig ε).Ret}
    (hc : (fmeaning ε f).run c ((fmeaning ε f).cp x) = some (r, y))
    (ops' : List (NOp (resultSig ε (f.sig ε)))) {rs' : List (Option (resultSig ε (f.sig ε)).Ret)} {A' : Nat → Option (Except ε (FVal ε f))}
    (h' : nspecRun (resultMeaning ε (fmeaning ε f)) ops' A = some (rs', A')) :
    (nrun (resultCls (f.cls ε) ε) (.call i (.get c) :: ops') q.2).Safe fun p => p.1 = some (.elem r) :: rs' := by
  refine (nrun_ok (resultLaw ε (flaw ε f)) _ (law_then (resultLaw ε (flaw ε f)) h hq) (nspec_then (μ := resultMeaning ε (fmeaning ε f))
    (nspec_call (μ := resultMeaning ε (fmeaning ε f)) (r := .elem r) (y := .ok x) hi ?_) (by rw [place_self A hi]; exact h'))).mono fun _ hp => hp.1
  show rrun (fmeaning ε f) (.get c) (.ok x) = _
  simp only [rrun, hok, if_true, hc, Option.map_some]
  rfl

/-- C126.  After any program: accessors of the other kind end the program. -/
theorem C126_wrong_kind_panics (c : (f.sig ε).Call) :
    (∀ e, A i = some (.error e) → nstep (resultCls (f.cls ε) ε) (.call i (.unwrap c)) q.2 = .panic ∧
      nstep (resultCls (f.cls ε) ε) (.call i (.take c)) q.2 = .panic ∧ nstep (resultCls (f.cls ε) ε) (.call i (.get c)) q.2 = .panic) ∧
    (∀ x, A i = some (.ok x) → nstep (resultCls (f.cls ε) ε) (.call i .unwrapErr) q.2 = .panic) := by
  have I : RLaw (flaw ε f) A q.2 := law_then (resultLaw ε (flaw ε f)) h hq
  refine ⟨fun e hi => ⟨call_panics ?_, call_panics ?_, call_panics ?_⟩, fun x hi => call_panics ?_⟩
  · show rcall (f.cls ε) (.unwrap c) i q.2 = .panic
    simp only [rcall, Prog.bind_run, typeOf_run I (typesOf_err hi), Out.bind_ok]; rfl
  · show rcall (f.cls ε) (.take c) i q.2 = .panic
    simp only [rcall, Prog.bind_run, typeOf_run I (typesOf_err hi), Out.bind_ok]; rfl
  · show rcall (f.cls ε) (.get c) i q.2 = .panic
    simp only [rcall, Prog.bind_run, typeOf_run I (typesOf_err hi), Out.bind_ok]; rfl
  · show rcall (f.cls ε) .unwrapErr i q.2 = .panic
    simp only [rcall, Prog.bind_run, typeOf_run I (typesOf_ok hi), Out.bind_ok]; rfl

/-- C126 fails.  `a = b`, or `a = std::move(b)`, where `a` holds a value and `b` an error: the object of `a` is destroyed, but `a.is_ok()` is
still true, and the destructor of `a` destroys the object again, which is undefined (unless an allocation is refused before). -/
theorem C126_assign_err_fails (hij : i ≠ j) {t : FVal ε f} {v : ε} (hi : A i = some (.ok t)) (hj : A j = some (.error v))
    {op : NOp (resultSig ε (f.sig ε))} (hop : op = .copyAssign i j ∨ op = .moveAssign i j) :
    ((nrun (resultCls (f.cls ε) ε) [op, .call i .isOk] q.2).Safe fun p => p.1 = [none, some (.bool true)]) ∧
    (nrun (resultCls (f.cls ε) ε) [op, .drop i] q.2 = .ub ∨ nrun (resultCls (f.cls ε) ε) [op, .drop i] q.2 = .oom) := by
  have I : RLaw (flaw ε f) A q.2 := law_then (resultLaw ε (flaw ε f)) h hq
  have ht : typesOf A i = some true := typesOf_ok hi
  have key : ∀ op, ((nstep (resultCls (f.cls ε) ε) op q.2).Safe fun p => p.1 = none ∧ RInv (flaw ε f) tnone (typesOf A)
      (place (errorsOf A) i (some v)) (place (valuesOf A) i none) p.2) →
      ((nrun (resultCls (f.cls ε) ε) [op, .call i .isOk] q.2).Safe fun p => p.1 = [none, some (.bool true)]) ∧
      (nrun (resultCls (f.cls ε) ε) [op, .drop i] q.2 = .ub ∨ nrun (resultCls (f.cls ε) ε) [op, .drop i] q.2 = .oom) := by
    intro op hs
    constructor
    · rw [run_two]
      refine hs.bind fun p hp => ?_
      refine (isOk_lies hp.2 ht).bind fun p' hp' => ?_
      show _ = _
      rw [hp.1, hp'.1]
    · rw [run_two]
      refine bad_bind hs fun p hp => ?_
      rw [drop_dead (full_dead f) hp.2 ht (by simp [place])]
      exact .inl rfl
  obtain ⟨h1, h2⟩ := rassign_err (L := flaw ε f) I hij hi hj
  rcases hop with rfl | rfl
  · exact key _ (h1.bind fun p hp => ⟨rfl, hp⟩)
  · exact key _ (h2.bind fun p hp => ⟨rfl, hp⟩)

/-- C126 fails.  `a = b`, or `a = std::move(b)`, where `a` holds an error and `b` a value: `a.is_ok()` stays false, reading the error
is undefined, and the object of `a` outlives `a`: after the destructor of `a` it still answers every call, so its memory is never
returned. -/
theorem C126_assign_ok_fails (hij : i ≠ j) {u : ε} {x y : FVal ε f} (hi : A i = some (.error u)) (hj : A j = some (.ok x))
    {op : NOp (resultSig ε (f.sig ε))}
    (hop : (op = .copyAssign i j ∧ y = (fmeaning ε f).cp x ∧ (fmeaning ε f).cpOk x = true) ∨ (op = .moveAssign i j ∧ y = x)) :
    ((nrun (resultCls (f.cls ε) ε) [op, .call i .isOk] q.2).Safe fun p => p.1 = [none, some (.bool false)]) ∧
    (nrun (resultCls (f.cls ε) ε) [op, .call i .err] q.2 = .ub ∨ nrun (resultCls (f.cls ε) ε) [op, .call i .err] q.2 = .oom) ∧
    ((nrun (resultCls (f.cls ε) ε) [op, .drop i] q.2).Safe fun p => ∀ c r z, (fmeaning ε f).run c y = some (r, z) →
      ((f.cls ε).call c (cell i) p.2.objs).Safe fun p => p.1 = r) := by
  have I : RLaw (flaw ε f) A q.2 := law_then (resultLaw ε (flaw ε f)) h hq
  have ht : typesOf A i = some false := typesOf_err hi
  have key : ∀ (op : NOp (resultSig ε (f.sig ε))) (E : Nat → Option (FVal ε f)) (y : FVal ε f), E i = some y →
      ((nstep (resultCls (f.cls ε) ε) op q.2).Safe fun p => p.1 = none ∧ RInv (flaw ε f) tnone (typesOf A) (place (errorsOf A) i none) E p.2) →
      ((nrun (resultCls (f.cls ε) ε) [op, .call i .isOk] q.2).Safe fun p => p.1 = [none, some (.bool false)]) ∧
      (nrun (resultCls (f.cls ε) ε) [op, .call i .err] q.2 = .ub ∨ nrun (resultCls (f.cls ε) ε) [op, .call i .err] q.2 = .oom) ∧
      ((nrun (resultCls (f.cls ε) ε) [op, .drop i] q.2).Safe fun p => ∀ c r z, (fmeaning ε f).run c y = some (r, z) →
        ((f.cls ε).call c (cell i) p.2.objs).Safe fun p => p.1 = r) := by
    intro op E y hE hs
    refine ⟨?_, ?_, ?_⟩
    · rw [run_two]
      refine hs.bind fun p hp => ?_
      refine (isOk_lies hp.2 ht).bind fun p' hp' => ?_
      show _ = _
      rw [hp.1, hp'.1]
    · rw [run_two]
      refine bad_bind hs fun p hp => ?_
      rw [err_dead hp.2 ht (by simp [place])]
      exact .inl rfl
    · rw [run_two]
      refine hs.bind fun p hp => ?_
      refine (drop_leaves hp.2 ht).bind fun p' hp' => ?_
      show ∀ c r z, _
      intro c r z hc
      show ((f.cls ε).call c (cell i) p'.2.objs).Safe _
      rw [hp']
      exact ((flaw ε f).call hp.2.inv (by rw [glue_cell]; exact hE) hc).mono fun _ hq => hq.1
  obtain ⟨h1, h2⟩ := rassign_ok (L := flaw ε f) I hij hi hj
  rcases hop with ⟨rfl, rfl, hok⟩ | ⟨rfl, rfl⟩
  · exact key _ _ _ (by simp [place]) ((h1 hok).bind fun p hp => ⟨rfl, hp⟩)
  · exact key _ _ _ (by simp [place, hij]) (h2.bind fun p hp => ⟨rfl, hp⟩)
end

/-! ## The hypotheses are met -/

section
/-- programs over `Result<Vector<String>, int>` -/
def resProg : List (NOp (resultSig Nat ((Full.base nestTexts).sig Nat))) :=
  [.make 0 (.ok (.list [.lit [97] 0, .lit (List.replicate 16 98) 0] 0)),
   .make 1 (.err 7),
   .copy 2 0,
   .call 0 (.unwrap (.push (.lit [99] 0))),
   .make 3 (.okCopy (.list [.lit [100] 0] 0)),
   .moveAssign 3 0,
   .call 3 (.get .size),
   .copy 4 1,
   .copyAssign 4 1,
   .call 4 .unwrapErr,
   .call 2 (.take .size)]

def resView : Option (Except Nat (Val nestTexts)) → Option (Except Nat (Tree nestTexts)) := Option.map fun v => v.map (contents nestTexts)

/-- the program keeps the rules: results 0 and 2 keep empty vectors after they were moved from -/
example : (nspecRun (resultMeaning Nat (fmeaning Nat (.base nestTexts))) resProg fun _ => none).map (fun p => (resView (p.2 0), resView (p.2 1),
      resView (p.2 2), resView (p.2 3), resView (p.2 4))) =
    some (some (.ok []), some (.error 7), some (.ok []), some (.ok [[97], List.replicate 16 98, [99]]), some (.error 7)) := rfl

/-- it runs on memory to its end, so the theorems about what follows apply: `C126_take`, `C126_ok_copies` to result 3, `C126_wrong_kind_panics` to
1 and 3, `C126_assign_err_fails` to 3 and 1, `C126_assign_ok_fails` to 1 and 3 -/
example : (match nrun (resultCls ((Full.base nestTexts).cls Nat) Nat) resProg (resultCls ((Full.base nestTexts).cls Nat) Nat).start with | .ok _ => true | _ => false) = true := by
  decide +kernel

/-- only errors are left: `C126_objects_end` -/
example : (nspecRun (resultMeaning Nat (fmeaning Nat (.base nestTexts))) (resProg ++ [.drop 0, .drop 2, .drop 3]) fun _ => none).map
      (fun p => (resView (p.2 0), resView (p.2 1), resView (p.2 2), resView (p.2 3), resView (p.2 4))) =
    some (none, some (.error 7), none, none, some (.error 7)) := rfl

/-- destroyed: the hypothesis on leaks of `C126_history_partial` is met -/
example : (nspecRun (resultMeaning Nat (fmeaning Nat (.base nestTexts))) (resProg ++ [.drop 0, .drop 2, .drop 3, .drop 1, .drop 4]) fun _ => none).map
      (fun p => (resView (p.2 0), resView (p.2 1), resView (p.2 2), resView (p.2 3), resView (p.2 4))) =
    some (none, none, none, none, none) := rfl

/-- `Vector<Result<Vector<int>, int>>`: erasing moves results of the same kind (`C126_nested_partial`) -/
def rowResults : Full Nat := .vector (nestBuf 40 (by decide)) (.result (.base (.values exTy)))

example : (nspecRun (fmeaning Nat rowResults) [.make 0 (.list [.err 1, .ok (.list [1, 2] 0),
      .okCopy (.list [3] 0)] 0), .copy 1 0, .call 0 (.elem 2 (.unwrap (.push 4))), .call 0 (.erase 1), .call 1 (.elem 0 .unwrapErr)]
      fun _ => none).map (fun p => ((p.2 0).map fun v => v.xs.map fun e => e.map Var.xs, (p.2 1).map fun v => v.xs.map fun e => e.map Var.xs)) =
    some (some [.error 1, .ok [3, 4]], some [.error 1, .ok [1, 2], .ok [3]]) := rfl
end

end Verif.Props
