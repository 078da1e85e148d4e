import Verif.Props.NestedLinked
/-!
# Property C125: options of vectors, strings, linked lists, options, ...

`Shape.option s` is `Option<T>`, where `T` is the class of shape `s`: vectors, strings, lists and options of any depth; `Shape.vector ty (.option s)`
are vectors of options, and so on.  `optionMeaning` (`Spec/Nested.lean`) says what the statements of a client do to them: an optional value; no
memory.  See `Props/Nested.lean` for programs and `Safe`.
-/
namespace Verif.Props
open Verif Verif.Model.Mem Verif.Model.Nested Verif.Spec.Nested Verif.Proof.Nested
open Verif.Spec.Vector (Var)

variable {α : Type}

/-- one more statement, then any further program -/
theorem shape_then (s : Shape α) {ops : List (NOp s.sig)} {rs : List (Option s.sig.Ret)} {A : Nat → Option (Val s)}
    (h : nspecRun (meaning s) ops (fun _ => none) = some (rs, A)) {q : List (Option s.sig.Ret) × s.State}
    (hq : nrun s.cls ops s.cls.start = .ok q) {op : NOp s.sig} {r : Option s.sig.Ret} {B : Nat → Option (Val s)}
    (h1 : nspecStep (meaning s) op A = some (r, B)) (ops' : List (NOp s.sig)) {rs' : List (Option s.sig.Ret)} {A' : Nat → Option (Val s)}
    (h' : nspecRun (meaning s) ops' B = some (rs', A')) : (nrun s.cls (op :: ops') q.2).Safe fun p => p.1 = r :: rs' :=
  C122_continue_partial s ops _ h (nspec_then h1 h') hq

theorem nspec_moveAssign {S : Sig} {V : Type} {μ : Meaning S V} {A : Nat → Option V} {i j : Nat} {t x y : V} (hij : i ≠ j) (hi : A i = some t)
    (hj : A j = some x) (hin : μ.mvInto t x = true) (hy : μ.leftInto t x = y) :
    nspecStep μ (.moveAssign i j) A = some (none, place (place A i (some x)) j (some y)) := by
  subst hy
  simp only [nspecStep, hi, hj, Option.bind_some, if_neg hij, hin, Bool.true_eq_false, if_false]

theorem option_empty {S : Sig} {σ : Type} {C : Cls S σ} {i : Nat} {w : OWorld σ} (hh : held i w = .ok (false, w)) (c : S.Call) :
    nstep (optionCls C) (.call i .take) w = .panic ∧ nstep (optionCls C) (.call i (.unwrap c)) w = .panic ∧
      nstep (optionCls C) (.call i (.asRef c)) w = .panic := by
  have key : ∀ c', ocall C c' i w = .panic → nstep (optionCls C) (.call i c') w = .panic := by
    intro c' h
    have : (optionCls C).call c' i w = .panic := h
    simp only [nstep]
    rw [Prog.bind_run, this]
    rfl
  refine ⟨key _ ?_, key _ ?_, key _ ?_⟩
  all_goals
    simp only [ocall, Prog.bind_run, hh, Out.bind_ok]
    rfl

section
variable (s : Shape α) (ops : List (NOp (Shape.option s).sig)) {rs : List (Option (Shape.option s).sig.Ret)}
  {A : Nat → Option (Option (Val s))} (h : nspecRun (meaning (.option s)) ops (fun _ => none) = some (rs, A))
include h

/-- C125.  A program over options of objects gives the results of the same program over optional values, and when all options are destroyed,
the objects in them have ended and returned all their memory, at every depth.  Missing: copying what holds a linked list that was moved from
(`C122_copy_moved_fails`), and what does not work on the objects (`C122_assign_fails`). -/
theorem C125_history_partial : (nrun (Shape.option s).cls ops (Shape.option s).cls.start).Safe fun q =>
    q.1 = rs ∧ ((∀ i, A i = none) → s.cls.idle q.2.objs) :=
  C122_history_partial (.option s) ops h

/-- C125.  After any program that leaves every option empty, no object is left: objects end when the option becomes empty. -/
theorem C125_objects_end (hA : ∀ i v, A i = some v → v = none) :
    (nrun (Shape.option s).cls ops (Shape.option s).cls.start).Safe fun q => s.cls.idle q.2.objs :=
  (nrun_ok (law (.option s)) ops (law (.option s)).start h).mono fun _ hq => option_objects (L := law s) hq.2 hA

variable {q : List (Option (Shape.option s).sig.Ret) × OWorld s.State}
  (hq : nrun (Shape.option s).cls ops (Shape.option s).cls.start = .ok q) {i j : Nat}
include hq

/-- C125.  After any program: `o.unwrap()` gives the object the option holds (every call `c` on it answers as on that value) and leaves the
option empty, whatever the program does next. -/
theorem C125_unwrap {x y : Val s} (hi : A i = some (some x)) {c : s.sig.Call} {r : s.sig.Ret} (hc : (meaning s).run c x = some (r, y))
    (ops' : List (NOp (Shape.option s).sig)) {rs' : List (Option (Shape.option s).sig.Ret)} {A' : Nat → Option (Option (Val s))}
    (h' : nspecRun (meaning (.option s)) ops' (place A i (some none)) = some (rs', A')) :
    (nrun (Shape.option s).cls (.call i (.unwrap c) :: ops') q.2).Safe fun p => p.1 = some (.elem r) :: rs' := by
  refine shape_then (.option s) h hq ?_ ops' h'
  simp only [nspecStep, hi, Option.bind_some]
  exact congrArg (Option.map _) (show orun (meaning s) (.unwrap c) (some x) = some (.elem r, none) by simp [orun, hc])

/-- C125.  After any program: `unwrap()` and `as_ref()` on an empty option end the program. -/
theorem C125_empty_panics (hi : A i = some none) (c : s.sig.Call) :
    nstep (Shape.option s).cls (.call i .take) q.2 = .panic ∧ nstep (Shape.option s).cls (.call i (.unwrap c)) q.2 = .panic ∧
      nstep (Shape.option s).cls (.call i (.asRef c)) q.2 = .panic := by
  have h1 := nrun_ok (law (.option s)) ops (law (.option s)).start h
  rw [hq] at h1
  exact option_empty (C := s.cls) (held_run (L := law s) h1.2 (holdsOf_some hi)) c

/-- C125.  After any program: `a = std::move(b)` gives `a` what `b` held, for an `a` that was empty, and leaves `b` empty. -/
theorem C125_move_assign_partial (hij : i ≠ j) (hi : A i = some none) {x : Option (Val s)} (hj : A j = some x)
    (ops' : List (NOp (Shape.option s).sig)) {rs' : List (Option (Shape.option s).sig.Ret)} {A' : Nat → Option (Option (Val s))}
    (h' : nspecRun (meaning (.option s)) ops' (place (place A i (some x)) j (some none)) = some (rs', A')) :
    (nrun (Shape.option s).cls (.moveAssign i j :: ops') q.2).Safe fun p => p.1 = none :: rs' := by
  exact shape_then (.option s) h hq (nspec_moveAssign (μ := meaning (.option s)) hij hi hj rfl rfl) ops' h'

/-- C125 fails.  When both hold an object, `a = std::move(b)` does not leave `b` empty: `b.is_some()` is still true. -/
theorem C125_move_assign_fails (hij : i ≠ j) {t x : Val s} (hi : A i = some (some t)) (hj : A j = some (some x))
    (hin : (meaning s).mvInto t x = true) :
    (nrun (Shape.option s).cls [.moveAssign i j, .call j .isSome] q.2).Safe fun p => p.1 = [none, some (.bool true)] := by
  refine shape_then (.option s) h hq (nspec_moveAssign (μ := meaning (.option s)) hij hi hj hin rfl) _
    (A' := place (place (place A i (some (some x))) j (some (some ((meaning s).leftInto t x)))) j (some (some ((meaning s).leftInto t x)))) ?_
  simp only [nspecRun, nspecStep, place, if_true, Option.bind_some]
  rfl

/-- C125 fails.  `o.map(f)` moves the object out and leaves `o` full, with what the move left: `o.is_some()` is still true. -/
theorem C125_map_fails {x y : Val s} (hi : A i = some (some x)) {c : s.sig.Call} {r : s.sig.Ret} (hc : (meaning s).run c x = some (r, y)) :
    (nrun (Shape.option s).cls [.call i (.map c), .call i .isSome] q.2).Safe fun p => p.1 = [some (.opt (some r)), some (.bool true)] := by
  refine shape_then (.option s) h hq (B := place A i (some (some ((meaning s).left x)))) ?_ _
    (A' := place (place A i (some (some ((meaning s).left x)))) i (some (some ((meaning s).left x)))) ?_
  · simp only [nspecStep, hi, Option.bind_some]
    exact congrArg (Option.map _) (show orun (meaning s) (.map c) (some x) = some (.opt (some r), some ((meaning s).left x)) by simp [orun, hc])
  · simp only [nspecRun, nspecStep, place, if_true, Option.bind_some]
    rfl
end

/-! ## The hypotheses are met -/

section
/-- `Option<Vector<String>>` -/
def optTexts : Shape Nat := .option nestTexts

def optProg : List (NOp optTexts.sig) :=
  [.make 0 (.some (.list [.lit [97] 0, .lit (List.replicate 16 98) 0] 0)),
   .make 1 .none,
   .copy 2 0,
   .call 0 (.asRef (.push (.lit [99] 0))),
   .moveAssign 1 0,
   .call 1 (.asRef .size),
   .copyAssign 0 1,
   .call 0 (.asRef .pop),
   .moveAssign 0 2]

/-- the program keeps the rules: option 2 keeps an empty vector after it was moved from -/
example : (nspecRun (meaning optTexts) (optProg.take 8) fun _ => none).map (fun p => (contents optTexts <$> p.2 0, contents optTexts <$> p.2 1,
      contents optTexts <$> p.2 2)) =
    some (some (some [[97], List.replicate 16 98]), some (some [[97], List.replicate 16 98, [99]]), some (some [[97], List.replicate 16 98])) ∧
    (nspecRun (meaning optTexts) optProg fun _ => none).map (fun p => (contents optTexts <$> p.2 0, contents optTexts <$> p.2 2)) =
    some (some (some [[97], List.replicate 16 98]), some (some [])) := ⟨rfl, rfl⟩

/-- it runs on memory to its end, so the theorems about what follows apply: `C125_unwrap`, `C125_map_fails` to option 1, `C125_move_assign_fails`
to 0 and 1 -/
example : (match nrun optTexts.cls optProg optTexts.cls.start with | .ok _ => true | _ => false) = true := by
  decide +kernel

/-- unwrapped and emptied: `C125_objects_end`, `C125_empty_panics` and `C125_move_assign_partial` apply -/
example : (nspecRun (meaning optTexts) (optProg ++ [.call 1 (.unwrap .size), .call 0 .take, .moveAssign 2 1]) fun _ => none).map
    (fun p => (contents optTexts <$> p.2 0, contents optTexts <$> p.2 1, contents optTexts <$> p.2 2)) =
    some (some none, some none, some none) := rfl

/-- destroyed: the hypothesis on leaks of `C125_history_partial` is met -/
example : (nspecRun (meaning optTexts) (optProg ++ [.drop 0, .drop 1, .drop 2]) fun _ => none).map (fun p => (p.2 0, p.2 1, p.2 2)) =
    some (none, none, none) := rfl

/-- `Vector<Option<Vector<int>>>`: erasing moves options -/
def rowOpts : Shape Nat := .vector (nestBuf 40 (by decide)) (.option (.values exTy))

example : (nspecRun (meaning rowOpts) [.make 0 (.list [.some (.list [1, 2] 0), .none, .someCopy (.list [3] 0)] 0), .copy 1 0,
      .call 0 (.elem 2 (.asRef (.push 4))), .call 0 (.erase 0), .call 0 (.elem 1 (.unwrap .size)), .copyAssign 1 0] fun _ => none).map
      (fun p => (contents rowOpts <$> p.2 0, contents rowOpts <$> p.2 1)) =
    some (some [none, none], some [none, none]) := rfl
end

end Verif.Props
