import Verif.Props.Nested
/-!
# Property C124: linked lists of vectors, strings, linked lists, ...

`Shape.linked cfg s` is `List<T>` (`cfg.dbl`) or `ForwardList<T>`, where `T` is the class of shape `s`: vectors, strings, lists, of any depth.
`linkedMeaning` (`Spec/Nested.lean`) says what the statements of a client do to them: a list of the values of the elements, or nothing after a
move; no nodes and no memory.  See `Props/Nested.lean` for programs and `Safe`.
-/
namespace Verif.Props
open Verif Verif.Model.Mem Verif.Model.Nested Verif.Spec.Nested Verif.Proof.Nested
open Verif.Spec.Vector (Var)

variable {α : Type}

/-- a program that does not touch the elements -/
def KeepsObjs {σ β : Type} (P : Prog (LWorld σ) β) : Prop := ∀ w p, P w = .ok p → p.2.st.objs = w.st.objs

theorem KeepsObjs.bind {σ β γ : Type} {P : Prog (LWorld σ) β} {Q : β → Prog (LWorld σ) γ} (h : KeepsObjs P) (h' : ∀ b, KeepsObjs (Q b)) :
    KeepsObjs (P >>= Q) := by
  intro w p hp
  rw [Prog.bind_run] at hp
  cases e : P w with
  | ok r => rw [e] at hp; exact (h' r.1 r.2 p hp).trans (h w r e)
  | _ => rw [e] at hp; cases hp

theorem reverse_objs {S : Sig} {σ : Type} {C : Cls S σ} {cfg : Model.LL.Cfg Unit} {i : Nat} {w : LWorld σ}
    {p : Option (linkedSig S).Ret × LWorld σ} (hp : nstep (linkedCls C cfg) (.call i .reverse) w = .ok p) : p.2.st.objs = w.st.objs := by
  have k1 : KeepsObjs (σ := σ) (lobj i) := by
    intro w p hp
    unfold lobj at hp
    split at hp
    · cases hp
    · cases hp; rfl
  have k2 : ∀ (β : Type) (P : Model.LL.M Unit β), KeepsObjs (σ := σ) (inLSt (inNodes P)) := by
    intro β P w p hp
    unfold inLSt inNodes at hp
    cases e : P w.st.nodes with
    | ok r => rw [e] at hp; cases hp; rfl
    | _ => rw [e] at hp; cases hp
  have k3 : ∀ o, KeepsObjs (σ := σ) (setLobj i o) := by intro o w p hp; cases hp; rfl
  have k4 : ∀ (β : Type) (b : β), KeepsObjs (σ := σ) (pure b) := by intro β b w p hp; cases hp; rfl
  have k : KeepsObjs (nstep (linkedCls C cfg) (.call i .reverse)) :=
    (KeepsObjs.bind k1 fun l => (k2 _ _).bind fun l' => (k3 _).bind fun _ => k4 _ _).bind fun r => k4 _ _
  exact k w p hp

section
variable (cfg : Model.LL.Cfg Unit) (s : Shape α) (ops : List (NOp (Shape.linked cfg s).sig)) {rs : List (Option (Shape.linked cfg s).sig.Ret)}
  {A : Nat → Option (Spec.LL.Var (Val s))} (h : nspecRun (meaning (.linked cfg s)) ops (fun _ => none) = some (rs, A))
include h

/-- C124.  A program over linked lists of objects gives the results of the same program over lists of their values; when all lists are
destroyed, every node and every element is destroyed, and all memory of the lists and of their elements, at every depth, is returned.
Missing: copying lists that were moved from or hold such a list (`C122_copy_moved_fails`), and what does not work on the elements. -/
theorem C124_history_partial : (nrun (Shape.linked cfg s).cls ops (Shape.linked cfg s).cls.start).Safe fun q =>
    q.1 = rs ∧ ((∀ i, A i = none) → q.2.st.nodes.ctors = q.2.st.nodes.dtors ∧ q.2.st.nodes.newBytes = q.2.st.nodes.freeBytes ∧
      s.cls.idle q.2.st.objs) :=
  C122_history_partial (.linked cfg s) ops h

/-- C124.  After any program that leaves every list empty or moved from: as many elements are destroyed as were constructed, and the
elements have returned all their memory.  Elements end when they are removed, not only when the list ends. -/
theorem C124_elements_end (hA : ∀ i v, A i = some v → v.items = none ∨ v.items = some []) :
    (nrun (Shape.linked cfg s).cls ops (Shape.linked cfg s).cls.start).Safe fun q => s.cls.idle q.2.st.objs :=
  (nrun_ok (law (.linked cfg s)) ops (law (.linked cfg s)).start h).mono fun _ hq => linked_elements (L := law s) hq.2 hA

variable {q : List (Option (Shape.linked cfg s).sig.Ret) × LWorld s.State}
  (hq : nrun (Shape.linked cfg s).cls ops (Shape.linked cfg s).cls.start = .ok q) {i : Nat} {xs : List (Val s)} {a : Nat}
  (hi : A i = some ⟨some xs, a⟩)
include hq hi

/-- C124.  One call on a list, with the effect the specification gives it, then any further program. -/
theorem linked_then {c : ECall s.sig.Make s.sig.Call} {r : ERet s.sig.Ret} {v : Spec.LL.Var (Val s)}
    (hc : lrun cfg.dbl (meaning s) c ⟨some xs, a⟩ = some (r, v))
    (ops' : List (NOp (Shape.linked cfg s).sig)) {rs' : List (Option (Shape.linked cfg s).sig.Ret)}
    {A' : Nat → Option (Spec.LL.Var (Val s))} (h' : nspecRun (meaning (.linked cfg s)) ops' (place A i (some v)) = some (rs', A')) :
    (nrun (Shape.linked cfg s).cls (.call i c :: ops') q.2).Safe fun p => p.1 = some r :: rs' := by
  refine C122_continue_partial (.linked cfg s) ops _ h (rs' := some r :: rs') (A' := A') ?_ hq
  have : nspecStep (meaning (.linked cfg s)) (.call i c) A = some (some r, place A i (some v)) := by
    simp only [nspecStep, hi, Option.bind_some]
    exact congrArg (Option.map _) hc
  exact nspec_then (μ := meaning (.linked cfg s)) this h'

/-- C124.  After any program: `l.push_back(l[k])` appends a copy of element `k`, whatever the program does next (for vectors it is undefined
when they are full, `C122_own_element_fails`). -/
theorem C124_push_own (hd : cfg.dbl = true) {k : Nat} {x : Val s} (hk : xs[k]? = some x) (hx : (meaning s).cpOk x = true)
    (ops' : List (NOp (Shape.linked cfg s).sig)) {rs' : List (Option (Shape.linked cfg s).sig.Ret)}
    {A' : Nat → Option (Spec.LL.Var (Val s))}
    (h' : nspecRun (meaning (.linked cfg s)) ops' (place A i (some ⟨some (xs ++ [(meaning s).cp x]), a⟩)) = some (rs', A')) :
    (nrun (Shape.linked cfg s).cls (.call i (.pushBackElem k) :: ops') q.2).Safe fun p => p.1 = some .unit :: rs' := by
  refine linked_then cfg s ops h hq hi ?_ ops' h'
  simp only [lrun, onItems, Option.bind_some, hk, hd, hx, and_self, if_true, Option.map_some]

/-- C124.  After any program: erasing an element of a `List` removes exactly that one; the others keep value, capacity and order, also when
they hold strings of 16 bytes (for vectors of strings it is undefined, `C123_erase_fails`). -/
theorem C124_erase (hd : cfg.dbl = true) {p : Nat} (hp : p < xs.length) (ops' : List (NOp (Shape.linked cfg s).sig))
    {rs' : List (Option (Shape.linked cfg s).sig.Ret)} {A' : Nat → Option (Spec.LL.Var (Val s))}
    (h' : nspecRun (meaning (.linked cfg s)) ops' (place A i (some ⟨some (xs.eraseIdx p), a⟩)) = some (rs', A')) :
    (nrun (Shape.linked cfg s).cls (.call i (.erase (p + 1)) :: ops') q.2).Safe fun r => r.1 = some (.pos (p + 1)) :: rs' := by
  refine linked_then cfg s ops h hq hi ?_ ops' h'
  have h1 : cfg.dbl = true ∧ p + 1 ≤ xs.length + 1 := ⟨hd, by omega⟩
  have h2 : ¬ (p + 1 = 0 ∨ p + 1 = xs.length + 1) := by omega
  simp only [lrun, onItems, Option.bind_some, if_pos h1, if_neg h2, Option.map_some, Nat.add_sub_cancel, List.eraseIdx_eq_take_drop_succ]

/-- C124.  After any program: `l.reverse()` puts the elements in the opposite order; nothing is copied, moved or destroyed: the state of the
elements and their memory is what it was. -/
theorem C124_reverse (ops' : List (NOp (Shape.linked cfg s).sig))
    {rs' : List (Option (Shape.linked cfg s).sig.Ret)} {A' : Nat → Option (Spec.LL.Var (Val s))}
    (h' : nspecRun (meaning (.linked cfg s)) ops' (place A i (some ⟨some xs.reverse, a⟩)) = some (rs', A')) :
    ((nrun (Shape.linked cfg s).cls (.call i .reverse :: ops') q.2).Safe fun p => p.1 = some .unit :: rs') ∧
    ∀ p, nstep (Shape.linked cfg s).cls (.call i .reverse) q.2 = .ok p → p.2.st.objs = q.2.st.objs := by
  refine ⟨linked_then cfg s ops h hq hi rfl ops' h', fun p hp => ?_⟩
  exact reverse_objs (C := s.cls) hp
end

/-! ## The hypotheses are met -/

section
/-- `List<Vector<String>>` (`dbl`) or `ForwardList<Vector<String>>` -/
def linkTexts (dbl : Bool) : Shape Nat :=
  .linked { dbl := dbl, debug := true, vsize := 24, dsize := 72, mv := id, dflt := (), refuse := fun _ _ => false } nestTexts

/-- Three rows of strings, one of 16 bytes, one of 40; copied, a row extended in place, a row appended to its own list, one erased, two
equal ones inserted; moved to another list and back. -/
def linkProg : List (NOp (linkTexts true).sig) :=
  [.make 0 (.range [.list [.lit [97] 0, .lit (List.replicate 16 98) 0] 0, .alloc 1] 0),
   .call 0 (.pushBack (.list [.lit [99, 100] 0] 0)),
   .copy 1 0,
   .call 0 (.elem 2 (.push (.lit [101] 0))),
   .call 0 (.pushBackElem 0),
   .call 0 (.erase 1),
   .call 0 (.insertFill 2 2 (.list [.lit (List.replicate 40 102) 0] 0)),
   .make 2 (.alloc 5),
   .moveAssign 2 0,
   .copyAssign 1 2,
   .call 2 .size]

/-- the program keeps the rules; the copy has the contents, list 0 was moved from -/
example : (nspecRun (meaning (linkTexts true)) linkProg fun _ => none).map (fun p => (contents (linkTexts true) <$> p.2 0,
      contents (linkTexts true) <$> p.2 1, contents (linkTexts true) <$> p.2 2)) =
    some (some none,
      some (some [[[101]], [List.replicate 40 102], [List.replicate 40 102], [[99, 100]], [[97], List.replicate 16 98]]),
      some (some [[[101]], [List.replicate 40 102], [List.replicate 40 102], [[99, 100]], [[97], List.replicate 16 98]])) := rfl

/-- before, the copy did not follow the original -/
example : (nspecRun (meaning (linkTexts true)) (linkProg.take 7) fun _ => none).map (fun p => contents (linkTexts true) <$> p.2 1) =
    some (some (some [[[97], List.replicate 16 98], [], [[99, 100]]])) := rfl

/-- `C124_push_own` and `C124_erase` apply where the program calls `push_back` and `erase`: two rows, the second of which holds a string of
16 bytes -/
example : (nspecRun (meaning (linkTexts true)) (linkProg.take 4) fun _ => none).bind (fun p => (p.2 0).map fun v =>
      (v.items.map List.length, v.items.bind fun xs => xs[0]?.map (meaning nestTexts).cpOk)) = some (some 3, some true) := rfl

/-- reversed in the middle of the program: `C124_reverse` -/
example : (nspecRun (meaning (linkTexts true)) (linkProg.take 4 ++ [.call 0 .reverse, .call 0 .size]) fun _ => none).map
      (fun p => contents (linkTexts true) <$> p.2 0) = some (some (some [[[99, 100]], [[101]], [[97], List.replicate 16 98]])) := rfl

/-- such a program runs on memory to its end: `C124_push_own` and `C124_erase` apply after it -/
example : (match nrun (linkTexts true).cls [.make 0 (.alloc 0), .call 0 (.pushBack (.list [.lit [97] 0, .lit (List.replicate 16 98) 0] 0)),
      .call 0 (.pushFront (.list [.lit [99, 100] 0] 0)), .call 0 (.pushBackElem 1), .call 0 .size] (linkTexts true).cls.start with
    | .ok _ => true | _ => false) = true := by
  decide +kernel

/-- the lists emptied or moved from: `C124_elements_end` applies -/
example : (nspecRun (meaning (linkTexts true)) (linkProg ++ [.call 1 .clear, .call 2 (.resizeFill 0 (.alloc 0))]) fun _ => none).map
      (fun p => (contents (linkTexts true) <$> p.2 0, contents (linkTexts true) <$> p.2 1, contents (linkTexts true) <$> p.2 2)) =
    some (some none, some (some []), some (some [])) := rfl

/-- destroyed at the end: the hypothesis on leaks of `C124_history_partial` is met -/
example : (nspecRun (meaning (linkTexts true)) (linkProg ++ [.drop 0, .drop 1, .drop 2]) fun _ => none).map
      (fun p => (p.2 0, p.2 1, p.2 2)) = some (none, none, none) := rfl

/-- a `ForwardList` of lists: elements moved in, copied and erased from the front -/
def linkLinks : Shape Nat :=
  .linked { dbl := false, debug := true, vsize := 24, dsize := 72, mv := id, dflt := (), refuse := fun _ _ => false } (linkTexts true)

example : (nspecRun (meaning linkLinks) [.make 0 (.alloc 0), .call 0 (.pushFront (.range [.list [.lit [97] 0] 0] 0)),
      .call 0 (.insertAfter 1 (.alloc 3)), .call 0 (.elem 2 (.pushBack (.list [.lit [98] 0] 0))), .call 0 (.pushFrontElem 1),
      .call 0 (.eraseAfter 1), .copy 1 0, .call 0 .popFront] fun _ => none).map
      (fun p => (contents linkLinks <$> p.2 0, contents linkLinks <$> p.2 1)) =
    some (some (some [some [[[98]]]]), some (some [some [[[98]]], some [[[98]]]])) := rfl
end

end Verif.Props
