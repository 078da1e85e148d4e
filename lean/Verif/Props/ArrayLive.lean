import Verif.Proof.ArrayLive
import Verif.Props.ArrayHist
/-!
# Property C113: iterators and slices over an array kept while the arrays go on being used

Programs take reference iterators and slices of arrays, copy them, make iterators of the slices, and keep them all while they go on assigning,
moving, consuming and destroying arrays (Model/ArrayLive.lean).  The ideal view is a stretch of positions (Spec/ArrayLive.lean).
-/
namespace Verif.Props
open Verif Verif.Model.Array Verif.Spec.Arr
open Verif.Model.ArrLive (AOp AWorld arun astep)
open Verif.Spec.ArrLive (View State liveRun viewStep)

variable {α : Type}

/-- **C113** (partial).  Any program over any number of arrays, owning iterators, reference iterators, slices and iterators over slices: every
call answers as the ideal one, nothing undefined happens, and at the end the arrays have the ideal contents and the owning iterators the ideal
remainder; the program panics exactly where the ideal one does.  So an iterator or slice shows what the array holds at the time of the call,
whatever was assigned to the array or moved out of it since, and writing through a slice is writing to the array.
Missing: the assignments of owning iterators C72 excludes. -/
theorem C113_history_partial (E : Elem α) (ne : α → α → Bool) (ops : List (AOp α)) :
    (∀ rs S, liveRun false E ne ops {} = some (.ok (rs, S)) → ∃ w, arun E ne ops {} = .ok (rs, w) ∧ ArrAgree E S.arrs w.base) ∧
    (liveRun false E ne ops {} = some .panic → arun E ne ops {} = .panic) := by
  constructor
  · intro rs S hs
    obtain ⟨w, h1, I⟩ := Proof.ArrLive.run_ok E ne ops Proof.ArrLive.inv_init hs
    refine ⟨w, h1, arrContent_eq I.base, fun k hk => ?_, itContent_eq E I.base⟩
    have := I.base.it k
    rw [hk] at this
    exact this
  · intro hs
    exact Proof.ArrLive.run_ok E ne ops Proof.ArrLive.inv_init hs

/-- **C113**, exactly when a view may be used.  After any such program, and for every call on views: the call is undefined if and only if the
ideal call has no answer. -/
theorem C113_use_exact_iff (E : Elem α) (ne : α → α → Bool) (ops : List (AOp α)) {rs : List (Ret α)} {S : State α}
    (hs : liveRun false E ne ops {} = some (.ok (rs, S))) :
    ∃ w, arun E ne ops {} = .ok (rs, w) ∧ ∀ op, (∀ o, op ≠ .arr o) → (astep E ne op w = .ub ↔ viewStep op S = none) := by
  obtain ⟨w, h1, I⟩ := Proof.ArrLive.run_ok E ne ops Proof.ArrLive.inv_init hs
  exact ⟨w, h1, fun op hop => Proof.ArrLive.viewStep_iff I hop⟩

/-- **C113**, the same in words about the array.  After any such program: a view stays inside its array as long as that array is not destroyed,
and asking an iterator for an element is undefined exactly if that element was never given a value; every use of an iterator or slice over a
destroyed array is undefined, also if a new array has been made in its place; and making an iterator of a slice is undefined exactly if the
slice is longer than the array. -/
theorem C113_use_exact (E : Elem α) (ne : α → α → Bool) (ops : List (AOp α)) {rs : List (Ret α)} {S : State α}
    (hs : liveRun false E ne ops {} = some (.ok (rs, S))) :
    ∃ w, arun E ne ops {} = .ok (rs, w) ∧
      (∀ k b i lo hi, S.its k = some (b, .at i lo hi) → ∃ c, S.arrs.arr i = some c ∧ lo ≤ hi ∧ hi ≤ c.length ∧
        (astep E ne (.next k) w = .ub ↔ lo < hi ∧ c[lo]? = some none) ∧
        (astep E ne (.prev k) w = .ub ↔ lo < hi ∧ c[hi - 1]? = some none)) ∧
      (∀ k b, S.its k = some (b, .gone) → astep E ne (.next k) w = .ub ∧ astep E ne (.prev k) w = .ub ∧ astep E ne (.last k) w = .ub ∧
        astep E ne (.len k) w = .ub ∧ astep E ne (.isEmpty k) w = .ub ∧
        ∀ x, astep E ne (.setNext k x) w = .ub ∧ astep E ne (.setPrev k x) w = .ub) ∧
      (∀ s i lo hi, S.slices s = some (.at i lo hi) → ∃ c, S.arrs.arr i = some c ∧
        ∀ k, astep E ne (.sliceIter k s) w = .ub ↔ c.length < hi) ∧
      (∀ s, S.slices s = some .gone → ∀ k, astep E ne (.sliceIter k s) w = .ub ∧ astep E ne (.sliceIntoIter k s) w = .ub) := by
  obtain ⟨w, h1, I⟩ := Proof.ArrLive.run_ok E ne ops Proof.ArrLive.inv_init hs
  have hx : ∀ op, (∀ o, op ≠ .arr o) → (astep E ne op w = .ub ↔ viewStep op S = none) := fun op hop => Proof.ArrLive.viewStep_iff I hop
  refine ⟨w, h1, fun k b i lo hi hk => ?_, fun k b hk => ?_, fun s i lo hi hsl => ?_, fun s hsl k => ?_⟩
  · obtain ⟨it, -, -, -, -, hle, c, hc, hb⟩ := I.it hk
    refine ⟨c, hc, hle, hb, (hx _ (by simp)).trans ?_, (hx _ (by simp)).trans ?_⟩
    · simp only [viewStep, hk, Option.bind_some, View.first]
      by_cases hlt : lo < hi
      · have hl : lo < c.length := by omega
        simp only [hlt, if_true, Option.map_eq_none_iff, Spec.ArrLive.shown, hc, Option.bind_some, true_and]
        rw [List.getElem?_eq_getElem hl]
        cases c[lo] <;> simp
      · simp [hlt, Spec.ArrLive.shown]
    · simp only [viewStep, hk, Option.bind_some, View.final]
      by_cases hlt : lo < hi
      · have hl : hi - 1 < c.length := by omega
        simp only [hlt, if_true, Option.map_eq_none_iff, Spec.ArrLive.shown, hc, Option.bind_some, true_and]
        rw [List.getElem?_eq_getElem hl]
        cases c[hi - 1] <;> simp
      · simp [hlt, Spec.ArrLive.shown]
  · refine ⟨(hx _ (by simp)).2 ?_, (hx _ (by simp)).2 ?_, (hx _ (by simp)).2 ?_, (hx _ (by simp)).2 ?_, (hx _ (by simp)).2 ?_, fun x =>
      ⟨(hx _ (by simp)).2 ?_, (hx _ (by simp)).2 ?_⟩⟩ <;> simp [viewStep, hk, View.first, View.final]
  · obtain ⟨x, -, -, -, c, hc, hle⟩ := I.sl hsl
    refine ⟨c, hc, fun k => (hx _ (by simp)).trans ?_⟩
    simp [viewStep, hsl, Spec.ArrLive.lenOf, hc]
  · exact ⟨(hx _ (by simp)).2 (by simp [viewStep, hsl]), (hx _ (by simp)).2 (by simp [viewStep, hsl])⟩

/-- A program for the examples: an iterator and slices are kept while the array is assigned, moved out of and destroyed, and an array is
made in its place. -/
def exArrLive : List (AOp Nat) :=
  [.arr (.newRaw 0 [1, 2, 3, 4]), .iter 0 0, .next 0, .slice 0 0 1 3, .sliceIter 1 0, .arr (.newRaw 1 [5, 6, 7, 8]), .arr (.copyAssign 0 1),
   .next 0, .prev 0, .setNext 1 9, .last 1, .arr (.get 0 1), .len 0, .copyIter 2 0, .arr (.moveAssign 1 0), .next 0, .isEmpty 0, .next 0,
   .next 2, .slice 1 1 2 2, .sliceIntoIter 3 1, .sliceIter 4 1, .isEmpty 4, .prev 3, .setPrev 3 4, .arr (.forEach 1), .slice 2 1 0 5,
   .copySlice 3 0, .arr (.drop 0), .arr (.newDefault 0 4), .iter 5 0, .arr (.set 0 3 1), .prev 5]

/-- The element type of the example: `int`-like, default initialisation gives no value. -/
def exArrElem : Elem Nat := ⟨fun _ => 0, none, 0⟩

example : (match liveRun false exArrElem (fun a b => a != b) exArrLive {} with
    | some (.ok (rs, S)) =>
      decide (rs.filterMap (fun r => match r with | .val x => some (some x) | .num n => some (some n) | .opt o => some o | _ => none) =
        [some 1, some 6, some 8, some 8, some 9, some 1, some 0, none, some 0, some 8, some 1]) &&
      decide (S.its 0 = some (false, .gone) ∧ S.its 1 = some (true, .gone) ∧ S.its 3 = some (true, .at 1 2 2) ∧
        S.its 4 = some (true, .empty) ∧ S.its 5 = some (false, .at 0 0 3) ∧ S.slices 0 = some .gone ∧ S.slices 1 = some .empty ∧
        S.slices 2 = some (.at 1 0 5) ∧ S.slices 3 = some .gone ∧ S.arrs.arr 0 = some [none, none, none, some 1])
    | _ => false) = true := by
  decide +kernel

example : (match arun exArrElem (fun a b => a != b) exArrLive {} with
    | .ok (rs, _) => decide (rs.length = 33)
    | _ => false) = true := by
  decide +kernel

example : (match liveRun false exArrElem (fun a b => a != b) (exArrLive ++ [.arr (.get 0 4)]) {} with
    | some .panic => true
    | _ => false) = true := by
  decide +kernel

end Verif.Props
