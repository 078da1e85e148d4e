import Verif.Proof.ResultRef
import Verif.Props.Result
/-! # Property C71: results that refer to objects -/
namespace Verif.Props
open Verif Verif.Model.Res Verif.Spec.Res

variable {α ε : Type}

/-- No objects, no results. -/
def noRefs : RefIdeal α ε := ⟨fun _ => none, fun _ => none⟩

/-- C71.  For every history over any number of client objects and `Result<T&, E>` variables (assignments between a reference
and an error left out, see C51): the calls answer as ideal variables holding the address of an object or an error do.  So
reading and writing through a result reads and writes exactly the object it was made from, copies refer to the same object,
assigning re-seats the target without touching any object, and `unwrap` of an error panics.  The objects and what each
result refers to are as in the ideal run. -/
theorem C71_reference_results (classE : Bool) (mvE : ε → ε) (eqT : α → α → Bool) (eqE : ε → ε → Bool) (ops : List (RefOp α ε)) :
    (∀ rs A, refSpecRun mvE eqT eqE ops noRefs = some (.ok (rs, A)) →
      ∃ w, refRun (refCfg classE mvE) eqT eqE ops RefWorld.init = .ok (rs, w) ∧ w.mem = A.mem ∧ resContent w.res = A.var) ∧
    (refSpecRun mvE eqT eqE ops noRefs = some .panic →
      refRun (refCfg classE mvE) eqT eqE ops RefWorld.init = .panic) := by
  have h := Proof.Res.ref_run_ok classE mvE eqT eqE ops noRefs RefWorld.init ⟨rfl, fun _ => ⟨rfl, rfl⟩⟩
  constructor
  · intro rs A hs
    rw [hs] at h
    obtain ⟨w, h1, h2, h3⟩ := h
    exact ⟨w, h1, h2, resContent_eq h3⟩
  · intro hs
    rw [hs] at h
    exact h

/-- Two results refer to object 7; what is written through the one is read through the other; assignment re-seats. -/
example : ∃ A, refSpecRun (fun e : Bool => e) (fun x y : Nat => x == y) (fun x y => x == y)
    [.newObj 7 1, .newObj 8 2, .mkOk 0 7, .copyCtor 1 0, .write 1 5, .read 0, .mkOk 2 8, .copyAssign 0 2, .write 0 9, .read 1,
      .read 2, .which 0, .eq 0 2, .mkErr 3 true, .isOk 3, .unwrapErr 3, .endObj 7, .destroy 0] noRefs =
    some (.ok ([.unit, .unit, .unit, .unit, .unit, .val 5, .unit, .unit, .unit, .val 5, .val 9, .addr (some 8), .bool true, .unit,
      .bool false, .valE true, .unit, .unit], A)) := ⟨_, rfl⟩
example : refSpecRun (fun e : Bool => e) (fun x y : Nat => x == y) (fun x y => x == y) [.mkErr 3 true, .read 3] noRefs =
    some .panic := rfl

end Verif.Props
