import Verif.Spec.VectorThrow
import Verif.Model.VectorMoveThrow
/-!
# Specification: vectors whose element moves may throw

`fate` says what becomes of a call: it is `fine`; it `ends` the program; it has `thrown` an exception and left the given vectors,
nothing lost; or it has thrown and left the vectors `damaged`.
-/
namespace Verif.Spec.Vector
open Verif
open Verif.Model.Vector (Op Res Arg World Vec stepM runM)

variable {α : Type}

inductive Fate (α : Type) where
  | fine
  | ends
  | thrown (A : Ideal α)
  | damaged

/-- The elements `xs` are moved to new memory if the vector needs it. -/
def relocate (bad : α → Bool) (need : Bool) (xs : List α) (next : Fate α) : Fate α :=
  if need && xs.any bad then .ends else next

/-- The elements `ts` are moved back, the last one first: if that one cannot be moved nothing has happened, if another one cannot be
moved there are elements the vector does not count. -/
def moveBack (bad : α → Bool) (A : Ideal α) (ts : List α) (next : Fate α) : Fate α :=
  if ts.any bad then if ts.getLast?.any bad then .thrown A else .damaged else next

/-- The elements after position `hi` are moved forward to position `lo`, the first one first. -/
def moveForward (bad : α → Bool) (mv : α → α) (A : Ideal α) (i : Nat) (v : Var α) (lo hi : Nat) : Fate α :=
  let ts := v.xs.drop hi
  if ts.any bad then
    let done := ts.takeWhile fun x => !bad x
    let gap := ((v.xs.take hi).drop lo ++ done.map mv).drop done.length
    .thrown (put A i (some ⟨v.xs.take lo ++ (done ++ (gap ++ ts.drop done.length)), v.cap, v.alloc⟩))
  else .fine

/-- Own values are handed over as `T&&`, elements of vectors as `const T&`. -/
def rvalue : Arg α → Bool
  | .val _ => true
  | .elem _ _ => false

/-- `bad x`: moving `x` throws; `mv x` is what is left of `x` when it has been moved. -/
def fate (bad : α → Bool) (mv : α → α) (dflt : α) (A : Ideal α) (op : Op α) : Fate α :=
  let vec i := (A i).getD ⟨[], 0, 0⟩
  let arg r := (argVal A r).getD dflt
  match op with
  | .fromIter _ xs => if xs.any bad then .thrown A else .fine
  | .copyAssign i j =>
    if i ≠ j ∧ (vec i).alloc = (vec j).alloc then relocate bad ((vec i).cap < (vec j).cap) (vec i).xs .fine else .fine
  | .reserve i n => relocate bad ((vec i).cap < n) (vec i).xs .fine
  | .resize i n => relocate bad ((vec i).cap < n) (vec i).xs .fine
  | .resizeFill i n _ => relocate bad ((vec i).cap < n) (vec i).xs .fine
  | .push i r => relocate bad ((vec i).cap ≤ (vec i).xs.length) (vec i).xs (if rvalue r && bad (arg r) then .damaged else .fine)
  | .insert i p r =>
    if rvalue r && bad (arg r) then .thrown A
    else relocate bad ((vec i).cap ≤ (vec i).xs.length) (vec i).xs
      (moveBack bad A ((vec i).xs.drop p) (if bad (arg r) then .damaged else .fine))
  | .emplace i p x => relocate bad ((vec i).cap ≤ (vec i).xs.length) (vec i).xs
      (moveBack bad A ((vec i).xs.drop p) (if bad x then .damaged else .fine))
  | .insertFill i p n _ => relocate bad ((vec i).cap < (vec i).xs.length + n) (vec i).xs
      (moveBack bad A ((vec i).xs.drop p) .fine)
  | .insertRange i p ys => relocate bad ((vec i).cap < (vec i).xs.length + ys.length) (vec i).xs
      (moveBack bad A ((vec i).xs.drop p) .fine)
  | .erase i p => moveForward bad mv A i (vec i) p (p + 1)
  | .eraseRange i lo hi => moveForward bad mv A i (vec i) lo hi
  | .drain i n => if ((vec i).xs.take n).any bad then .thrown (put A i (some ⟨[], 0, (vec i).alloc⟩)) else .fine
  | .drainRev i n => if ((vec i).xs.reverse.take n).any bad then .thrown (put A i (some ⟨[], 0, (vec i).alloc⟩)) else .fine
  | _ => .fine

/-- One call; the result is `none` if it throws.  Calls that end the program or leave damage are not allowed here. -/
def specStepM (bad : α → Bool) (mv : α → α) (size : Nat) (dflt : α) (op : Op α) (A : Ideal α) : Option (Option (Res α) × Ideal α) :=
  (specStep false size dflt op A).bind fun p =>
    match fate bad mv dflt A op with
    | .fine => some (some p.1, p.2)
    | .thrown A' => some (none, A')
    | _ => none

def specRunM (bad : α → Bool) (mv : α → α) (size : Nat) (dflt : α) :
    List (Op α) → Ideal α → Option (List (Option (Res α)) × Ideal α)
  | [], A => some ([], A)
  | op :: ops, A =>
    match specStepM bad mv size dflt op A with
    | none => none
    | some (r, A') =>
      match specRunM bad mv size dflt ops A' with
      | none => none
      | some (rs, A'') => some (r :: rs, A'')

/-- States reached by programs whose throwing calls are ones the library survives. -/
def ReachM (ty : Model.Mem.ElemTy α) (bad : α → Bool) (w : World α) : Prop :=
  ∃ ops rs A rs', specRunM bad ty.mv ty.size ty.dflt ops (fun _ => none) = some (rs, A) ∧ runM ty bad ops {} = .ok (rs', w)

end Verif.Spec.Vector
