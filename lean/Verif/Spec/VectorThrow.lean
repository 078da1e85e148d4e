import Verif.Spec.VectorView
import Verif.Model.VectorThrow
/-!
# Specification: vectors whose element copies may throw

`copied` lists the values a call copies; the call throws if one of them cannot be copied.  `caught` is what is left after the throws
that the library survives: `insert(pos, value)` and `v[k] = x` change nothing; copy assignment between vectors with equal allocators
that fails no later than at the first element the target has no place for, keeps the copies made so far, and the capacity already
asked for.  `Intact` says that nothing was lost: whatever a vector counts as element exists, and every block of memory and every
element in it belongs to a vector that counts it.
-/
namespace Verif.Spec.Vector
open Verif
open Verif.Model.Vector (Op Res Arg World Vec stepT runT)

variable {α : Type}

/-- The values the call copies, in order. -/
def copied (dflt : α) (A : Ideal α) : Op α → List α
  | .newFill _ n r _ => List.replicate n ((argVal A r).getD dflt)
  | .newCount _ n _ => List.replicate n dflt
  | .newList _ xs _ => xs
  | .newRange _ xs _ => xs
  | .newCopy _ j => ((A j).map Var.xs).getD []
  | .newCopyAlloc _ j _ => ((A j).map Var.xs).getD []
  | .copyAssign i j => if i = j then [] else ((A j).map Var.xs).getD []
  | .push _ r => [(argVal A r).getD dflt]
  | .assignFill _ n r => List.replicate n ((argVal A r).getD dflt)
  | .assignList _ xs => xs
  | .set _ _ x => [x]
  | .insert _ _ r => [(argVal A r).getD dflt]
  | .insertFill _ _ n r => List.replicate n ((argVal A r).getD dflt)
  | .insertRange _ _ xs => xs
  | .resizeFill i n r => List.replicate (n - ((A i).map fun v => v.xs.length).getD 0) ((argVal A r).getD dflt)
  | _ => []

/-- What the vectors are after a throw that the library survives. -/
def caught (bad : α → Bool) (A : Ideal α) : Op α → Option (Ideal α)
  | .insert _ _ _ => some A
  | .set _ _ _ => some A
  | .copyAssign i j => (A i).bind fun v => (A j).bind fun w =>
    let made := w.xs.takeWhile fun x => !bad x
    if v.alloc = w.alloc ∧ made.length ≤ v.xs.length then
      some (put A i (some ⟨made ++ v.xs.drop made.length, max v.cap w.cap, v.alloc⟩))
    else none
  | _ => none

/-- One call; the result is `none` if it throws. -/
def specStepT (bad : α → Bool) (size : Nat) (dflt : α) (op : Op α) (A : Ideal α) : Option (Option (Res α) × Ideal α) :=
  (specStep false size dflt op A).bind fun p =>
    if ∀ x ∈ copied dflt A op, bad x = false then some (some p.1, p.2)
    else (caught bad A op).map fun A' => (none, A')

def specRunT (bad : α → Bool) (size : Nat) (dflt : α) : List (Op α) → Ideal α → Option (List (Option (Res α)) × Ideal α)
  | [], A => some ([], A)
  | op :: ops, A =>
    match specStepT bad size dflt op A with
    | none => none
    | some (r, A') =>
      match specRunT bad size dflt ops A' with
      | none => none
      | some (rs, A'') => some (r :: rs, A'')

/-- States reached by programs whose throwing calls are ones the library survives. -/
def ReachT (ty : Model.Mem.ElemTy α) (bad : α → Bool) (w : World α) : Prop :=
  ∃ ops rs A rs', specRunT bad ty.size ty.dflt ops (fun _ => none) = some (rs, A) ∧ runT ty bad ops {} = .ok (rs', w)

/-- Every element a vector counts exists; every block of memory belongs to a vector, which counts every element in it. -/
def Intact (w : World α) : Prop :=
  (∀ i v, w.vars i = some v → ∀ k, k < v.len → (slotAt w.heap v.ptr k).isSome) ∧
  (∀ b, w.heap.blocks b ≠ none → ∃ i v, w.vars i = some v ∧ v.ptr = some b ∧
    ∀ k, (slotAt w.heap (some b) k).isSome → k < v.len)

end Verif.Spec.Vector
