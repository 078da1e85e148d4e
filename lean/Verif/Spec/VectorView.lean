import Verif.Spec.Vector
/-!
# What a client can observe of vectors, and which program states arise

Used in the statements of the Vector properties.  Nothing here runs library code except `Reach`.
-/
namespace Verif.Spec.Vector
open Verif Verif.Model.Mem Verif.Model.Vector

variable {α : Type}

/-- The live element in slot `i` of block `p`, if there is one. -/
def slotAt (h : Heap α) (p : Option Nat) (i : Nat) : Option α :=
  match p with
  | none => none
  | some b =>
    match h.blocks b with
    | none => none
    | some blk =>
      match blk.slots[i]? with
      | some (some x) => some x
      | _ => none

/-- The live elements in slots `i, …, i + n - 1`; `none` as soon as one of them is not live. -/
def elemsFrom (h : Heap α) (p : Option Nat) (i : Nat) : Nat → Option (List α)
  | 0 => some []
  | n + 1 => (slotAt h p i).bind fun x => (elemsFrom h p (i + 1) n).map fun xs => x :: xs

/-- `v[0], …, v[size() - 1]`. -/
def elems (h : Heap α) (v : Vec) : Option (List α) := elemsFrom h v.ptr 0 v.len

/-- Contents, capacity and allocator of every vector variable. -/
def view (w : World α) : Ideal α := fun i =>
  (w.vars i).bind fun v => (elems w.heap v).map fun xs => ⟨xs, v.cap, v.alloc⟩

/-- States reached from the empty program state by an allowed (restricted) history. -/
def Reach (ty : ElemTy α) (w : World α) : Prop :=
  ∃ ops rs A rs', specRun false ty.size ty.dflt ops (fun _ => none) = some (rs, A) ∧ run ty ops {} = .ok (rs', w)

/-- Live elements in a block. -/
def liveIn : Option (Block α) → Nat
  | none => 0
  | some blk => blk.slots.countP Option.isSome

/-- Bytes of a block. -/
def bytesIn : Option (Block α) → Nat
  | none => 0
  | some blk => blk.bytes

/-- The variables a call may change, as far as the client can see from the call. -/
def writes : Op α → List Nat
  | .newDefault i | .newAlloc i _ | .newFill i _ _ _ | .newCount i _ _ | .newList i _ _ | .newRange i _ _
  | .newCopy i _ | .newCopyAlloc i _ _ | .fromIter i _ | .copyAssign i _ | .listAssign i _ | .drop i | .clear i
  | .reserve i _ | .push i _ | .pop i | .assignFill i _ _ | .assignList i _ | .set i _ _ | .insert i _ _
  | .emplace i _ _ | .insertFill i _ _ _ | .insertRange i _ _ | .erase i _ | .eraseRange i _ _ | .resize i _
  | .resizeFill i _ _ | .drain i _ | .drainRev i _ => [i]
  | .newMove i j _ | .moveAssign i j | .swap i j => [i, j]
  | .get _ _ | .at _ _ | .front _ | .back _ | .size _ | .capacity _ | .empty _ | .collect _ | .equal _ _ _
  | .compare _ _ _ | .print _ _ => []

end Verif.Spec.Vector
