import Verif.Spec.LinkedList
/-!
# What a client can observe of lists, and which program states arise

Used in the statements of the list properties.  Nothing here runs library code except `Reach`.
-/
namespace Verif.Spec.LL
open Verif Verif.Model.LL

variable {α : Type}

/-- The live element in node `a`, if there is one. -/
def elemAt (h : Heap α) (a : Nat) : Option α :=
  match h.info a with
  | some ⟨_, _, .live x⟩ => some x
  | _ => none

/-- The `n` nodes following node `p`, with their elements; `none` if one of them has no live element. -/
def nodesFrom (h : Heap α) (p : Nat) : Nat → Option (List (Nat × α))
  | 0 => some []
  | n + 1 =>
    match h.nxt p with
    | some (some q) => (elemAt h q).bind fun x => (nodesFrom h q n).map fun cs => (q, x) :: cs
    | _ => none

/-- The `size()` nodes of list `i` in order, with their elements.  An iterator is a pointer to such a node. -/
def cells (w : World α) (i : Nat) : Option (List (Nat × α)) :=
  (w.vars i).bind fun l => l.head.bind fun p => nodesFrom w.heap p l.len

/-- Contents (`none` if moved from) and allocator of every list variable. -/
def view (w : World α) : Ideal α := fun i =>
  (w.vars i).bind fun l =>
    match l.head with
    | none => some ⟨none, l.alloc⟩
    | some p => (nodesFrom w.heap p l.len).map fun cs => ⟨some (cs.map Prod.snd), l.alloc⟩

/-- States reached from the empty program state by an allowed (restricted) history. -/
def Reach (cfg : Cfg α) (w : World α) : Prop :=
  ∃ ops rs A rs', specRun false cfg.dbl cfg.dflt ops (fun _ => none) = some (rs, A) ∧ run cfg ops {} = .ok (rs', w)

/-- 1 for a live element. -/
def liveIn : Option (Info α) → Nat
  | some ⟨_, _, .live _⟩ => 1
  | _ => 0

/-- Bytes of a node. -/
def bytesIn : Option (Info α) → Nat
  | none => 0
  | some i => i.bytes

/-- The call constructed, destroyed and allocated this many elements, elements, nodes. -/
def Costs (h h' : Heap α) (constructed destroyed nodes : Nat) : Prop :=
  h'.ctors = h.ctors + constructed ∧ h'.dtors = h.dtors + destroyed ∧ h'.next = h.next + nodes

/-- Sort and merge predicates under which only equal elements are equivalent. -/
def Strict : Op α → Prop
  | .sort _ less | .merge _ _ less => ∀ x y, less x y = false → less y x = false → x = y
  | _ => True

/-- The variables a call may change, as far as the client can see from the call. -/
def writes : Op α → List Nat
  | .newAlloc i _ | .newFill i _ _ _ | .newCount i _ _ | .newRange i _ _ | .newCopy i _ | .newCopyAlloc i _ _ | .fromIter i _
  | .copyAssign i _ | .listAssign i _ | .drop i | .clear i | .set i _ _ | .insertAfter i _ _ | .insertAfterFill i _ _ _
  | .insertAfterRange i _ _ | .eraseAfter i _ | .eraseAfterRange i _ _ | .insert i _ _ | .insertFill i _ _ _ | .insertRange i _ _
  | .erase i _ | .eraseRange i _ _ | .pushFront i _ | .popFront i | .pushBack i _ | .popBack i | .resize i _ | .resizeFill i _ _
  | .remove i _ _ | .removeIf i _ | .reverse i | .unique i _ | .sort i _ | .drain i _ => [i]
  | .newMove i j | .newMoveAlloc i j _ | .moveAssign i j | .swap i j | .merge i j _ | .mergeMove i j _ | .spliceAfter i _ j
  | .splice i _ j | .spliceAfterMove i _ j | .spliceMove i _ j => [i, j]
  | .moved _ | .front _ | .frontUnchecked _ | .frontUncheckedConst _ | .back _ | .backUnchecked _ | .size _ | .empty _ | .get _ _
  | .traverse _ | .traverseBack _ | .traverseRev _ | .iter _ _ | .print _ _ => []

/-- The calls that erase, overwrite or destroy elements.  All others only add or rearrange elements, or just look. -/
def destructive : Op α → Bool
  | .copyAssign _ _ | .moveAssign _ _ | .listAssign _ _ | .drop _ | .clear _ | .set _ _ _ | .eraseAfter _ _ | .eraseAfterRange _ _ _
  | .erase _ _ | .eraseRange _ _ _ | .popFront _ | .popBack _ | .resize _ _ | .resizeFill _ _ _ | .remove _ _ _ | .removeIf _ _
  | .unique _ _ | .drain _ _ => true
  | _ => false

/-- The call returns `r` (or, if the allocator may refuse memory, runs out of memory).  The nodes of list `i` become some
`cs'` with `P cs'`; its allocator, and the nodes, contents and allocators of all other lists, stay as they were.
`constructed`, `destroyed` and `nodes` as in `Costs`. -/
def Changes (cfg : Cfg α) (op : Op α) (w : World α) (i : Nat) (r : Res α) (P : List (Nat × α) → Prop)
    (constructed destroyed nodes : Nat) : Prop :=
  (step cfg op w).SafeIf (Refuses cfg) fun q => q.1 = r ∧
    (∃ cs', cells q.2 i = some cs' ∧ P cs' ∧ (view q.2 i).map Var.items = some (some (cs'.map Prod.snd))) ∧
    (view q.2 i).map Var.alloc = (view w i).map Var.alloc ∧
    (∀ j, j ≠ i → cells q.2 j = cells w j ∧ view q.2 j = view w j) ∧
    Costs w.heap q.2.heap constructed destroyed nodes

end Verif.Spec.LL
