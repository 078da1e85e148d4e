import Verif.Spec.BString
/-!
# What a client can observe of strings, and which program states arise

Used in the statements of the string properties.
-/
namespace Verif.Spec.BStr
open Verif Verif.Model.BStr

/-- All bytes determinate: their values. -/
def known : List Byte → Option (List UInt8)
  | [] => some []
  | none :: _ => none
  | some b :: bs => (known bs).map (b :: ·)

/-- The memory a string keeps its bytes in: inline for at most 16 bytes, its heap block for more. -/
def memory (h : Heap) (s : Str) : List Byte :=
  if s.len ≤ 16 then
    match s.store with
    | .inline bs => bs
    | .cap _ => []
  else ((s.bytes.bind h.blk).map Blk.data).getD []

/-- The bytes of string variable `i`: the first `size()` bytes of its memory.  `none` if there is no such variable or the
bytes cannot be read. -/
def view (w : World) : Ideal := fun i =>
  (w.vars i).bind fun s => if s.len ≤ (memory w.heap s).length then known ((memory w.heap s).take s.len) else none

/-- States reached from the empty program state by an allowed (restricted) history. -/
def Reach (cfg : Cfg) (w : World) : Prop :=
  ∃ ops rs A rs', specRun false cfg.lenient cfg.enc ops (fun _ => none) = some (rs, A) ∧ run cfg ops {} = .ok (rs', w)

/-- Heap block `b` is the buffer of string variable `i`. -/
def Owns (w : World) (i b : Nat) : Prop := ∃ s, w.vars i = some s ∧ 16 < s.len ∧ s.bytes = some b

/-- Bytes in the blocks below `n`. -/
def held (h : Heap) : Nat → Nat
  | 0 => 0
  | n + 1 => held h n + ((h.blk n).map fun k => k.data.length).getD 0

/-- Calls on which the restricted specification leaves nothing out. -/
def plain : Op → Bool
  | .newAlloc _ _ | .newLit _ _ _ | .newCopy _ _ | .drop _ | .pushBack _ _ | .insert _ _ _ | .size _ | .isCharBoundary _ _
  | .chars _ => true
  | _ => false

end Verif.Spec.BStr
