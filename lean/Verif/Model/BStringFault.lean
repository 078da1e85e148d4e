import Verif.Model.BString
/-!
# Strings that are refused memory

The members of basic_string.h that obtain memory once more, with the null pointer that `allocate` returns when memory is
refused (allocator.h:24-43) followed through the code instead of being an outcome of its own.  Nothing tests the pointer.
-/
namespace Verif.Model.BStr
open Verif

/-- allocator.h:24-43 `allocate(LAYOUT, n)`; null when `operator new(nothrow)` fails. -/
def allocateN (cfg : Cfg) (owner n : Nat) : M (Option Nat) := fun h =>
  if cfg.refuse h.next n then .ok (none, { h with next := h.next + 1 })
  else .ok (some h.next, { h with
    blk := upd h.blk h.next (some ⟨owner, List.replicate n none⟩), next := h.next + 1, newBytes := h.newBytes + n })

/-- basic_string.h:63-76 `BasicString(const ValidBytes<N>&, const Allocator&)`. -/
def newLitN (cfg : Cfg) (lit : List UInt8) (a : Nat) : M Str := do
  let s := { Str.blank a with len := lit.length }
  if lit.length ≤ localSize then writeAt s .inline 0 (lit.map some)
  else do
    let c := lit.length + lit.length / 2
    let s := { s with store := .cap c }
    let b ← allocateN cfg s.alloc c
    let s := { s with bytes := b }
    writeAt s (.heap s.bytes) 0 (lit.map some)

/-- basic_string.h:78-89 copy constructor. -/
def newCopyN (cfg : Cfg) (other : Str) : M Str := do
  let s := { Str.blank dfltAlloc with len := other.len }
  if other.len > localSize then do
    let c ← getCap other
    let s := { s with store := .cap c }
    let b ← allocateN cfg s.alloc c
    let s := { s with bytes := b }
    let d ← readAt other (.heap other.bytes) 0 other.len
    writeAt s (.heap s.bytes) 0 d
  else return { s with store := other.store }

/-- basic_string.h:92-143 copy assignment between two objects. -/
def copyAssignN (cfg : Cfg) (s other : Str) : M Str :=
  if s.len < localSize ∧ other.len < localSize then do
    let s := { s with len := other.len }
    assignAlloc cfg
    let s := { s with alloc := other.alloc }
    return { s with store := other.store }
  else if s.len < localSize ∧ other.len > localSize then do
    let s := { s with len := other.len }
    assignAlloc cfg
    let s := { s with alloc := other.alloc }
    let c ← getCap other
    let s := { s with store := .cap c }
    let b ← allocateN cfg s.alloc c
    let s := { s with bytes := b }
    let d ← readAt other (.heap other.bytes) 0 other.len
    writeAt s (.heap s.bytes) 0 d
  else if s.len > localSize ∧ other.len < localSize then do
    let c ← getCap s
    deallocate s.alloc s.bytes c
    assignAlloc cfg
    let s := { s with alloc := other.alloc }
    let s := { s with len := other.len }
    return { s with store := other.store }
  else do
    let s := { s with len := other.len }
    let c ← getCap s
    let s ← (if c < other.len then do
        deallocate s.alloc s.bytes c
        assignAlloc cfg
        let s := { s with alloc := other.alloc }
        let c := s.len + s.len / 2
        let s := { s with store := .cap c }
        let b ← allocateN cfg s.alloc c
        return { s with bytes := b }
      else return s)
    let d ← readAt other (.heap other.bytes) 0 s.len
    writeAt s (.heap s.bytes) 0 d

/-- basic_string.h:389-425 `try_allocate_new_space`. -/
def tryAllocateN (cfg : Cfg) (s : Str) (newLen : Nat) : M (Str × Info) :=
  if s.len > localSize then do
    let src := Loc.heap s.bytes
    let c ← getCap s
    if newLen > c then do
      let newCap := newLen + newLen / 2
      let b ← allocateN cfg s.alloc newCap
      return ({ s with bytes := b }, ⟨src, .heap b, newCap, true, true⟩)
    else return (s, ⟨src, src, 0, false, false⟩)
  else if newLen > localSize then do
    let newCap := newLen + newLen / 2
    let b ← allocateN cfg s.alloc newCap
    return ({ s with bytes := b }, ⟨.inline, .heap b, newCap, true, false⟩)
  else return (s, ⟨.inline, .inline, 0, false, false⟩)

/-- basic_string.h:216-236 `push_back(ch)`. -/
def pushBackN (cfg : Cfg) (s : Str) (ch : List UInt8) : M Str := do
  let newLen := s.len + ch.length
  let r ← tryAllocateN cfg s newLen
  let info := r.2
  let s ← (if info.allocNew then do
      let d ← readAt r.1 info.src 0 r.1.len
      let s ← writeAt r.1 info.des 0 d
      (if info.needDealloc then deallocSrc s info.src else return ())
      return { s with store := .cap info.newCap }
    else return r.1)
  let s ← writeAt s info.des s.len (ch.map some)
  return { s with len := newLen }

/-- basic_string.h:250-288 `insert(ch, idx)`. -/
def insertN (cfg : Cfg) (s : Str) (ch : List UInt8) (idx : Nat) : M Str := do
  let b ← isCharBoundary s idx
  if !b then Prog.panic
  else do
    let newLen := s.len + ch.length
    let r ← tryAllocateN cfg s newLen
    let s := r.1
    let info := r.2
    let s ← (if info.allocNew then do
        let d ← readAt s info.src 0 idx
        let s ← writeAt s info.des 0 d
        let s ← writeAt s info.des idx (ch.map some)
        let d ← readAt s info.src idx (s.len - idx)
        let s ← writeAt s info.des (idx + ch.length) d
        (if info.needDealloc then deallocSrc s info.src else return ())
        return { s with store := .cap info.newCap }
      else do
        let d ← readAt s info.src idx (s.len - idx)
        let s ← writeAt s info.des (idx + ch.length) d
        writeAt s info.des idx (ch.map some))
    return { s with len := newLen }

/-- A call, where refused memory is a null pointer. -/
def stepN (cfg : Cfg) : Op → Prog World Res
  | .newLit i lit a => do
    let s ← inHeap (newLitN cfg lit a)
    setVar i (some s)
    return .unit
  | .newCopy i j => do
    let o ← var j
    let s ← inHeap (newCopyN cfg o)
    setVar i (some s)
    return .unit
  | .copyAssign i j => do
    let s ← var i
    let o ← var j
    if i = j then return .unit
    else do
      let s ← inHeap (copyAssignN cfg s o)
      setVar i (some s)
      return .unit
  | .pushBack i ch => do
    let s ← var i
    let s ← inHeap (pushBackN cfg s ch)
    setVar i (some s)
    return .unit
  | .insert i ch idx => do
    let s ← var i
    let s ← inHeap (insertN cfg s ch idx)
    setVar i (some s)
    return .unit
  | op => step cfg op

end Verif.Model.BStr
