import Verif.Base.Out
import Verif.Base.Word
import Verif.Model.Utf8
import Verif.Model.Ascii
/-!
# Model of include/mstl/str/basic_string.h: `BasicString<Encoding>`

The object (L452, L457-462) is `Str`: `len`, the union `storage` (16 inline bytes or a capacity), `alloc.bytes` and the number of
its allocator.  A byte is `none` while it is indeterminate.  Heap blocks belong to an allocator and are never reused, so
that any later use of a released block is detected.  Undefined behaviour (`ub`) is: accessing bytes outside a region,
through a null pointer or in a released block; reading the union member that is not active (writing one makes it active);
looking at an indeterminate byte; releasing a block through another allocator or with another size.

`Allocate::operator=` (L439-450) flows off its end without a `return`, which is undefined.  With `cfg.lenient = true` the
model takes the reading most favourable to the code, that it returns normally.

Simplifications: lengths and capacities are natural numbers (an object is smaller than 2^63 bytes, so that
`new_len + new_len / 2` does not overflow); a failing allocation is the outcome `oom`; `Allocate`'s destructor (L430) runs
the allocator's destructor twice, which is harmless for allocators with trivial destructor, the only ones modelled;
constant evaluation is not modelled.  `reserve` (L294-314) does not compile (no member `cap`) and `shrink_to_fit` (L290-292)
is empty: both are left out.
-/
namespace Verif.Model.BStr
open Verif

inductive Enc where
  | ascii
  | utf8
  deriving DecidableEq, Repr

/-- `refuse k n`: the allocator returns null for the `k`-th request, of `n` bytes. -/
structure Cfg where
  enc : Enc
  lenient : Bool
  refuse : Nat → Nat → Bool

/-- The allocator is able to fail. -/
def Refuses (cfg : Cfg) : Prop := ∃ k n, cfg.refuse k n = true

abbrev Byte := Option UInt8

structure Blk where
  owner : Nat
  data : List Byte

structure Heap where
  blk : Nat → Option Blk := fun _ => none
  next : Nat := 0
  /-- tallies: bytes obtained and returned -/
  newBytes : Nat := 0
  freeBytes : Nat := 0

abbrev M (β : Type) := Prog Heap β

/-- L455 `LOCAL_STORAGE_SIZE`. -/
def localSize : Nat := 16

/-- L458-461 the union `storage`. -/
inductive Store where
  | inline (bs : List Byte)
  | cap (n : Nat)

structure Str where
  len : Nat
  store : Store
  bytes : Option Nat
  alloc : Nat

/-- The allocator a defaulted allocator argument, and `Allocate()` (L432), stands for. -/
def dfltAlloc : Nat := 0

/-- Member initialisers L452, L457-462. -/
def Str.blank (a : Nat) : Str := ⟨0, .inline (List.replicate localSize none), none, a⟩

def upd {γ : Type} (f : Nat → γ) (a : Nat) (x : γ) : Nat → γ := fun b => if b = a then x else f b

/-- allocator.h:24-43 `allocate(LAYOUT, n)` with `LAYOUT` that of `u8`. -/
def allocate (cfg : Cfg) (owner n : Nat) : M Nat := fun h =>
  if cfg.refuse h.next n then .oom
  else .ok (h.next, { h with
    blk := upd h.blk h.next (some ⟨owner, List.replicate n none⟩), next := h.next + 1, newBytes := h.newBytes + n })

/-- allocator.h:50-69 `deallocate(ptr, LAYOUT, n)`; null is a no-op. -/
def deallocate (owner : Nat) (p : Option Nat) (n : Nat) : M Unit := fun h =>
  match p with
  | none => .ok ((), h)
  | some b =>
    match h.blk b with
    | none => .ub
    | some k =>
      if k.owner = owner ∧ k.data.length = n then .ok ((), { h with blk := upd h.blk b none, freeBytes := h.freeBytes + n })
      else .ub

/-- Pointers handed to `copy` (L359-370) and to slices: the inline storage of the string at hand, or a heap pointer. -/
inductive Loc where
  | inline
  | heap (p : Option Nat)

/-- `bs[off .. off + n]`. -/
def part (bs : List Byte) (off n : Nat) : M (List Byte) :=
  if off + n ≤ bs.length then return (bs.drop off).take n else Prog.ub

/-- L361-370 `copy`, reading its source `l[off .. off + n]`. -/
def readAt (s : Str) (l : Loc) (off n : Nat) : M (List Byte) :=
  match l with
  | .inline =>
    match s.store with
    | .inline bs => part bs off n
    | .cap _ => if n = 0 then return [] else Prog.ub
  | .heap none => Prog.ub
  | .heap (some b) => fun h =>
    match h.blk b with
    | none => .ub
    | some k => part k.data off n h

/-- `bs` with `d` written at `off`. -/
def splice (bs : List Byte) (off : Nat) (d : List Byte) : List Byte := bs.take off ++ (d ++ bs.drop (off + d.length))

/-- L361-370 `copy`, writing to its destination `l[off ..]`. -/
def writeAt (s : Str) (l : Loc) (off : Nat) (d : List Byte) : M Str :=
  match l with
  | .inline =>
    if d = [] then return s
    else if off + d.length ≤ localSize then
      let bs := match s.store with
        | .inline bs => bs
        | .cap _ => List.replicate localSize none
      return { s with store := .inline (splice bs off d) }
    else Prog.ub
  | .heap none => Prog.ub
  | .heap (some b) => fun h =>
    match h.blk b with
    | none => .ub
    | some k =>
      if off + d.length ≤ k.data.length then
        .ok (s, { h with blk := upd h.blk b (some { k with data := splice k.data off d }) })
      else .ub

/-- `storage.cap` read. -/
def getCap (s : Str) : M Nat :=
  match s.store with
  | .cap n => return n
  | .inline _ => Prog.ub

/-- L439-450 `Allocate::operator=` between two objects; the allocators themselves are copied by the caller below. -/
def assignAlloc (cfg : Cfg) : M Unit := if cfg.lenient then return () else Prog.ub

/-! ## Constructors and destructor -/

/-- L55 `BasicString()` (with allocator `dfltAlloc`) and L56 `BasicString(Allocator&&)`. -/
def newAlloc (a : Nat) : M Str := return Str.blank a

/-- L57-61 destructor. -/
def destruct (s : Str) : M Unit :=
  if s.len > localSize then do
    let c ← getCap s
    deallocate s.alloc s.bytes c
  else return ()

/-- L63-76 `BasicString(const ValidBytes<N>&, const Allocator&)`. -/
def newLit (cfg : Cfg) (lit : List UInt8) (a : Nat) : M Str := do
  let s := { Str.blank a with len := lit.length }
  if lit.length ≤ localSize then writeAt s .inline 0 (lit.map some)
  else do
    let c := lit.length + lit.length / 2
    let s := { s with store := .cap c }
    let b ← allocate cfg s.alloc c
    let s := { s with bytes := some b }
    writeAt s (.heap s.bytes) 0 (lit.map some)

/-- L78-89 copy constructor: the allocator is default-constructed. -/
def newCopy (cfg : Cfg) (other : Str) : M Str := do
  let s := { Str.blank dfltAlloc with len := other.len }
  if other.len > localSize then do
    let c ← getCap other
    let s := { s with store := .cap c }
    let b ← allocate cfg s.alloc c
    let s := { s with bytes := some b }
    let d ← readAt other (.heap other.bytes) 0 other.len
    writeAt s (.heap s.bytes) 0 d
  else return { s with store := other.store }

/-- L145-154 move constructor: the new string and what is left of the other. -/
def newMove (cfg : Cfg) (other : Str) : M (Str × Str) := do
  let s := { Str.blank dfltAlloc with len := other.len }
  assignAlloc cfg
  let s := { s with alloc := other.alloc }
  let s := { s with bytes := other.bytes }
  let s := { s with store := other.store }
  return (s, { other with len := 0, bytes := none, store := .cap 0 })

/-- L92-143 copy assignment between two objects (L93-95: nothing happens for one object). -/
def copyAssign (cfg : Cfg) (s other : Str) : M Str :=
  -- L105-109
  if s.len < localSize ∧ other.len < localSize then do
    let s := { s with len := other.len }
    assignAlloc cfg
    let s := { s with alloc := other.alloc }
    return { s with store := other.store }
  -- L111-118
  else if s.len < localSize ∧ other.len > localSize then do
    let s := { s with len := other.len }
    assignAlloc cfg
    let s := { s with alloc := other.alloc }
    let c ← getCap other
    let s := { s with store := .cap c }
    let b ← allocate cfg s.alloc c
    let s := { s with bytes := some b }
    let d ← readAt other (.heap other.bytes) 0 other.len
    writeAt s (.heap s.bytes) 0 d
  -- L120-127
  else if s.len > localSize ∧ other.len < localSize then do
    let c ← getCap s
    deallocate s.alloc s.bytes c
    assignAlloc cfg
    let s := { s with alloc := other.alloc }
    let s := { s with len := other.len }
    return { s with store := other.store }
  -- L129-140
  else do
    let s := { s with len := other.len }
    let c ← getCap s
    let s ← (if c < other.len then do
        deallocate s.alloc s.bytes c
        assignAlloc cfg
        let s := { s with alloc := other.alloc }
        let c := s.len + s.len / 2
        let s := { s with store := .cap c }
        let b ← allocate cfg s.alloc c
        return { s with bytes := some b }
      else return s)
    let d ← readAt other (.heap other.bytes) 0 s.len
    writeAt s (.heap s.bytes) 0 d

/-- L157-213 move assignment between two objects: new values of both. -/
def moveAssign (cfg : Cfg) (s other : Str) : M (Str × Str) :=
  -- L169-175
  if s.len < localSize ∧ other.len < localSize then do
    assignAlloc cfg
    return ({ s with len := other.len, alloc := other.alloc, store := other.store }, { other with len := 0 })
  -- L177-186
  else if s.len < localSize ∧ other.len > localSize then do
    assignAlloc cfg
    let c ← getCap other
    return ({ s with len := other.len, alloc := other.alloc, bytes := other.bytes, store := .cap c },
      { other with len := 0, bytes := none, store := .cap 0 })
  -- L188-197
  else if s.len > localSize ∧ other.len < localSize then do
    let c ← getCap s
    deallocate s.alloc s.bytes c
    assignAlloc cfg
    return ({ s with len := other.len, alloc := other.alloc, store := other.store }, { other with len := 0 })
  -- L199-210
  else do
    let c ← getCap s
    deallocate s.alloc s.bytes c
    assignAlloc cfg
    let c ← getCap other
    return ({ s with len := other.len, alloc := other.alloc, bytes := other.bytes, store := .cap c },
      { other with len := 0, bytes := none, store := .cap 0 })

/-! ## Growing -/

/-- L372-385 `AllocateInfo`. -/
structure Info where
  src : Loc
  des : Loc
  newCap : Nat := 0
  allocNew : Bool := false
  needDealloc : Bool := false

/-- L389-425 `try_allocate_new_space`. -/
def tryAllocate (cfg : Cfg) (s : Str) (newLen : Nat) : M (Str × Info) :=
  if s.len > localSize then do
    let src := Loc.heap s.bytes
    let c ← getCap s
    if newLen > c then do
      let newCap := newLen + newLen / 2
      let b ← allocate cfg s.alloc newCap
      return ({ s with bytes := some b }, ⟨src, .heap (some b), newCap, true, true⟩)
    else return (s, ⟨src, src, 0, false, false⟩)
  else if newLen > localSize then do
    let newCap := newLen + newLen / 2
    let b ← allocate cfg s.alloc newCap
    return ({ s with bytes := some b }, ⟨.inline, .heap (some b), newCap, true, false⟩)
  else return (s, ⟨.inline, .inline, 0, false, false⟩)

/-- L226, L275 release of the space `info.src` points to. -/
def deallocSrc (s : Str) (l : Loc) : M Unit :=
  match l with
  | .inline => Prog.ub
  | .heap p => do
    let c ← getCap s
    deallocate s.alloc p c

/-- L216-236 `push_back(ch)`; `ch` is the list of the first `get_len()` bytes of the character (basic_char.h:60-106). -/
def pushBack (cfg : Cfg) (s : Str) (ch : List UInt8) : M Str := do
  let newLen := s.len + ch.length
  let r ← tryAllocate cfg s newLen
  let info := r.2
  let s ← (if info.allocNew then do
      let d ← readAt r.1 info.src 0 r.1.len
      let s ← writeAt r.1 info.des 0 d
      (if info.needDealloc then deallocSrc s info.src else return ())
      return { s with store := .cap info.newCap }
    else return r.1)
  let s ← writeAt s info.des s.len (ch.map some)
  return { s with len := newLen }

/-- All bytes are determinate. -/
def look : List Byte → M (List UInt8)
  | [] => return []
  | none :: _ => Prog.ub
  | some b :: bs => do
    let r ← look bs
    return b :: r

/-- L351-357 `make_slice`, L324-334: bytes `start .. start + n`. -/
def slice (s : Str) (start n : Nat) : M (List UInt8) := do
  let d ← readAt s (if s.len > localSize then .heap s.bytes else .inline) start n
  look d

/-- A call that does not touch the heap. -/
def pureOut {β : Type} (x : Out β) : M β := fun h => x.bind fun b => .ok (b, h)

/-- L316-338 `is_char_boundary` for `UTF8` (`MAX_LEN` is 4, utf8.h:21).  For `Ascii` it does not compile (ascii.h's
`is_char_boundary` takes an lvalue). -/
def isCharBoundary (s : Str) (idx : Nat) : M Bool :=
  if idx = 0 then return true
  else if idx ≥ s.len then return decide (idx = s.len)
  else do
    let start := if idx > 4 then idx - 4 else 0
    let stop := idx + 1
    let bs ← slice s start (stop - start)
    pureOut (Utf8.isCharBoundary bs)

/-- L250-288 `insert(ch, idx)`. -/
def insert (cfg : Cfg) (s : Str) (ch : List UInt8) (idx : Nat) : M Str := do
  let b ← isCharBoundary s idx
  if !b then Prog.panic
  else do
    let newLen := s.len + ch.length
    let r ← tryAllocate cfg s newLen
    let s := r.1
    let info := r.2
    let s ← (if info.allocNew then do
        let d ← readAt s info.src 0 idx
        let s ← writeAt s info.des 0 d
        let s ← writeAt s info.des idx (ch.map some)
        let d ← readAt s info.src idx (s.len - idx)
        let s ← writeAt s info.des (idx + ch.length) d
        (if info.needDealloc then deallocSrc s info.src else return ())
        return { s with store := .cap info.newCap }
      else do
        let d ← readAt s info.src idx (s.len - idx)
        let s ← writeAt s info.des (idx + ch.length) d
        writeAt s info.des idx (ch.map some))
    return { s with len := newLen }

/-- L239-248 `pop_back` for `Ascii` (ascii.h:35-46).  For `UTF8` it does not compile (utf8.h:69 names `is_none` without
calling it). -/
def popBack (s : Str) : M (Option (List UInt8) × Str) := do
  let bs ← slice s 0 s.len
  match (Ascii.last bs).1 with
  | none => return (none, s)
  | some ch => return (some ch, { s with len := s.len - ch.length })

/-- L344-347 `chars()`, iterated to its end. -/
def chars (cfg : Cfg) (s : Str) : M (List (List UInt8)) := do
  let bs ← slice s 0 s.len
  match cfg.enc with
  | .ascii => return Ascii.chars bs
  | .utf8 => pureOut (Utf8.chars bs)

/-- L42-49 `operator<<`: the bytes written. -/
def print (s : Str) : M (List UInt8) := do
  let d ← readAt s (if s.len < localSize then .inline else .heap s.bytes) 0 s.len
  look d

/-! ## Histories -/

/-- A program's string variables. -/
structure World where
  heap : Heap := {}
  vars : Nat → Option Str := fun _ => none

inductive Op where
  | newAlloc (i a : Nat)
  | newLit (i : Nat) (lit : List UInt8) (a : Nat)
  | newCopy (i j : Nat)
  | newMove (i j : Nat)
  | copyAssign (i j : Nat)
  | moveAssign (i j : Nat)
  | drop (i : Nat)
  | pushBack (i : Nat) (ch : List UInt8)
  | insert (i : Nat) (ch : List UInt8) (idx : Nat)
  | popBack (i : Nat)
  | size (i : Nat)
  | isCharBoundary (i idx : Nat)
  | chars (i : Nat)
  | print (i : Nat)

inductive Res where
  | unit
  | num (n : Nat)
  | bool (b : Bool)
  | opt (o : Option (List UInt8))
  | chars (cs : List (List UInt8))
  | text (bs : List UInt8)
  deriving DecidableEq

def inHeap {β : Type} (m : M β) : Prog World β := fun w =>
  match m w.heap with
  | .ok (b, h) => .ok (b, { w with heap := h })
  | .div => .div
  | .panic => .panic
  | .oom => .oom
  | .ub => .ub

def var (i : Nat) : Prog World Str := fun w =>
  match w.vars i with
  | none => .ub
  | some s => .ok (s, w)

def setVar (i : Nat) (s : Option Str) : Prog World Unit := fun w => .ok ((), { w with vars := upd w.vars i s })

def step (cfg : Cfg) : Op → Prog World Res
  | .newAlloc i a => do
    let s ← inHeap (newAlloc a)
    setVar i (some s)
    return .unit
  | .newLit i lit a => do
    let s ← inHeap (newLit cfg lit a)
    setVar i (some s)
    return .unit
  | .newCopy i j => do
    let o ← var j
    let s ← inHeap (newCopy cfg o)
    setVar i (some s)
    return .unit
  | .newMove i j => do
    let o ← var j
    let r ← inHeap (newMove cfg o)
    setVar i (some r.1)
    setVar j (some r.2)
    return .unit
  | .copyAssign i j => do
    let s ← var i
    let o ← var j
    if i = j then return .unit
    else do
      let s ← inHeap (copyAssign cfg s o)
      setVar i (some s)
      return .unit
  | .moveAssign i j => do
    let s ← var i
    let o ← var j
    if i = j then return .unit
    else do
      let r ← inHeap (moveAssign cfg s o)
      setVar i (some r.1)
      setVar j (some r.2)
      return .unit
  | .drop i => do
    let s ← var i
    inHeap (destruct s)
    setVar i none
    return .unit
  | .pushBack i ch => do
    let s ← var i
    let s ← inHeap (pushBack cfg s ch)
    setVar i (some s)
    return .unit
  | .insert i ch idx => do
    let s ← var i
    let s ← inHeap (insert cfg s ch idx)
    setVar i (some s)
    return .unit
  | .popBack i => do
    let s ← var i
    let r ← inHeap (popBack s)
    setVar i (some r.2)
    return .opt r.1
  | .size i => do
    let s ← var i
    return .num s.len
  | .isCharBoundary i idx => do
    let s ← var i
    let b ← inHeap (isCharBoundary s idx)
    return .bool b
  | .chars i => do
    let s ← var i
    let cs ← inHeap (chars cfg s)
    return .chars cs
  | .print i => do
    let s ← var i
    let bs ← inHeap (print s)
    return .text bs

def run (cfg : Cfg) : List Op → Prog World (List Res)
  | [] => return []
  | op :: ops => do
    let r ← step cfg op
    let rs ← run cfg ops
    return r :: rs

end Verif.Model.BStr
