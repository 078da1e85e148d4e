import Verif.Base.Out
import Verif.Base.Word
/-!
# Model of storage for elements of one type

A heap of blocks obtained from `Allocator::allocate<T>(n)` (include/mstl/memory/allocators/allocator.h:24-43).  A block
remembers which allocator it came from, the number of bytes requested, and its slots; a slot is raw (`none`) or holds a
live element (`some x`).  Everything C++ leaves undefined is `ub`: a null or released block, a slot outside the block,
reading, assigning or destroying a raw slot, releasing a block through another allocator or with another size.
Constructing over a live element and releasing a block with live elements are allowed, as in C++, but show up in the
tallies `ctors`/`dtors` as elements never destroyed.  Blocks are never reused (a freed address is never handed out
again), so any later use of a released block is detected.
-/
namespace Verif.Model.Mem
open Verif

/-- The element type.  `mv x` is the value left behind in a moved-from element, `dflt` a value-initialised element.
`refuse k n` says whether the `k`-th allocation, of `n` bytes, fails (`operator new(nothrow)` returns null); requests of
`2^63` bytes and more always fail.  Copying an element gives an equal element; element operations do not throw. -/
structure ElemTy (α : Type) where
  size : Nat
  size_pos : 0 < size
  size_lt : size < 9223372036854775808
  mv : α → α
  dflt : α
  refuse : Nat → Nat → Bool
  refuse_big : ∀ k n, 9223372036854775808 ≤ n → refuse k n = true

structure Block (α : Type) where
  owner : Nat
  bytes : Nat
  slots : List (Option α)

structure Heap (α : Type) where
  blocks : Nat → Option (Block α) := fun _ => none
  next : Nat := 0
  /-- tallies: elements constructed and destroyed, bytes obtained and returned -/
  ctors : Nat := 0
  dtors : Nat := 0
  newBytes : Nat := 0
  freeBytes : Nat := 0

abbrev M (α β : Type) := Prog (Heap α) β

variable {α β : Type}

def upd (f : Nat → Option (Block α)) (b : Nat) (x : Option (Block α)) : Nat → Option (Block α) :=
  fun b' => if b' = b then x else f b'

/-- allocator.h:24-43 `allocate<T>(n)`: requests `size * n` bytes, computed in `usize`; the block has room for as many
elements as fit.  A null result is the outcome `oom` (the library never looks at it; see DESIGN.md). -/
def alloc (ty : ElemTy α) (owner n : Nat) : M α Nat := fun h =>
  let bytes := wrap (ty.size * n)
  if ty.refuse h.next bytes then .oom
  else .ok (h.next, { h with
    blocks := upd h.blocks h.next (some ⟨owner, bytes, List.replicate (bytes / ty.size) none⟩)
    next := h.next + 1
    newBytes := h.newBytes + bytes })

/-- allocator.h:50-57, 59-69 `deallocate(ptr, n)`: sized `operator delete`; null is a no-op. -/
def free (ty : ElemTy α) (owner : Nat) (p : Option Nat) (n : Nat) : M α Unit := fun h =>
  match p with
  | none => .ok ((), h)
  | some b =>
    match h.blocks b with
    | none => .ub
    | some blk =>
      if blk.owner = owner ∧ blk.bytes = wrap (n * ty.size) then
        .ok ((), { h with blocks := upd h.blocks b none, freeBytes := h.freeBytes + blk.bytes })
      else .ub

/-- Access to slot `i` of block `p`: `k` says what happens to the slot (`none`: undefined); `c`, `d` are added to the
tallies. -/
def access (p : Option Nat) (i c d : Nat) (k : Option α → Option (β × Option α)) : M α β := fun h =>
  match p with
  | none => .ub
  | some b =>
    match h.blocks b with
    | none => .ub
    | some blk =>
      match blk.slots[i]? with
      | none => .ub
      | some o =>
        match k o with
        | none => .ub
        | some (r, o') =>
          .ok (r, { h with
            blocks := upd h.blocks b (some { blk with slots := blk.slots.set i o' })
            ctors := h.ctors + c, dtors := h.dtors + d })

/-- `std::construct_at(ptr + i, x)`. -/
def construct (p : Option Nat) (i : Nat) (x : α) : M α Unit := access p i 1 0 fun _ => some ((), some x)

/-- `std::destroy_at(ptr + i)`. -/
def destroy (p : Option Nat) (i : Nat) : M α Unit := access p i 0 1 fun o => o.map fun _ => ((), none)

/-- `ptr[i]` read. -/
def load (p : Option Nat) (i : Nat) : M α α := access p i 0 0 fun o => o.map fun x => (x, some x)

/-- `ptr[i] = x`. -/
def store (p : Option Nat) (i : Nat) (x : α) : M α Unit := access p i 0 0 fun o => o.map fun _ => ((), some x)

/-- `std::move(ptr[i])` used as source of a construction or assignment. -/
def take (ty : ElemTy α) (p : Option Nat) (i : Nat) : M α α := access p i 0 0 fun o => o.map fun x => (x, some (ty.mv x))

/-- A `const T&` argument: a temporary or variable outside any container, or element `i` of a block. -/
inductive Ref (α : Type) where
  | tmp (x : α)
  | slot (p : Option Nat) (i : Nat)

def deref : Ref α → M α α
  | .tmp x => return x
  | .slot p i => load p i

/-- `for (usize k = i; k < i + n; k++) f(k)`. -/
def forUp (i : Nat) : Nat → (Nat → M α Unit) → M α Unit
  | 0, _ => return ()
  | n + 1, f => do
    f i
    forUp (i + 1) n f

/-- `std::copy(src + 0, src + n, dst)`. -/
def stdCopy (src dst : Option Nat) (n : Nat) : M α Unit :=
  forUp 0 n fun k => do
    let x ← load src k
    store dst k x

/-- `std::move(p + first, p + last, p + dest)`: an invalid range, and a destination inside the source range, are
undefined ([alg.move]). -/
def stdMove (ty : ElemTy α) (p : Option Nat) (first last dest : Nat) : M α Unit :=
  if last < first ∨ (first ≤ dest ∧ dest < last) then Prog.ub
  else forUp 0 (last - first) fun k => do
    let x ← take ty p (first + k)
    store p (dest + k) x

end Verif.Model.Mem
