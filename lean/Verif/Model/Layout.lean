import Verif.Base.Word
/-!
# Model of include/mstl/memory/layout.h and include/mstl/memory/allocators/allocator.h

The constant-evaluation branches (`std::is_constant_evaluated()`, allocator.h:33-36, 62-65) are not modelled.
-/
namespace Verif.Model.Layout
open Verif

/-- layout.h:18-20 `struct Layout`. -/
structure Layout where
  size : Nat
  align : Nat
  deriving Repr, DecidableEq

/-- `std::popcount` on an unsigned integer: the number of one bits. -/
def popcount (n : Nat) : Nat := if h : n = 0 then 0 else n % 2 + popcount (n / 2)
termination_by n
decreasing_by omega

/-- layout.h:44-50 `from_size_align`; `none` is the `LayoutError` result. -/
def fromSizeAlign (size align : Nat) : Option Layout :=
  if align = 0 || popcount align ≠ 1 then none
  else some { size, align }

/-- layout.h:55-57 `from_size_align_unchecked`. -/
def fromSizeAlignUnchecked (size align : Nat) : Layout := { size, align }

/-- One call of a global `operator new` / `operator delete`: the number of bytes, and the alignment argument
when the `std::align_val_t` form is used. -/
structure HeapCall where
  bytes : Nat
  alignedForm : Option Nat
  deriving Repr, DecidableEq

/-- allocator.h:24-31 `allocate(layout, length)`: the `operator new` call it makes.
`defaultNew` is `__STDCPP_DEFAULT_NEW_ALIGNMENT__`; the multiplication is on `usize`. -/
def allocateCall (defaultNew : Nat) (l : Layout) (length : Nat) : HeapCall :=
  if l.align > defaultNew then { bytes := wrap (l.size * length), alignedForm := some l.align }
  else { bytes := wrap (l.size * length), alignedForm := none }

/-- allocator.h:50-57 `deallocate(ptr, layout, len)`: the sized `operator delete` call it makes. -/
def deallocateCall (defaultNew : Nat) (l : Layout) (len : Nat) : HeapCall :=
  if l.align > defaultNew then { bytes := wrap (len * l.size), alignedForm := some l.align }
  else { bytes := wrap (len * l.size), alignedForm := none }

end Verif.Model.Layout
