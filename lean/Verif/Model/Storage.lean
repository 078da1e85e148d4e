import Verif.Model.Layout
/-!
# Where elements lie in the memory the containers ask for

layout.h:27-31, linked_list.h:303-332, 1740-1799, vector.h.  Types are pairs of `sizeof` and `alignof`; a struct is laid
out as the C++ ABI of the platform (Itanium, 64 bit) does: members in order, each at the next multiple of its alignment.
-/
namespace Verif.Model.Storage
open Verif Verif.Model.Layout

/-- `sizeof` and `alignof` of a type. -/
structure CType where
  size : Nat
  align : Nat
  deriving Repr, DecidableEq

/-- The next multiple of `a`. -/
def roundUp (n a : Nat) : Nat := (n + a - 1) / a * a

/-- Offsets of members laid out from offset `o` on. -/
def offsets (o : Nat) : List CType → List Nat
  | [] => []
  | t :: ts => roundUp o t.align :: offsets (roundUp o t.align + t.size) ts

/-- The offset after the last member. -/
def extent (o : Nat) : List CType → Nat
  | [] => o
  | t :: ts => extent (roundUp o t.align + t.size) ts

def maxAlign : List CType → Nat
  | [] => 1
  | t :: ts => max t.align (maxAlign ts)

/-- The type of a struct with these members. -/
def structOf (ts : List CType) : CType := ⟨roundUp (extent 0 ts) (maxAlign ts), maxAlign ts⟩

/-- `Node*`, `T*`. -/
def ptr : CType := ⟨8, 8⟩

/-- Members of the nodes: linked_list.h:343-344 `ForwardListNode` (`next`, `data`), 377-379 `ListNode` (`prev`, `next`,
`data`). -/
def nodeMembers (double : Bool) : List CType := if double then [ptr, ptr, ptr] else [ptr, ptr]

/-- Members of `NodeAllocHelper`: linked_list.h:305-307, 315-318. -/
def helperMembers (double : Bool) (T : CType) : List CType := if double then [ptr, ptr, ptr, T] else [ptr, ptr, T]

/-- layout.h:27-31 `Layout::from_type<T>()`. -/
def fromType (T : CType) : Layout := ⟨T.size, T.align⟩

/-- linked_list.h:324-327, 1748-1750 `get_layout<T, Node>()`, `get_data_node_layout()`. -/
def dataNodeLayout (double : Bool) (T : CType) : Layout := fromType (structOf (helperMembers double T))

/-- linked_list.h:329-332, 1752-1754 `get_offset<T, Node>()`: the offset of `_d`. -/
def dataOffset (double : Bool) (T : CType) : Nat := (offsets 0 (helperMembers double T)).getLastD 0

/-- linked_list.h:1757-1760 `alloc_node()` (sentinels): the request made. -/
def nodeRequest (defaultNew : Nat) (double : Bool) : HeapCall :=
  allocateCall defaultNew (fromType (structOf (nodeMembers double))) 1

/-- linked_list.h:1763-1775 `alloc_node_with_data()`: the request made. -/
def dataNodeRequest (defaultNew : Nat) (double : Bool) (T : CType) : HeapCall :=
  allocateCall defaultNew (dataNodeLayout double T) 1

/-- linked_list.h:1771: the address of the element of the node at `node`. -/
def dataAddr (double : Bool) (T : CType) (node : Nat) : Nat := node + dataOffset double T

/-- linked_list.h:1792-1799 `dealloc_node_with_data`, the release made. -/
def dataNodeRelease (defaultNew : Nat) (double : Bool) (T : CType) : HeapCall :=
  deallocateCall defaultNew (dataNodeLayout double T) 1

/-- linked_list.h:1788-1790 `dealloc_node`. -/
def nodeRelease (defaultNew : Nat) (double : Bool) : HeapCall :=
  deallocateCall defaultNew (fromType (structOf (nodeMembers double))) 1

/-- vector.h:802, 806: the request for `n` elements. -/
def vectorRequest (defaultNew : Nat) (T : CType) (n : Nat) : HeapCall := allocateCall defaultNew (fromType T) n

/-- `beginPtr + k`. -/
def elemAddr (T : CType) (base k : Nat) : Nat := base + k * T.size

end Verif.Model.Storage
