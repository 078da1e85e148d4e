import Verif.Model.VectorOwn
import Verif.Model.LinkedListHist
import Verif.Model.BString
/-!
# The allocator objects inside vectors, lists and strings

Every container object has an allocator of its own as a member (vector.h:787 `A alloc`, linked_list.h:440 `A alloc`) or as the base
class of a member (basic_string.h:429, 462 `Allocate alloc`).  The allocator type is the client's (any class that meets
memory/allocators/allocator_concept.h:15-39) and may own something, so the lifetime of these objects matters: an allocator must be
constructed before it is called, compared or assigned, and be destroyed once.

For each call this file lists what happens to the allocator objects, in order.  The elements, the nodes and the bytes are modelled
in the other files and left out here.  Where the code calls an allocator only on some paths, the list has the `use` on all of them.
Allocators a client passes as arguments, and the defaults of such arguments, are the client's objects.
-/
namespace Verif.Model.AllocLife
open Verif

/-- Where an allocator object sits: in the container in variable `i`, or in an object that lives during one call only. -/
inductive Place where
  | var (i : Nat)
  | tmp
  deriving DecidableEq

inductive Ev where
  /-- a constructor of the allocator runs at this place -/
  | make (p : Place)
  /-- the allocator at this place is called, compared, copied from or assigned -/
  | use (p : Place)
  /-- the object at this place is accessed, but not its allocator -/
  | touch (p : Place)
  /-- the destructor of the allocator runs at this place -/
  | kill (p : Place)
  /-- the object at this place ends -/
  | leave (p : Place)

/-- `obj p`: no object there, or one whose allocator is alive (`true`) or destroyed (`false`); how often a constructor and
a destructor of an allocator have run. -/
structure World where
  obj : Place → Option Bool := fun _ => none
  made : Nat := 0
  gone : Nat := 0

def put (f : Place → Option Bool) (p : Place) (o : Option Bool) : Place → Option Bool := fun q => if q = p then o else f q

/-- What C++ makes of one event.  Using or destroying an allocator that has been destroyed is undefined; with `lenient = true`
the member runs all the same, as compiled code will, so that the runs of the destructor can be counted. -/
def act (lenient : Bool) : Ev → Prog World Unit
  | .make p => fun w => .ok ((), { w with obj := put w.obj p (some true), made := w.made + 1 })
  | .use p => fun w =>
    match w.obj p with
    | none => .ub
    | some alive => if alive || lenient then .ok ((), w) else .ub
  | .touch p => fun w =>
    match w.obj p with
    | none => .ub
    | some _ => .ok ((), w)
  | .kill p => fun w =>
    match w.obj p with
    | none => .ub
    | some alive =>
      if alive || lenient then .ok ((), { w with obj := put w.obj p (some false), gone := w.gone + 1 }) else .ub
  | .leave p => fun w =>
    match w.obj p with
    | none => .ub
    | some _ => .ok ((), { w with obj := put w.obj p none })

def acts (lenient : Bool) : List Ev → Prog World Unit
  | [] => return ()
  | e :: es => do
    act lenient e
    acts lenient es

/-! ## Vectors and the iterators that own one -/

/-- An argument `const T&` that is an element of vector `j`. -/
def vecArg {α : Type} : Vector.Arg α → List Ev
  | .val _ => []
  | .elem j _ => [.touch (.var j)]

/-- `std::swap(alloc, o.alloc)` (vector.h:778, linked_list.h:1423): a temporary is move-constructed from the first, the first assigned
from the second, the second from the temporary; the temporary is destroyed. -/
def swapAllocs (i j : Nat) : List Ev :=
  [.use (.var i), .make .tmp, .use (.var j), .use (.var i), .use .tmp, .use (.var j), .kill .tmp, .leave .tmp]

/-- `alloc = std::move(r.alloc)` at the end of `move_impl` (vector.h:826-836). -/
def vecMove (p : Place) (j : Nat) : List Ev := [.use p, .use (.var j)]

/-- An iterator object of one expression (vector.h:998, 1035: its vector is move-constructed, L95-97), used and destroyed with its
vector (L113-115). -/
def vecDrain (i : Nat) : List Ev := [.make .tmp] ++ vecMove .tmp i ++ [.use .tmp, .kill .tmp, .leave .tmp]

/-- vector.h.  All constructors construct `alloc` in the list of initializers (L69-106) and go on to call it; `from_iter` (L461-469)
returns its local variable, which is the object of the caller (if the compiler elides the move; if not, one more object is
moved from and destroyed).  The destructor of the member `alloc` runs after the body of `~Vector` (L113-115). -/
def vcall {α : Type} : Vector.Op α → List Ev
  -- L73-76
  | .newDefault i => [.make (.var i), .use (.var i)]
  -- L77-79
  | .newAlloc i _ => [.make (.var i), .use (.var i)]
  -- L83-85
  | .newFill i _ r _ => vecArg r ++ [.make (.var i), .use (.var i)]
  -- L81
  | .newCount i _ _ => [.make (.var i), .use (.var i)]
  -- L69-71
  | .newList i _ _ => [.make (.var i), .use (.var i)]
  -- L103-111
  | .newRange i _ _ => [.make (.var i), .use (.var i)]
  -- L87-89
  | .newCopy i j => [.make (.var i), .use (.var i), .touch (.var j)]
  -- L91-93
  | .newCopyAlloc i j _ => [.make (.var i), .use (.var i), .touch (.var j)]
  -- L95-101
  | .newMove i j _ => [.make (.var i)] ++ vecMove (.var i) j
  | .fromIter i _ => [.make (.var i), .use (.var i)]
  -- L117-144: `alloc == other.alloc`, then the own allocator is called; it is not assigned
  | .copyAssign i j => if i = j then [.touch (.var i)] else [.use (.var i), .use (.var j), .use (.var i)]
  -- L146-154
  | .moveAssign i j => if i = j then [.touch (.var i)] else [.use (.var i)] ++ vecMove (.var i) j
  | .listAssign i _ => [.use (.var i)]
  -- L772-779
  | .swap i j => swapAllocs i j
  -- L113-115
  | .drop i => [.use (.var i), .kill (.var i), .leave (.var i)]
  | .clear i => [.use (.var i)]
  | .reserve i _ => [.use (.var i)]
  | .push i r => vecArg r ++ [.use (.var i)]
  | .pop i => [.touch (.var i)]
  | .assignFill i _ r => vecArg r ++ [.use (.var i)]
  | .assignList i _ => [.use (.var i)]
  | .set i _ _ => [.touch (.var i)]
  | .get i _ => [.touch (.var i)]
  | .at i _ => [.touch (.var i)]
  | .front i => [.touch (.var i)]
  | .back i => [.touch (.var i)]
  | .size i => [.touch (.var i)]
  | .capacity i => [.touch (.var i)]
  | .empty i => [.touch (.var i)]
  | .insert i _ r => vecArg r ++ [.use (.var i)]
  | .emplace i _ _ => [.use (.var i)]
  | .insertFill i _ _ r => vecArg r ++ [.use (.var i)]
  | .insertRange i _ _ => [.use (.var i)]
  | .erase i _ => [.touch (.var i)]
  | .eraseRange i _ _ => [.touch (.var i)]
  | .resize i _ => [.use (.var i)]
  | .resizeFill i _ r => vecArg r ++ [.use (.var i)]
  | .collect i => [.touch (.var i)]
  | .drain i _ => vecDrain i
  | .drainRev i _ => vecDrain i
  | .equal i j _ => [.touch (.var i), .touch (.var j)]
  | .compare i j _ => [.touch (.var i), .touch (.var j)]
  | .print i _ => [.touch (.var i)]

/-- vector.h:993-1056: the iterators that own a vector. -/
def ocall {α : Type} : VectorOwn.OOp α → List Ev
  | .vec op => vcall op
  -- L998, 1035
  | .make i j => [.make (.var i)] ++ vecMove (.var i) j
  | .makeRev i j => [.make (.var i)] ++ vecMove (.var i) j
  -- L1009-1020 (`vec.clear()` at the end), 1043-1053
  | .next i => [.use (.var i)]
  -- L1000-1005: `vec` is default-constructed, then assigned (L146-154)
  | .move i j => [.make (.var i), .use (.var i), .use (.var i)] ++ vecMove (.var i) j
  | .drop i => [.use (.var i), .kill (.var i), .leave (.var i)]

/-! ## Lists -/

def listArg {α : Type} : LL.Arg α → List Ev
  | .val _ => []
  | .elem j _ => [.touch (.var j)]

/-- linked_list.h:601-610, 612-625 between two different objects: `this->~BaseList()` is called explicitly.  A destructor also
destroys the members, so `alloc` is destroyed there; then it is assigned (L607, 617) and, when copying, called (L608). -/
def listAssignFrom (i j : Nat) : List Ev :=
  [.use (.var i), .kill (.var i), .use (.var j), .use (.var i)]

/-- linked_list.h. -/
def lcall {α : Type} : LL.Op α → List Ev
  -- L451-459
  | .newAlloc i _ => [.make (.var i), .use (.var i)]
  -- L461-480
  | .newFill i _ r _ => listArg r ++ [.make (.var i), .use (.var i)]
  -- L482-501
  | .newCount i _ _ => [.make (.var i), .use (.var i)]
  -- L503-523, 589
  | .newRange i _ _ => [.make (.var i), .use (.var i)]
  -- L525-531
  | .newMove i j => [.use (.var j), .make (.var i)]
  -- L533-577: `alloc` is default-constructed, then assigned and compared
  | .newMoveAlloc i j _ => [.make (.var i), .use (.var i), .use (.var j), .use (.var i), .use (.var j)]
  -- L579-582
  | .newCopy i j => [.use (.var j), .make (.var i), .use (.var i)]
  -- L584-587
  | .newCopyAlloc i j _ => [.make (.var i), .touch (.var j), .use (.var i)]
  -- L754-767
  | .fromIter i _ => [.make (.var i), .use (.var i)]
  | .copyAssign i j => if i = j then [.touch (.var i)] else listAssignFrom i j ++ [.use (.var i)]
  | .moveAssign i j => if i = j then [.touch (.var i)] else listAssignFrom i j
  -- L627-641
  | .listAssign i _ => [.use (.var i)]
  -- L1422-1427
  | .swap i j => swapAllocs i j
  -- L591-599; the members are destroyed after the body, also when it returns early
  | .drop i => [.use (.var i), .kill (.var i), .leave (.var i)]
  | .moved i => [.touch (.var i)]
  | .clear i => [.use (.var i)]
  | .front i => [.touch (.var i)]
  | .frontUnchecked i => [.touch (.var i)]
  | .frontUncheckedConst i => [.touch (.var i)]
  | .back i => [.touch (.var i)]
  | .backUnchecked i => [.touch (.var i)]
  | .size i => [.touch (.var i)]
  | .empty i => [.touch (.var i)]
  | .set i _ _ => [.touch (.var i)]
  | .get i _ => [.touch (.var i)]
  | .insertAfter i _ r => listArg r ++ [.use (.var i)]
  | .insertAfterFill i _ _ r => listArg r ++ [.use (.var i)]
  | .insertAfterRange i _ _ => [.use (.var i)]
  | .eraseAfter i _ => [.use (.var i)]
  | .eraseAfterRange i _ _ => [.use (.var i)]
  | .insert i _ r => listArg r ++ [.use (.var i)]
  | .insertFill i _ _ r => listArg r ++ [.use (.var i)]
  | .insertRange i _ _ => [.use (.var i)]
  | .erase i _ => [.use (.var i)]
  | .eraseRange i _ _ => [.use (.var i)]
  | .pushFront i r => listArg r ++ [.use (.var i)]
  | .popFront i => [.use (.var i)]
  | .pushBack i r => listArg r ++ [.use (.var i)]
  | .popBack i => [.use (.var i)]
  | .resize i _ => [.use (.var i)]
  | .resizeFill i _ r => listArg r ++ [.use (.var i)]
  -- L1465-1489, 1509-1533, 1535-1587: nodes change lists; sentinels are released through the lists' allocators
  | .merge i j _ => [.use (.var i), .use (.var j)]
  | .mergeMove i j _ => [.use (.var i), .use (.var j)]
  | .spliceAfter i _ j => [.use (.var i), .use (.var j)]
  | .splice i _ j => [.use (.var i), .use (.var j)]
  | .spliceAfterMove i _ j => [.use (.var i), .use (.var j)]
  | .spliceMove i _ j => [.use (.var i), .use (.var j)]
  | .remove i _ r => listArg r ++ [.use (.var i)]
  | .removeIf i _ => [.use (.var i)]
  | .reverse i => [.touch (.var i)]
  | .unique i _ => [.use (.var i)]
  | .sort i _ => [.touch (.var i)]
  | .traverse i => [.touch (.var i)]
  | .traverseBack i => [.touch (.var i)]
  | .traverseRev i => [.touch (.var i)]
  | .iter i _ => [.touch (.var i)]
  -- L742-744, 1987: the list of the iterator is move-constructed (L525-531), popped and destroyed
  | .drain i _ => [.use (.var i), .make .tmp, .use .tmp, .kill .tmp, .leave .tmp]
  | .print i _ => [.touch (.var i)]

/-! ## Strings -/

/-- `this->alloc = other.alloc` (basic_string.h:439-450), which assigns the base class. -/
def strAssignFrom (i j : Nat) : List Ev := [.use (.var j), .use (.var i)]

/-- basic_string.h. -/
def scall : BStr.Op → List Ev
  -- L55-56
  | .newAlloc i _ => [.make (.var i)]
  -- L63-76
  | .newLit i _ _ => [.make (.var i), .use (.var i)]
  -- L78-90
  | .newCopy i j => [.make (.var i), .touch (.var j), .use (.var i)]
  -- L145-154
  | .newMove i j => [.make (.var i)] ++ strAssignFrom i j
  -- L91-142
  | .copyAssign i j => if i = j then [.touch (.var i)] else [.use (.var i)] ++ strAssignFrom i j ++ [.use (.var i)]
  -- L156-213
  | .moveAssign i j => if i = j then [.touch (.var i)] else [.use (.var i)] ++ strAssignFrom i j
  -- L57-61, then the member: L430 `~Allocate() { this->~Allocator(); }` runs the destructor of the base class, which then
  -- runs again because the body of a destructor is followed by the destructors of the bases
  | .drop i => [.use (.var i), .kill (.var i), .kill (.var i), .leave (.var i)]
  -- L215-236
  | .pushBack i _ => [.use (.var i)]
  -- L249-285
  | .insert i _ _ => [.use (.var i)]
  | .popBack i => [.touch (.var i)]
  | .size i => [.touch (.var i)]
  | .isCharBoundary i _ => [.touch (.var i)]
  | .chars i => [.touch (.var i)]
  | .print i => [.touch (.var i)]

/-- A program: calls one after the other. -/
def run {Op : Type} (lenient : Bool) (call : Op → List Ev) : List Op → Prog World Unit
  | [] => return ()
  | op :: ops => do
    acts lenient (call op)
    run lenient call ops

end Verif.Model.AllocLife
