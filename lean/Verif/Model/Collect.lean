import Verif.Model.Iter
import Verif.Model.VectorHist
import Verif.Model.LinkedListHist
/-!
# Model of `container.iter() | map(f) | filter(p) | … | collect<Container>()` on containers in memory

`Model/Iter.lean` has pipelines over any source, `Model/Vector.lean` and `Model/LinkedList.lean` have containers in memory;
here the iterator of a container is the source of a pipeline and `from_iter` of a container is its end, so iterating,
calling the client's functions and growing the new container alternate as in the code.

The program has vectors and lists of `α`s, vectors and lists of `β`s, and whatever else the client's functions affect (`κ`).
The functions do not touch the containers: they receive elements as values (the code passes `T&` from the iterator of a
container to the first function, which could write to the element through it).
-/
namespace Verif.Model.Collect
open Verif
open Verif.Model.Iter (Next Pipe fold)

variable {κ M S α β γ σ ρ : Type}

/-- The containers of the program. -/
structure Memory (α β : Type) where
  vecs : Vector.World α := {}
  lists : LL.World α := {}
  vecs' : Vector.World β := {}
  lists' : LL.World β := {}

/-- The program: the client's own state and the containers. -/
structure World (κ M : Type) where
  client : κ
  mem : M

/-- Element types and configurations of the four families of containers. -/
structure Kinds (α β : Type) where
  ty : Mem.ElemTy α
  cfg : LL.Cfg α
  ty' : Mem.ElemTy β
  cfg' : LL.Cfg β

/-- A call that only affects the client's own state. -/
def onClient (p : Prog κ γ) : Prog (World κ M) γ := fun w => p w.client >>= fun q => .ok (q.1, { w with client := q.2 })

/-- A call that only affects the containers. -/
def onMem (p : Prog M γ) : Prog (World κ M) γ := fun w => p w.mem >>= fun q => .ok (q.1, { w with mem := q.2 })

/-- One of the four families. -/
structure Part (M S : Type) where
  get : M → S
  put : M → S → M

/-- A call that only affects one family. -/
def Part.on (F : Part M S) (p : Prog S γ) : Prog M γ := fun m => p (F.get m) >>= fun q => .ok (q.1, F.put m q.2)

def vecs : Part (Memory α β) (Vector.World α) := ⟨Memory.vecs, fun m s => { m with vecs := s }⟩
def lists : Part (Memory α β) (LL.World α) := ⟨Memory.lists, fun m s => { m with lists := s }⟩
def vecs' : Part (Memory α β) (Vector.World β) := ⟨Memory.vecs', fun m s => { m with vecs' := s }⟩
def lists' : Part (Memory α β) (LL.World β) := ⟨Memory.lists', fun m s => { m with lists' := s }⟩

/-- The client's pipeline as part of the whole program (include/mstl/iter/adapters/map.h:29-38, filter.h:30-33). -/
def lift : {α β : Type} → Pipe κ α β → Pipe (World κ M) α β
  | _, _, .source => .source
  | _, _, .map pipe f => .map (lift pipe) fun b => onClient (f b)
  | _, _, .filter pipe p => .filter (lift pipe) fun b => onClient (p b)

/-! ## Sources -/

/-- The container whose `iter()` starts the pipeline. -/
inductive Src where
  | vec (j : Nat)
  | list (j : Nat)

/-- vector.h:414-427 `iter()`, 911-917 `next()`; `t` is what the client does with the iterator. -/
def fromVec (j : Nat) (t : Next (World κ (Memory α β)) Vector.Iter α → Vector.Iter → Prog (World κ (Memory α β)) ρ) :
    Prog (World κ (Memory α β)) ρ := do
  let v ← onMem (vecs.on (Vector.var j))
  t (fun it => onMem (vecs.on (Vector.inHeap it.next))) (Vector.iter v)

/-- linked_list.h:776-778 `iter()`, 108-116 `next()`. -/
def fromList (j : Nat) (t : Next (World κ (Memory α β)) LL.Iter α → LL.Iter → Prog (World κ (Memory α β)) ρ) :
    Prog (World κ (Memory α β)) ρ := do
  let l ← onMem (lists.on (LL.var j))
  let it ← onMem (lists.on (LL.inHeap (LL.iter l)))
  t (fun it => onMem (lists.on (LL.inHeap it.next))) it

/-! ## `from_iter` -/

/-- vector.h:460-469 `from_iter`: `push_back` and `next()` alternate.  The loop is that of `fold` (fold.h:13-27). -/
def toVec (F : Part M (Vector.World γ)) (ty : Mem.ElemTy γ) (i : Nat) (next : Next (World κ M) σ γ) (s : σ) :
    Prog (World κ M) Unit := do
  let v ← onMem (F.on (Vector.inHeap (Vector.newDefault ty)))
  let v ← fold next (fun v x => onMem (F.on (Vector.inHeap (Vector.pushBack ty v (.tmp x))))) v s
  onMem (F.on (Vector.setVar i (some v)))

/-- linked_list.h:758-765, one round of the loop: a node is made and linked behind the last one, the length grows. -/
def pushNode (cfg : LL.Cfg γ) (own : Nat) (q : LL.Ptr × Nat) (x : γ) : LL.M γ (LL.Ptr × Nat) := do
  let tmp ← LL.constructNode cfg own x
  LL.setNext cfg q.1 tmp
  return (tmp, q.2 + 1)

/-- linked_list.h:754-768 `from_iter`. -/
def toList (F : Part M (LL.World γ)) (cfg : LL.Cfg γ) (i : Nat) (next : Next (World κ M) σ γ) (s : σ) :
    Prog (World κ M) Unit := do
  let l ← onMem (F.on (LL.inHeap (LL.newAlloc cfg LL.dfltAlloc)))
  let q ← fold next (fun q x => onMem (F.on (LL.inHeap (pushNode cfg l.alloc q x)))) (l.head, l.len) s
  onMem (F.on (LL.inHeap (LL.setNext cfg q.1 l.tail)))
  onMem (F.on (LL.setVar i (some { l with len := q.2 })))

/-- The container that `collect<Container>()` makes, and the variable it initialises. -/
inductive Dst (α β : Type) : Type → Type where
  | vec (i : Nat) : Dst α β α
  | list (i : Nat) : Dst α β α
  | vec' (i : Nat) : Dst α β β
  | list' (i : Nat) : Dst α β β

/-- collect.h:12-17 `collect`. -/
def Dst.collect (K : Kinds α β) (next : Next (World κ (Memory α β)) σ γ) (s : σ) :
    Dst α β γ → Prog (World κ (Memory α β)) Unit
  | .vec i => toVec vecs K.ty i next s
  | .list i => toList lists K.cfg i next s
  | .vec' i => toVec vecs' K.ty' i next s
  | .list' i => toList lists' K.cfg' i next s

/-- `Container d = c.iter() | pipe | collect<Container>();` (utility.h:131-136, collect.h:19-30). -/
def run (K : Kinds α β) (src : Src) (pipe : Pipe κ α γ) (d : Dst α β γ) : Prog (World κ (Memory α β)) Unit :=
  match src with
  | .vec j => fromVec j fun next it => d.collect K ((lift pipe).next next) it
  | .list j => fromList j fun next it => d.collect K ((lift pipe).next next) it

end Verif.Model.Collect
