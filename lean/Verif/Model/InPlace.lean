import Verif.Model.Collect
/-!
# Model of iterators that hand out references: functions of a pipeline that change the elements of the container

`Vector::iter()` and `List::iter()` iterate over `T&` (vector.h:898, linked_list.h:102), so a function that takes its argument
by reference changes the element in the container.  In `c.iter() | filter(p) | … | filter(q) | map(f) | …` the predicates
`p, …, q` and the function `f` of the first `map` receive references; from then on the items are values.

The state has the containers of one kind (`S`) and everything else the client's functions affect (`κ`): other containers,
files, counters.  A function that receives a reference is `α → Prog κ (γ × α)`: from the value of the element it computes its
result and the value it leaves in the element.  It does not reach the container in another way.
-/
namespace Verif.Model.InPlace
open Verif
open Verif.Model.Iter (Next Pipe fold forEach find)
open Verif.Model.Collect (World onClient onMem)

variable {κ S Loc α β γ ρ σ : Type}

/-- What a reference gives access to. -/
structure Access (S Loc α : Type) where
  load : Loc → Prog S α
  store : Loc → α → Prog S Unit

/-- `T&` into the block of a vector: block and index. -/
def slots : Access (Vector.World α) (Option Nat × Nat) α :=
  ⟨fun l => Vector.inHeap (Mem.load l.1 l.2), fun l x => Vector.inHeap (Mem.store l.1 l.2 x)⟩

/-- `T&` to the element of a list node. -/
def nodes : Access (LL.World α) LL.Ptr α := ⟨fun l => LL.inHeap (LL.load l), fun l x => LL.inHeap (LL.store l x)⟩

/-- vector.h:911-917 `VectorIter::next`: the reference `*cur++`. -/
def nextSlot (it : Vector.Iter) : Prog (Vector.World α) (Option (Option Nat × Nat) × Vector.Iter) :=
  if it.cur ≠ it.stop then return (some (it.ptr, it.cur), { it with cur := it.cur + 1 })
  else return (none, it)

/-- linked_list.h:108-116 `ListIter::next`: the reference `*start->data`. -/
def nextNode (it : LL.Iter) : Prog (LL.World α) (Option LL.Ptr × LL.Iter) :=
  if it.start ≠ it.stop then do
    let nx ← LL.inHeap (LL.getNext it.start)
    return (some it.start, { it with start := nx })
  else return (none, it)

/-- A function called with a reference. -/
def onElem (A : Access S Loc α) (f : α → Prog κ (γ × α)) (l : Loc) : Prog (World κ S) γ := do
  let x ← onMem (A.load l)
  let r ← onClient (f x)
  onMem (A.store l r.2)
  return r.1

/-- Stages whose items are references: `iter()` and filters (filter.h:30-33). -/
inductive Refs (κ α : Type) where
  | source
  | filter (r : Refs κ α) (p : α → Prog κ (Bool × α))

def Refs.pipe (A : Access S Loc α) : Refs κ α → Pipe (World κ S) Loc Loc
  | .source => .source
  | .filter r p => .filter (r.pipe A) fun l => do
    let b ← onElem A p l
    return (b, l)

/-- Stages from the first `map` on (map.h:29-38): its function receives references, later ones receive values. -/
inductive Stages (κ α : Type) : Type → Type 1 where
  | first {γ : Type} (r : Refs κ α) (f : α → Prog κ (γ × α)) : Stages κ α γ
  | map {γ δ : Type} (s : Stages κ α γ) (f : γ → Prog κ δ) : Stages κ α δ
  | filter {γ : Type} (s : Stages κ α γ) (p : γ → Prog κ (Bool × γ)) : Stages κ α γ

def Stages.pipe (A : Access S Loc α) : {γ : Type} → Stages κ α γ → Pipe (World κ S) Loc γ
  | _, .first r f => .map (r.pipe A) (onElem A f)
  | _, .map s f => .map (s.pipe A) fun c => onClient (f c)
  | _, .filter s p => .filter (s.pipe A) fun c => onClient (p c)

/-! ## Terminals -/

/-- What the client does with the iterator of a container. -/
inductive Use (κ α : Type) : Type → Type 1 where
  /-- for_each.h:12-21: `it | for_each(f)` where `f` receives references -/
  | forEachRef (r : Refs κ α) (f : α → Prog κ (Unit × α)) : Use κ α Unit
  /-- fold.h:13-27: `it | fold(init, f)` where `f` receives references -/
  | foldRef {ρ : Type} (r : Refs κ α) (f : ρ → α → Prog κ (ρ × α)) (init : ρ) : Use κ α ρ
  /-- for_each.h:12-21: `it | for_each(f)` where `f` receives values -/
  | forEach {γ : Type} (s : Stages κ α γ) (f : γ → Prog κ Unit) : Use κ α Unit
  /-- fold.h:13-27, and the loops of `from_iter` (vector.h:460-469, linked_list.h:754-768): `it | fold(init, f)` where `f`
  receives values -/
  | fold {γ ρ : Type} (s : Stages κ α γ) (f : ρ → γ → Prog κ ρ) (init : ρ) : Use κ α ρ
  /-- find.h:12-27: `auto o = find(it, p); if (o.is_some()) f(o.unwrap());` -/
  | findRef (r : Refs κ α) (p : α → Prog κ (Bool × α)) (f : α → Prog κ (Unit × α)) : Use κ α Bool

def Use.run (A : Access S Loc α) (next : Next (World κ S) σ Loc) (s : σ) : {ρ : Type} → Use κ α ρ → Prog (World κ S) ρ
  | _, .forEachRef r f => Iter.forEach ((r.pipe A).next next) (onElem A f) s
  | _, .foldRef r f init => Iter.fold ((r.pipe A).next next) (fun acc l => onElem A (f acc) l) init s
  | _, .forEach st f => Iter.forEach ((st.pipe A).next next) (fun c => onClient (f c)) s
  | _, .fold st f init => Iter.fold ((st.pipe A).next next) (fun acc c => onClient (f acc c)) init s
  | _, .findRef r p f => do
    let q ← Iter.find ((r.pipe A).next next) (fun l => do
      let b ← onElem A p l
      return (b, l)) s
    match q.1 with
    | none => return false
    | some l => do
      onElem A f l
      return true

/-- `vec.iter()` (vector.h:414-427) used. -/
def useVec (j : Nat) (u : Use κ α ρ) : Prog (World κ (Vector.World α)) ρ := do
  let v ← onMem (Vector.var j)
  u.run slots (fun it => onMem (nextSlot it)) (Vector.iter v)

/-- `list.iter()` (linked_list.h:776-778) used. -/
def useList (j : Nat) (u : Use κ α ρ) : Prog (World κ (LL.World α)) ρ := do
  let l ← onMem (LL.var j)
  let it ← onMem (LL.inHeap (LL.iter l))
  u.run nodes (fun it => onMem (nextNode it)) it

end Verif.Model.InPlace
