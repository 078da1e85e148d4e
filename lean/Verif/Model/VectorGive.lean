import Verif.Model.VectorHist
/-!
# Moving elements out of vectors

A client may write `std::move(w[k])` for an element of any of its vectors, as a value of its own or as the argument of a member that takes
`T&&`.  The element moved from stays in its vector with the value `mv x`.
-/
namespace Verif.Model.VectorGive
open Verif Verif.Model.Mem Verif.Model.Vector

variable {α : Type} (ty : ElemTy α)

/-- vector.h:685-691 `push_back(T&& v)`, 697-704 `emplace_back(args...)` for one rvalue argument: `v` is slot `k` of block `p`.  The
argument is only moved from after a possible reallocation. -/
def pushBackMove (v : Vec) (p : Option Nat) (k : Nat) : M α Vec := do
  let v ← (if v.len ≥ v.cap then extendSpace ty v else pure v)
  let x ← take ty p k
  construct v.ptr v.len x
  return { v with len := v.len + 1 }

/-- vector.h:619-623 `insert(pos, T&& val)`: moves the argument into the parameter of `emplace` (543-551), which is taken by value. -/
def insertMove (v : Vec) (pos : Nat) (p : Option Nat) (k : Nat) : M α (Vec × Nat) := do
  let x ← take ty p k
  let v ← emplace ty v pos x
  return (v, pos)

/-- vector.h:543-551 `emplace(pos, std::move(…))`. -/
def emplaceMove (v : Vec) (pos : Nat) (p : Option Nat) (k : Nat) : M α Vec := do
  let x ← take ty p k
  emplace ty v pos x

inductive GOp (α : Type) where
  /-- a call without moved elements -/
  | base (op : Op α)
  /-- `T x = std::move(j[k]);` the result is `x` (vector.h:188-191) -/
  | takeOut (j k : Nat)
  /-- `i[p] = std::move(j[k]);` (vector.h:188-191) -/
  | setMove (i p j k : Nat)
  /-- `i.push_back(std::move(j[k]))` -/
  | pushMove (i j k : Nat)
  /-- `i.insert(i.begin() + p, std::move(j[k]))` -/
  | insertMove (i p j k : Nat)
  /-- `i.emplace(i.begin() + p, std::move(j[k]))` -/
  | emplaceMove (i p j k : Nat)

def gstep : GOp α → Prog (World α) (Res α)
  | .base op => step ty op
  | .takeOut j k => do
    let w ← var j
    let x ← inHeap (take ty w.ptr k)
    return .val x
  | .setMove i p j k => do
    let w ← var j
    let x ← inHeap (take ty w.ptr k)
    let v ← var i
    inHeap (indexSet v p x)
    return .unit
  | .pushMove i j k => do
    let w ← var j
    change i fun v => pushBackMove ty v w.ptr k
  | .insertMove i p j k => do
    let w ← var j
    change' i fun v => do
      let q ← insertMove ty v p w.ptr k
      return (q.1, some q.2)
  | .emplaceMove i p j k => do
    let w ← var j
    change i fun v => emplaceMove ty v p w.ptr k

def grun : List (GOp α) → Prog (World α) (List (Res α))
  | [] => return []
  | op :: ops => do
    let r ← gstep ty op
    let rs ← grun ops
    return r :: rs

end Verif.Model.VectorGive
