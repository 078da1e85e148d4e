/-!
# Model of include/mstl/utility/type_list.h and ArgAt (type_traits.h)

C++ types are elements of an arbitrary type `Ty` with decidable equality (`std::same_as`).  A `TypeListImpl<...>` is
the list of its (wrapped) types.  `none` means: rejected by the compiler.
-/
namespace Verif.Model.TypeList

variable {Ty : Type}

/-- type_list.h:102 `size()`. -/
def size (ts : List Ty) : Nat := ts.length

/-- type_traits.h:14-30 `ArgAt`, type_list.h:107-108, 122-125 `at<pos>()`. -/
def argAt : Nat → List Ty → Option Ty
  | _, [] => none
  | 0, t :: _ => some t
  | pos + 1, _ :: ts => argAt pos ts

/-- type_list.h:113-114, 153-164 `append`. -/
def append (ts ns : List Ty) : List Ty := ts ++ ns

/-- type_list.h:119-120, 166-177 `prepend`. -/
def prepend (ts ns : List Ty) : List Ty := ns ++ ts

/-- type_list.h:127-130 `count<Type>()`: a unary fold with `+`, ill-formed for an empty list. -/
def count [DecidableEq Ty] (t : Ty) : List Ty → Option Nat
  | [] => none
  | [u] => some (if t = u then 1 else 0)
  | u :: us => (count t us).map fun n => (if t = u then 1 else 0) + n

/-- type_list.h:135-143 `operator==`. -/
def equal [DecidableEq Ty] (as bs : List Ty) : Bool :=
  if as.length ≠ bs.length then false
  else (as.zip bs).all fun p => decide (p.1 = p.2)

/-- type_list.h:203-219 `map`. -/
def map (f : Ty → Ty) (ts : List Ty) : List Ty :=
  match ts with
  | [] => []
  | t :: ts => f t :: map f ts

/-- type_list.h:221-234 `struct Filter`, with its accumulator `Out`. -/
def filterAcc (p : Ty → Bool) : List Ty → List Ty → List Ty
  | [], out => out
  | h :: ts, out => if p h then filterAcc p ts (append out [h]) else filterAcc p ts out

/-- type_list.h:241-257 `filter`. -/
def filter (p : Ty → Bool) (ts : List Ty) : List Ty := filterAcc p ts []

end Verif.Model.TypeList
