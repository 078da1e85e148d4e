import Verif.Model.RangeAny
/-!
# Specification: ranges over any index type
-/
namespace Verif.Spec.RangeAny
open Verif
open Verif.Model.RangeAny (Index)

variable {T : Type}

/-- `y` is reached from `x` by `n` increments. -/
inductive After (I : Index T) : Nat → T → T → Prop where
  | here (x : T) : After I 0 x x
  | step {n : Nat} {x y z : T} (h : After I n x y) (hi : I.inc y = .ok z) : After I (n + 1) x z

/-- `ys` is what is visited from `low` to `high`: number `k` is `low` incremented `k` times, none of them is equal to `high`, and one
increment more gives something that is. -/
def Visited (I : Index T) (low high : T) (ys : List T) : Prop :=
  (∀ k y, ys[k]? = some y → After I k low y ∧ I.eq y high = false) ∧ ∃ z, After I ys.length low z ∧ I.eq z high = true

/-- `high` is never met, however often one increments, and one can increment without end. -/
def Missed (I : Index T) (low high : T) : Prop := ∀ k, ∃ y, After I k low y ∧ I.eq y high = false

/-- An increment is undefined before `high` is met. -/
def Breaks (I : Index T) (low high : T) : Prop :=
  ∃ k y, After I k low y ∧ I.inc y = .ub ∧ ∀ j z, j ≤ k → After I j low z → I.eq z high = false

/-- Every increment returns or is undefined. -/
def Plain (I : Index T) : Prop := ∀ x, (∃ y, I.inc x = .ok y) ∨ I.inc x = .ub

/-- The operators are those of a linear order. -/
structure Linear (I : Index T) : Prop where
  eq_iff : ∀ x y, I.eq x y = true ↔ x = y
  irrefl : ∀ x, I.lt x x = false
  trans : ∀ x y z, I.lt x y = true → I.lt y z = true → I.lt x z = true
  total : ∀ x y, I.lt x y = true ∨ x = y ∨ I.lt y x = true
  le_iff : ∀ x y, I.le x y = true ↔ I.lt x y = true ∨ x = y

/-- An increment goes up. -/
def Rises (I : Index T) : Prop := ∀ x y, I.inc x = .ok y → I.lt x y = true

/-- An increment goes up and leaves nothing out. -/
def Successor (I : Index T) : Prop := Rises I ∧ ∀ x y, I.inc x = .ok y → ∀ z, ¬ (I.lt x z = true ∧ I.lt z y = true)

end Verif.Spec.RangeAny
