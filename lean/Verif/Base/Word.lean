/-!
# 64-bit words

`usize` is `std::size_t` on a 64-bit target (include/mstl/global.h:33-43), modelled as a natural number below
`2^64`; arithmetic of the code that can leave this range is written with `wrap`.
-/
namespace Verif

/-- 2^64. -/
abbrev wordSize : Nat := 18446744073709551616

/-- Reduction of an unsigned 64-bit result. -/
def wrap (n : Nat) : Nat := n % wordSize

/-- `a - b` on `usize`. -/
def wsub (a b : Nat) : Nat := (a + wordSize - b) % wordSize

theorem wrap_of_lt {n : Nat} (h : n < wordSize) : wrap n = n := Nat.mod_eq_of_lt h

theorem wsub_of_le {a b : Nat} (h : b ≤ a) (ha : a < wordSize) : wsub a b = a - b := by
  unfold wsub; rw [show a + wordSize - b = (a - b) + wordSize by omega, Nat.add_mod_right]
  exact Nat.mod_eq_of_lt (by omega)

end Verif
