import Verif.CppArraysProps
import Verif.RoundingProps

/-!
# More on the arrays handed to C++
-/

namespace Ompy

/-- **C129.** Conversion to `double` keeps whole numbers up to `2^53` and changes any number by at most half a unit in the
last place; conversion to `int` keeps whole numbers of 32 bits and gives a number of 32 bits that differs from the whole
part by a multiple of `2^32`. -/
theorem C129_convert (x : ℚ) (z : ℤ) :
    (|z| ≤ 2 ^ 53 → castTo .f64 z = z) ∧ |castTo .f64 x - x| ≤ 1 / 2 ^ 53 * |x| ∧
    (-2 ^ 31 ≤ z → z < 2 ^ 31 → castTo .i32 z = z) ∧
    (∃ n q : ℤ, castTo .i32 x = n ∧ -2 ^ 31 ≤ n ∧ n < 2 ^ 31 ∧ truncZ x = n + 2 ^ 32 * q) := by
  refine ⟨fun h => dbl_int z h, dbl_rounding.rel x, fun h1 h2 => ?_, toInt32 x, (truncZ x + 2 ^ 31) / 2 ^ 32, rfl, ?_, ?_, ?_⟩
  · show ((toInt32 (z : ℚ) : ℤ) : ℚ) = z
    rw [(C129_int z).2 ⟨h1, h2⟩]
  · have := Int.emod_nonneg (truncZ x + 2 ^ 31) (by norm_num : (2 : ℤ) ^ 32 ≠ 0)
    unfold toInt32
    linarith
  · have := Int.emod_lt_of_pos (truncZ x + 2 ^ 31) (by norm_num : (0 : ℤ) < 2 ^ 32)
    unfold toInt32
    norm_num at this ⊢
    omega
  · have := Int.emod_add_mul_ediv (truncZ x + 2 ^ 31) (2 ^ 32)
    unfold toInt32
    linarith

/-- **C129 (disagreement).** Whole numbers beyond `2^53` change when they become doubles, limits beyond `2^31` when they
become integers of 32 bits. -/
theorem C129_convert_fails : castTo .f64 (2 ^ 53 + 1) = 2 ^ 53 ∧ castTo .i32 (2 ^ 31) = -2 ^ 31 := by
  constructor <;> decide +kernel

example : castTo .f64 ((7 : ℤ) : ℚ) = 7 := (C129_convert 0 7).1 (by norm_num)

end Ompy
