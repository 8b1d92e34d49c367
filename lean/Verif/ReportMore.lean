import Verif.ReportProps

/-!
# C93, tightened: quantiles in the wrong order
-/

namespace Ompy

/-- **C93.** A marginal whose upper quantile is below its lower one is refused with ValueError. -/
theorem C93_negative (rd : ℝ → ℤ) (name : String) (m : Marginal) (h : m.hi < m.lo) : reportOne rd name m = .error .valueError := by
  have hs : m.sigma < 0 := by unfold Marginal.sigma; linarith
  unfold reportOne decimals
  rw [if_neg hs.ne, if_pos hs]
  rfl

example : reportOne round "A" ⟨2, 1, 0⟩ = .error .valueError := C93_negative _ _ _ (by norm_num)

end Ompy
