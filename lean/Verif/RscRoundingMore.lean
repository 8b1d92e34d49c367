import Verif.RscRoundingProps
import Verif.SumRoundingProps

/-!
# More on the axes of the extraction in floating point
-/

namespace Ompy

/-- **C114.** A negative extension that reaches to the end of the axis leaves fewer than two bins, and rebinning raises an
IndexError; an axis with fewer than two bins does so at once. -/
theorem C114_short {fl : ℚ → ℚ} {u : ℚ} (hfl : Rounding fl u) (Ex : List ℚ) (extend a1 a0 : ℚ)
    (hc : rscCalibF fl Ex extend = .ok (a1, a0)) (h1 : 0 < a1) (h : fl (Ex.getD (Ex.length - 1) 0 + a1) ≤ a0) :
    rscAxesF fl Ex extend = .error .indexError := by
  unfold rscAxesF
  rw [hc]
  simp only
  rw [if_pos]
  unfold arangeF
  rw [List.length_map, List.length_range]
  have n1 : fl (fl (Ex.getD (Ex.length - 1) 0 + a1) - a0) ≤ 0 := by
    have := hfl.mono (sub_nonpos.2 h)
    rwa [hfl.zero] at this
  have n2 : fl (fl (fl (Ex.getD (Ex.length - 1) 0 + a1) - a0) / a1) ≤ 0 := by
    have := hfl.mono (div_nonpos_of_nonpos_of_nonneg n1 h1.le)
    rwa [hfl.zero] at this
  have : ⌈fl (fl (fl (Ex.getD (Ex.length - 1) 0 + a1) - a0) / a1)⌉ ≤ 0 := by
    rw [Int.ceil_le]
    simpa using n2
  omega

/-- **C114.** Axes with fewer than two bins are refused, with any extension. -/
theorem C114_one_bin (fl : ℚ → ℚ) (Ex : List ℚ) (extend : ℚ) (h : Ex.length < 2) :
    rscAxesF fl Ex extend = .error .indexError := by
  match Ex, h with
  | [], _ => rfl
  | [_], _ => rfl
  | _ :: _ :: _, h => simp at h

/-- Four bins of 100 keV "extended" by -500 keV, by -400 keV, which leaves one bin, and by -300 keV. -/
example : rscAxesF dbl (grid 0 100 4) (-500) = .error .indexError ∧ rscAxesF dbl (grid 0 100 4) (-400) = .error .indexError ∧
    (rscAxesF dbl (grid 0 100 4) (-300)).map (fun p => p.1.length) = .ok 2 := by
  refine ⟨?_, ?_, ?_⟩ <;> decide +kernel

example : rscCalibF dbl (grid 0 100 4) (-500) = .ok (100, 400) ∧ dbl ((grid 0 100 4).getD 3 0 + 100) ≤ 400 := by
  refine ⟨?_, ?_⟩ <;> decide +kernel

end Ompy
