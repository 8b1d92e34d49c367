import Verif.StartProps

/-!
# The shape of the start values, tightening of C79 after mutation tests
-/

namespace Ompy

/-- The shape of the back-shifted Fermi gas in `C79_bsfg` is the published one above the back-shift, and below it the
value half an MeV above it: `ln FG = 2 √(a U) - ¼ ln a - 5/4 ln U`.  ompy/extractor.py:491-493. -/
theorem C79_shape (a E0 e : ℝ) (ha : 0 < a) :
    (E0 < e → Real.log (bsfgFG a (bsfgU E0 e))
        = 2 * Real.sqrt (a * (e - E0)) - Real.log a / 4 - 5 / 4 * Real.log (e - E0)) ∧
    (e ≤ E0 → bsfgFG a (bsfgU E0 e) = bsfgFG a (bsfgU E0 (E0 + 1 / 2))) := by
  refine ⟨fun h => ?_, fun h => ?_⟩
  · have hU : 0 < e - E0 := by linarith
    have hb : bsfgU E0 e = e - E0 := by
      unfold bsfgU; rw [if_neg (by linarith)]
    rw [hb]
    unfold bsfgFG
    rw [Real.log_div (Real.exp_ne_zero _) (by positivity), Real.log_exp, Real.log_mul (by positivity) (by positivity),
      Real.log_rpow ha, Real.log_rpow hU]
    ring
  · congr 1
    unfold bsfgU
    rw [if_pos (by linarith), if_neg (by linarith)]
    ring

/-- With `a = 1/MeV` and one MeV above the back-shift the logarithm is 2. -/
example : Real.log (bsfgFG 1 (bsfgU 0 1)) = 2 := by
  rw [(C79_shape 1 0 1 one_pos).1 one_pos]
  norm_num

/-- The columns of the matrix are added: with two rows the first start value of the strength is the sum of the first
column.  ompy/extractor.py:468. -/
theorem C79_columns (values : List (List ℝ)) (ny j : ℕ) (hj : j < ny) :
    (colSums values ny).getD j 0 = (values.map fun r => r.getD j 0).sum := by
  have : j < (colSums values ny).length := by simpa [colSums] using hj
  rw [List.getD_eq_getElem _ _ this]
  simp [colSums]

example : (colSums [[1, 2], [3, 4]] 2).getD 0 0 = 4 := by
  rw [C79_columns _ _ _ (by norm_num)]
  norm_num

end Ompy
