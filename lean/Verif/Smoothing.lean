import Verif.Matrix
import Mathlib.Analysis.SpecialFunctions.Exp
import Mathlib.Analysis.SpecialFunctions.Sqrt
import Mathlib.Analysis.SpecialFunctions.Trigonometric.Basic

/-!
# Model of `ompy/gauss_smoothing.pyx`

Real numbers, because of the exponential function.
-/

namespace Ompy

/-- C `(int) x` for a double: truncation towards zero. -/
noncomputable def truncR (x : ℝ) : ℤ := if 0 ≤ x then ⌊x⌋ else ⌈x⌉

/-- `gaussian` at one energy, ompy/gauss_smoothing.pyx:34-47. -/
noncomputable def gaussianPdf (mu sigma x : ℝ) : ℝ :=
  let s := sigma + 1 / 10 ^ 6
  1 / (s * Real.sqrt (2 * Real.pi)) * Real.exp (-(x - mu) * (x - mu) / (2 * s * s))

/-- `find_truncation_indices`, ompy/gauss_smoothing.pyx:84-95; `n` is the length of the input. -/
noncomputable def truncWindow (a0 a1 : ℝ) (n : ℕ) (truncate mu sigma : ℝ) : ℤ × ℤ :=
  let low := max 0 (truncR ((mu - truncate * sigma - a0) / a1))
  (low, max (min (n : ℤ) (truncR ((mu + truncate * sigma - a0) / a1))) (low + 1))

/-- The distribution before normalisation, ompy/gauss_smoothing.pyx:103-112: zero outside the slice
`[low:high+1]`. -/
noncomputable def rawPdf (E fwhm : List ℝ) (truncate : ℝ) (i k : ℕ) : ℝ :=
  let a0 := E.getD 0 0
  let a1 := E.getD 1 0 - E.getD 0 0
  let sigma := fwhm.getD i 0 / (2355 / 1000)
  let win := truncWindow a0 a1 E.length truncate (E.getD i 0) sigma
  if win.1 ≤ (k : ℤ) ∧ (k : ℤ) < win.2 + 1 then gaussianPdf (E.getD i 0) sigma (E.getD k 0) else 0

/-- Loop over the input bins, ompy/gauss_smoothing.pyx:97-114: output after the first `j` bins. -/
noncomputable def smoothLoop (c E fwhm : List ℝ) (truncate : ℝ) : ℕ → ℕ → ℝ
  | 0, _ => 0
  | j + 1, k =>
    if 0 < c.getD j 0 then
      smoothLoop c E fwhm truncate j k + c.getD j 0 *
        (rawPdf E fwhm truncate j k / ∑ q ∈ Finset.range c.length, rawPdf E fwhm truncate j q)
    else smoothLoop c E fwhm truncate j k

/-- `gauss_smoothing`, ompy/gauss_smoothing.pyx:52-118.  Axes with fewer than two entries raise
`IndexError` at lines 78-79; a zero bin width divides by zero (line 90) as soon as there are counts and is
mapped to `undefined`. -/
noncomputable def gaussSmoothing (c E fwhm : List ℝ) (truncate : ℝ) : Except Err (List ℝ) :=
  if c.length ≠ E.length then .error .valueError
  else if c.length ≠ fwhm.length then .error .valueError
  else if E.length < 2 then .error .indexError
  else if E.getD 1 0 = E.getD 0 0 then .error .undefined
  else .ok ((List.range c.length).map fun k : ℕ => smoothLoop c E fwhm truncate c.length k)

/-- `gauss_smoothing_matrix_1D`, ompy/gauss_smoothing.pyx:121-160, for an array with `nc` columns.
`fwhm` is a number or an array.  Every axis other than `0` (also `2`, "both") smooths the columns. -/
noncomputable def gaussSmoothingMatrix (M : List (List ℝ)) (nc : ℕ) (E : List ℝ) (fwhm : ℝ ⊕ List ℝ)
    (axis : AxisArg) (truncate : ℝ) : Except Err (List (List ℝ)) :=
  let f := match fwhm with
    | .inl x => List.replicate E.length x
    | .inr l => l
  match toPlotAxis axis with
  | .error e => .error e
  | .ok ax =>
    if ax = 0 then M.mapM fun row => gaussSmoothing row E f truncate
    else
      match (List.range nc).mapM fun j : ℕ =>
          gaussSmoothing (M.map fun row => row.getD j 0) E f truncate with
      | .error e => .error e
      | .ok cols => .ok ((List.range M.length).map fun i : ℕ => cols.map fun c => c.getD i 0)

end Ompy
