import Verif.Response
import Verif.Rounding

/-!
# Linear interpolation of the response tables with rounded numbers

`fl` rounds the result of every operation. `interp1d` with `fill_value="extrapolate"` evaluates the line of a segment by itself;
with a number as `fill_value` it hands over to `np.interp`, which returns a tabulated value as it stands. Both are external; the order
of their operations is modelled.
-/

namespace Ompy

/-- One segment of `interp1d(..., kind="linear")`: `slope*(x - x_lo) + y_lo` with rounding (called in ompy/response.py:256-259). -/
def segF (fl : ℚ → ℚ) (x0 y0 x1 y1 x : ℚ) : ℚ :=
  fl (fl (fl (fl (y1 - y0) / fl (x1 - x0)) * fl (x - x0)) + y0)

/-- `interpolate(y)` with `fill_value="extrapolate"` and rounding, ompy/response.py:256-262, 266-272: the segment is the one that ends at
the first tabulated energy not below `x`, cut off to the first and last segment. -/
def interpLinF (fl : ℚ → ℚ) (xs : List ℚ) (ys : ℕ → ℚ) (x : ℚ) : ℚ :=
  let hi := max 1 (min (searchsorted xs x false) (xs.length - 1))
  let lo := hi - 1
  segF fl (xs.getD lo 0) (ys lo) (xs.getD hi 0) (ys hi) x

/-- `interpolate(y, fill_value=0)` with rounding, ompy/response.py:256-259, 263-265: zero outside the table, the tabulated value at a
tabulated energy, and between them the segment that starts at the last tabulated energy below `x`. -/
def interpZeroF (fl : ℚ → ℚ) (xs : List ℚ) (ys : ℕ → ℚ) (x : ℚ) : ℚ :=
  if x < xs.getD 0 0 ∨ xs.getD (xs.length - 1) 0 < x then 0
  else
    let lo := searchsorted xs x true - 1
    if xs.getD lo 0 = x then ys lo
    else segF fl (xs.getD lo 0) (ys lo) (xs.getD (lo + 1) 0) (ys (lo + 1)) x

end Ompy
