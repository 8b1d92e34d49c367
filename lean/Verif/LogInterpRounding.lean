import Verif.InterpRounding

/-!
# Interpolation of the logarithm with rounded numbers

`fl` rounds the result of every operation, `lg` and `ex` are the logarithm and the exponential function of the machine.
-/

namespace Ompy

/-- `log_interp1d(xx, yy)(x)` with rounding, ompy/library.py:294-299: without `fill_value` an energy outside the points is a `ValueError`, and
inside `interp1d` hands the logarithms over to `np.interp`. A value that is not positive has no finite logarithm; the result is the error
`undefined` if a value of the curve is of that kind (the code may still give a number away from it). -/
def logInterpF (fl lg ex : ℚ → ℚ) (xs ys : List ℚ) (x : ℚ) : Except Err ℚ :=
  if xs.length < 2 ∨ ∃ y ∈ ys, y ≤ 0 then .error .undefined
  else if x < xs.getD 0 0 ∨ xs.getD (xs.length - 1) 0 < x then .error .valueError
  else .ok (ex (interpZeroF fl xs (fun k : ℕ => lg (ys.getD k 0)) x))

end Ompy
