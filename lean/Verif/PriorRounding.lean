import Verif.Basic

/-!
# The log-uniform priors of the normalisation fits with rounded numbers

`fl` rounds the result of every operation; `p10` and `lg10` are the power of ten and the logarithm of the computer.
-/

namespace Ompy

/-- The log-uniform prior of one parameter with rounding, ompy/normalizer_nld.py:316-324, 343-348, the same for α and T: `g` is the guess, `e` the
exception for a negative one, `c` the number of the unit cube.  The exponent of the guess 0 is `-inf` and its power 0. -/
def logPriorF (fl p10 lg10 : ℚ → ℚ) (e : Err) (g c : ℚ) : Except Err ℚ :=
  if g < 0 then .error e
  else if g = 0 then .ok 0
  else .ok (p10 (fl (fl (c * 2) + fl (lg10 g - 1))))

/-- The prior of α with rounding, ompy/normalizer_nld.py:316-319, 345. -/
def alphaPriorF (fl p10 lg10 : ℚ → ℚ) (g c : ℚ) : Except Err ℚ := logPriorF fl p10 lg10 .notImplemented g c

/-- The prior of T with rounding, ompy/normalizer_nld.py:321-324, 348. -/
def tempPriorF (fl p10 lg10 : ℚ → ℚ) (g c : ℚ) : Except Err ℚ := logPriorF fl p10 lg10 .valueError g c

end Ompy
