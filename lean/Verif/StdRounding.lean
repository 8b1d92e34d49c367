import Verif.SumRounding
import Verif.EnsRebin

/-!
# Model of the means and standard deviations over the members in floating point

`np.std` and `np.mean` along the members of an ensemble (ompy/ensemble.py:210-220, 410, ompy/extractor.py:221-226) and
`np.nanmean` and `np.nanstd` (ompy/extractor.py:674-683) with a rounding `fl` after every operation.  The numbers are
added in the order given by `sum`; `np.nanstd` adds zeros for the NaN values.  `sq` is the rounded square root.  Overflow
and underflow are left out.
-/

namespace Ompy

/-- The mean with rounding, ompy/extractor.py:221, 226, 674, 677. -/
def meanF (fl : ℚ → ℚ) (sum : List ℚ → ℚ) (l : List ℚ) : ℚ := fl (sum l / l.length)

/-- The sum of squares numpy takes the square root of: deviations from the rounded mean, squared, added and divided by
their number, ompy/ensemble.py:210, 215, 220, 410. -/
def varF (fl : ℚ → ℚ) (sum : List ℚ → ℚ) (l : List ℚ) : ℚ :=
  fl (sum (l.map fun x => fl (fl (x - meanF fl sum l) * fl (x - meanF fl sum l))) / l.length)

/-- `np.std` of the values of one bin with rounding, ompy/ensemble.py:210, 215, 220, 410. -/
def stdF (fl : ℚ → ℚ) (sum : List ℚ → ℚ) (sq : ℚ → ℚ) (l : List ℚ) : ℚ := sq (varF fl sum l)

/-- `np.std(ensemble, axis=0)` of arrays with `nr` rows and `nc` columns with rounding, ompy/ensemble.py:210, 215, 220,
410. -/
def stdOverF (fl : ℚ → ℚ) (sum : List ℚ → ℚ) (sq : ℚ → ℚ) (members : List (List (List ℚ))) (nr nc : ℕ) : List (List ℚ) :=
  tabulate nr nc fun i j => stdF fl sum sq (members.map fun M => at2 M i j)

end Ompy
