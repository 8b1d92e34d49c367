import Verif.EnsPerturb
import Verif.EnsRebin

/-!
# Model of the numbers an ensemble reports for one bin

Members are drawn one after the other; `x i` is the number of counts of member `i` in the bin.
-/

namespace Ompy

/-- One bin of the ensemble averaged over the first `n` members (as in ompy/extractor.py:221-226 for the results). -/
noncomputable def binMean (x : ℕ → ℝ) (n : ℕ) : ℝ := meanOf ((List.range n).map x)

/-- One bin of `std_raw`, `std_unfolded`, `std_firstgen` after `n` members, ompy/ensemble.py:210, 215, 220. -/
noncomputable def binStd (x : ℕ → ℝ) (n : ℕ) : ℝ := ensSd ((List.range n).map x)

/-- One bin of `subtract_bg`, ompy/ensemble.py:321-323 with ompy/matrix.py:780-782. -/
noncomputable def subtractBin (ratio p b : ℝ) : ℝ := if 0 < p - ratio * b then p - ratio * b else 0

end Ompy
