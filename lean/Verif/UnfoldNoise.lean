import Verif.Unfolder
import Verif.EnsLimit

/-!
# Model of the unfolding of a member with Poisson perturbation

`d (i, j)` is the random number drawn for bin `(i, j)`.  The iteration `k` is the same for all members, and no Compton
subtraction is made.
-/

namespace Ompy

/-- The raw matrix of a member, ompy/ensemble.py:437-450. -/
def drawnRaw (d : ℕ × ℕ → ℕ) (n m : ℕ) : List (List ℚ) := tabulate n m fun i j => (d (i, j) : ℚ)

/-- Bin `(i, j)` of iteration `k` of the unfolding of a member, ompy/unfolder.py:149-155. -/
def drawnUnfolded (R : List (List ℚ)) (n m k i j : ℕ) (d : ℕ × ℕ → ℕ) : ℝ :=
  ((at2 (unfoldIter (drawnRaw d n m) R n m k).1 i j : ℚ) : ℝ)

/-- The same after `remove_negative`, ompy/unfolder.py:186 with ompy/matrix.py:780-782. -/
def drawnReturned (R : List (List ℚ)) (n m k i j : ℕ) (d : ℕ × ℕ → ℕ) : ℝ :=
  ((at2 (removeNegativeQ (unfoldIter (drawnRaw d n m) R n m k).1) i j : ℚ) : ℝ)

end Ompy
