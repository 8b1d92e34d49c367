import Verif.Unfolder
import Verif.SumRounding

/-!
# Model of the iteration of the unfolding in floating point

`Unfolder.step` (ompy/unfolder.py:189-213) with a rounding `fl` after the subtraction and the addition.  The product
with the response is left to a library (BLAS), which may use another order of additions for every element: `dot` is a
parameter that may depend on the iteration and the place in the matrix.
-/

namespace Ompy

/-- `A @ B` for arrays with `n` rows, `q` inner and `m` outer columns, each element computed by `dot`. -/
def matMulF (dot : ℕ → ℕ → List ℚ → List ℚ → ℚ) (A B : List (List ℚ)) (n q m : ℕ) : List (List ℚ) :=
  tabulate n m fun i k => dot i k ((List.range q).map fun j => at2 A i j) ((List.range q).map fun j => at2 B j k)

/-- `step` with rounding, ompy/unfolder.py:189-213. -/
def unfoldStepF (fl : ℚ → ℚ) (dot : ℕ → ℕ → ℕ → List ℚ → List ℚ → ℚ) (r R : List (List ℚ)) (n m : ℕ)
    (s : List (List ℚ) × List (List ℚ)) (step : ℕ) : List (List ℚ) × List (List ℚ) :=
  let u := if 0 < step then tabulate n m fun i k => fl (at2 s.1 i k + fl (at2 r i k - at2 s.2 i k)) else s.1
  (u, matMulF (dot step) u R n m m)

/-- `(unfolded, folded)` after the pass with index `k` of the loop with rounding, ompy/unfolder.py:149-155. -/
def unfoldIterF (fl : ℚ → ℚ) (dot : ℕ → ℕ → ℕ → List ℚ → List ℚ → ℚ) (r R : List (List ℚ)) (n m : ℕ) :
    ℕ → List (List ℚ) × List (List ℚ)
  | 0 => unfoldStepF fl dot r R n m (r, tabulate n m fun _ _ => 0) 0
  | k + 1 => unfoldStepF fl dot r R n m (unfoldIterF fl dot r R n m k) (k + 1)

/-- A dot product with a rounding after every multiplication and a given way of summing. -/
def dotF (fl : ℚ → ℚ) (sum : List ℚ → ℚ) (a b : List ℚ) : ℚ := sum (List.zipWith (fun x y => fl (x * y)) a b)

end Ompy
