import Verif.FirstGen
import Verif.RebinRounding
import Verif.SumRounding

/-!
# Model of the first generation method in floating point

`FirstGeneration` (ompy/firstgeneration.py) with a rounding `fl` after every operation.  The sums along rows (`np.sum`,
`array.sum`) add in the order given by `sum`; the product of matrices is left to a library and its elements are computed
by `dot`, which may depend on the iteration and the place.  Overflow is left out: `div0` sees zero divisors only.
-/

namespace Ompy

/-- `div0` with rounding, ompy/library.py:10-24. -/
def div0F (fl : ℚ → ℚ) (a b : ℚ) : ℚ := if b = 0 then 0 else fl (a / b)

/-- The threshold of an excitation energy with rounding, ompy/firstgeneration.py:219-227. -/
def slideOfF (fl : ℚ → ℚ) (p : FGParams) (ex : ℚ) : ℚ :=
  if p.useSlide then min (max (fl (ex * p.ratio)) p.lower) p.upper else p.upper

/-- Mean gamma energy of a row with rounding, ompy/firstgeneration.py:231-233, 256-258. -/
def meanEgF (fl : ℚ → ℚ) (sum : List ℚ → ℚ) (Eg row : List ℚ) : ℚ :=
  div0F fl (sum (List.zipWith (fun g x => fl (g * x)) Eg row)) (sum row)

/-- One entry of `multiplicity_statistical` with rounding, ompy/firstgeneration.py:201-243. -/
def multStatisticalF (fl : ℚ → ℚ) (sum : List ℚ → ℚ) (p : FGParams) (Eg : List ℚ) (ex : ℚ) (row : List ℚ) : ℚ :=
  let masked := maskRow (slideOfF fl p ex) Eg row
  let entry := max (min (fl (ex - p.shift)) p.entryStat) 0
  div0F fl (fl (ex - entry)) (meanEgF fl sum Eg masked)

/-- One entry of `multiplicity_total` with rounding, ompy/firstgeneration.py:245-261. -/
def multTotalF (fl : ℚ → ℚ) (sum : List ℚ → ℚ) (Eg : List ℚ) (ex : ℚ) (row : List ℚ) : ℚ :=
  let m := div0F fl ex (meanEgF fl sum Eg row)
  if m < 0 then 0 else m

/-- `multiplicity` with rounding, ompy/firstgeneration.py:185-199. -/
def multiplicitiesF (fl : ℚ → ℚ) (sum : List ℚ → ℚ) (p : FGParams) (m : Mat) : List ℚ :=
  List.zipWith (fun ex row => if p.total then multTotalF fl sum m.Eg ex row
    else multStatisticalF fl sum p m.Eg ex row) m.Ex m.values

/-- `multiplicity_normalization` with rounding, ompy/firstgeneration.py:163-183. -/
def multNormalizationF (fl : ℚ → ℚ) (sum : List ℚ → ℚ) (p : FGParams) (m : Mat) : Except Err (List (List ℚ)) :=
  let mult := multiplicitiesF fl sum p m
  let s := m.values.map sum
  if mult.all (fun x => 0 ≤ x) then
    .ok (tabulate mult.length mult.length fun i j =>
      div0F fl (fl (s.getD i 0 * mult.getD j 0)) (fl (mult.getD i 0 * s.getD j 0)))
  else .error .assertion

/-- `row_normalized` with rounding, ompy/firstgeneration.py:263-276. -/
def rowNormalizedF (fl : ℚ → ℚ) (values : List (List ℚ)) (ny : ℕ) : List (List ℚ) :=
  let d := diagonalElements values ny
  tabulate values.length ny fun i k =>
    match d.find? fun q => q.1 == i with
    | some (_, j) => if (k : ℤ) < j then fl (1 / max 1 (j : ℚ)) else 0
    | none => 0

/-- `0.7*W + 0.3*W_old`, then what is negative is set to zero, ompy/firstgeneration.py:145-149, entry by entry; the
literals are rounded, too. -/
def rawWeightF (fl : ℚ → ℚ) (iteration : ℕ) (H Wold : List (List ℚ)) (i j : ℕ) : ℚ :=
  let x := if 4 < iteration then fl (fl (fl (7 / 10) * flipWeight H i j) + fl (fl (3 / 10) * at2 Wold i j))
    else flipWeight H i j
  if x < 0 then 0 else x

/-- The new weights with rounding, ompy/firstgeneration.py:139-152. -/
def newWeightsF (fl : ℚ → ℚ) (sum : List ℚ → ℚ) (iteration n : ℕ) (H Wold : List (List ℚ)) : List (List ℚ) :=
  normalizeRowsF fl sum (tabulate n n (rawWeightF fl iteration H Wold))

/-- `N * W` or `N * W * valley_correction`, ompy/firstgeneration.py:155, 157, one entry. -/
def factorF (fl : ℚ → ℚ) (N W : List (List ℚ)) (valley : Option (List ℚ)) (i j : ℕ) : ℚ :=
  match valley with
  | some v => fl (fl (at2 N i j * at2 W i j) * v.getD j 0)
  | none => fl (at2 N i j * at2 W i j)

/-- `matrix.values - (N * W * valley) @ matrix.values` with rounding, ompy/firstgeneration.py:154-160. -/
def subtractGF (fl : ℚ → ℚ) (dot : ℕ → ℕ → List ℚ → List ℚ → ℚ) (M N W : List (List ℚ)) (valley : Option (List ℚ))
    (n ny : ℕ) : List (List ℚ) :=
  tabulate n ny fun i k =>
    fl (at2 M i k - dot i k ((List.range n).map fun j => factorF fl N W valley i j) ((List.range n).map fun j => at2 M j k))

/-- `step` with rounding, ompy/firstgeneration.py:121-161. -/
def fgStepF (fl : ℚ → ℚ) (sum : List ℚ → ℚ) (dot : ℕ → ℕ → ℕ → List ℚ → List ℚ → ℚ) (m : Mat) (N : List (List ℚ))
    (valley : Option (List ℚ)) (iteration : ℕ) (s : List (List ℚ) × List (List ℚ)) :
    Except Err (List (List ℚ) × List (List ℚ)) := do
  let H ← s.1.mapM fun row => rebin1DF fl row m.Eg m.Ex
  let W := newWeightsF fl sum iteration m.Ex.length H s.2
  pure (subtractGF fl (dot iteration) m.values N W valley m.Ex.length m.Eg.length, W)

/-- State `(H, W)` after `k` passes of the loop in `apply` with rounding, ompy/firstgeneration.py:97-105. -/
def fgIterF (fl : ℚ → ℚ) (sum : List ℚ → ℚ) (dot : ℕ → ℕ → ℕ → List ℚ → List ℚ → ℚ) (p : FGParams) (m : Mat)
    (valley : Option (List ℚ)) : ℕ → Except Err (List (List ℚ) × List (List ℚ))
  | 0 => do
    let _ ← multNormalizationF fl sum p m
    pure (rowNormalizedF fl m.values m.Eg.length, rowNormalizedF fl m.values m.Eg.length)
  | k + 1 => do
    let s ← fgIterF fl sum dot p m valley k
    let N ← multNormalizationF fl sum p m
    fgStepF fl sum dot m N valley k s

/-- The values of the matrix `apply` returns, ompy/firstgeneration.py:96-109: the valley correction has been cut
already. -/
def fgValuesF (fl : ℚ → ℚ) (sum : List ℚ → ℚ) (dot : ℕ → ℕ → ℕ → List ℚ → List ℚ → ℚ) (p : FGParams) (m : Mat)
    (valley : Option (List ℚ)) : Except Err (List (List ℚ)) := do
  let s ← fgIterF fl sum dot p m valley p.numIter
  pure (removeNegativeQ s.1)

end Ompy
