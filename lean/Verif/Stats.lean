import Verif.Equality
import Mathlib.Algebra.Order.Floor.Ring
import Mathlib.Data.Rat.Floor
import Mathlib.Data.List.Sort

/-!
# Model of the statistics of the samples, ompy/ensembleNormalizer.py:207-307, 446-575

`none` is NaN.  The filling of the array by `np.fromiter(map(fmap, …))` (533) is the filling row by row.
-/

namespace Ompy

/-- The numbers of a column in ascending order, NaN left out (`skipna`). -/
def sortedCol (col : List (Option ℚ)) : List ℚ := (col.filterMap id).insertionSort (· ≤ ·)

/-- `DataFrame.quantile(p)` of one column, linear between neighbours (pandas' default), ompy/ensembleNormalizer.py:537-538. -/
def quantileCol (p : ℚ) (col : List (Option ℚ)) : Option ℚ :=
  let s := sortedCol col
  if s = [] then none
  else
    let h := ((s.length : ℚ) - 1) * p
    let i := ⌊h⌋.toNat
    some (s.getD i 0 + (h - i) * (s.getD (i + 1) (s.getD i 0) - s.getD i 0))

/-- `DataFrame.median()` of one column, ompy/ensembleNormalizer.py:536: the middle value or the mean of the two middle ones. -/
def medianCol (col : List (Option ℚ)) : Option ℚ :=
  let s := sortedCol col
  if s = [] then none
  else some ((s.getD ((s.length - 1) / 2) 0 + s.getD (s.length / 2) 0) / 2)

/-- The columns of the data frame of line 535. -/
structure StatRow where
  median : Option ℚ
  low : Option ℚ
  high : Option ℚ

/-- `quantile` refuses numbers outside [0, 1]. -/
def checkP (p : ℚ) : Except Err Unit := if 0 ≤ p ∧ p ≤ 1 then .ok () else .error .valueError

/-- `out[idx] = row` for an array of `nc` columns: a single number is broadcast, other lengths are refused. -/
def fillRow (nc : ℕ) (row : List (Option ℚ)) : Except Err (List (Option ℚ)) :=
  if row.length = nc then .ok row
  else match row with
    | [x] => .ok (List.replicate nc x)
    | _ => .error .valueError

/-- Column `k` of the array. -/
def columnOf (rows : List (List (Option ℚ))) (k : ℕ) : List (Option ℚ) := rows.map fun r => r.getD k none

/-- `stats_from_df` for an array of `nc` columns, `rows` being what `fmap` gives for the rows of the frame,
ompy/ensembleNormalizer.py:514-540. -/
def statsFromRows (rows : List (List (Option ℚ))) (nc : ℕ) (pl ph : ℚ) : Except Err (List StatRow) := do
  let out ← rows.mapM (fillRow nc)
  checkP pl
  checkP ph
  pure ((List.range nc).map fun k : ℕ =>
    ⟨medianCol (columnOf out k), quantileCol pl (columnOf out k), quantileCol ph (columnOf out k)⟩)

/-- The statistics of vectors, ompy/ensembleNormalizer.py:470-479: energies of the first vector and the statistics of the values. -/
def vectorStats (vecs : List NVec) (pl ph : ℚ) : Except Err (List (Option ℚ) × List StatRow) :=
  match vecs with
  | [] => .error .indexError
  | v :: vs => (statsFromRows ((v :: vs).map NVec.values) v.E.length pl ph).map fun st => (v.E, st)

/-- A figure. -/
inductive Fig
  | ofAxes | dummy
  deriving DecidableEq

/-- `plot`, ompy/ensembleNormalizer.py:239-242, 276-280, 299-307: the figure returned, which is also the one the legend is put on (299-301).  `.ofAxes` is the
figure of the axes the samples are plotted on. -/
def plotFigure (plotModelStats returnStats : Bool) : Fig :=
  if plotModelStats || returnStats then (if plotModelStats then .ofAxes else .dummy) else .ofAxes

end Ompy
