import Verif.Matrix

/-!
# Model of the numerical helpers in `ompy/library.py`

`while` loops carry a step budget (`fuel`); running out of it is the value `none`, so that
termination is a statement about the model ("for every large enough budget the result is `some`").
-/

namespace Ompy

/-- `np.round` / Python `round`: to the nearest integer, ties to even. -/
def roundHalfEven (q : ℚ) : ℤ :=
  if q - ⌊q⌋ < 1 / 2 then ⌊q⌋
  else if 1 / 2 < q - ⌊q⌋ then ⌊q⌋ + 1
  else if ⌊q⌋ % 2 = 0 then ⌊q⌋ else ⌊q⌋ + 1

/-- `np.linspace(a, b, N)` for an integer `N` (ValueError if negative). -/
def linspaceZ (a b : ℚ) (n : ℤ) : Except Err (List ℚ) :=
  if n < 0 then .error .valueError else .ok (linspace a b n.toNat)

/-- `E_array_from_calibration`, ompy/library.py:51-78. `a1 = 0` with `E_max` is a division by
zero, mapped to `undefined`. -/
def eArrayFromCalibration (a0 a1 : ℚ) (N : Option ℤ) (eMax : Option ℚ) :
    Except Err (List ℚ) :=
  match eMax, N with
  | some _, some _ => .error .valueError
  | _, some n => linspaceZ a0 (a0 + a1 * ((n : ℚ) - 1)) n
  | some e, none =>
    if a1 = 0 then .error .undefined
    else
      let n := roundHalfEven ((e - a0) / a1) + 1
      linspaceZ a0 (a0 + a1 * ((n : ℚ) - 1)) n
  | none, none => .error .valueError

/-- `shuffle_counts`, ompy/library.py:195-215: first `row[i_to]`, then `row[i_from]`. -/
def shuffleCounts (row : List ℚ) (iFrom iTo : ℕ) : List ℚ :=
  let positive := row.getD iFrom 0
  let negative := row.getD iTo 0
  (row.set iTo (min 0 (positive + negative))).set iFrom (max 0 (positive + negative))

/-- `int(np.ceil((w - 1) / 2))`, ompy/library.py:118. -/
def maxDistance (w : ℤ) : ℤ := ⌈((w : ℚ) - 1) / 2⌉

/-- The `while` loop of `fill_negative_max`, ompy/library.py:121-126, with a step budget. -/
def fillMaxLoop (lo hi : ℤ) (i : ℕ) : ℕ → List ℚ → Option (Except Err (List ℚ))
  | 0, _ => none
  | fuel + 1, row =>
    if row.getD i 0 < 0 then
      match argmax (pySlice row lo (hi + 1)) with
      | .error e => some (.error e)
      | .ok k =>
        let imax := lo.toNat + k
        if row.getD imax 0 ≤ 0 then some (.ok row)
        else fillMaxLoop lo hi i fuel (shuffleCounts row imax i)
    else some (.ok row)

/-- `np.where(row < 0)[0]`. -/
def negPositions (row : List ℚ) : List ℕ :=
  (List.range row.length).filter fun k => row.getD k 0 < 0

/-- The loop over the negative bins of one row, ompy/library.py:115-126. -/
def fillMaxBins (fuel : ℕ) (w : ℕ → ℤ) : List ℕ → List ℚ → Option (Except Err (List ℚ))
  | [], row => some (.ok row)
  | i :: is, row =>
    let d := maxDistance (w i)
    let lo := max 0 ((i : ℤ) - d)
    let hi := min (row.length : ℤ) ((i : ℤ) + d)
    match fillMaxLoop lo hi i fuel row with
    | none => none
    | some (.error e) => some (.error e)
    | some (.ok row') => fillMaxBins fuel w is row'

/-- One row of `fill_negative_max`. -/
def fillMaxRow (fuel : ℕ) (w : ℕ → ℤ) (row : List ℚ) : Option (Except Err (List ℚ)) :=
  fillMaxBins fuel w (negPositions row) row

/-- `fill_negative_max`, ompy/library.py:81-129: the rows independently (a copy is returned, the
argument is not written).  `w` is the window per `Eg` bin (a constant for an `int` argument). -/
def fillNegativeMax (fuel : ℕ) (w : ℕ → ℤ) : List (List ℚ) → Option (Except Err (List (List ℚ)))
  | [] => some (.ok [])
  | r :: rs =>
    match fillMaxRow fuel w r with
    | none => none
    | some (.error e) => some (.error e)
    | some (.ok r') =>
      match fillNegativeMax fuel w rs with
      | some (.ok rs') => some (.ok (r' :: rs'))
      | other => other

/-- `weights` of `fill_negative_gauss`, ompy/library.py:181-182. -/
def gaussWeights (g : List ℚ) (row : List ℚ) : List ℚ :=
  List.zipWith (fun x y => (if x < 0 then 0 else x) * y) row g

/-- The loop over `np.argsort(weights)`, ompy/library.py:184-189. -/
def fillGaussFrom (i : ℕ) : List ℕ → List ℚ → List ℚ
  | [], row => row
  | k :: ks, row =>
    if row.getD k 0 < 0 then row
    else
      let row' := shuffleCounts row k i
      if row'.getD i 0 ≥ 0 then row' else fillGaussFrom i ks row'

/-- The loop over the negative bins, ompy/library.py:180-189.  `argsort` is numpy's (its order
of ties is not specified), `gauss i` the row `gauss[i, :]` of Gaussian values. -/
def fillGaussBins (argsort : List ℚ → List ℕ) (gauss : ℕ → List ℚ) : List ℕ → List ℚ → List ℚ
  | [], row => row
  | i :: is, row =>
    fillGaussBins argsort gauss is (fillGaussFrom i (argsort (gaussWeights (gauss i) row)) row)

/-- `fill_negative_gauss`, ompy/library.py:132-192, one row.  Simplification: the truncated normal
density (166-171) is an arbitrary table `gauss`. -/
def fillGaussRow (argsort : List ℚ → List ℕ) (gauss : ℕ → List ℚ) (row : List ℚ) : List ℚ :=
  fillGaussBins argsort gauss (negPositions row) row

end Ompy
