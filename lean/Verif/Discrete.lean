import Verif.Basic
import Mathlib.Analysis.SpecialFunctions.Exp
import Mathlib.Algebra.BigOperators.Intervals
import Mathlib.Order.Interval.Finset.Nat
import Mathlib.Data.Int.Interval

/-!
# Loading the known levels

Model of `load_discrete` (`ompy/filehandling.py`) with `np.loadtxt`, `np.histogram` and
`scipy.ndimage.gaussian_filter1d`, and of `load_levels_discrete` and `load_levels_smooth`
(`ompy/normalizer_nld.py`).
-/

namespace Ompy

/-- `np.loadtxt` for a file of numbers, given row by row: the numbers in order, and the length of the array.
Arrays are squeezed, so that a file with one number gives an array without length (`none`). Rows of
different length are refused. -/
def loadLevels (rows : List (List ℚ)) : Except Err (List ℚ × Option ℕ) :=
  match rows with
  | [] => .ok ([], some 0)
  | r :: rs =>
    if rs.any fun r' => r'.length ≠ r.length then .error .valueError
    else
      match rs, r with
      | [], [x] => .ok ([x], none)
      | [], _ => .ok (r, some r.length)
      | _, _ => .ok ((r :: rs).flatten, some (rs.length + 1))

/-- `np.histogram` with given edges: differences of the numbers of values below the edges; for the last edge of
values not above. Descending edges are refused. -/
def npHistogram (xs edges : List ℚ) : Except Err (List ℤ) :=
  if (edges.zip edges.tail).any fun p => p.2 < p.1 then .error .valueError
  else
    let cum : List ℤ := edges.dropLast.map (fun e => (xs.countP (· < e) : ℤ)) ++
      [(xs.countP (· ≤ edges.getLastD 0) : ℤ)]
    .ok (List.zipWith (fun a b => b - a) cum cum.tail)

/-- The edges of the bins (`ompy/filehandling.py` 395-397). -/
def binEdges (energy : List ℚ) (b : ℚ) : List ℚ :=
  (energy ++ [energy.getLastD 0 + b]).map fun e => e - b / 2

/-- Index of the mode `reflect` of `scipy.ndimage`: the array and its mirror image, repeated. -/
def reflectIdx (n : ℕ) (i : ℤ) : ℕ :=
  let m := (i % (2 * n : ℕ)).toNat
  if m < n then m else 2 * n - 1 - m

/-- Unnormalised weight of `_gaussian_kernel1d` at distance `k`. -/
noncomputable def gaussWeight (sigma : ℝ) (k : ℤ) : ℝ := Real.exp (-(1 / 2) / sigma ^ 2 * (k : ℝ) ^ 2)

/-- `scipy.ndimage.gaussian_filter1d(x, sigma)`: radius `int(4 sigma + 0.5)`, mode `reflect`. -/
noncomputable def gaussFilter (x : List ℝ) (sigma : ℚ) : List ℝ :=
  let r := truncZ (4 * sigma + 1 / 2)
  let total := ∑ k ∈ Finset.Icc (-r) r, gaussWeight sigma k
  (List.range x.length).map fun i : ℕ =>
    ∑ k ∈ Finset.Icc (-r) r, gaussWeight sigma k / total * x.getD (reflectIdx x.length ((i : ℤ) + k)) 0

/-- `load_discrete` (`ompy/filehandling.py` 375-407), in exact numbers. The width of a bin is that of the first one.
Coinciding energies (division by zero) are outside the model. -/
noncomputable def loadDiscrete (rows : List (List ℚ)) (energy : List ℚ) (resolution : ℚ) :
    Except Err (List ℚ × Option (List ℝ)) := do
  let f ← loadLevels rows
  match f.2 with
  | none => .error .typeError
  | some len =>
    let xs : List ℚ := f.1.map (· / 1000)
    if 1 < len ∧ ¬ xs.sum / (xs.length : ℚ) < 20 then .error .assertion
    else
      match energy with
      | e0 :: e1 :: _ =>
        let b := e1 - e0
        let h ← npHistogram xs (binEdges energy b)
        if b = 0 then .error .undefined
        else
          let hist := h.map fun c : ℤ => (c : ℚ) / b
          if 0 < resolution then
            pure (hist, some (gaussFilter (hist.map fun q : ℚ => (q : ℝ)) (resolution / (23548 / 10000) / b)))
          else pure (hist, none)
      | _ => .error .indexError

/-- The values of `load_levels_discrete` (`ompy/normalizer_nld.py` 671-683). -/
noncomputable def levelsDiscrete (rows : List (List ℚ)) (energy : List ℚ) : Except Err (List ℝ) := do
  let r ← loadDiscrete rows energy (1 / 10)
  pure (r.1.map fun q : ℚ => (q : ℝ))

/-- The values of `load_levels_smooth` (`ompy/normalizer_nld.py` 686-701). -/
noncomputable def levelsSmooth (rows : List (List ℚ)) (energy : List ℚ) (resolution : ℚ) :
    Except Err (List ℝ) := do
  let r ← loadDiscrete rows energy resolution
  match r.2 with
  | some s => pure s
  | none => pure (r.1.map fun q : ℚ => (q : ℝ))

end Ompy
