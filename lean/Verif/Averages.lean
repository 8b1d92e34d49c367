import Verif.Basic
import Mathlib.Analysis.SpecialFunctions.Pow.Real

/-!
# Model of the averages over the members, ompy/extractor.py:576-609, 646-695
-/

namespace Ompy

/-- An extracted vector: energies and values, `none` is NaN. -/
structure NanVec where
  E : List ℚ
  values : List (Option ℝ)

/-- The values of bin `j` that are numbers. -/
noncomputable def binValues (rows : List (List (Option ℝ))) (j : ℕ) : List ℝ := rows.filterMap fun r => r.getD j none

/-- The mean of a list. -/
noncomputable def meanOf (l : List ℝ) : ℝ := l.sum / l.length

/-- `np.nanmean` of one bin: NaN without any number. -/
noncomputable def nanmeanOf (l : List ℝ) : Option ℝ := if l = [] then none else some (meanOf l)

/-- `np.nanstd` of one bin (divided by the number of values). -/
noncomputable def nanstdOf (l : List ℝ) : Option ℝ :=
  if l = [] then none else some (Real.sqrt (meanOf (l.map fun x => (x - meanOf l) ^ 2)))

/-- `np.nanmean`/`np.nanstd` along axis 0 of the list of the members' values; rows of different length raise
ValueError, without members the result is a single NaN (here the axis of no member is missing and
`ensemble_nld` raises IndexError before, ompy/extractor.py:686). -/
noncomputable def nanAlong (f : List ℝ → Option ℝ) (rows : List (List (Option ℝ))) : Except Err (List (Option ℝ)) :=
  match rows with
  | [] => .error .indexError
  | r :: rs =>
    if ∃ q ∈ rs, q.length ≠ r.length then .error .valueError
    else .ok ((List.range r.length).map fun j => f (binValues (r :: rs) j))

/-- `ensemble_nld` and `ensemble_gsf`, ompy/extractor.py:673-695: energies of the first member, mean and standard
deviation. -/
noncomputable def ensembleVec (members : List NanVec) : Except Err (List ℚ × List (Option ℝ) × List (Option ℝ)) :=
  match members with
  | [] => .error .indexError
  | v :: vs => do
    let mean ← nanAlong nanmeanOf ((v :: vs).map NanVec.values)
    let std ← nanAlong nanstdOf ((v :: vs).map NanVec.values)
    if mean.length ≠ v.E.length then .error .valueError else pure (v.E, mean, std)

/-- `check_unconstrained_results`, ompy/extractor.py:646-671. -/
def checkUnconstrained (nld gsf : List NanVec) : Bool :=
  let c := nld.foldl (fun b v => if v.values.any Option.isNone then true else b) false
  gsf.foldl (fun b v => if v.values.any Option.isNone then true else b) c

/-- `fFWHM` of `resolution_Eg`, ompy/extractor.py:606-609. -/
noncomputable def fwhmEg (e : ℝ) : ℝ :=
  Real.sqrt (732087 / 10000 + 50824 / 100000 * e + 962481 / 10000000000 * e ^ 2)

/-- `diagonal_resolution`, ompy/extractor.py:576-595, with `resolution_Ex` the number `rx`. -/
noncomputable def diagonalResolution (rx : ℝ) (Ex Eg : List ℚ) : Except Err (List ℝ) :=
  if Ex.length < 2 ∨ Eg.length < 2 then .error .indexError
  else if Ex.getD 1 0 - Ex.getD 0 0 ≠ Eg.getD 1 0 - Eg.getD 0 0 then .error .assertion
  else .ok (Ex.map fun e : ℚ => Real.sqrt (rx ^ 2 + fwhmEg (e : ℝ) ^ 2))

end Ompy
