import Verif.Rebin
import Verif.Matrix
import Verif.Averages

/-!
# Model of `Ensemble.rebin`, ompy/ensemble.py:367-417, and of a later `load`

Only the first-generation part of the object and of the directory is kept: that is all `rebin` touches.
-/

namespace Ompy

/-- A matrix of standard deviations (real numbers). -/
structure StdMat where
  values : List (List ℝ)
  Eg : List ℚ
  Ex : List ℚ

/-- `np.std` of the values of one bin (divided by their number). -/
noncomputable def ensSd (l : List ℝ) : ℝ := Real.sqrt (meanOf (l.map fun x => (x - meanOf l) ^ 2))

/-- `np.std(ensemble, axis=0)` of arrays with `nr` rows and `nc` columns, ompy/ensemble.py:210, 215, 220, 410. -/
noncomputable def stdOver (members : List (List (List ℚ))) (nr nc : ℕ) : List (List ℝ) :=
  (List.range nr).map fun i : ℕ => (List.range nc).map fun j : ℕ =>
    ensSd (members.map fun M => (((M.getD i []).getD j 0 : ℚ) : ℝ))

/-- The first-generation attributes of an `Ensemble` and the files `firstgen_<i>.npy`, `firstgen.npy` and
`firstgen_std.npy`. -/
structure EnsFg where
  /-- `self.firstgen_ensemble`; its length is `self.size` -/
  members : List (List (List ℚ))
  /-- `self.firstgen` -/
  firstgen : Mat
  /-- `self.std_firstgen` -/
  std : StdMat
  /-- `firstgen_<i>.npy` -/
  fileMembers : List Mat
  /-- `firstgen.npy` -/
  fileFirstgen : Mat
  /-- `firstgen_std.npy` -/
  fileStd : StdMat

/-- Lines 391-393 and 394-396: rebin the values along one axis if it differs from the new one. -/
def rebinIf (values : List (List ℚ)) (ncol : ℕ) (E out : List ℚ) (axis : ℤ) : Except Err (List (List ℚ)) :=
  if out ≠ E then rebin2D values ncol E out axis else .ok values

/-- Lines 390-396 and 400-406: rebin the values along the axes that differ from the new one. -/
def rebinWhere (values : List (List ℚ)) (Ex Eg out : List ℚ) : Except Err (List (List ℚ)) := do
  let v1 ← rebinIf values Eg.length Ex out 0
  rebinIf v1 Eg.length Eg out 1

/-- `Ensemble.rebin`, ompy/ensemble.py:367-417: object and directory afterwards, and the exception. -/
noncomputable def EnsFg.rebin (e : EnsFg) (out : List ℚ) (member : String) : EnsFg × Except Err Unit :=
  if member ≠ "firstgen" then (e, .error .notImplemented)
  else if out = e.firstgen.Ex ∧ out = e.firstgen.Eg then (e, .ok ())
  else
    match e.members.mapM fun M => rebinWhere M e.firstgen.Ex e.firstgen.Eg out with
    | .error err => (e, .error err)
    | .ok ms =>
      match rebinWhere e.firstgen.values e.firstgen.Ex e.firstgen.Eg out with
      | .error err => (e, .error err)
      | .ok v =>
        let s : StdMat := ⟨stdOver ms out.length out.length, out, out⟩
        ({ e with members := ms, firstgen := ⟨v, out, out, none, none⟩, std := s, fileStd := s }, .ok ())

/-- `rebin` on an object that holds no ensemble yet: the attribute `firstgen` does not exist
(ompy/ensemble.py:94-127, 381). -/
noncomputable def ensRebin (e : Option EnsFg) (out : List ℚ) (member : String) : Option EnsFg × Except Err Unit :=
  match e with
  | none => if member ≠ "firstgen" then (none, .error .notImplemented) else (none, .error .attributeError)
  | some e => (some (e.rebin out member).1, (e.rebin out member).2)

/-- The first-generation part of `load`, ompy/ensemble.py:142, 160-161, 165, with the files listed in the order of the
members. -/
def EnsFg.reload (e : EnsFg) : EnsFg :=
  { e with members := e.fileMembers.map Mat.values, firstgen := e.fileFirstgen, std := e.fileStd }

end Ompy
