import Verif.Matrix

/-!
# `Matrix.rebin`

Model of `ompy/matrix.py` 691-753.
-/

namespace Ompy

/-- One axis of `Matrix.rebin(inplace=True)`, ompy/matrix.py:715-744: the state of the object
afterwards and the exception, if any.  `std` is not touched, and `values` and the axis are assigned
before `verify_integrity` runs. -/
def Mat.rebinOne (m : Mat) (isEx : Bool) (mids : Option (List ℚ)) (factor : Option ℚ) :
    Mat × Except Err Unit :=
  match rebinMids (if isEx then m.Ex else m.Eg) mids factor with
  | .error e => (m, .error e)
  | .ok new =>
    match rebin2D m.values m.Eg.length (if isEx then m.Ex else m.Eg) new (if isEx then 0 else 1) with
    | .error e => (m, .error e)
    | .ok v =>
      let m' : Mat := if isEx then { m with values := v, Ex := new }
        else { m with values := v, Eg := new }
      (m', m'.verify)

/-- `Matrix.rebin(axis, mids, factor, inplace=True)`, ompy/matrix.py:691-744 (`axis` as returned by
`to_plot_axis`). -/
def Mat.rebinInplace (m : Mat) (axis : ℕ) (mids : Option (List ℚ)) (factor : Option ℚ) :
    Mat × Except Err Unit :=
  if axis = 2 then
    match m.rebinOne false mids factor with
    | (m1, .error e) => (m1, .error e)
    | (m1, .ok ()) => m1.rebinOne true mids factor
  else m.rebinOne (axis ≠ 0) mids factor

/-- One axis of `Matrix.rebin(inplace=False)`, ompy/matrix.py:745-749: a new matrix from values and
axes only. -/
def Mat.rebinOneCopy (m : Mat) (isEx : Bool) (mids : Option (List ℚ)) (factor : Option ℚ) :
    Except Err Mat := do
  let new ← rebinMids (if isEx then m.Ex else m.Eg) mids factor
  let v ← rebin2D m.values m.Eg.length (if isEx then m.Ex else m.Eg) new (if isEx then 0 else 1)
  let m' : Mat := if isEx then ⟨v, m.Eg, new, none, none⟩ else ⟨v, new, m.Ex, none, none⟩
  m'.verify
  pure m'

/-- `Matrix.rebin(axis, mids, factor, inplace=False)`, ompy/matrix.py:691-753. -/
def Mat.rebinCopy (m : Mat) (axis : ℕ) (mids : Option (List ℚ)) (factor : Option ℚ) :
    Except Err Mat :=
  if axis = 2 then do
    let new ← m.rebinOneCopy false mids factor
    (new.rebinInplace 1 mids factor).2
    pure (new.rebinInplace 1 mids factor).1
  else m.rebinOneCopy (axis ≠ 0) mids factor

end Ompy
