import Verif.RebinRounding

/-!
# Model of `rebin(factor=…)` in floating point

`Vector.rebin` (ompy/vector.py:390-428) and the choice of the axis in `Matrix.rebin` (ompy/matrix.py:712-738) with a
rounding `fl` after every operation on energies and counts.
-/

namespace Ompy

/-- `int(len(mids_old)/factor)`, ompy/vector.py:413, ompy/matrix.py:731. -/
def numMidsF (fl : ℚ → ℚ) (n : ℕ) (f : ℚ) : ℤ := truncZ (fl ((n : ℚ) / f))

/-- The choice of the new mid-points with rounding, ompy/vector.py:405-420, ompy/matrix.py:712-738. -/
def rebinMidsF (fl : ℚ → ℚ) (old : List ℚ) (mids : Option (List ℚ)) (factor : Option ℚ) : Except Err (List ℚ) :=
  match mids, factor with
  | some m, none => .ok m
  | none, some f =>
    if f ≤ 0 then .error .valueError
    else match old.head?, old.getLast? with
      | some a, some b => .ok (linspaceF fl a b (numMidsF fl old.length f).toNat)
      | _, _ => .error .indexError
  | _, _ => .error .valueError

/-- `Vector.rebin(inplace=True)` with rounding, ompy/vector.py:405-426. -/
def Vec.rebinInplaceF (fl : ℚ → ℚ) (v : Vec ℚ) (mids : Option (List ℚ)) (factor : Option ℚ) : Vec ℚ × Except Err Unit :=
  match rebinMidsF fl v.E mids factor with
  | .error e => (v, .error e)
  | .ok m =>
    match rebin1DF fl v.values v.E m with
    | .error e => (v, .error e)
    | .ok r =>
      let v' : Vec ℚ := { v with values := r, E := m }
      (v', v'.verify)

/-- `Vector.rebin(inplace=False)` with rounding, ompy/vector.py:405-421, 427-428. -/
def Vec.rebinCopyF (fl : ℚ → ℚ) (v : Vec ℚ) (mids : Option (List ℚ)) (factor : Option ℚ) : Except Err (Vec ℚ) := do
  let m ← rebinMidsF fl v.E mids factor
  let r ← rebin1DF fl v.values v.E m
  Vec.new (some r) (some m) none "keV"

end Ompy
