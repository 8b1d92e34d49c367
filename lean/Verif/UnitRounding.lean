import Verif.Rounding
import Verif.NldNorm

/-!
# Model of the units of energy in floating point

`Vector.to_MeV` and `Vector.to_keV` (ompy/vector.py:430-448) with a rounding `fl` after the division and the
multiplication by 1000, and the conversion at the start of `Vector.save` (ompy/vector.py:183-191).
-/

namespace Ompy

/-- `to_MeV`, ompy/vector.py:430-438, with `self.E /= 1e3` rounded. -/
def Vec.toMeVF {α : Type} (fl : ℚ → ℚ) (v : Vec α) : Except Err (Vec α) :=
  if v.units = "MeV" then .ok v
  else if v.units = "keV" then .ok { v with E := v.E.map fun e => fl (e / 1000), units := "MeV" }
  else .error .notImplemented

/-- `to_keV`, ompy/vector.py:440-448, with `self.E *= 1e3` rounded. -/
def Vec.toKeVF {α : Type} (fl : ℚ → ℚ) (v : Vec α) : Except Err (Vec α) :=
  if v.units = "keV" then .ok v
  else if v.units = "MeV" then .ok { v with E := v.E.map fun e => fl (e * 1000), units := "keV" }
  else .error .notImplemented

/-- The copy that is written by `Vector.save`, ompy/vector.py:183-191. -/
def saveUnitsF {α : Type} (fl : ℚ → ℚ) (v : Vec α) (units : String) : Except Err (Vec α) :=
  if units = "keV" then v.toKeVF fl
  else if units = "MeV" then v.toMeVF fl
  else if units = "same" then .ok v
  else .error .notImplemented

/-- The two conversions. -/
inductive UnitOp
  | mev
  | kev

/-- One conversion. -/
def UnitOp.run {α : Type} (fl : ℚ → ℚ) (v : Vec α) : UnitOp → Except Err (Vec α)
  | .mev => v.toMeVF fl
  | .kev => v.toKeVF fl

/-- A history of conversions of the same vector. -/
def unitHistory {α : Type} (fl : ℚ → ℚ) : Vec α → List UnitOp → Except Err (Vec α)
  | v, [] => .ok v
  | v, op :: r => do
    let w ← op.run fl v
    unitHistory fl w r

end Ompy
