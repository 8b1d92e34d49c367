import Verif.Response
import Verif.Rounding

/-!
# Compton kinematics and the fan method with rounded numbers

`fl` rounds the result of every operation. The computed sine and cosine of the angle are inputs.
-/

namespace Ompy

/-- `1 + Eg / 511 * (1 - np.cos(theta))` with rounding, ompy/response.py:725, 744; `c` is the computed cosine. -/
def comptonDenF (fl : ℚ → ℚ) (Eg c : ℚ) : ℚ := fl (1 + fl (fl (Eg / 511) * fl (1 - c)))

/-- `E_compton` with rounding, ompy/response.py:710-727. -/
def eComptonF (fl : ℚ → ℚ) (Eg c : ℚ) : ℚ :=
  if fl (1 / 10) < Eg then fl (Eg - fl (Eg / comptonDenF fl Eg c)) else Eg

/-- `dE_dtheta` with rounding, ompy/response.py:730-745; `s` is the computed sine. -/
def dEdThetaF (fl : ℚ → ℚ) (Eg c s : ℚ) : ℚ :=
  fl (fl (fl (fl (Eg * Eg) / 511) * s) / fl (comptonDenF fl Eg c * comptonDenF fl Eg c))

/-- The argument `1 - z` of `arccos` in the fan method with rounding, ompy/response.py:627-628. -/
def fanCosF (fl : ℚ → ℚ) (E Ei : ℚ) : ℚ :=
  let den := fl (fl (E / 511) * fl (E - Ei))
  fl (1 - if den = 0 then 0 else fl (Ei / den))

/-- `lin_interpolation` with rounding, ompy/response.py:617-618. -/
def linInterpF (fl : ℚ → ℚ) (x x0 y0 x1 y1 : ℚ) : ℚ :=
  fl (y0 + fl (fl (fl (y1 - y0) * fl (x - x0)) / fl (x1 - x0)))

/-- One entry of the fan method with rounding, ompy/response.py:636-652, given the counts `c1`, `c2` and the computed cosine and sine of
the angle; a negative entry is set to zero. -/
def fanEntryF (fl : ℚ → ℚ) (E Elow Ehigh c1 c2 c s : ℚ) : ℚ :=
  let interpol := linInterpF fl E Elow (fl (c1 * dEdThetaF fl Elow c s)) Ehigh (fl (c2 * dEdThetaF fl Ehigh c s))
  max 0 (fl (interpol / dEdThetaF fl E c s))

end Ompy
