import Verif.ComptonRounding

/-!
# The linear fan above the Compton edge with rounded numbers

`fl` rounds the result of every operation.  The computed Compton energies and the bins of the edges are inputs.
-/

namespace Ompy

/-- `scale1` and `scale2` with rounding, ompy/response.py:556-562: `Esim` and `ec` are the simulated energy and its Compton energy,
`fwhm` the resolution there, `eStart` and `eStop` the energies of the first and last bin. -/
def fanScaleF (fl : ℚ → ℚ) (Esim fwhm ec eStart eStop : ℚ) : ℚ :=
  fl (fl (fl (Esim + fl (6 * fl (fwhm / fl (235 / 100)))) - ec) / fl (eStop - eStart))

/-- `i1` and `i2` with rounding, ompy/response.py:570-571: the bin of the simulated spectrum, `d` bins above the edge. -/
def fanPlaceF (fl : ℚ → ℚ) (edge : ℕ) (scale : ℚ) (d : ℕ) : ℤ := truncZ (fl (edge + fl (scale * d)))

/-- One entry of `fan_to_end` with rounding, ompy/response.py:564-586: bins above the end of a spectrum are replaced by its last one, and
a negative result by zero. -/
def fanEndEntryF (fl : ℚ → ℚ) (E : ℚ) (c : Closest) (edge1 edge2 : ℕ) (scale1 scale2 : ℚ) (d : ℕ) : Except Err ℚ := do
  let c1 ← countCut c.low (fanPlaceF fl edge1 scale1 d)
  let c2 ← countCut c.high (fanPlaceF fl edge2 scale2 d)
  pure (max 0 (linInterpF fl E c.Elow c1 c.Ehigh c2))

end Ompy
