import Verif.Rebin
import Verif.Rounding

/-!
# Model of `rebin_1D` in floating point

`Verif.Rebin` computes with exact numbers.  Here `rebin_1D` (ompy/rebin.pyx:42-92) is written down with a rounding `fl`
after every operation, in the order in which the code does them; `fl` is a parameter and `dbl` (`Verif.Rounding`) is the
rounding of doubles.  Products and sums are rounded separately: fused operations are left out.
-/

namespace Ompy

/-- `a0 + a1*k`, ompy/rebin.pyx:81, 82, 84 and 87. -/
def edgeF (fl : ℚ → ℚ) (a0 a1 k : ℚ) : ℚ := fl (a0 + fl (a1 * k))

/-- `overlap` with rounding, ompy/rebin.pyx:12-36. -/
def overlapF (fl : ℚ → ℚ) (inL inU outL outU : ℚ) : ℚ := max 0 (fl (min outU inU - max outL inL))

/-- `(a0_out + a1_out*k - a0_in)/a1_in`, ompy/rebin.pyx:81-82. -/
def positionF (fl : ℚ → ℚ) (a0in a1in a0out a1out k : ℚ) : ℚ :=
  fl (fl (edgeF fl a0out a1out k - a0in) / a1in)

/-- Lower end of the inner loop with rounding, ompy/rebin.pyx:81. -/
def jminF (fl : ℚ → ℚ) (a0in a1in a0out a1out : ℚ) (i : ℕ) : ℤ :=
  max 0 (truncZ (positionF fl a0in a1in a0out a1out ((i : ℚ) - 1)))

/-- Upper end of the inner loop with rounding, ompy/rebin.pyx:82. -/
def jmaxF (fl : ℚ → ℚ) (nin : ℕ) (a0in a1in a0out a1out : ℚ) (i : ℕ) : ℤ :=
  min ((nin : ℤ) - 1) (truncZ (positionF fl a0in a1in a0out a1out ((i : ℚ) + 1)))

/-- What input bin `j` adds to output bin `i`, ompy/rebin.pyx:84-90. -/
def rebinTermF (fl : ℚ → ℚ) (c : ℕ → ℚ) (a0in a1in a0out a1out : ℚ) (i j : ℕ) : ℚ :=
  let eout := edgeF fl a0out a1out i
  let ein := edgeF fl a0in a1in j
  fl (fl (c j * overlapF fl ein (fl (ein + a1in)) eout (fl (eout + a1out))) / a1in)

/-- `counts_out_view[i] += t` for all `t` in turn, ompy/rebin.pyx:90. -/
def addAllF (fl : ℚ → ℚ) (l : List ℚ) : ℚ := l.foldl (fun s t => fl (s + t)) 0

/-- One pass of the outer loop with rounding, ompy/rebin.pyx:78-90. -/
def rebinBinF (fl : ℚ → ℚ) (c : ℕ → ℚ) (nin : ℕ) (a0in a1in a0out a1out : ℚ) (i : ℕ) : ℚ :=
  let jmin := jminF fl a0in a1in a0out a1out i
  let jmax := jmaxF fl nin a0in a1in a0out a1out i
  addAllF fl ((List.range (jmax + 1 - jmin).toNat).map
    fun k : ℕ => rebinTermF fl c a0in a1in a0out a1out i (jmin.toNat + k))

/-- The width of the bins of an axis, ompy/rebin.pyx:64, 66. -/
def widthF (fl : ℚ → ℚ) (mids : List ℚ) : ℚ := fl (mids.getD 1 0 - mids.getD 0 0)

/-- The lower edge of the first bin of an axis, ompy/rebin.pyx:64, 66, 69, 70. -/
def lowestF (fl : ℚ → ℚ) (mids : List ℚ) : ℚ := fl (mids.getD 0 0 - fl (widthF fl mids / 2))

/-- `rebin_1D` with rounding, ompy/rebin.pyx:42-92; the error branches are those of `rebin1D`. -/
def rebin1DF (fl : ℚ → ℚ) (counts midsIn midsOut : List ℚ) : Except Err (List ℚ) :=
  if midsIn.length < 2 ∨ midsOut.length < 2 then .error .indexError
  else if widthF fl midsIn = 0 then .error .undefined
  else if counts.length < midsIn.length then .error .indexError
  else .ok ((List.range midsOut.length).map
    (rebinBinF fl (fun j => counts.getD j 0) midsIn.length (lowestF fl midsIn) (widthF fl midsIn)
      (lowestF fl midsOut) (widthF fl midsOut)))

end Ompy
