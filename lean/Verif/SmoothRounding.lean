import Verif.SumRounding
import Verif.Smoothing

/-!
# Model of `gauss_smoothing` in floating point

`gauss_smoothing` (ompy/gauss_smoothing.pyx:52-118) with a rounding `fl` after every operation.  `g mu sigma x` is the
computed value of `gaussian` (ompy/gauss_smoothing.pyx:17-49), any function; `sum` is the order in which `np.sum` adds.
-/

namespace Ompy

/-- `find_truncation_indices` with rounding, ompy/gauss_smoothing.pyx:84-95; `n` is the length of the input. -/
def truncWindowF (fl : ℚ → ℚ) (a0 a1 : ℚ) (n : ℕ) (truncate mu sigma : ℚ) : ℤ × ℤ :=
  let ts := fl (truncate * sigma)
  let low := max 0 (truncZ (fl (fl (fl (mu - ts) - a0) / a1)))
  (low, max (min (n : ℤ) (truncZ (fl (fl (fl (mu + ts) - a0) / a1)))) (low + 1))

/-- The window of bin `i`, ompy/gauss_smoothing.pyx:78-79, 101-104. -/
def windowF (fl : ℚ → ℚ) (E fwhm : List ℚ) (truncate : ℚ) (i : ℕ) : ℤ × ℤ :=
  truncWindowF fl (E.getD 0 0) (fl (E.getD 1 0 - E.getD 0 0)) E.length truncate (E.getD i 0)
    (fl (fwhm.getD i 0 / fl (2355 / 1000)))

/-- The distribution before normalisation, ompy/gauss_smoothing.pyx:103-112: zero outside the slice `[low:high+1]`. -/
def rawPdfF (fl : ℚ → ℚ) (g : ℚ → ℚ → ℚ → ℚ) (E fwhm : List ℚ) (truncate : ℚ) (i k : ℕ) : ℚ :=
  if (windowF fl E fwhm truncate i).1 ≤ (k : ℤ) ∧ (k : ℤ) < (windowF fl E fwhm truncate i).2 + 1 then
    g (E.getD i 0) (fl (fwhm.getD i 0 / fl (2355 / 1000))) (E.getD k 0) else 0

/-- The array `pdf` of bin `i` before the division, ompy/gauss_smoothing.pyx:105-112. -/
def pdfRowF (fl : ℚ → ℚ) (g : ℚ → ℚ → ℚ → ℚ) (n : ℕ) (E fwhm : List ℚ) (truncate : ℚ) (i : ℕ) : List ℚ :=
  (List.range n).map fun k => rawPdfF fl g E fwhm truncate i k

/-- Loop over the input bins with rounding, ompy/gauss_smoothing.pyx:97-114: output after the first `j` bins. -/
def smoothLoopF (fl : ℚ → ℚ) (sum : List ℚ → ℚ) (g : ℚ → ℚ → ℚ → ℚ) (c E fwhm : List ℚ) (truncate : ℚ) : ℕ → ℕ → ℚ
  | 0, _ => 0
  | j + 1, k =>
    if 0 < c.getD j 0 then
      fl (smoothLoopF fl sum g c E fwhm truncate j k + fl (c.getD j 0 *
        fl (rawPdfF fl g E fwhm truncate j k / sum (pdfRowF fl g c.length E fwhm truncate j))))
    else smoothLoopF fl sum g c E fwhm truncate j k

/-- `gauss_smoothing` with rounding, ompy/gauss_smoothing.pyx:52-118: `undefined` for a zero bin width and for NaN, when
the sum of a distribution is zero. -/
def gaussSmoothingF (fl : ℚ → ℚ) (sum : List ℚ → ℚ) (g : ℚ → ℚ → ℚ → ℚ) (c E fwhm : List ℚ) (truncate : ℚ) :
    Except Err (List ℚ) :=
  if c.length ≠ E.length then .error .valueError
  else if c.length ≠ fwhm.length then .error .valueError
  else if E.length < 2 then .error .indexError
  else if fl (E.getD 1 0 - E.getD 0 0) = 0 then .error .undefined
  else if ∃ i < c.length, 0 < c.getD i 0 ∧ sum (pdfRowF fl g c.length E fwhm truncate i) = 0 then .error .undefined
  else .ok ((List.range c.length).map fun k : ℕ => smoothLoopF fl sum g c E fwhm truncate c.length k)

end Ompy
