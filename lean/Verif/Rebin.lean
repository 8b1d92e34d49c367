import Verif.Basic

/-!
# Model of `ompy/rebin.pyx`
-/

namespace Ompy

/-- `overlap`, ompy/rebin.pyx:12-36. -/
def overlap (inL inU outL outU : ℚ) : ℚ :=
  max 0 (min outU inU - max outL inL)

/-- Lower end of the inner loop, ompy/rebin.pyx:81. -/
def jminOf (a0in a1in a0out a1out : ℚ) (i : ℕ) : ℤ :=
  max 0 (truncZ ((a0out + a1out * ((i : ℚ) - 1) - a0in) / a1in))

/-- Upper end of the inner loop, ompy/rebin.pyx:82. -/
def jmaxOf (nin : ℕ) (a0in a1in a0out a1out : ℚ) (i : ℕ) : ℤ :=
  min ((nin : ℤ) - 1) (truncZ ((a0out + a1out * ((i : ℚ) + 1) - a0in) / a1in))

/-- The body of the inner loop, ompy/rebin.pyx:84-90: what input bin `j` adds to output
bin `i`.  `a0in`, `a0out` are lower edges. -/
def rebinTerm (c : ℕ → ℚ) (a0in a1in a0out a1out : ℚ) (i j : ℕ) : ℚ :=
  let eout := a0out + a1out * (i : ℚ)
  let ein := a0in + a1in * (j : ℚ)
  c j * overlap ein (ein + a1in) eout (eout + a1out) / a1in

/-- One pass of the outer loop, ompy/rebin.pyx:78-90: `for j in range(jmin, jmax+1)`. -/
def rebinBin (c : ℕ → ℚ) (nin : ℕ) (a0in a1in a0out a1out : ℚ) (i : ℕ) : ℚ :=
  let jmin := jminOf a0in a1in a0out a1out i
  let jmax := jmaxOf nin a0in a1in a0out a1out i
  ((List.range (jmax + 1 - jmin).toNat).map
    fun k : ℕ => rebinTerm c a0in a1in a0out a1out i (jmin.toNat + k)).sum

/-- `rebin_1D`, ompy/rebin.pyx:42-92.  Axes with fewer than two entries raise `IndexError`
(lines 64, 66).  A zero input bin width divides by zero in C (`cdivision(True)`) and is mapped
to `undefined`.  Simplification: a `counts` array shorter than the input axis is reported
before the loop, the code only fails when it reaches the missing entry. -/
def rebin1D (counts midsIn midsOut : List ℚ) : Except Err (List ℚ) :=
  match midsIn, midsOut with
  | m0 :: m1 :: ms, n0 :: n1 :: ns =>
    let a1in := m1 - m0
    let a1out := n1 - n0
    let a0in := m0 - a1in / 2
    let a0out := n0 - a1out / 2
    if a1in = 0 then .error .undefined
    else if counts.length < (m0 :: m1 :: ms).length then .error .indexError
    else .ok ((List.range (n0 :: n1 :: ns).length).map
      (rebinBin (fun j => counts.getD j 0) (m0 :: m1 :: ms).length a0in a1in a0out a1out))
  | _, _ => .error .indexError

/-- Column `j` of a matrix stored as a list of rows (numpy `M[:, j]`). -/
def colOf (m : List (List ℚ)) (j : ℕ) : List ℚ := m.map fun r => r.getD j 0

/-- Put columns next to each other (`counts_out[:, i] = …` for all `i`), `n` rows. -/
def fromCols (n : ℕ) (cols : List (List ℚ)) : List (List ℚ) :=
  (List.range n).map fun r : ℕ => cols.map fun c => c.getD r 0

/-- `rebin_2D`, ompy/rebin.pyx:98-146.  `ncol` is `counts.shape[1]`.  `axis = 1` rebins each
row, `axis = 0` each column. -/
def rebin2D (counts : List (List ℚ)) (ncol : ℕ) (midsIn midsOut : List ℚ) (axis : ℤ) :
    Except Err (List (List ℚ)) :=
  if axis ≠ 0 ∧ axis ≠ 1 then .error .valueError
  else if axis = 0 then do
    let cols ← (List.range ncol).mapM fun j : ℕ => rebin1D (colOf counts j) midsIn midsOut
    pure (fromCols midsOut.length cols)
  else counts.mapM fun row => rebin1D row midsIn midsOut

end Ompy
