import Verif.Library
import Verif.Matrix
import Verif.Rounding

/-!
# Model of calibrations, bin edges and limits in floating point

`E_array_from_calibration` (ompy/library.py:51-78), `to_lower_bin` and `to_mid_bin` (ompy/matrix.py:851-863) and
`find_limits` (ompy/pyrhosigchi.py:8-31) with a rounding `fl` after every operation on doubles.
-/

namespace Ompy

/-- `np.linspace(a0, a0+a1*(N-1), N)`, ompy/library.py:73, 76; ValueError for a negative number. -/
def calibAxisF (fl : ℚ → ℚ) (a0 a1 : ℚ) (n : ℤ) : Except Err (List ℚ) :=
  if n < 0 then .error .valueError
  else .ok (linspaceF fl a0 (fl (a0 + fl (a1 * ((n : ℚ) - 1)))) n.toNat)

/-- `E_array_from_calibration` with rounding, ompy/library.py:51-78. `a1 = 0` with `E_max` is a division by zero. -/
def eArrayF (fl : ℚ → ℚ) (a0 a1 : ℚ) (N : Option ℤ) (eMax : Option ℚ) : Except Err (List ℚ) :=
  match eMax, N with
  | some _, some _ => .error .valueError
  | _, some n => calibAxisF fl a0 a1 n
  | some e, none =>
    if a1 = 0 then .error .undefined
    else calibAxisF fl a0 a1 (roundHalfEven (fl (fl (e - a0) / a1)) + 1)
  | none, none => .error .valueError

/-- Half a bin width from the first two energies with rounding, ompy/matrix.py:853-854, 860-861. -/
def halfBinF (fl : ℚ → ℚ) : List ℚ → Except Err ℚ
  | a :: b :: _ => .ok (fl (fl (b - a) / 2))
  | _ => .error .indexError

/-- `to_lower_bin` with rounding, ompy/matrix.py:851-856. -/
def Mat.toLowerBinF (fl : ℚ → ℚ) (m : Mat) : Except Err Mat := do
  let dEx ← halfBinF fl m.Ex
  let dEg ← halfBinF fl m.Eg
  pure { m with Ex := m.Ex.map fun e => fl (e - dEx), Eg := m.Eg.map fun e => fl (e - dEg) }

/-- `to_mid_bin` with rounding, ompy/matrix.py:858-863. -/
def Mat.toMidBinF (fl : ℚ → ℚ) (m : Mat) : Except Err Mat := do
  let dEx ← halfBinF fl m.Ex
  let dEg ← halfBinF fl m.Eg
  pure { m with Ex := m.Ex.map fun e => fl (e + dEx), Eg := m.Eg.map fun e => fl (e + dEg) }

/-- What `Matrix.plot` does to the axes of the matrix it draws, ompy/matrix.py:317-324. -/
def Mat.plotAxesF (fl : ℚ → ℚ) (m : Mat) : Except Err Mat := do
  let l ← m.toLowerBinF fl
  l.toMidBinF fl

/-- `find_limits` with rounding, ompy/pyrhosigchi.py:21-31: `imin`, `imax`, `igmin` and `u0`. -/
def findLimitsF (fl : ℚ → ℚ) (gain shift ExMin ExMax EgMin : ℚ) : ℤ × ℤ × ℤ × ℤ :=
  (⌈fl (fl (ExMin - shift) / gain)⌉, ⌊fl (fl (ExMax - shift) / gain)⌋ + 1, ⌈fl (fl (EgMin - shift) / gain)⌉,
    truncZ (fl (|fl (shift / gain)| + 1 / 2)))

end Ompy
