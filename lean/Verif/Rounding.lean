import Verif.DecomposeFit
import Mathlib.Data.Int.Log

/-!
# Model of the extraction in floating point

The other files compute with exact numbers.  Here the operations on the energies in `Extractor.decompose`
(ompy/extractor.py:362-373), `constraining_counts` (556-574) and `nld_T_product` / `_index`
(ompy/decomposition.pyx:17-105) are written down with a rounding `fl` after every operation.  `fl` is a parameter;
`dbl` is the rounding of IEEE double precision.  Values of `nld` and `T` stay exact.
-/

namespace Ompy

/-- The double nearest to `q` (ties to even) with 53 binary digits.  Exponents are not bounded: overflow and numbers
below the smallest normal double are left out. -/
def dbl (q : ℚ) : ℚ :=
  if q = 0 then 0
  else (roundHalfEven (q / (2 : ℚ) ^ (Int.log 2 |q| - 52)) : ℚ) * (2 : ℚ) ^ (Int.log 2 |q| - 52)

/-- `np.linspace(a, b, n)` with rounding: `arange(n)*step + a`, and the last element is set to `b`. -/
def linspaceF (fl : ℚ → ℚ) (a b : ℚ) (n : ℕ) : List ℚ :=
  if n = 1 then [a]
  else (List.range n).map fun k : ℕ =>
    if k + 1 = n then b else fl (fl (fl (fl (b - a) / ((n : ℚ) - 1)) * (k : ℚ)) + a)

/-- The number of bins of the level density, `int(np.ceil((Emax-Emin)/bin_width))+1`, ompy/extractor.py:373. -/
def binsF (fl : ℚ → ℚ) (emin emax width : ℚ) : ℤ :=
  truncZ (⌈fl (fl (emax - emin) / width)⌉ : ℤ) + 1

/-- The final-energy axis with rounding, ompy/extractor.py:362-373.  `close` is `np.isclose`. -/
def eNldF (fl : ℚ → ℚ) (close : ℚ → ℚ → Bool) (Ex Eg : List ℚ) : Except Err (List ℚ) :=
  if Ex.length < 2 ∨ Eg.length < 2 then .error .indexError
  else
    let dEx := fl (Ex.getD 1 0 - Ex.getD 0 0)
    let dEg := fl (Eg.getD 1 0 - Eg.getD 0 0)
    if !close dEx dEg then .error .assertion
    else if dEx = 0 then .error .undefined
    else do
      let exMin ← listMin Ex
      let egMax ← listMax Eg
      let exMax ← listMax Ex
      let egMin ← listMin Eg
      let emin := fl (exMin - egMax)
      let emax := fl (exMax - egMin)
      if binsF fl emin emax dEx < 0 then .error .valueError
      else .ok (linspaceF fl emin emax (binsF fl emin emax dEx).toNat)

/-- The fit and its result along a given axis of the level density, ompy/extractor.py:375-429; `fitPart` is this
along the axis of exact arithmetic. -/
noncomputable def fitAlong (e : FitEnv) (v s : List (List ℝ)) (Eg Ex E : List ℚ) : Except Err FitOut :=
  let res := e.resolution Eg Ex
  let x0 := e.start E v
  if x0.length ≠ E.length + Eg.length then .error .assertion
  else do
    let x := e.minimize (errfun v s res E Eg Ex) x0
    let counts := countsV v Eg Ex res
    let T ← maskNaN (x.take Eg.length) counts.2
    let nld ← maskNaN (x.drop Eg.length) counts.1
    let P ← nldTProduct (nld.map fun q => q.getD 0) (T.map fun q => q.getD 0) res E Eg Ex
    pure ⟨E, nld, gsfOf T Eg, P⟩

/-- The loop of `_index` with rounding, ompy/decomposition.pyx:97-105. -/
def indexLoopF (fl : ℚ → ℚ) (e prev : ℚ) (i : ℕ) : List ℚ → ℕ
  | [] => i - 1
  | a :: as =>
    let d := fl (fl (a - e) ^ 2)
    if d > prev then i - 1 else indexLoopF fl e d (i + 1) as

/-- `_index` with rounding, ompy/decomposition.pyx:82-105. -/
def indexF (fl : ℚ → ℚ) (array : List ℚ) (e : ℚ) : ℕ :=
  match array with
  | [] => 0
  | a :: as => indexLoopF fl e (fl (fl (a - e) ^ 2)) 1 as

/-- `Eg_max = Ex[i_Ex] + resolution[i_Ex] + halfbin` with rounding, ompy/decomposition.pyx:48, 66 and
ompy/extractor.py:561-562. -/
def cutF (fl : ℚ → ℚ) (res Eg Ex : List ℚ) (i : ℕ) : ℚ :=
  fl (fl (Ex.getD i 0 + res.getD i 0) + fl (fl (Eg.getD 1 0 - Eg.getD 0 0) / 2))

variable {α : Type} [Field α]

/-- The `while` loop of one row with rounding, ompy/decomposition.pyx:66-72. -/
def rowLoopF (fl : ℚ → ℚ) (nld T : List α) (Enld : List ℚ) (ex egMax : ℚ) (j : ℕ) : List ℚ → List α
  | [] => []
  | g :: gs =>
    if g ≤ egMax then
      nld.getD (indexF fl Enld (fl (ex - g))) 0 * T.getD j 0 :: rowLoopF fl nld T Enld ex egMax (j + 1) gs
    else List.replicate (gs.length + 1) 0

/-- The product before normalisation with rounding, ompy/decomposition.pyx:64-72. -/
def rawProductF (fl : ℚ → ℚ) (nld T : List α) (res Enld Eg Ex : List ℚ) : List (List α) :=
  (List.range Ex.length).map fun i : ℕ => rowLoopF fl nld T Enld (Ex.getD i 0) (cutF fl res Eg Ex i) 0 Eg

end Ompy
