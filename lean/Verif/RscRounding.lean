import Verif.RscErrors
import Verif.Rounding

/-!
# Model of the axes of `rhosigchi` in floating point (ompy/pyrhosigchi.py:297-319)

Every operation on energies is followed by a rounding `fl`; `dbl` (`Verif.Rounding`) is that of IEEE double precision.
-/

namespace Ompy

/-- `np.arange(start, stop, step)` of numpy for floating-point numbers and a positive step: the length is the rounded
quotient, rounded up; the second element is `start + step`, and its rounded distance from the first is the step of all
others. -/
def arangeF (fl : ℚ → ℚ) (start stop step : ℚ) : List ℚ :=
  (List.range ⌈fl (fl (stop - start) / step)⌉.toNat).map fun k : ℕ =>
    if k = 0 then start
    else if k = 1 then fl (start + step)
    else fl (start + fl ((k : ℚ) * fl (fl (start + step) - start)))

/-- `a1`, `aEx0`, `a0`, ompy/pyrhosigchi.py:299-301. -/
def rscCalibF (fl : ℚ → ℚ) (Ex : List ℚ) (extend : ℚ) : Except Err (ℚ × ℚ) :=
  match Ex with
  | e0 :: e1 :: _ =>
    let a1 := fl (e1 - e0)
    if a1 = 0 then .error .undefined
    else
      let q := fl (e0 / a1)
      let a0 := fl (fl (q - (truncZ q : ℚ)) * a1)
      .ok (a1, fl (a0 - fl ((truncZ (fl (fl (extend / a1) + 1 / 2)) : ℚ) * a1)))
  | _ => .error .indexError

/-- The axes the two matrices are rebinned to, ompy/pyrhosigchi.py:304-309.  The second line reads `first_gen.Ex[-1]` after
`first_gen` has been rebinned; rebinning reads the first two bins (ompy/rebin.pyx:66). -/
def rscAxesF (fl : ℚ → ℚ) (Ex : List ℚ) (extend : ℚ) : Except Err (List ℚ × List ℚ) :=
  match rscCalibF fl Ex extend with
  | .error e => .error e
  | .ok c =>
    let first := arangeF fl c.2 (fl (Ex.getD (Ex.length - 1) 0 + c.1)) c.1
    if first.length < 2 then .error .indexError
    else .ok (first, arangeF fl c.2 (fl (first.getD (first.length - 1) 0 + c.1)) c.1)

/-- `int((E - a0)/a1 + 0.5)`, ompy/pyrhosigchi.py:311-313. -/
def rscIndexF (fl : ℚ → ℚ) (a0 a1 E : ℚ) : ℤ := truncZ (fl (fl (fl (E - a0) / a1) + 1 / 2))

/-- `int(abs(a0/a1) + 0.5)`, ompy/pyrhosigchi.py:319. -/
def rscOffsetF (fl : ℚ → ℚ) (a0 a1 : ℚ) : ℤ := truncZ (fl (|fl (a0 / a1)| + 1 / 2))

/-- The perturbed spectra, ompy/pyrhosigchi.py:344-347, with the shapes of the arrays: numpy refuses to multiply arrays of
different shapes.  (Arrays with a single row or column, which would be repeated, cannot occur: `Ex[1]` has been read.) -/
def rscPerturbE (mat std : List (List ℚ)) (z : ℕ → ℕ → ℚ) : Except Err (List (List ℚ)) :=
  if mat.length = std.length then .ok (rscPerturb mat std z) else .error .valueError

/-- `pyrhosigchi` from the normalisation on, ompy/pyrhosigchi.py:321-382, as `rscFit` but with the test of the shapes. -/
noncomputable def rscFitE {S : Type} (fit : List (List ℚ) → List ℚ → Except Err (List ℚ × List ℚ)) (next : S → (ℕ → ℕ → ℚ) × S)
    (mat std : List (List ℚ)) (l : RscLims) (nunc : ℕ) (g : S) : Except Err (RscOut × S) := do
  let base ← rscRun fit mat std l
  let rs ← rscRuns next (fun z => (rscPerturbE mat std z).bind fun p => rscRun fit p std l) nunc g
  let e1 ← rmsDev base.1 (rs.1.map Prod.fst)
  let e2 ← rmsDev base.2 (rs.1.map Prod.snd)
  let out ← rscVectors base e1 e2 l
  pure (out, rs.2)

end Ompy
