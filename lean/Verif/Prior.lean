import Mathlib.MeasureTheory.Integral.IntervalIntegral.FundThmCalculus
import Mathlib.Analysis.SpecialFunctions.Pow.Real
import Mathlib.Analysis.SpecialFunctions.Log.Base
import Verif.Basic

/-!
# The prior of the normalisation fit

Model of `src/erfinv.hpp`, `src/stats.cpp` and of the prior transformations in
`NormalizerNLD.optimize` (`ompy/normalizer_nld.py`) and `NormalizerSimultan.optimize`
(`ompy/normalizer_simultan.py`) in exact arithmetic.  `erf` of the C library is the error function; its
limits at infinity are values of `EReal`.
-/

namespace Ompy

/-- The error function, `erf` of the C library. -/
noncomputable def erf (x : ℝ) : ℝ := 2 / √Real.pi * ∫ t in (0 : ℝ)..x, Real.exp (-t ^ 2)

/-- `erf` with its limits. -/
noncomputable def erfE : EReal → ℝ
  | ⊥ => -1
  | ⊤ => 1
  | (x : ℝ) => erf x

/-- The starting value for `0 ≤ x ≤ 0.7` (`src/erfinv.hpp` 62-66). -/
noncomputable def erfinvCentral (x : ℝ) : ℝ :=
  let x2 := x * x
  x * (((-0.140543331 * x2 + 0.914624893) * x2 + -1.645349621) * x2 + 0.886226899) /
    ((((0.012229801 * x2 + -0.329097515) * x2 + 1.442710462) * x2 + -2.118377725) * x2 + 1)

/-- The starting value for `0.7 < x < 1` (`src/erfinv.hpp` 68-70). -/
noncomputable def erfinvTail (x : ℝ) : ℝ :=
  let y := √(-Real.log ((1 - x) / 2))
  (((1.641345311 * y + 3.429567803) * y + -1.62490649) * y + -1.970840454) /
    ((1.637067800 * y + 3.543889200) * y + 1)

/-- One Newton step (`src/erfinv.hpp` 76, 77). -/
noncomputable def erfinvStep (x r : ℝ) : ℝ :=
  r - (erf r - x) / (2 / √Real.pi * Real.exp (-r * r))

/-- `erfinv` (`src/erfinv.hpp` 49-80). -/
noncomputable def erfinv (x : ℝ) : EReal :=
  if x ≤ -1 then ⊥
  else if 1 ≤ x then ⊤
  else
    let sign : ℝ := if x < 0 then -1 else 1
    let z := |x|
    let r := if z ≤ 0.7 then erfinvCentral z else erfinvTail z
    ((erfinvStep (z * sign) (erfinvStep (z * sign) (r * sign)) : ℝ) : EReal)

/-- `normal_ppf` (`src/stats.cpp` 13-16). -/
noncomputable def normalPpf (x : ℝ) : EReal := (√2 : ℝ) * erfinv (2 * x - 1)

/-- `truncnorm_ppf` (`src/stats.cpp` 19-24). -/
noncomputable def truncnormPpf (x : ℝ) (alpha beta : EReal) : EReal :=
  let a := 1 / 2 * (1 + erfE (alpha / (√2 : ℝ)))
  let b := 1 / 2 * (1 + erfE (beta / (√2 : ℝ)))
  (√2 : ℝ) * erfinv (2 * (x * (b - a) + a) - 1)

/-- The guess of the differential evolution. -/
structure NldGuess where
  A : ℝ
  alpha : ℝ
  T : ℝ
  Eshift : ℝ

/-- The prior for `A`, and for `B` (`ompy/normalizer_nld.py` 326-332, 342 and
`ompy/normalizer_simultan.py` 256-271, 276, 288). A guess of 0 gives `nan`. -/
noncomputable def priorScale (g c : ℝ) : Except Err EReal :=
  if g = 0 then .error .undefined
  else
    let mu := g
    let sigma := 10 * g
    let a : EReal := (((0 - mu) / sigma : ℝ) : EReal)
    let b : EReal := if 0 < sigma then ⊤ else ⊥
    .ok (truncnormPpf c a b * ((sigma : ℝ) : EReal) + ((mu : ℝ) : EReal))

/-- The prior for `alpha` and `T` (`ompy/normalizer_nld.py` 319, 324, 345, 348). `10 ** (-inf)` is 0. -/
noncomputable def priorLog (g c : ℝ) : ℝ :=
  if g = 0 then 0 else (10 : ℝ) ^ (c * 2 + (Real.logb 10 g - 1))

/-- The prior for `Eshift` (`ompy/normalizer_nld.py` 334-337, 350-351). -/
noncomputable def priorShift (c : ℝ) : EReal :=
  truncnormPpf c ((((-5 - 0) / 5 : ℝ)) : EReal) ((((5 - 0) / 5 : ℝ)) : EReal) * ((5 : ℝ) : EReal) + ((0 : ℝ) : EReal)

/-- `prior` for a guess (`ompy/normalizer_nld.py` 316-354). -/
noncomputable def nldPrior (g : NldGuess) (c : ℝ × ℝ × ℝ × ℝ) :
    Except Err (EReal × ℝ × ℝ × EReal) :=
  if g.alpha < 0 then .error .notImplemented
  else if g.T < 0 then .error .valueError
  else do
    let A ← priorScale g.A c.1
    .ok (A, priorLog g.alpha c.2.1, priorLog g.T c.2.2.1, priorShift c.2.2.2)

/-- The names the differential evolution's numbers get, and the order in which its bounds are taken
(`ompy/normalizer_nld.py` 254, 280): the names in a fixed order, the bounds in that of the dictionary. -/
def deNames : List String := ["A", "alpha", "T", "Eshift"]

/-- `initial_guess` with an optimiser that returns a point for a list of bounds. -/
def initialGuess (opt : List (ℝ × ℝ) → List ℝ) (bounds : List (String × (ℝ × ℝ))) : List (String × ℝ) :=
  deNames.zip (opt (bounds.map Prod.snd))

end Ompy
