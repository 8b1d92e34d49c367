import Verif.SumRounding
import Verif.TransformRounding

/-!
# Model of the radiative width in floating point

`Gg_standard`, the factor `B_norm` and `lnlike` of ompy/normalizer_gsf.py with a rounding `fl` after every operation.
Strength function, level density and spin sum are arbitrary functions: the numbers the computer gets for them.  How
`np.power(Eg, 3)` is computed and in which order `np.sum` adds are parameters.  Overflow and underflow are left out.
-/

namespace Ompy

/-- The parameters of the width, ompy/models.py:402-450. -/
structure WidthPars where
  Emin : ℚ
  Sn : ℚ
  steps : ℕ
  D0 : ℚ
  Gg : ℚ × ℚ

/-- The integrand at one gamma energy, ompy/normalizer_gsf.py:335-337. -/
def widthTermF (fl cube : ℚ → ℚ) (Sn : ℚ) (gsf nld spin : ℚ → ℚ) (e : ℚ) : ℚ :=
  fl (fl (fl (cube e * gsf e) * nld (fl (Sn - e))) * spin (fl (Sn - e)))

/-- The step size that `np.linspace` returns, ompy/models.py:476-477. -/
def widthStepF (fl : ℚ → ℚ) (p : WidthPars) : ℚ := fl (fl (p.Sn - p.Emin) / ((p.steps : ℚ) - 1))

/-- `Gg_standard`, ompy/normalizer_gsf.py:327-347. With fewer than two steps the step size is `nan`. -/
def ggWidthF (fl cube : ℚ → ℚ) (sum : List ℚ → ℚ) (p : WidthPars) (gsf nld spin : ℚ → ℚ) : Except Err ℚ :=
  if p.steps < 2 then .error .undefined
  else
    let terms := (linspaceF fl p.Emin p.Sn p.steps).map (widthTermF fl cube p.Sn gsf nld spin)
    let integral := fl (sum terms * widthStepF fl p)
    let integral := fl (integral / 2)
    .ok (fl (fl (integral * p.D0) * 1000))

/-- `B_norm`, ompy/normalizer_gsf.py:204. A width of 0 gives `inf` or `nan`. -/
def bNormF (fl : ℚ → ℚ) (p : WidthPars) (w : ℚ) : Except Err ℚ :=
  if w = 0 then .error .undefined else .ok (fl (p.Gg.1 / w))

/-- `lnlike`, ompy/normalizer_gsf.py:573-579, for the computed width `w`. -/
def widthLnlikeF (fl : ℚ → ℚ) (p : WidthPars) (w : ℚ) : Except Err ℚ :=
  if p.Gg.2 = 0 then .error .undefined
  else
    let chi2 := fl (fl (w - p.Gg.1) / p.Gg.2)
    let chi2 := fl (chi2 ^ 2)
    .ok (fl (-(1 / 2) * chi2))

end Ompy
