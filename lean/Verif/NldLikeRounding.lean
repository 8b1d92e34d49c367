import Verif.ErrorRounding

/-!
# The likelihood of the level density normalisation with rounded numbers

`fl` rounds the result of every operation, `ex` and `lg` are the exponential function and the logarithm of the
computer, `sum` adds the entries of an array.  The two parts of the level density are taken after `transform`
(C122), and their standard deviations are there: without them `np.log` fails (C64).
-/

namespace Ompy

/-- `const_temperature` at one energy with rounding, ompy/normalizer_nld.py:525-529; a temperature of 0 leaves `inf` or `nan`. -/
def constTemperatureF (fl ex : ℚ → ℚ) (T Eshift e : ℚ) : Except Err ℚ :=
  if T = 0 then .error .undefined else .ok (fl (ex (fl (fl (e - Eshift) / T)) / T))

/-- `err_nldSn` with rounding, ompy/normalizer_nld.py:518; an uncertainty of 0 leaves `inf` or `nan`. -/
def errSnF (fl : ℚ → ℚ) (nldSn std model : ℚ) : Except Err ℚ :=
  if std = 0 then .error .undefined else .ok (fl (fl (fl (nldSn - model) / std) * fl (fl (nldSn - model) / std)))

/-- `np.log(std).sum()` with rounding, ompy/normalizer_nld.py:520-521; 0 and negative numbers have no finite logarithm. -/
def logStdsF (lg : ℚ → ℚ) (sum : List ℚ → ℚ) (s : List ℚ) : Except Err ℚ :=
  if ∀ x ∈ s, 0 < x then .ok (sum (s.map lg)) else .error .undefined

/-- The returned number with rounding, ompy/normalizer_nld.py:520-523: the two logarithms are added first, then the four terms from the left. -/
def lnlikeSumF (fl : ℚ → ℚ) (errLow errHigh errSn lnLow lnHigh : ℚ) : ℚ :=
  fl (-(1 / 2) * fl (fl (fl (errLow + errHigh) + errSn) + fl (lnLow + lnHigh)))

/-- `lnlike` after the two calls of `transform` with rounding and the model `const_temperature`, ompy/normalizer_nld.py:511-523;
`sLow` and `sHigh` are the transformed standard deviations. -/
def nldLnlikeF (fl ex lg : ℚ → ℚ) (sum : List ℚ → ℚ) (close : ℚ → ℚ → Bool) (eLow vLow sLow eHigh vHigh sHigh : List ℚ) (discrete : Vec ℚ)
    (Sn nldSn stdSn T Eshift : ℚ) : Except Err ℚ := do
  let errLow ← Vec.errorF fl sum close ⟨eLow, vLow, some sLow, "MeV"⟩ discrete none
  let expected ← eHigh.mapM (constTemperatureF fl ex T Eshift)
  let errHigh ← Vec.errorF fl sum close ⟨eHigh, vHigh, some sHigh, "MeV"⟩ ⟨eHigh, expected, none, "MeV"⟩ none
  let atSn ← constTemperatureF fl ex T Eshift Sn
  let errSn ← errSnF fl nldSn stdSn atSn
  let lnLow ← logStdsF lg sum sLow
  let lnHigh ← logStdsF lg sum sHigh
  pure (lnlikeSumF fl errLow errHigh errSn lnLow lnHigh)

end Ompy
