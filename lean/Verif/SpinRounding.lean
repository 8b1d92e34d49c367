import Verif.Spin
import Verif.SumRounding

/-!
# Spin distribution, D0 and the level density at Sn with rounded numbers

`fl` rounds the result of every operation, `ex` is the computed exponential function.  Overflow and underflow are left out.
-/

namespace Ompy

/-- `distribution` for one spin-cut and one spin with rounding, ompy/spinfunctions.py:65-67. `np.power(x, 2.)` is the rounded
square; division by 0 is `inf` or `nan`. -/
def spinDistF (fl ex : ℚ → ℚ) (sigma2 J : ℚ) : Except Err ℚ :=
  if fl (2 * sigma2) = 0 then .error .undefined
  else .ok (fl (fl (fl (fl (2 * J) + 1) / fl (2 * sigma2)) * ex (fl (-fl (fl (J + 1 / 2) ^ 2) / fl (2 * sigma2)))))

/-- `summe` with rounding, ompy/normalizer_nld.py:573-576, 617-620. -/
def halfSumF (fl : ℚ → ℚ) (g : ℚ → Except Err ℚ) (Jt : ℚ) : Except Err ℚ :=
  if Jt = 0 then do
    let a ← g (fl (Jt + 1 / 2))
    pure (fl (1 / 2 * a))
  else do
    let a ← g (fl (Jt - 1 / 2))
    let b ← g (fl (Jt + 1 / 2))
    pure (fl (1 / 2 * fl (a + b)))

/-- `1 / x` with rounding; numpy's infinity for 0 is an error (ompy/normalizer_nld.py:578, 622). -/
def recipF (fl : ℚ → ℚ) (x : ℚ) : Except Err ℚ := if x = 0 then .error .undefined else .ok (fl (1 / x))

/-- `nldSn_from_D0(…)[1]` with rounding, ompy/normalizer_nld.py:565-579; `1e-6` is itself a rounded number. -/
def nldSnF (fl : ℚ → ℚ) (g : ℚ → Except Err ℚ) (D0 Jt : ℚ) : Except Err ℚ := do
  let s ← halfSumF fl g Jt
  recipF fl (fl (fl (s * D0) * fl (1 / 1000000)))

/-- `D0_from_nldSn` with rounding, ompy/normalizer_nld.py:609-623; `nld` is the value of the model at Sn. -/
def spacingF (fl : ℚ → ℚ) (g : ℚ → Except Err ℚ) (nld Jt : ℚ) : Except Err ℚ := do
  let s ← halfSumF fl g Jt
  recipF fl (fl (fl (s * nld) * fl (1 / 1000000)))

/-- `SpinSum` with rounding and without the cache, ompy/normalizer_gsf.py:384-399; the spins themselves, multiples of 1/2, are
exact. -/
def spinSumF (fl : ℚ → ℚ) (g : ℚ → ℚ) (J L : ℚ) : Except Err ℚ :=
  if ¬ (0 ≤ J ∧ 0 ≤ L) then .error .assertion
  else .ok (loopSum fl ((spinPairs J L).map fun p => g p.2))

end Ompy
