import Verif.Vector
import Mathlib.Analysis.SpecialFunctions.Log.Basic

/-!
# The likelihood of the level density normalisation

Model of `Vector.error` (`ompy/vector.py`), `NormalizerNLD.lnlike` and
`NormalizerNLD.const_temperature` (`ompy/normalizer_nld.py`) over the real numbers.  A number that the
code leaves as `inf` or `nan` is the error `undefined`.
-/

namespace Ompy

/-- `div0` for one pair of numbers of two arrays (`ompy/library.py` 10-23): every quotient that is not
finite becomes 0. -/
noncomputable def div0R (a b : ℝ) : ℝ := if b = 0 then 0 else a / b

/-- `has_equal_binning` of two vectors as a test (`ompy/vector.py` 537-559); `close` is the elementwise
comparison of `np.allclose`. -/
def sameBins (close : ℚ → ℚ → Bool) (v w : Vec ℝ) : Bool :=
  v.values.length == w.values.length && v.E.length == w.E.length &&
    (List.zipWith close v.E w.E).all id

/-- `Vector.error` of two vectors (`ompy/vector.py` 299-333); `std` has the shape of the vector. -/
noncomputable def Vec.error (close : ℚ → ℚ → Bool) (v other : Vec ℝ) (std : Option (List ℝ)) :
    Except Err ℝ :=
  if sameBins close v other then
    let sq := List.zipWith (fun a b : ℝ => (a - b) ^ 2) v.values other.values
    match v.std, std with
    | some s, some t =>
      .ok (List.zipWith div0R sq (List.zipWith (fun a b : ℝ => a ^ 2 + b ^ 2) s t)).sum
    | some s, none => .ok (List.zipWith div0R sq (s.map fun a : ℝ => a ^ 2)).sum
    | none, some t => .ok (List.zipWith div0R sq (t.map fun a : ℝ => a ^ 2)).sum
    | none, none => .ok (sq.map fun a => div0R a 1).sum
  else .error .valueError

/-- `const_temperature` at one energy (`ompy/normalizer_nld.py` 525-529). -/
noncomputable def constTemperature (e : ℚ) (T Eshift : ℝ) : Except Err ℝ :=
  if T = 0 then .error .undefined else .ok (Real.exp (((e : ℝ) - Eshift) / T) / T)

open Classical in
/-- `np.log(std).sum()` (`ompy/normalizer_nld.py` 520-521): `np.log(None)` is a `TypeError`; 0 and
negative numbers have no finite logarithm. -/
noncomputable def logStds : Option (List ℝ) → Except Err ℝ
  | none => .error .typeError
  | some s => if ∀ x ∈ s, 0 < x then .ok (s.map Real.log).sum else .error .undefined

/-- The data `lnlike` gets as `args` (`ompy/normalizer_nld.py` 272-273). -/
structure NldArgs where
  low : Vec ℝ
  high : Vec ℝ
  discrete : Vec ℝ
  model : ℚ → ℝ → ℝ → Except Err ℝ
  Sn : ℚ
  nldSn : ℝ × ℝ

/-- `lnlike` (`ompy/normalizer_nld.py` 484-523). -/
noncomputable def nldLnlike (close : ℚ → ℚ → Bool) (a : NldArgs) (A alpha T Eshift : ℝ) :
    Except Err ℝ := do
  let low := a.low.transform (fun q : ℚ => (q : ℝ)) Real.exp A alpha
  let high := a.high.transform (fun q : ℚ => (q : ℝ)) Real.exp A alpha
  let errLow ← low.error close a.discrete none
  let expected ← high.E.mapM fun e => a.model e T Eshift
  let errHigh ← high.error close ⟨high.E, expected, none, "keV"⟩ none
  let atSn ← a.model a.Sn T Eshift
  if a.nldSn.2 = 0 then throw .undefined
  let errSn := ((a.nldSn.1 - atSn) / a.nldSn.2) ^ 2
  let lnLow ← logStds low.std
  let lnHigh ← logStds high.std
  pure (-(1 / 2) * (errLow + errHigh + errSn + (lnLow + lnHigh)))

end Ompy
