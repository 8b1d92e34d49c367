import Verif.Vector
import Mathlib.Analysis.SpecialFunctions.Log.Basic

/-!
# Normalisation of the gamma strength function

Model of `NormalizerGSF.normalize`, `extrapolate`, `Gg_before_norm`, `Gg_standard`, `fnld`, `fgsf`
(`ompy/normalizer_gsf.py`), of the extrapolation models and `NormalizationParameters.E_grid`
(`ompy/models.py`) and of `log_interp1d` (`ompy/library.py`).

Energies are rational numbers, values are real numbers. A value that the code leaves as `inf` or `nan`
is `none`; a result that depends on such a value is the error `undefined`. The spin sum and the level
density above the data are arbitrary functions of the energy.
-/

namespace Ompy

/-- A function given by points. `none` stands for a value that is `inf` or `nan`. -/
structure Curve where
  E : List ℚ
  v : List (Option ℝ)

/-- `np.log`, `none` for `log(0)`, `log` of a negative number and `log(inf)`. -/
noncomputable def logOf : Option ℝ → Option ℝ
  | some x => if 0 < x then some (Real.log x) else none
  | none => none

/-- The number of the interval `interp1d` uses for `e`: `searchsorted`, clipped to `1 … len-1`. -/
def interval (E : List ℚ) (e : ℚ) : ℕ := min (max (searchsorted E e false) 1) (E.length - 1)

/-- `log_interp1d(xx, yy)(e)` (`ompy/library.py` 294-299): linear interpolation of the logarithm,
`ValueError` outside of the points. If one of the two values used has no finite logarithm the result of
the code is `nan`, or 0 if only the upper value is 0; both are the error `undefined` here, as is a single
point. The points are in ascending order. -/
noncomputable def logInterp (c : Curve) (e : ℚ) : Except Err ℝ :=
  match c.E.head?, c.E.getLast? with
  | some a, some b =>
    if e < a ∨ b < e then .error .valueError
    else if c.E.length < 2 then .error .undefined
    else
      let i := interval c.E e
      match logOf (c.v.getD (i - 1) none), logOf (c.v.getD i none) with
      | some l, some h =>
        .ok (Real.exp (l + (h - l) / ((c.E.getD i 0 : ℚ) - (c.E.getD (i - 1) 0 : ℚ) : ℝ) *
          ((e : ℝ) - (c.E.getD (i - 1) 0 : ℚ))))
      | _, _ => .error .undefined
  | _, _ => .error .valueError

/-- `fgsf` (`ompy/normalizer_gsf.py` 614-640) at one energy: the data where there are data, the
extrapolations below and above. -/
noncomputable def fgsf (gsf low high : Curve) (e : ℚ) : Except Err ℝ :=
  match gsf.E.head?, gsf.E.getLast? with
  | some a, some b => if e < a then logInterp low e else if e ≤ b then logInterp gsf e else logInterp high e
  | _, _ => .error .indexError

/-- `fnld` (`ompy/normalizer_gsf.py` 585-612) at one energy. -/
noncomputable def fnld (nld : Curve) (model : ℚ → Except Err ℝ) (e : ℚ) : Except Err ℝ :=
  match nld.E.getLast? with
  | some b => if e ≤ b then logInterp nld e else model e
  | none => .error .indexError

/-- The parameters used for the width (`NormalizationParameters`, `ompy/models.py` 402-450). -/
structure GgPars where
  Emin : ℚ
  Sn : ℚ
  steps : ℕ
  D0 : ℝ × ℝ
  Gg : ℝ

/-- The integrand of `Gg_standard` at one gamma energy (`ompy/normalizer_gsf.py` 334-338). -/
noncomputable def ggTerm (Sn : ℚ) (gsf low high nld : Curve) (model S : ℚ → Except Err ℝ) (e : ℚ) :
    Except Err ℝ := do
  let g ← fgsf gsf low high e
  let n ← fnld nld model (Sn - e)
  let s ← S (Sn - e)
  pure ((e : ℝ) ^ 3 * g * n * s)

/-- `Gg_standard` (`ompy/normalizer_gsf.py` 327-347) with `E_grid` (`ompy/models.py` 464-478). With fewer
than two steps the step size is `nan`. -/
noncomputable def ggStandard (p : GgPars) (gsf low high nld : Curve) (model S : ℚ → Except Err ℝ) :
    Except Err ℝ := do
  if p.steps < 2 then .error .undefined
  else
    let terms ← (linspace p.Emin p.Sn p.steps).mapM (ggTerm p.Sn gsf low high nld model S)
    pure (terms.sum * (((p.Sn - p.Emin) / ((p.steps : ℚ) - 1) : ℚ) : ℝ) / 2 * p.D0.1 * 1000)

/-- An extrapolation model (`ompy/models.py` 145-191); `high` distinguishes the two classes. -/
structure ExtModel where
  high : Bool
  scale : ℝ
  shift : ℝ
  shiftAfter : Option ℝ
  Emin : Option ℚ
  Emax : Option ℚ
  steps : ℕ
  fitted : Bool

/-- `__model` of the two classes (`ompy/models.py` 321-344, 376-399); the upper one divides by the third
power of the energy. -/
noncomputable def ExtModel.value (m : ExtModel) (shift : ℝ) (e : ℚ) : Option ℝ :=
  if m.high then
    if e = 0 then none else some (Real.exp (m.scale * e + shift) / (e : ℝ) ^ 3)
  else some (Real.exp (m.scale * e + shift))

/-- `extrapolate` without energies (`ompy/models.py` 266-281) and `range` (193-195); `None` in
`np.linspace` is a `TypeError`. -/
noncomputable def ExtModel.extrapolate (m : ExtModel) (scaled : Bool) : Except Err Curve :=
  match m.Emin, m.Emax with
  | some a, some b =>
    let shift := if scaled then m.shiftAfter.getD m.shift else m.shift
    let E := linspace a b m.steps
    .ok ⟨E, E.map (m.value shift)⟩
  | _, _ => .error .typeError

/-- `norm_to_shift_after` (`ompy/models.py` 221-222); the logarithm of a number that is not positive is not
a number. -/
noncomputable def ExtModel.normToShiftAfter (m : ExtModel) (norm : ℝ) : Except Err ExtModel :=
  if 0 < norm then .ok { m with shiftAfter := some (m.shift + Real.log norm) } else .error .undefined

/-- `autorange` (`ompy/models.py` 300-305, 355-360) for a vector in MeV with the first energy `e0`. -/
def ExtModel.autorange (m : ExtModel) (e0 : ℚ) : ExtModel :=
  { m with
    Emin := some (m.Emin.getD 0)
    Emax := some (m.Emax.getD (if m.high then 20 else e0)) }

/-- `autofitrange` (`ompy/models.py` 307-319, 362-374) for a vector with the energies `E` in MeV: the two
energies are guessed only if they are not set. -/
def autofitrange (high : Bool) (fit : Option ℚ × Option ℚ) (E : List ℚ) : Except Err (ℚ × ℚ) :=
  let n := E.length
  let fraction := n / 6
  let guess (set : Option ℚ) (k : ℕ) : Except Err ℚ :=
    match set with
    | some x => .ok x
    | none => if n < 8 then .error .notImplemented else .ok (E.getD k 0)
  do
    let a ← guess fit.1 (if high then n - fraction - 2 else 2)
    let b ← guess fit.2 (if high then n - 2 else fraction + 2)
    pure (a, b)

/-- The energies `fit` hands to `curve_fit` (`ompy/models.py` 242-264) for a fit range; `index` is
`Vector.index`. -/
def fitPoints (index : ℚ → ℕ) (E : List ℚ) (r : ℚ × ℚ) : Except Err (List ℚ) :=
  if r.1 < r.2 then .ok ((E.take (index r.2 + 1)).drop (index r.1)) else .error .assertion

/-- The points of a vector. -/
def Vec.curve (v : Vec ℝ) : Curve := ⟨v.E, v.values.map some⟩

/-- The parts of a `NormalizerGSF` that matter here. -/
structure GsfNorm where
  low : ExtModel
  high : ExtModel
  gsf : Vec ℝ
  gsfLow : Curve
  gsfHigh : Curve

/-- `curve_fit` for both models if the *lower* model is to be fitted, with the results `fit`
(`ompy/normalizer_gsf.py` 243-246, `ompy/models.py` 224-264). The fit is an arbitrary function. -/
def fitModels (fit : Vec ℝ → ExtModel → Except Err (ℝ × ℝ)) (low high : ExtModel) (gsf : Vec ℝ) :
    Except Err (ExtModel × ExtModel) :=
  if low.fitted then do
    let l ← fit gsf low
    let h ← fit gsf high
    pure ({ low with scale := l.1, shift := l.2 }, { high with scale := h.1, shift := h.2 })
  else pure (low, high)

/-- Results of a normalisation: the state and `B` with its uncertainty. -/
structure GsfResult where
  norm : GsfNorm
  B : ℝ
  Bunc : ℝ

/-- `transform` over the real numbers. -/
noncomputable def oslo (v : Vec ℝ) (const alpha : ℝ) : Vec ℝ :=
  v.transform (fun q => (q : ℝ)) Real.exp const alpha

/-- `NormalizerGSF.normalize` from the copy of the strength function on (`ompy/normalizer_gsf.py`
193-222); `low` and `high` are the models of the object. -/
noncomputable def gsfNormalize (p : GgPars) (low high : ExtModel)
    (fit : Vec ℝ → ExtModel → Except Err (ℝ × ℝ)) (alpha : ℝ) (nld : Curve)
    (model S : ℚ → Except Err ℝ) (gsfIn : Vec ℝ) : Except Err GsfResult := do
  let inMeV ← gsfIn.toMeV
  let gsf := oslo inMeV 1 alpha
  match gsf.E.head? with
  | none => .error .indexError
  | some e0 =>
    let (l, h) ← fitModels fit (low.autorange e0) (high.autorange e0) gsf
    let cl ← l.extrapolate false
    let ch ← h.extrapolate false
    let G ← ggStandard p gsf.curve cl ch nld model S
    if G = 0 ∨ p.D0.1 = 0 then .error .undefined
    else
      let B := p.Gg / G
      let l' ← l.normToShiftAfter B
      let h' ← h.normToShiftAfter B
      pure ⟨⟨l', h', oslo gsf B 0, cl, ch⟩, B, B * p.D0.2 / p.D0.1⟩

/-- The width computed from the results of a normalisation: the normalised data and the extrapolations
as `res.gsf_model_low.extrapolate()` and `res.gsf_model_high.extrapolate()` give them. -/
noncomputable def GsfResult.width (r : GsfResult) (p : GgPars) (nld : Curve) (model S : ℚ → Except Err ℝ) :
    Except Err ℝ := do
  let cl ← r.norm.low.extrapolate true
  let ch ← r.norm.high.extrapolate true
  ggStandard p r.norm.gsf.curve cl ch nld model S

/-- `Gg_before_norm()` (`ompy/normalizer_gsf.py` 255-267) called on the normaliser after `normalize`: it
uses `self._gsf`, by now normalised, and `self._gsf_low`, `self._gsf_high`, which were not changed. -/
noncomputable def GsfResult.ggAgain (r : GsfResult) (p : GgPars) (nld : Curve)
    (model S : ℚ → Except Err ℝ) : Except Err ℝ :=
  ggStandard p r.norm.gsf.curve r.norm.gsfLow r.norm.gsfHigh nld model S

/-- `Gg_before_norm` as a function of the method: a `NotImplementedError` is made but not raised for
other methods, so that the result is `None`. -/
noncomputable def ggBeforeNorm (method : String) (standard : Except Err ℝ) : Except Err (Option ℝ) :=
  if method = "standard" then standard.map some else .ok none

end Ompy
