import Verif.Stats
import Verif.GsfNorm

/-!
# Model of the extrapolations of the samples, ompy/ensembleNormalizer.py:543-627

`plot_nld_ext_stats` and `plot_gsf_ext_stats` with `NormalizerGSF.extrapolate` (ompy/normalizer_gsf.py:224-253) called for
one sample after the other.  The two model functions and `curve_fit` are arbitrary functions; a value `none` is NaN.
-/

namespace Ompy

/-- The attributes of an extrapolation model that `extrapolate` uses, ompy/models.py:168-191. -/
structure ExtM where
  high : Bool
  fitted : Bool
  scale : ℚ
  shift : ℚ
  efit : Option ℚ × Option ℚ
  deriving DecidableEq

/-- `curve_fit` on a vector in a range: `scale` and `shift`; the flag tells the model function. -/
abbrev FitFun := Bool → NVec → ℚ × ℚ → Except Err (ℚ × ℚ)

/-- The energies of a vector with numbers only. -/
def energiesOf (v : NVec) : List ℚ := v.E.map fun e => e.getD 0

/-- `AbstractExtrapolationModel.fit`, ompy/models.py:224-264, for a vector in MeV: the range is guessed where it is not set and
kept, the range must not be empty. -/
def ExtM.fit (F : FitFun) (m : ExtM) (gsf : NVec) : Except Err ExtM := do
  let r ← autofitrange m.high m.efit (energiesOf gsf)
  if r.1 < r.2 then
    let p ← F m.high gsf r
    pure { m with efit := (some r.1, some r.2), scale := p.1, shift := p.2 }
  else .error .assertion

/-- The values of a model at given energies, ompy/models.py:266-281 with `scaled=False` and `E` given. -/
def ExtM.at (M : Bool → ℚ → ℚ → ℚ → Option ℚ) (m : ExtM) (E : List ℚ) : List (Option ℚ) :=
  E.map fun e => M m.high e m.scale m.shift

/-- Lines 243-246 of ompy/normalizer_gsf.py: both models are fitted if the *lower* one is to be fitted. -/
def fitBoth (F : FitFun) (ms : ExtM × ExtM) (gsf : NVec) : Except Err (ExtM × ExtM) :=
  if ms.1.fitted then do
    let l ← ms.1.fit F gsf
    let h ← ms.2.fit F gsf
    pure (l, h)
  else .ok ms

/-- `to_values` for one sample, ompy/ensembleNormalizer.py:602-606: the models afterwards and the two rows. -/
def extRow (F : FitFun) (M : Bool → ℚ → ℚ → ℚ → Option ℚ) (xlow xhigh : List ℚ) (ms : ExtM × ExtM) (gsf : NVec) :
    Except Err ((ExtM × ExtM) × (List (Option ℚ) × List (Option ℚ))) :=
  (fitBoth F ms gsf).map fun ms' => (ms', (ms'.1.at M xlow, ms'.2.at M xhigh))

/-- The rows of all samples, ompy/ensembleNormalizer.py:609-614. -/
def extRows (F : FitFun) (M : Bool → ℚ → ℚ → ℚ → Option ℚ) (xlow xhigh : List ℚ) :
    ExtM × ExtM → List NVec → Except Err ((ExtM × ExtM) × List (List (Option ℚ) × List (Option ℚ)))
  | ms, [] => .ok (ms, [])
  | ms, g :: gs =>
    match extRow F M xlow xhigh ms g with
    | .error e => .error e
    | .ok (ms', r) => (extRows F M xlow xhigh ms' gs).map fun p => (p.1, r :: p.2)

/-- `plot_gsf_ext_stats`, ompy/ensembleNormalizer.py:577-627: statistics of the lower and of the upper extrapolation. -/
def gsfExtStats (F : FitFun) (M : Bool → ℚ → ℚ → ℚ → Option ℚ) (xlow xhigh : List ℚ) (ms : ExtM × ExtM)
    (samples : List NVec) (pl ph : ℚ) : Except Err (List StatRow × List StatRow) :=
  if xlow.length = xhigh.length then do
    let r ← extRows F M xlow xhigh ms samples
    let lo ← statsFromRows (r.2.map Prod.fst) xlow.length pl ph
    let hi ← statsFromRows (r.2.map Prod.snd) xhigh.length pl ph
    pure (lo, hi)
  else .error .assertion

/-- `plot_nld_ext_stats`, ompy/ensembleNormalizer.py:543-575: the level density model at the energies `x` with the parameters of
every sample. -/
def nldExtStats (model : ℚ → ℚ → ℚ → Option ℚ) (x : List ℚ) (samples : List (ℚ × ℚ)) (pl ph : ℚ) :
    Except Err (List StatRow) :=
  statsFromRows (samples.map fun s => x.map fun e => model e s.1 s.2) x.length pl ph

end Ompy
