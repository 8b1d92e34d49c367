import Verif.GsfNorm
import Verif.NldLike
import Verif.Spin

/-!
# Simultaneous normalisation

Model of `NormalizerSimultan.lnlike`, `optimize`, `initial_guess` and `normalize`
(`ompy/normalizer_simultan.py`) around the likelihoods of the two normalisers.  The nested sampling is an
arbitrary choice of the points at which the likelihood is computed and of the parameters it reports.
-/

namespace Ompy

/-- The parameters in the order of the sampling. -/
structure SimPoint where
  A : ℝ
  alpha : ℝ
  T : ℝ
  Eshift : ℝ
  B : ℝ

/-- What does not change during the sampling: the data for `NormalizerNLD.lnlike`, the level density, its model
above the data, `Sn`, `Jtarget` and the spin distribution at `Sn` of `normalizer_nld`; the fit of the
extrapolations and the spin sum of `normalizer_gsf`. -/
structure SimEnv where
  close : ℚ → ℚ → Bool
  args : NldArgs
  nld : Vec ℝ
  model : ℚ → ℝ → ℝ → Except Err ℝ
  Sn : ℚ
  g : ℝ → Except Err ℝ
  Jtarget : ℝ
  fit : Vec ℝ → ExtModel → Except Err (ℝ × ℝ)
  S : ℚ → Except Err ℝ

/-- The attributes of `normalizer_gsf` that `lnlike` uses or sets. `sigmaGg` is `norm_pars.Gg[1]`. -/
structure SimGsf where
  pars : GgPars
  sigmaGg : ℝ
  low : ExtModel
  high : ExtModel
  gsfIn : Vec ℝ
  nld : Option (Vec ℝ)
  model : Option (ℚ → Except Err ℝ)
  gsf : Option (Vec ℝ)

/-- `NormalizerGSF.lnlike` (`ompy/normalizer_gsf.py` 573-579) for a computed width. -/
noncomputable def gsfLnlike (G Gg sigma : ℝ) : Except Err ℝ :=
  if sigma = 0 then .error .undefined else .ok (-(1 / 2) * ((G - Gg) / sigma) ^ 2)

/-- The second part of `lnlike` (`ompy/normalizer_simultan.py` 377-383): the strength function with its
extrapolations and the width. -/
noncomputable def simGsfPart (e : SimEnv) (s : SimGsf) (nld : Vec ℝ) (model : ℚ → Except Err ℝ) (x : SimPoint) :
    SimGsf × Except Err ℝ :=
  let gsf := oslo s.gsfIn x.B x.alpha
  let s1 := { s with gsf := some gsf }
  match fitModels e.fit s.low s.high gsf with
  | .error er => (s1, .error er)
  | .ok lh =>
    let s2 := { s1 with low := lh.1, high := lh.2 }
    (s2, do
      let cl ← lh.1.extrapolate false
      let ch ← lh.2.extrapolate false
      let G ← ggStandard s.pars gsf.curve cl ch nld.curve model e.S
      gsfLnlike G s.pars.Gg s.sigmaGg)

/-- `lnlike` (`ompy/normalizer_simultan.py` 347-383): the value and what is left behind. The dummy uncertainty
`nan` of `D0` is 0 here; it is not used. -/
noncomputable def simLnlike (e : SimEnv) (s : SimGsf) (x : SimPoint) : SimGsf × Except Err ℝ :=
  match nldLnlike e.close e.args x.A x.alpha x.T x.Eshift with
  | .error er => (s, .error er)
  | .ok errNld =>
    let nld := oslo e.nld x.A x.alpha
    let model := fun q => e.model q x.T x.Eshift
    let s1 := { s with nld := some nld, model := some model }
    match (do let n ← model e.Sn; D0FromNldSn e.g n e.Jtarget) with
    | .error er => (s1, .error er)
    | .ok D0 =>
      let s2 := { s1 with pars := { s.pars with D0 := (D0, 0) } }
      let r := simGsfPart e s2 nld model x
      (r.1, r.2.map (errNld + ·))

/-- The likelihood at a list of points, one after the other. -/
noncomputable def simRun (e : SimEnv) : SimGsf → List SimPoint → SimGsf × Except Err (List ℝ)
  | s, [] => (s, .ok [])
  | s, x :: l =>
    match simLnlike e s x with
    | (s1, .error er) => (s1, .error er)
    | (s1, .ok v) =>
      match simRun e s1 l with
      | (s2, .error er) => (s2, .error er)
      | (s2, .ok vs) => (s2, .ok (v :: vs))

/-- `optimize` (`ompy/normalizer_simultan.py` 216-345) for a sampling at the points `pts`: the parameters of the
normalisation are put back at the end. `pathLen` is the length of the path for the sampling; the order of
the checks is that of the code. The result is the list of the values. -/
noncomputable def simOptimize (e : SimEnv) (s : SimGsf) (guess : SimPoint) (pathLen : ℕ) (pts : List SimPoint) :
    SimGsf × Except Err (List ℝ) :=
  if guess.alpha < 0 then (s, .error .notImplemented)
  else if guess.T < 0 then (s, .error .valueError)
  else if 60 ≤ pathLen then (s, .error .assertion)
  else
    match simRun e s pts with
    | (s1, .error er) => (s1, .error er)
    | (s1, .ok vs) => ({ s1 with pars := s.pars }, .ok vs)

/-- The two flags for made-up standard deviations (`ompy/normalizer_simultan.py` 86-87). -/
structure SimFlags where
  nld : Option Bool
  gsf : Option Bool

/-- The vector the fit gets and the flag (`ompy/normalizer_simultan.py` 142-149): 30 percent of the values if the
flag is set or there are no standard deviations. -/
noncomputable def fakeStd (flag : Option Bool) (v : Vec ℝ) : Option Bool × Vec ℝ :=
  if flag = some true ∨ v.std = none then (some true, { v with std := some (v.values.map (· * 0.3)) }) else (flag, v)

/-- After the fit (`ompy/normalizer_simultan.py` 164-169): made-up standard deviations are removed. -/
def unfakeStd (flag : Option Bool) (v : Vec ℝ) : Option Bool × Vec ℝ :=
  if flag = some true then (none, { v with std := none }) else (flag, v)

/-- The results that `normalize` sets. -/
structure SimOut where
  nld : Vec ℝ
  gsf : Vec ℝ
  low : ExtModel
  high : ExtModel
  pars : SimPoint

/-- The object: flags, `res`, and its copy of `normalizer_gsf`. -/
structure SimObj where
  flags : SimFlags
  res : Option SimOut
  norm : SimGsf

/-- The extrapolations of the results (`ompy/normalizer_simultan.py` 176-182). -/
noncomputable def simModels (fit : Vec ℝ → ExtModel → Except Err (ℝ × ℝ)) (low high : ExtModel) (gsf : Vec ℝ) :
    Except Err (ExtModel × ExtModel) := do
  match gsf.E.head? with
  | none => .error .indexError
  | some e0 =>
    let lh ← fitModels fit (low.autorange e0) (high.autorange e0) gsf
    let _ ← lh.1.extrapolate false
    let _ ← lh.2.extrapolate false
    pure ({ lh.1 with shiftAfter := some lh.1.shift }, { lh.2 with shiftAfter := some lh.2.shift })

/-- `normalize` (`ompy/normalizer_simultan.py` 100-184) with `regenerate` set, for given `nld` and `gsf`. `search` stands
for `initial_guess` and `optimize`: from the two vectors with standard deviations it gives the state of
`normalizer_gsf` and the parameters. The vectors of the caller are copied first, so they are not part of the
state. -/
noncomputable def simNormalize (search : Vec ℝ → Vec ℝ → SimGsf → SimGsf × Except Err SimPoint)
    (fit : Vec ℝ → ExtModel → Except Err (ℝ × ℝ)) (o : SimObj) (nld gsf : Vec ℝ) : SimObj × Except Err Unit :=
  let o1 : SimObj := { o with res := none }
  match nld.toMeV, gsf.toMeV with
  | .ok n, .ok g =>
    let fn := fakeStd (some (o.flags.nld.getD false)) n
    let fg := fakeStd o.flags.gsf g
    let o2 : SimObj := { o1 with flags := ⟨fn.1, fg.1⟩ }
    match search fn.2 fg.2 { o.norm with gsfIn := fg.2 } with
    | (s1, .error er) => ({ o2 with norm := s1 }, .error er)
    | (s1, .ok x) =>
      let un := unfakeStd fn.1 fn.2
      let ug := unfakeStd fg.1 fg.2
      let rn := oslo un.2 x.A x.alpha
      let rg := oslo ug.2 x.B x.alpha
      let o3 : SimObj := { o2 with flags := ⟨un.1, ug.1⟩, norm := { s1 with gsfIn := ug.2 } }
      match simModels fit s1.low s1.high rg with
      | .error er => (o3, .error er)
      | .ok lh => (⟨o3.flags, some ⟨rn, rg, lh.1, lh.2, x⟩, { o3.norm with low := lh.1, high := lh.2 }⟩, .ok ())
  | .error er, _ => (o1, .error er)
  | _, .error er => (o1, .error er)

end Ompy
