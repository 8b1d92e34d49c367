import Verif.GsfNorm

/-!
# The strength function normaliser as an object

Model of the constructor and of `NormalizerGSF.normalize` (`ompy/normalizer_gsf.py`) around
`gsfNormalize`: where the inputs come from, what is kept, and what happens to the vectors of the caller.
`regenerate` is set and nothing is saved; `save` and `load` are those of `Verif.NldNorm`.  The spin sum is
an arbitrary function of the parameters.
-/

namespace Ompy

/-- The results of a level density normalisation that `normalize` looks at; `rest` stands for the other
parameters and the samples. -/
structure NldOut (R : Type) where
  nld : Vec ℝ
  alpha : ℝ
  model : ℚ → Except Err ℝ
  rest : R

/-- The results (`ompy/normalizer_gsf.py` 213-220): a copy of those of the level density, if there are some,
with the strength function, the extrapolations and `pars["B"]`. -/
structure GsfOut (R : Type) where
  ofNld : Option (NldOut R)
  gsf : Vec ℝ
  low : ExtModel
  high : ExtModel
  B : ℝ × ℝ

/-- The attributes (`ompy/normalizer_gsf.py` 87-117). A `normalizer_nld` is represented by its results, which
are `none` before it has normalised something. `norm_pars` is never `None`. -/
structure GsfObj (R : Type) where
  gsfIn : Option (Vec ℝ)
  nld : Option (Vec ℝ)
  normalizer : Option (Option (NldOut R))
  model : Option (ℚ → Except Err ℝ)
  alpha : Option ℝ
  pars : GgPars
  low : ExtModel
  high : ExtModel
  res : Option (GsfOut R)

/-- The vectors of the caller and the object. -/
structure GsfState (R : Type) where
  heap : List (Vec ℝ)
  obj : GsfObj R

/-- The arguments of `normalize`; `gsf` is a reference. -/
structure GsfCall (R : Type) where
  gsf : Option ℕ
  normalizer : Option (Option (NldOut R))
  alpha : Option ℝ
  nld : Option (Vec ℝ)
  model : Option (ℚ → Except Err ℝ)
  pars : Option GgPars

variable {R : Type}

/-- The constructor (`ompy/normalizer_gsf.py` 47-123): `gsf` and `nld` are copied. -/
def GsfObj.new (gsf nld : Option (Vec ℝ)) (normalizer : Option (Option (NldOut R)))
    (model : Option (ℚ → Except Err ℝ)) (alpha : Option ℝ) (pars : GgPars) (low high : ExtModel) : GsfObj R :=
  ⟨gsf, nld, normalizer, model, alpha, pars, low, high, none⟩

/-- `normalizer_nld.res.…`: an `AttributeError` if one of the two is `None`. -/
def nldOutOf (n : Option (Option (NldOut R))) : Except Err (NldOut R) :=
  match n with
  | some (some r) => .ok r
  | _ => .error .attributeError

/-- `x if x is not None else normalizer_nld.res.…`. -/
def orFrom {α : Type} (x : Option α) (n : Option (Option (NldOut R))) (f : NldOut R → α) : Except Err α :=
  match x with
  | some y => .ok y
  | none => (nldOutOf n).map f

/-- The vector `normalize` converts: that of the caller, or `gsf_in`. -/
def GsfState.source (s : GsfState R) (a : GsfCall R) : Option (Vec ℝ) :=
  match a.gsf with
  | some k => s.heap[k]?
  | none => s.obj.gsfIn

/-- `gsf.to_MeV()` on that vector, in place (`ompy/normalizer_gsf.py` 195). -/
def GsfState.convert (s : GsfState R) (a : GsfCall R) (v : Vec ℝ) : GsfState R :=
  match a.gsf with
  | some k => { s with heap := s.heap.set k v }
  | none => { s with obj := { s.obj with gsfIn := some v } }

/-- The models after a failed normalisation: with ranges, and with parameters if the fit worked. (If only the
second fit fails the code keeps the parameters of the first.) -/
def modelsAfter (fit : Vec ℝ → ExtModel → Except Err (ℝ × ℝ)) (low high : ExtModel) (gsf : Vec ℝ) :
    ExtModel × ExtModel :=
  match gsf.E.head? with
  | none => (low, high)
  | some e0 =>
    match fitModels fit (low.autorange e0) (high.autorange e0) gsf with
    | .ok lh => lh
    | .error _ => (low.autorange e0, high.autorange e0)

/-- `normalize` from the copy of the results on (`ompy/normalizer_gsf.py` 187-222). If `normalizer_nld` has no
results the copy is `None`, which is noticed at the end. -/
noncomputable def GsfState.run (fit : Vec ℝ → ExtModel → Except Err (ℝ × ℝ))
    (S : GgPars → ℚ → Except Err ℝ) (s : GsfState R) (a : GsfCall R) (gsf : Vec ℝ)
    (norm : Option (Option (NldOut R))) (p : GgPars) (alpha : ℝ) (nld : Vec ℝ) (model : ℚ → Except Err ℝ) :
    GsfState R × Except Err Unit :=
  match gsf.toMeV with
  | .error e => (s, .error e)
  | .ok v =>
    let s1 := s.convert a v
    match gsfNormalize p s.obj.low s.obj.high fit alpha nld.curve model (S p) gsf with
    | .error e =>
      let lh := modelsAfter fit s.obj.low s.obj.high (oslo v 1 alpha)
      ({ s1 with obj := { s1.obj with low := lh.1, high := lh.2, res := none } }, .error e)
    | .ok r =>
      let s2 : GsfState R := { s1 with obj := { s1.obj with low := r.norm.low, high := r.norm.high } }
      match norm with
      | some none => ({ s2 with obj := { s2.obj with res := none } }, .error .attributeError)
      | _ => ({ s2 with obj := { s2.obj with
          res := some ⟨norm.getD none, r.norm.gsf, r.norm.low, r.norm.high, (r.B, r.Bunc)⟩ } }, .ok ())

/-- `normalize` (`ompy/normalizer_gsf.py` 125-222). `check` is `is_changed` of the parameters. After an error
in the middle the attribute `res` is one without strength function; it is `none` here. -/
noncomputable def GsfState.normalize (fit : Vec ℝ → ExtModel → Except Err (ℝ × ℝ))
    (S : GgPars → ℚ → Except Err ℝ) (check : GgPars → Except Err Unit) (s : GsfState R) (a : GsfCall R) :
    GsfState R × Except Err Unit :=
  match s.source a with
  | none => (s, .error .assertion)
  | some gsf =>
  let norm := a.normalizer.orElse fun _ => s.obj.normalizer
  match orFrom a.nld norm (·.nld) with
  | .error e => (s, .error e)
  | .ok nld =>
  let s1 : GsfState R := { s with obj := { s.obj with nld := some nld } }
  match orFrom (a.alpha.orElse fun _ => s.obj.alpha) norm (·.alpha) with
  | .error e => (s1, .error e)
  | .ok alpha =>
  match orFrom a.model norm (·.model) with
  | .error e => (s1, .error e)
  | .ok model =>
  let p := a.pars.getD s.obj.pars
  let s2 : GsfState R := { s1 with obj := { s1.obj with model := some model, pars := p } }
  match check p with
  | .error e => (s2, .error e)
  | .ok () => s2.run fit S a gsf norm p alpha nld model

end Ompy
