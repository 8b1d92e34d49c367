import Verif.Vector
import Mathlib.Analysis.SpecialFunctions.Exp

/-!
# The level density normaliser as an object

Model of `NormalizerNLD.normalize`, of the setters `discrete` and `smooth_levels_fwhm`
(`ompy/normalizer_nld.py`) and of `AbstractNormalizer.save` and `load`
(`ompy/abstract_normalizer.py`).  Vectors the caller also holds are cells of a heap; `nld` is copied by
the code and is a value here.  The fit (differential evolution and MultiNest) is an arbitrary function.
-/

namespace Ompy

/-- The parameters found by the fit; `rest` stands for T, Eshift, uncertainties and samples. -/
structure NldPopt (R : Type) where
  A : ℝ
  alpha : ℝ
  rest : R

/-- What the fit gets (`ompy/normalizer_nld.py` 216, 219): the level density with standard deviations,
the known levels, limits, bounds, parameters and the number of the loop. -/
structure NldFitIn (P B : Type) where
  nld : Vec ℝ
  discrete : Vec ℝ
  low : ℚ × ℚ
  high : ℚ × ℚ
  bounds : B
  pars : P
  num : ℕ

/-- The results: the transformed level density and the parameters (`ompy/normalizer_nld.py` 217-228). -/
structure NldRes (R : Type) where
  nld : Vec ℝ
  popt : NldPopt R

/-- The attributes of the normaliser (`ompy/normalizer_nld.py` 108-140); `discrete` is a reference. -/
structure NldObj (P B R : Type) where
  nld : Option (Vec ℝ)
  discrete : Option ℕ
  low : Option (ℚ × ℚ)
  high : Option (ℚ × ℚ)
  pars : Option P
  bounds : Option B
  stdFake : Option Bool
  regenerate : Bool
  saveInstance : Bool
  path : Option String
  res : Option (NldRes R)

/-- A pickled normaliser: the object and the contents of its known levels. -/
structure NldFile (P B R : Type) where
  obj : NldObj P B R
  discrete : Option (Vec ℝ)

/-- The caller's vectors, the object, and the file `NormalizerNLD.pkl` in each directory. -/
structure NldState (P B R : Type) where
  heap : List (Vec ℝ)
  obj : NldObj P B R
  disk : String → Option (NldFile P B R)

/-- The arguments of `normalize`; vectors are references. -/
structure NldCall (P B : Type) where
  low : Option (ℚ × ℚ)
  high : Option (ℚ × ℚ)
  nld : Option ℕ
  discrete : Option ℕ
  bounds : Option B
  pars : Option P
  num : ℕ

/-- A cell of the heap. -/
def vcell (h : List (Vec ℝ)) (r : ℕ) : Vec ℝ := h.getD r ⟨[], [], none, ""⟩

/-- `self_if_none` (`ompy/library.py` 387-411): the argument, or the attribute, or `ValueError`. -/
def selfIfNone {α : Type} (arg attr : Option α) : Except Err α :=
  match arg, attr with
  | some x, _ => .ok x
  | none, some y => .ok y
  | none, none => .error .valueError

variable {P B R : Type}

/-- `load` (`ompy/abstract_normalizer.py` 47-68) for a file that exists: every attribute is replaced, the
known levels become a new object. -/
def NldState.restore (s : NldState P B R) (f : NldFile P B R) : NldState P B R :=
  match f.discrete with
  | none => { s with obj := f.obj }
  | some d => { s with heap := s.heap ++ [d], obj := { f.obj with discrete := some s.heap.length } }

/-- `save` (`ompy/abstract_normalizer.py` 27-45); `Path(None)` is a `TypeError`. -/
def NldState.save (s : NldState P B R) : NldState P B R × Except Err Unit :=
  if s.obj.saveInstance then
    match s.obj.path with
    | none => (s, .error .typeError)
    | some p =>
      let f : NldFile P B R := ⟨s.obj, s.obj.discrete.map (vcell s.heap)⟩
      ({ s with disk := fun q => if q = p then some f else s.disk q }, .ok ())
  else (s, .ok ())

/-- The part of `normalize` from the copy of the level density on (`ompy/normalizer_nld.py` 197-230);
`low`, `high`, `bounds` and `pars` are the attributes by now, and the fit uses the attribute `discrete`. -/
noncomputable def NldState.fitAndSave (fit : NldFitIn P B → Except Err (NldPopt R))
    (s : NldState P B R) (nldIn : Vec ℝ) (low high : ℚ × ℚ) (bounds : B) (pars : P) (num : ℕ) :
    NldState P B R × Except Err Unit :=
  match nldIn.toMeV with
  | .error e => (s, .error e)
  | .ok v =>
    let fake : Bool := s.obj.stdFake == some true || v.std.isNone
    let v' : Vec ℝ := if fake then { v with std := some (v.values.map (· * (3 / 10))) } else v
    let s1 : NldState P B R := { s with obj := { s.obj with stdFake := some fake, nld := some v' } }
    match s.obj.discrete with
    | none => (s1, .error .attributeError)
    | some d =>
      match fit ⟨v', vcell s.heap d, low, high, bounds, pars, num⟩ with
      | .error e => (s1, .error e)
      | .ok popt =>
        let t := v'.transform (fun q : ℚ => (q : ℝ)) Real.exp popt.A popt.alpha
        let s2 : NldState P B R := { s1 with obj := { s1.obj with
          nld := some (if fake then { v' with std := none } else v')
          res := some ⟨if fake then { t with std := none } else t, popt⟩ } }
        s2.save

/-- `normalize` from the limits on (`ompy/normalizer_nld.py` 175-196). `check` is `is_changed` of the
parameters. -/
noncomputable def NldState.normalizeNew (fit : NldFitIn P B → Except Err (NldPopt R))
    (check : P → Except Err Unit) (s : NldState P B R) (a : NldCall P B) :
    NldState P B R × Except Err Unit :=
  match selfIfNone a.low s.obj.low with
  | .error e => (s, .error e)
  | .ok low =>
  let s1 : NldState P B R := { s with obj := { s.obj with low := some low } }
  match selfIfNone a.high s.obj.high with
  | .error e => (s1, .error e)
  | .ok high =>
  let s2 : NldState P B R := { s1 with obj := { s1.obj with high := some high } }
  match selfIfNone a.discrete s.obj.discrete with
  | .error e => (s2, .error e)
  | .ok d =>
  match (vcell s.heap d).toMeV with
  | .error e => (s2, .error e)
  | .ok dv =>
  let s3 : NldState P B R := { s2 with heap := s.heap.set d dv }
  match selfIfNone (a.nld.map (vcell s3.heap)) s.obj.nld with
  | .error e => (s3, .error e)
  | .ok nldIn =>
  match selfIfNone a.pars s.obj.pars with
  | .error e => (s3, .error e)
  | .ok pars =>
  let s4 : NldState P B R := { s3 with obj := { s3.obj with pars := some pars } }
  match check pars with
  | .error e => (s4, .error e)
  | .ok () =>
  match selfIfNone a.bounds s.obj.bounds with
  | .error e => (s4, .error e)
  | .ok bounds =>
  let s5 : NldState P B R := { s4 with obj := { s4.obj with bounds := some bounds, res := none } }
  s5.fitAndSave fit nldIn low high bounds pars a.num

/-- `normalize` (`ompy/normalizer_nld.py` 145-230). `Path(None)` in `load` is a `TypeError`, which is not
caught. -/
noncomputable def NldState.normalize (fit : NldFitIn P B → Except Err (NldPopt R))
    (check : P → Except Err Unit) (s : NldState P B R) (a : NldCall P B) :
    NldState P B R × Except Err Unit :=
  if s.obj.regenerate then s.normalizeNew fit check a
  else
    match s.obj.path with
    | none => (s, .error .typeError)
    | some p =>
      match s.disk p with
      | some f => (s.restore f, .ok ())
      | none => s.normalizeNew fit check a

/-! ## The known levels -/

/-- The attributes `_discrete`, `_discrete_path` and `_smooth_levels_fwhm`; levels are values here. -/
structure Levels (F : Type) where
  discrete : Option (Vec ℚ)
  path : Option F
  fwhm : ℚ

/-- Assignments to `discrete` and `smooth_levels_fwhm`. -/
inductive LevelsOp (F : Type)
  | vec (v : Vec ℚ)
  | file (p : F)
  | clear
  | fwhm (r : ℚ)

/-- The setter for a file name (`ompy/normalizer_nld.py` 634-643); `load` is `load_levels_smooth` on the
energies of the level density. -/
def Levels.setFile {F : Type} (load : F → ℚ → Except Err (Vec ℚ)) (s : Levels F) (p : F) :
    Levels F × Except Err Unit :=
  match load p s.fwhm with
  | .error e => (s, .error e)
  | .ok v => ({ s with discrete := some { v with units := "MeV" }, path := some p }, .ok ())

/-- The two setters (`ompy/normalizer_nld.py` 629-664) of an object with a level density on the energies
`E`. `None` sets another attribute, `_discretes`. -/
def Levels.step {F : Type} (load : F → ℚ → Except Err (Vec ℚ)) (E : List ℚ) (s : Levels F) :
    LevelsOp F → Levels F × Except Err Unit
  | .vec v => if v.E = E then ({ s with discrete := some v }, .ok ()) else (s, .error .valueError)
  | .file p => s.setFile load p
  | .clear => (s, .ok ())
  | .fwhm r =>
    let s1 : Levels F := { s with fwhm := r }
    match s.path with
    | none => (s1, .ok ())
    | some p => s1.setFile load p

/-- A history of assignments; one that raises is caught by the caller. -/
def Levels.run {F : Type} (load : F → ℚ → Except Err (Vec ℚ)) (E : List ℚ) (s : Levels F) :
    List (LevelsOp F) → Levels F
  | [] => s
  | op :: r => Levels.run load E (s.step load E op).1 r

end Ompy
