import Verif.Basic

/-!
# Model of the life of an ensemble normalisation on disk

`EnsembleNormalizer.__init__`, `normalize`, `normalizeSimultan` (ompy/ensembleNormalizer.py:66-135, 162-177), `AbstractNormalizer.__init__`, `save` and `load`
(ompy/abstract_normalizer.py:23-68) and `Extractor.__init__`, `__getstate__` and the arguments of `extract_from` (ompy/extractor.py:69-99, 106-138, 697-704).  The extracted vectors `V`, the normalisers `N` and the
results `R` are arbitrary, and so is the work of the loop over the members.  A directory holds at most one file of an ensemble normaliser, `EnsembleNormalizer.pkl`.  Pickling
copies everything; objects are values here, so that sharing between the caller and the normaliser is not seen.
-/

namespace Ompy

/-- An attribute that may be missing. -/
inductive Attr (α : Type)
  | missing
  | val (x : Option α)
  deriving DecidableEq

/-- The attributes of an `Extractor` that matter here, ompy/extractor.py:69-99. -/
structure ExtrObj (Ens V : Type) where
  ensemble : Attr Ens
  nld : List V
  gsf : List V
  trapezoid : Bool
  path : Option String
  regenerate : Bool
  deriving DecidableEq

/-- The attributes of an `EnsembleNormalizer`, ompy/ensembleNormalizer.py:66-96 and ompy/abstract_normalizer.py:23-25. -/
structure EnsObj (Ens V N R : Type) where
  extractor : ExtrObj Ens V
  nldN : Option N
  gsfN : Option N
  simN : Option N
  res : Option (List R)
  path : Option String
  regenerate : Bool
  saveInstance : Bool
  deriving DecidableEq

variable {Ens V N R : Type}

/-- `Extractor.__init__`, ompy/extractor.py:69-99. -/
def ExtrObj.new (ensemble : Option Ens) (trapezoid : Bool) (path : Option String) : ExtrObj Ens V :=
  ⟨.val ensemble, [], [], trapezoid, path, false⟩

/-- `EnsembleNormalizer.__init__`, ompy/ensembleNormalizer.py:66-96. -/
def EnsObj.new (extractor : ExtrObj Ens V) (nldN gsfN simN : Option N) (path : Option String) (regenerate : Bool) : EnsObj Ens V N R :=
  ⟨extractor, nldN, gsfN, simN, none, path, regenerate, true⟩

/-- `__getstate__` of the extractor, ompy/extractor.py:697-704. -/
def ExtrObj.getstate (x : ExtrObj Ens V) : ExtrObj Ens V := { x with ensemble := .missing }

/-- What is in the file: every attribute, the extractor by its `__getstate__`, ompy/abstract_normalizer.py:45-46. -/
def EnsObj.pickled (o : EnsObj Ens V N R) : EnsObj Ens V N R := { o with extractor := o.extractor.getstate }

/-- The disk and the object. -/
structure EnsWorld (Ens V N R : Type) where
  obj : EnsObj Ens V N R
  disk : String → Option (EnsObj Ens V N R)

/-- `save`, ompy/abstract_normalizer.py:27-46: `Path(None)` is a TypeError. -/
def EnsWorld.save (w : EnsWorld Ens V N R) : EnsWorld Ens V N R × Except Err Unit :=
  if w.obj.saveInstance then
    match w.obj.path with
    | none => (w, .error .typeError)
    | some p => ({ w with disk := fun q => if q = p then some w.obj.pickled else w.disk q }, .ok ())
  else (w, .ok ())

/-- `load`, ompy/abstract_normalizer.py:48-68: every attribute is that of the file. -/
def EnsWorld.load (w : EnsWorld Ens V N R) : EnsWorld Ens V N R × Except Err Unit :=
  match w.obj.path with
  | none => (w, .error .typeError)
  | some p =>
    match w.disk p with
    | none => (w, .error .fileNotFound)
    | some f => ({ w with obj := f }, .ok ())

/-- The loop over the members: the results so far and the exception, from the normalisers and the extracted vectors, ompy/ensembleNormalizer.py:112-133. -/
abbrev EnsWork (V N R : Type) := Option N → Option N → Option N → List V → List V → List R × Option Err

/-- `normalize` without a file to load, ompy/ensembleNormalizer.py:106-135. -/
def EnsWorld.normalizeNew (work : EnsWork V N R) (w : EnsWorld Ens V N R) : EnsWorld Ens V N R × Except Err Unit :=
  if ((w.obj.nldN.isSome && w.obj.gsfN.isSome) ^^ w.obj.simN.isSome) = false then (w, .error .assertion)
  else
    match work w.obj.nldN w.obj.gsfN w.obj.simN w.obj.extractor.nld w.obj.extractor.gsf with
    | (rs, some e) => ({ w with obj := { w.obj with res := some rs } }, .error e)
    | (rs, none) => EnsWorld.save { w with obj := { w.obj with res := some rs } }

/-- `normalize`, ompy/ensembleNormalizer.py:98-135. -/
def EnsWorld.normalize (work : EnsWork V N R) (w : EnsWorld Ens V N R) : EnsWorld Ens V N R × Except Err Unit :=
  if w.obj.regenerate then w.normalizeNew work
  else
    match w.load with
    | (w1, .ok ()) => (w1, .ok ())
    | (w1, .error .fileNotFound) => w1.normalizeNew work
    | (w1, .error e) => (w1, .error e)

/-- The arguments of `extract_from`, ompy/extractor.py:128-138: which ensemble is used. -/
def ExtrObj.choose (x : ExtrObj Ens V) (ensemble : Option Ens) (trapezoid : Bool) : Except Err Ens :=
  let e : Except Err Ens := match ensemble, x.ensemble with
    | some e, _ => .ok e
    | none, .missing => .error .attributeError
    | none, .val none => .error .valueError
    | none, .val (some e) => .ok e
  match e with
  | .error er => .error er
  | .ok e =>
    if trapezoid || x.trapezoid then
      match x.path with
      | none => .error .typeError
      | some _ => .ok e
    else .error .valueError

/-- Programs that each make a normaliser and run it, one after the other, on the same disk: outcomes and results. -/
def ensRuns (work : EnsWork V N R) : List (EnsObj Ens V N R) → (String → Option (EnsObj Ens V N R)) → List (Except Err Unit × Option (List R))
  | [], _ => []
  | o :: os, disk =>
    let r := EnsWorld.normalize work ⟨o, disk⟩
    (r.2, r.1.obj.res) :: ensRuns work os r.1.disk

end Ompy
