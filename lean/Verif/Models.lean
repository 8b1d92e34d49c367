import Verif.Basic

/-!
# Model of `ompy/models.py`: attributes of model objects

Objects are their class and their instance dictionary in order of insertion.  Names are lists of
characters, so that statements can range over every name.  Attributes every Python object has
(`__class__`, …) are left out; the class lists below name the attributes the source defines.
-/

namespace Ompy

/-- An attribute name. -/
abbrev AName := List Char

/-- A name written as a literal. -/
def nm (s : String) : AName := s.toList

/-- The values an attribute can hold, as far as the code looks into them: entries of lists and tuples
are numbers or `None`, a dictionary is known by its entry `'mass'`, everything else (functions,
arrays, other objects) is opaque. -/
inductive PVal
  | none
  | bool (b : Bool)
  | num (q : ℚ)
  | str (s : AName)
  | list (xs : List (Option ℚ))
  | tup (xs : List (Option ℚ))
  | dict (mass : Option ℚ)
  | opaque (k : ℕ)
  deriving DecidableEq

/-- The model classes (`ompy/models.py` 17, 145, 293, 348, 403, 534). -/
inductive MClass
  | model | extAbstract | extLow | extHigh | normPars | results
  deriving DecidableEq

/-- The name-mangled field `__isfrozen` (`ompy/models.py` 26). -/
def frozenName : AName := nm "_Model__isfrozen"

/-- Fields and defaults of `Model` (`ompy/models.py` 25-26); `name` has no default. -/
def modelFields : List (AName × PVal) := [(nm "name", .none), (frozenName, .bool false)]

/-- Fields and defaults of `AbstractExtrapolationModel` (`ompy/models.py` 168-191); the two
subclasses redefine `model` in place (283, 343). -/
def extFields : List (AName × PVal) :=
  [(nm "scale", .num 1), (nm "shift", .num 25), (nm "_shift_after", .none), (nm "Emin", .none),
    (nm "Emax", .none), (nm "steps", .num 1001), (nm "_method", .str (nm "fit")),
    (nm "model", .none), (nm "Efit", .list [none, none])]

/-- Fields and defaults of `NormalizationParameters` (`ompy/models.py` 413-451).  The list of names
`exclude_check_change` is kept as an opaque value: its entries are not `None`. -/
def normFields : List (AName × PVal) :=
  [(nm "Z", .none), (nm "_A", .none), (nm "D0", .none), (nm "Gg", .none), (nm "Sn", .none),
    (nm "Jtarget", .none), (nm "Emin", .num 0), (nm "_Emax", .none), (nm "steps", .num 101),
    (nm "spincutModel", .none), (nm "_spincutPars", .none), (nm "exclude_check_change", .opaque 0)]

/-- Fields and defaults of `ResultsNormalized` (`ompy/models.py` 549-569). -/
def resultsFields : List (AName × PVal) :=
  [(nm "nld", .list []), (nm "gsf", .list []), (nm "pars", .list []), (nm "samples", .list []),
    (nm "nld_model", .list []), (nm "gsf_model_low", .list []), (nm "gsf_model_high", .list [])]

/-- All fields of a class, inherited ones first (`dataclass`). -/
def MClass.fields : MClass → List (AName × PVal)
  | .model => modelFields
  | .extAbstract | .extLow | .extHigh => modelFields ++ extFields
  | .normPars => modelFields ++ normFields
  | .results => modelFields ++ resultsFields

/-- The properties of a class (`ompy/models.py` 197-219, 479-530). -/
def MClass.props : MClass → List AName
  | .model | .results => []
  | .extAbstract | .extLow | .extHigh => [nm "method", nm "shift_after"]
  | .normPars => [nm "spinMass", nm "spincutPars", nm "A", nm "Emax"]

/-- The methods of `Model` (`ompy/models.py` 28-131). -/
def modelMethods : List AName :=
  [nm "get_parameters", nm "is_changed", nm "asdict", nm "save", nm "load", nm "_freeze"]

/-- The methods of a class (`ompy/models.py` 28-131, 193-289, 297-344, 352-399, 453-477). -/
def MClass.methods : MClass → List AName
  | .model | .results => modelMethods
  | .extAbstract => modelMethods ++ [nm "range", nm "norm_to_shift_after", nm "fit",
      nm "extrapolate", nm "autorange", nm "autofitrange"]
  | .extLow => modelMethods ++ [nm "range", nm "norm_to_shift_after", nm "fit",
      nm "extrapolate", nm "autorange", nm "autofitrange", nm "_ExtrapolationModelLow__model"]
  | .extHigh => modelMethods ++ [nm "range", nm "norm_to_shift_after", nm "fit",
      nm "extrapolate", nm "autorange", nm "autofitrange", nm "_ExtrapolationModelHigh__model"]
  | .normPars => modelMethods ++ [nm "E_grid"]

/-- An object: its class and `__dict__`. -/
structure PyObj where
  cls : MClass
  dict : List (AName × PVal)
  deriving DecidableEq

/-- `d.get(n)` on an ordered dictionary. -/
def dictGet : List (AName × PVal) → AName → Option PVal
  | [], _ => none
  | (k, v) :: r, n => if k = n then some v else dictGet r n

/-- `d[n] = v` on an ordered dictionary: replaces in place or appends. -/
def dictSet : List (AName × PVal) → AName → PVal → List (AName × PVal)
  | [], n, v => [(n, v)]
  | (k, w) :: r, n, v => if k = n then (k, v) :: r else (k, w) :: dictSet r n v

/-- The value of a field kept in `__dict__`. -/
def PyObj.field (o : PyObj) (n : AName) : PVal := (dictGet o.dict n).getD .none

/-- `x[0]` for an attribute value. -/
def PVal.first : PVal → Except Err PVal
  | .list (x :: _) | .tup (x :: _) => .ok (match x with | some q => .num q | Option.none => .none)
  | .list [] | .tup [] => .error .indexError
  | .str (c :: _) => .ok (.str [c])
  | .str [] => .error .indexError
  | .dict _ => .error .keyError
  | .none | .bool _ | .num _ | .opaque _ => .error .typeError

/-- `spinMass` (`ompy/models.py` 479-486). -/
def PyObj.spinMass (o : PyObj) : PVal :=
  match o.field (nm "_spincutPars") with
  | .dict (some q) => .num q
  | _ => .none

/-- The getters of the properties (`ompy/models.py` 197-199, 210-215, 479-491, 504-509, 519-525). -/
def PyObj.propGet (o : PyObj) (n : AName) : Except Err PVal :=
  if n = nm "method" then .ok (o.field (nm "_method"))
  else if n = nm "shift_after" then
    .ok (if o.field (nm "_shift_after") = .none then o.field (nm "shift")
      else o.field (nm "_shift_after"))
  else if n = nm "spinMass" then .ok o.spinMass
  else if n = nm "spincutPars" then .ok (o.field (nm "_spincutPars"))
  else if n = nm "A" then
    .ok (if o.field (nm "_A") = .none then o.spinMass else o.field (nm "_A"))
  else if n = nm "Emax" then
    if o.field (nm "_Emax") = .none then (o.field (nm "Sn")).first else .ok (o.field (nm "_Emax"))
  else .error .attributeError

/-- `getattr(self, n)`: properties come before the instance dictionary, that before the class. -/
def PyObj.getAttr (o : PyObj) (n : AName) : Except Err PVal :=
  if n ∈ o.cls.props then o.propGet n
  else match dictGet o.dict n with
    | some v => .ok v
    | none => if n ∈ o.cls.methods then .ok (.opaque 1) else .error .attributeError

/-- `hasattr(self, n)`: only `AttributeError` counts as absence, everything else is raised. -/
def PyObj.hasAttr (o : PyObj) (n : AName) : Except Err Bool :=
  match o.getAttr n with
  | .ok _ => .ok true
  | .error .attributeError => .ok false
  | .error e => .error e

/-- `self.__dict__[n] = v`. -/
def PyObj.put (o : PyObj) (n : AName) (v : PVal) : PyObj := ⟨o.cls, dictSet o.dict n v⟩

/-- `value > self.Emin`.  Comparisons other than of two numbers are taken to raise `TypeError`. -/
def PVal.gt : PVal → PVal → Except Err Bool
  | .num a, .num b => .ok (decide (b < a))
  | _, _ => .error .typeError

/-- The setters of the properties (`ompy/models.py` 201-208, 217-219, 493-502, 511-517, 527-530).
Inside a setter `self._x = v` goes through `__setattr__` again, which accepts it as `_x` is a field.
Warnings are left out. -/
def PyObj.propSet (o : PyObj) (n : AName) (v : PVal) : Except Err PyObj :=
  if n = nm "method" then
    if v = .str (nm "fit") ∨ v = .str (nm "fix") then .ok (o.put (nm "_method") v)
    else .error .notImplemented
  else if n = nm "shift_after" then .ok (o.put (nm "_shift_after") v)
  else if n = nm "spincutPars" then
    match v with
    | .dict _ => .ok (o.put (nm "_spincutPars") v)
    | _ => .error .typeError
  else if n = nm "A" then .ok (o.put (nm "_A") v)
  else if n = nm "Emax" then
    match v.gt (o.field (nm "Emin")) with
    | .ok true => .ok (o.put (nm "_Emax") v)
    | .ok false => .error .assertion
    | .error e => .error e
  else .error .attributeError

/-- `object.__setattr__`. -/
def PyObj.rawSet (o : PyObj) (n : AName) (v : PVal) : Except Err PyObj :=
  if n ∈ o.cls.props then o.propSet n v else .ok (o.put n v)

/-- `Model.__setattr__` (`ompy/models.py` 100-105). -/
def PyObj.setAttr (o : PyObj) (n : AName) (v : PVal) : Except Err PyObj :=
  if o.field frozenName = .bool true then
    match o.hasAttr n with
    | .ok true => o.rawSet n v
    | .ok false => .error .attributeError
    | .error e => .error e
  else o.rawSet n v

/-- Construction: the generated `__init__` sets every field from the keywords or the default, then
`__post_init__` freezes (`ompy/models.py` 107-111) — except in the two extrapolation classes, whose
own `__post_init__` only sets `model` (297-298, 352-353). -/
def construct (c : MClass) (kw : AName → Option PVal) : PyObj :=
  let o : PyObj := ⟨c, c.fields.map fun f => (f.1, if f.1 = frozenName then f.2 else (kw f.1).getD f.2)⟩
  match c with
  | .extLow | .extHigh => o.put (nm "model") (.opaque 2)
  | _ => o.put frozenName (.bool true)

/-- A sequence of assignments whose exceptions the caller catches. -/
def PyObj.assigns (o : PyObj) : List (AName × PVal) → PyObj
  | [] => o
  | (n, v) :: r =>
    match o.setAttr n v with
    | .ok o' => o'.assigns r
    | .error _ => o.assigns r

/-- `"__" in p`. -/
def hasDunder : AName → Bool
  | '_' :: '_' :: _ => true
  | _ :: r => hasDunder r
  | [] => false

/-- `get_parameters` (`ompy/models.py` 28-32). -/
def PyObj.getParameters (o : PyObj) : List AName :=
  (o.dict.map (·.1)).filter fun p => ¬ hasDunder p

/-- `key[1:]` if the key starts with an underscore (`ompy/models.py` 52-53). -/
def stripUnderscore : AName → AName
  | '_' :: r => r
  | n => n

/-- One key of the loop of `is_changed` (`ompy/models.py` 50-62).  The message of the second error
uses the undefined variable `name`, so a `NameError` is raised in its place. -/
def PyObj.checkKey (o : PyObj) (key : AName) : Except Err Unit :=
  match o.getAttr (stripUnderscore key) with
  | .error e => .error e
  | .ok .none => .error .valueError
  | .ok (.list xs) => if xs = [] ∨ none ∈ xs then .error .nameError else .ok ()
  | .ok _ => .ok ()

/-- The loop over the keys: the first failing key ends it (`ompy/models.py` 50). -/
def PyObj.checkAll (o : PyObj) : List AName → Except Err Unit
  | [] => .ok ()
  | k :: r =>
    match o.checkKey k with
    | .ok () => o.checkAll r
    | .error e => .error e

/-- `Model.is_changed` (`ompy/models.py` 34-62). -/
def PyObj.isChanged (o : PyObj) (incl excl : List AName) : Except Err Unit :=
  let incl := if incl = [] then o.getParameters else incl
  o.checkAll (incl.filter fun k => k ∉ excl)

/-- `exclude_check_change` (`ompy/models.py` 449-451). -/
def defaultExclude : List AName := [nm "A", nm "Z", nm "exclude_check_change"]

/-- `NormalizationParameters.is_changed` with default arguments (`ompy/models.py` 453-462). -/
def PyObj.isChangedNorm (o : PyObj) : Except Err Unit := o.isChanged [] defaultExclude

end Ompy
