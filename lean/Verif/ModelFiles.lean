import Verif.Models

/-!
# Model of `Model.save`, `load`, `asdict` and `__str__` (ompy/models.py:64-98, 113-131)

Objects are those of `Verif.Models`.  A file holds a pickled object or something else.  What `pickle` does with values the
model does not look into (`opaque`) is a parameter; only `opaque 2`, the bound method that the constructors of the two
extrapolation models store as `model` (ompy/models.py:297-298, 352-353), is known: `pickle` writes it as
`getattr(obj, "__model")`, the name in the source, but the class has the method under its mangled name
(`_ExtrapolationModelLow__model`).
-/

namespace Ompy

/-- Content of a file: the class and the `__dict__` of a pickled object, or anything else (for example the beginning of a
pickle). -/
inductive PFile
  | pickled (cls : MClass) (dict : List (AName × PVal))
  | other
  deriving DecidableEq

/-- The disk: directories and permissions are left out. -/
abbrev PDisk := AName → Option PFile

/-- Write a file. -/
def PDisk.set (d : PDisk) (p : AName) (f : PFile) : PDisk := fun q => if q = p then some f else d q

/-- What happens when opaque values are written and read: `none` means that it works. -/
structure Pickler where
  dumps : ℕ → Option Err
  loads : ℕ → Option Err

/-- Writing a value. -/
def Pickler.dump (P : Pickler) : PVal → Option Err
  | .opaque k => if k = 2 then none else P.dumps k
  | _ => none

/-- Reading a value. -/
def Pickler.read (P : Pickler) : PVal → Option Err
  | .opaque k => if k = 2 then some .attributeError else P.loads k
  | _ => none

/-- `Model.save`, ompy/models.py:71-79.  `open('wb')` empties the file before anything is written. -/
def PyObj.save (P : Pickler) (d : PDisk) (p : AName) (o : PyObj) : PDisk × Except Err Unit :=
  match o.dict.findSome? fun kv => P.dump kv.2 with
  | some e => (d.set p .other, .error e)
  | none => (d.set p (.pickled o.cls o.dict), .ok ())

/-- The loop of `load`, ompy/models.py:97-98: what has been set stays set if a later name fails. -/
def PyObj.loadKeys (src : PyObj) : PyObj → List AName → PyObj × Except Err Unit
  | o, [] => (o, .ok ())
  | o, k :: ks =>
    match src.getAttr k with
    | .error e => (o, .error e)
    | .ok v =>
      match o.setAttr k v with
      | .error e => (o, .error e)
      | .ok o' => src.loadKeys o' ks

/-- `Model.load`, ompy/models.py:81-98: the object afterwards and the exception.  `IOError` is `fileNotFound`, errors of
`pickle` are `runtimeError`. -/
def PyObj.load (P : Pickler) (d : PDisk) (p : AName) (o : PyObj) : PyObj × Except Err Unit :=
  match d p with
  | none => (o, .error .fileNotFound)
  | some .other => (o, .error .runtimeError)
  | some (.pickled c dict) =>
    match dict.findSome? fun kv => P.read kv.2 with
    | some e => (o, .error e)
    | none => PyObj.loadKeys ⟨c, dict⟩ o (PyObj.getParameters ⟨c, dict⟩)

/-- `prop.startswith('__')`. -/
def startsDunder : AName → Bool
  | '_' :: '_' :: _ => true
  | _ => false

/-- `dir(self)` without the names every Python object has; the order does not matter. -/
def PyObj.dirNames (o : PyObj) : List AName := (o.dict.map (·.1) ++ o.cls.props ++ o.cls.methods).dedup

/-- `asdict`, ompy/models.py:64-69. -/
def PyObj.asdict (o : PyObj) : Except Err (List (AName × PVal)) :=
  (o.dirNames.filter fun n => !(startsDunder n || n ∈ modelMethods)).mapM fun n =>
    match o.getAttr n with
    | .ok v => .ok (n, v)
    | .error e => .error e

/-- One field of `__str__`, ompy/models.py:120-128: the name and the value that are printed. -/
def PyObj.strField (o : PyObj) (n : AName) : Except Err (AName × PVal) :=
  let plain : Except Err (AName × PVal) :=
    match o.getAttr n with
    | .ok v => .ok (n, v)
    | .error e => .error e
  match n with
  | '_' :: r =>
    match o.getAttr r with
    | .ok v => .ok (r, v)
    | .error .attributeError => plain
    | .error .indexError => plain
    | .error .assertion => plain
    | .error e => .error e
  | _ => plain

/-- `__str__`, ompy/models.py:113-131: names and values of the fields in their order.  Texts and types are left out. -/
def PyObj.str (o : PyObj) : Except Err (List (AName × PVal)) :=
  ((o.cls.fields.map (·.1)).filter fun n => n ≠ nm "name").mapM o.strField

end Ompy
