import Verif.FileIO

/-!
# What `load` leaves in the object

`Vec.load` and `Mat.load` of `FileIO.lean` return the loaded object or the exception.  Here the object itself is
kept: its attributes are arrays of any dimension, they are assigned before `verify_integrity` looks at them, and
a caller that catches the exception still holds the object.  Not modelled: keyword arguments of `pd.read_csv`.
-/

namespace Ompy

/-- The attributes of a `Vector` (ompy/vector.py:31-83) as `load` assigns them: arrays of any dimension. -/
structure LVec where
  values : NArr
  E : NArr
  std : Option NArr
  units : String
  deriving DecidableEq

/-- The attributes of a `Matrix` (ompy/matrix.py:81-138) as `load` assigns them. -/
structure LMat where
  values : NArr
  Eg : NArr
  Ex : NArr
  std : Option NArr
  state : Option MState
  deriving DecidableEq

/-- A tuple of arrays as the readers return it; the third one of a spectrum may be `None`. -/
abbrev Arrays1D := NArr × NArr × Option NArr

/-- `load_numpy_1D` and `load_txt_1D` after reading, ompy/filehandling.py:288-298 and 335-345. -/
def arrays1D (a : NArr) : Except Err Arrays1D :=
  match split1D a with
  | .error e => .error e
  | .ok (x, e, s) => .ok (.d1 x, .d1 e, s.map .d1)

/-- `mama_read`, ompy/filehandling.py:11-72: two arrays for a calibration line of three numbers, three arrays for
one of six.  `counts.shape[0]` of a single number raises `IndexError`; `Ny, Nx = counts.shape` raises `ValueError`
unless there are two dimensions.  A file of another format is `undefined`. -/
def mamaTuple (path : String) (fs : FS) : Except Err (List NArr) :=
  match fs path with
  | some (.mama cal ncol rows) =>
    match cal with
    | [a0, a1, a2] =>
      match loadtxt ncol rows with
      | .d0 _ => .error .indexError
      | .d1 l => .ok [.d1 l, .d1 (calAxis a0 a1 a2 l.length)]
      | .d2 nc rs => .ok [.d2 nc rs, .d1 (calAxis a0 a1 a2 rs.length)]
    | [a0, a1, a2, b0, b1, b2] =>
      match loadtxt ncol rows with
      | .d2 nc rs => .ok [.d2 nc rs, .d1 (calAxis a0 a1 a2 nc), .d1 (calAxis b0 b1 b2 rs.length)]
      | _ => .error .valueError
    | _ => .error .valueError
  | some _ => .error .undefined
  | none => .error .fileNotFound

/-- `Vector.verify_integrity`, ompy/vector.py:87-103: the shapes of `E` and `std` are that of `values`. -/
def LVec.verify (v : LVec) : Except Err Unit :=
  if v.E.shape ≠ v.values.shape then .error .valueError
  else
    match v.std with
    | none => .ok ()
    | some s => if s.shape ≠ v.values.shape then .error .valueError else .ok ()

/-- `self.values, self.E, self.std = …` followed by `verify_integrity` (ompy/vector.py:238-260), or the exception
of the reader. -/
def LVec.assign3 (v : LVec) : Except Err Arrays1D → LVec × Except Err Unit
  | .error e => (v, .error e)
  | .ok (x, e, s) =>
    let w : LVec := { v with values := x, E := e, std := s }
    (w, w.verify)

/-- `self.values, self.E = …` followed by `verify_integrity` (ompy/vector.py:246-260): `std` stays. Another number
of arrays raises `ValueError` before anything is assigned. -/
def LVec.assign2 (v : LVec) : Except Err (List NArr) → LVec × Except Err Unit
  | .error e => (v, .error e)
  | .ok [x, e] =>
    let w : LVec := { v with values := x, E := e }
    (w, w.verify)
  | .ok _ => (v, .error .valueError)

/-- `Vector.load`, ompy/vector.py:220-262: the object, the outcome and the disk afterwards. -/
def LVec.load (v : LVec) (p : FPath) (ft : Option String) (fs : FS) : (LVec × Except Err Unit) × FS :=
  let t := pickFiletype p ft
  if t = "numpy" then
    (v.assign3 (match fs p.str with
      | some (.npy a) => arrays1D a
      | some _ => .error .undefined
      | none => .error .fileNotFound), fs)
  else if t = "txt" then
    (v.assign3 (match fs p.str with
      | some (.txt ncol rows) => arrays1D (loadtxt ncol rows)
      | some _ => .error .undefined
      | none => .error .fileNotFound), fs)
  else if t = "tar" then
    match loadTar p fs with
    | (.ok [x, e, s], fs') => (v.assign3 (.ok (x, e, some s)), fs')
    | (.ok l, fs') => (v.assign2 (.ok l), fs')
    | (.error e, fs') => ((v, .error e), fs')
  else if t = "csv" then
    (v.assign3 (match fs p.str with
      | some (.csv cols) =>
        match csvColumn cols "E", csvColumn cols "values" with
        | some e, some x => .ok (.d1 x, .d1 e, (csvColumn cols "std").map .d1)
        | _, _ => .error .keyError
      | some _ => .error .undefined
      | none => .error .fileNotFound), fs)
  else (v.assign2 (mamaTuple p.str fs), fs)

/-- `mat[1:, 1:], mat[0, 1:], mat[1:, 0]`, ompy/filehandling.py:256-259, 282-285. -/
def arrays2D : NArr → Except Err (List NArr)
  | .d2 (n + 1) (r :: rs) => .ok [.d2 n (rs.map List.tail), .d1 r.tail, .d1 (column rs 0)]
  | _ => .error .indexError

/-- The check of an axis in `Matrix.verify_integrity`, ompy/matrix.py:155-169: an array of one dimension has to
have the length `n`, one of more dimensions is refused, a single number is let through. -/
def axisCheck (a : NArr) (n : ℕ) : Except Err Unit :=
  match a with
  | .d0 _ => .ok ()
  | .d1 l => if n ≠ l.length then .error .valueError else .ok ()
  | .d2 _ _ => .error .valueError

/-- `Matrix.verify_integrity`, ompy/matrix.py:140-177: nothing is checked unless `values` has two dimensions. -/
def LMat.verify (m : LMat) : Except Err Unit :=
  match m.values with
  | .d2 ncol rows => do
    axisCheck m.Ex rows.length
    axisCheck m.Eg ncol
    match m.std with
    | none => .ok ()
    | some s => if s.shape ≠ [rows.length, ncol] then .error .valueError else .ok ()
  | _ => .ok ()

/-- `self.values, self.Eg, self.Ex = …` followed by `verify_integrity` (ompy/matrix.py:196-209): `std` and `state`
stay. Another number of arrays raises `ValueError` before anything is assigned. -/
def LMat.assign (m : LMat) : Except Err (List NArr) → LMat × Except Err Unit
  | .error e => (m, .error e)
  | .ok [x, g, e] =>
    let w : LMat := { m with values := x, Eg := g, Ex := e }
    (w, w.verify)
  | .ok _ => (m, .error .valueError)

/-- `Matrix.load`, ompy/matrix.py:179-209: the object, the outcome and the disk afterwards. -/
def LMat.load (m : LMat) (p : FPath) (ft : Option String) (fs : FS) : (LMat × Except Err Unit) × FS :=
  let t := pickFiletype p ft
  if t = "numpy" then
    (m.assign (match fs p.str with
      | some (.npy a) => arrays2D a
      | some _ => .error .undefined
      | none => .error .fileNotFound), fs)
  else if t = "txt" then
    (m.assign (match fs p.str with
      | some (.txt ncol rows) => arrays2D (loadtxt ncol rows)
      | some _ => .error .undefined
      | none => .error .fileNotFound), fs)
  else if t = "tar" then
    match loadTar p fs with
    | (r, fs') => (m.assign r, fs')
  else (m.assign (mamaTuple p.str fs), fs)

/-- A call of `load`: path and file type. -/
structure LoadCall where
  path : FPath
  ft : Option String
  deriving DecidableEq

/-- A history of `load`s of one vector (ompy/vector.py:220-262), exceptions being caught by the caller; between
two loads the disk may be changed by others (`FS → FS`). -/
def LVec.loads : List (LoadCall × (FS → FS)) → LVec × FS → LVec × FS
  | [], s => s
  | (c, other) :: h, (v, fs) =>
    let r := v.load c.path c.ft fs
    LVec.loads h (r.1.1, other r.2)

/-- A history of `load`s of one matrix (ompy/matrix.py:179-209), in the same way. -/
def LMat.loads : List (LoadCall × (FS → FS)) → LMat × FS → LMat × FS
  | [], s => s
  | (c, other) :: h, (m, fs) =>
    let r := m.load c.path c.ft fs
    LMat.loads h (r.1.1, other r.2)

end Ompy
