import Verif.Matrix

/-!
# Model of saving and loading (`ompy/filehandling.py`, `Vector.save/load`, `Matrix.save/load`)

The disk is a map from path strings to file contents.  Numbers in text formats are printed and
parsed again; what this does to a number is an arbitrary function (`rt` for txt/csv, `rc`, `rv` for the
calibration and the counts of MAMA files).  Binary files keep numbers exactly.  Not modelled:
directories, permissions, user-supplied keyword arguments of the text writers.
-/

namespace Ompy

/-- A numpy array as stored: 0, 1 or 2 dimensions (with its number of columns). -/
inductive NArr
  | d0 (x : ℚ) | d1 (l : List ℚ) | d2 (ncol : ℕ) (rows : List (List ℚ))
  deriving DecidableEq

/-- `a.shape`. -/
def NArr.shape : NArr → List ℕ
  | .d0 _ => []
  | .d1 l => [l.length]
  | .d2 ncol rows => [rows.length, ncol]

/-- File contents. `mama cal data` holds the calibration line and the counts. -/
inductive File
  | npy (a : NArr)
  | txt (ncol : ℕ) (rows : List (List ℚ))
  | csv (cols : List (String × List ℚ))
  | tar (members : List (String × NArr))
  | mama (cal : List ℚ) (ncol : ℕ) (rows : List (List ℚ))
  deriving DecidableEq

/-- The disk. -/
abbrev FS := String → Option File

/-- Write or remove a file. -/
def FS.set (fs : FS) (p : String) (f : Option File) : FS := fun q => if q = p then f else fs q

/-- A `pathlib.Path`, split as `str(path) = stem ++ suffix`. -/
structure FPath where
  stem : String
  suffix : String
  deriving DecidableEq

/-- `str(path)`. -/
def FPath.str (p : FPath) : String := p.stem ++ p.suffix

/-- `filetype_from_suffix`, ompy/filehandling.py:359-372. -/
def filetypeFromSuffix (p : FPath) : String :=
  if p.suffix = ".tar" then "tar"
  else if p.suffix = ".npy" then "numpy"
  else if p.suffix = ".txt" then "txt"
  else if p.suffix = ".m" then "mama"
  else if p.suffix = ".csv" then "csv"
  else "unknown"

/-- The `filetype` handling at the start of every save/load, ompy/vector.py:193-196. -/
def pickFiletype (p : FPath) (ft : Option String) : String :=
  (ft.getD (filetypeFromSuffix p)).toLower

/-- `np.save` appends `.npy` to other names. -/
def npyTarget (p : FPath) : String := if p.suffix = ".npy" then p.str else p.str ++ ".npy"

/-- `np.column_stack` of columns of one length (which `verify_integrity` guarantees). -/
def columnStack (cols : List (List ℚ)) : List (List ℚ) :=
  (List.range ((cols.getD 0 []).length)).map fun i => cols.map fun c => c.getD i 0

/-- `vec[:, k]`. -/
def column (rows : List (List ℚ)) (k : ℕ) : List ℚ := rows.map fun r => r.getD k 0

/-- `np.loadtxt`/`np.genfromtxt`: squeezed to the smallest dimension. -/
def loadtxt (ncol : ℕ) (rows : List (List ℚ)) : NArr :=
  match rows with
  | [] => .d1 []
  | [r] => if ncol = 1 then .d0 (r.getD 0 0) else .d1 r
  | _ => if ncol = 1 then .d1 (column rows 0) else .d2 ncol rows

/-- The columns of a 1D spectrum, ompy/filehandling.py:288-298 and 335-345:
`(values, E, std)`. -/
def split1D : NArr → Except Err (List ℚ × List ℚ × Option (List ℚ))
  | .d2 ncol rows =>
    if ncol < 2 then .error .indexError
    else .ok (column rows 1, column rows 0, if 3 ≤ ncol then some (column rows 2) else none)
  | _ => .error .indexError

/-- Columns written for a 1D spectrum, ompy/filehandling.py:301-308, 348-356. -/
def columns1D (v : Vec ℚ) : List (List ℚ) :=
  match v.std with
  | none => [v.E, v.values]
  | some s => [v.E, v.values, s]

/-- The name of the temporary file, ompy/filehandling.py:224: `str(path)[:-len(suffix)] + num +
'.npy'`.  Without a suffix the slice is `[:-0]`, the empty string. -/
def tmpName (p : FPath) (num : ℕ) : String :=
  (if p.suffix = "" then "" else p.stem) ++ toString num ++ ".npy"

/-- ompy/filehandling.py:220, 236. -/
def tarPath (p : FPath) : String := if p.suffix = ".tar" then p.str else p.str ++ ".tar"

/-- The loop of `save_tar`, ompy/filehandling.py:223-227.  `member` is tarfile's archive name of a
path (leading `/` removed). -/
def tarLoop (member : String → String) (p : FPath) : ℕ → List NArr → List (String × NArr) → FS →
    List (String × NArr) × FS
  | _, [], acc, fs => (acc, fs)
  | num, o :: os, acc, fs =>
    let fs1 := fs.set (tmpName p num) (some (.npy o))
    let fs2 := fs1.set (tmpName p num) none
    tarLoop member p (num + 1) os (acc ++ [(member (tmpName p num), o)]) fs2

/-- `save_tar`, ompy/filehandling.py:215-229. -/
def saveTar (member : String → String) (objs : List NArr) (p : FPath) (fs : FS) : FS :=
  let (ms, fs') := tarLoop member p 0 objs [] (fs.set (tarPath p) (some (.tar [])))
  fs'.set (tarPath p) (some (.tar ms))

/-- The loop of `load_tar`, ompy/filehandling.py:240-243: extract, load, remove. -/
def untarLoop : List (String × NArr) → List NArr → FS → List NArr × FS
  | [], acc, fs => (acc, fs)
  | (name, a) :: ms, acc, fs =>
    untarLoop ms (acc ++ [a]) ((fs.set name (some (.npy a))).set name none)

/-- `load_tar`, ompy/filehandling.py:232-244. -/
def loadTar (p : FPath) (fs : FS) : Except Err (List NArr) × FS :=
  match fs (tarPath p) with
  | some (.tar ms) => let (os, fs') := untarLoop ms [] fs; (.ok os, fs')
  | some _ => (.error .undefined, fs)
  | none => (.error .fileNotFound, fs)

/-- `Vector.calibration`, ompy/vector.py:108-116. -/
def vecCalibration (E : List ℚ) : Except Err (ℚ × ℚ) :=
  match E with
  | a :: b :: _ => .ok (a, b - a)
  | _ => .error .indexError

/-- `mama_write1D`, ompy/filehandling.py:85-129. -/
def mamaWrite1D (rc rv : ℚ → ℚ) (v : Vec ℚ) (path : String) (fs : FS) : Except Err FS := do
  if 8192 < v.values.length then .error .assertion
  else
    let (a0, a1) ← vecCalibration v.E
    .ok (fs.set path (some (.mama [rc a0, rc a1, rc 0] 1 (v.values.map fun x => [rv x]))))

/-- `mama_write2D`, ompy/filehandling.py:132-184: the calibration keys `a0x`, `a1x` of
`Matrix.calibration` (ompy/matrix.py:261-273) are those of `Ex`; they go to the y axis of the file. -/
def mamaWrite2D (rc rv : ℚ → ℚ) (m : Mat) (path : String) (fs : FS) : Except Err FS := do
  if 2048 < m.Ex.length ∨ 2048 < m.Eg.length then .error .assertion
  else
    let (a0x, a1x) ← vecCalibration m.Ex
    let (a0y, a1y) ← vecCalibration m.Eg
    .ok (fs.set path (some (.mama [rc a0y, rc a1y, rc 0, rc a0x, rc a1x, rc 0] m.Eg.length
      (m.values.map fun r => r.map rv))))

/-- `a0 + a1*k + a2*k**2`, ompy/filehandling.py:57-70. -/
def calAxis (a0 a1 a2 : ℚ) (n : ℕ) : List ℚ :=
  (List.range n).map fun k : ℕ => a0 + a1 * (k : ℚ) + a2 * (k : ℚ) ^ 2

/-- What `mama_read` returns. -/
inductive MamaData
  | one (counts : List ℚ) (x : List ℚ)
  | two (counts : List (List ℚ)) (x y : List ℚ)
  deriving DecidableEq

/-- `mama_read`, ompy/filehandling.py:11-72.  A file of another format is `undefined` here: it raises
something that depends on its bytes. -/
def mamaRead (path : String) (fs : FS) : Except Err MamaData :=
  match fs path with
  | some (.mama cal ncol rows) =>
    match cal with
    | [a0, a1, a2] =>
      match loadtxt ncol rows with
      | .d1 l => .ok (.one l (calAxis a0 a1 a2 l.length))
      | .d0 _ => .error .indexError
      | .d2 _ _ => .error .undefined
    | [a0, a1, a2, b0, b1, b2] =>
      match loadtxt ncol rows with
      | .d2 nc rs => .ok (.two rs (calAxis a0 a1 a2 nc) (calAxis b0 b1 b2 rs.length))
      | _ => .error .valueError
    | _ => .error .valueError
  | some _ => .error .undefined
  | none => .error .fileNotFound

/-- What printing and parsing do to numbers, and tarfile's archive names. -/
structure Fmt where
  rt : ℚ → ℚ
  rc : ℚ → ℚ
  rv : ℚ → ℚ
  member : String → String

/-- Conversion at the start of `Vector.save`, ompy/vector.py:183-191. -/
def saveUnits (v : Vec ℚ) (units : String) : Except Err (Vec ℚ) :=
  if units = "keV" then v.toKeV
  else if units = "MeV" then v.toMeV
  else if units = "same" then .ok v
  else .error .notImplemented

/-- `Vector.save`, ompy/vector.py:161-218.  In the MAMA branch the converted copy is computed, but
`self` is written (214). -/
def Vec.save (f : Fmt) (v : Vec ℚ) (p : FPath) (ft : Option String) (units : String) (fs : FS) :
    Except Err FS := do
  let w ← saveUnits v units
  let t := pickFiletype p ft
  if t = "numpy" then
    .ok (fs.set (npyTarget p) (some (.npy (.d2 (columns1D w).length (columnStack (columns1D w))))))
  else if t = "txt" then
    .ok (fs.set p.str (some (.txt (columns1D w).length
      ((columnStack (columns1D w)).map fun r => r.map f.rt))))
  else if t = "tar" then
    .ok (saveTar f.member (match w.std with
      | some s => [.d1 w.values, .d1 w.E, .d1 s]
      | none => [.d1 w.values, .d1 w.E]) p fs)
  else if t = "mama" then
    match (if w.units = "keV" then .ok w else w.toKeV) with
    | .error e => .error e
    | .ok _ => mamaWrite1D f.rc f.rv v p.str fs
  else if t = "csv" then
    .ok (fs.set p.str (some (.csv ([("E", w.E.map f.rt), ("values", w.values.map f.rt)] ++
      match w.std with
      | some s => [("std", s.map f.rt)]
      | none => []))))
  else .error .valueError

/-- `df[name]`. -/
def csvColumn (cols : List (String × List ℚ)) (name : String) : Option (List ℚ) :=
  (cols.find? fun c => c.1 == name).map Prod.snd

/-- `verify_integrity` after the new arrays are in place: the object keeps them either way; only the
outcome is returned here. -/
def finishLoad (v : Vec ℚ) : Except Err (Vec ℚ) := if v.consistent then .ok v else .error .valueError

/-- `Vector.load`, ompy/vector.py:220-262: the outcome and the disk afterwards (`load_tar` extracts to
disk).  The object `v` is loaded into; `units` is never changed.  Arrays of 0 or 2 dimensions in a tar file
are `undefined` here unless their shapes differ (`LoadObj.lean` has them). -/
def Vec.load (v : Vec ℚ) (p : FPath) (ft : Option String) (fs : FS) : Except Err (Vec ℚ) × FS :=
  let t := pickFiletype p ft
  if t = "numpy" then
    (match fs p.str with
      | some (.npy a) => do
        let (x, e, s) ← split1D a
        finishLoad { v with values := x, E := e, std := s }
      | some _ => .error .undefined
      | none => .error .fileNotFound, fs)
  else if t = "txt" then
    (match fs p.str with
      | some (.txt ncol rows) => do
        let (x, e, s) ← split1D (loadtxt ncol rows)
        finishLoad { v with values := x, E := e, std := s }
      | some _ => .error .undefined
      | none => .error .fileNotFound, fs)
  else if t = "tar" then
    match loadTar p fs with
    | (.ok [.d1 x, .d1 e, .d1 s], fs') => (finishLoad { v with values := x, E := e, std := some s }, fs')
    | (.ok [.d1 x, .d1 e], fs') => (finishLoad { v with values := x, E := e }, fs')
    | (.ok [x, e, _], fs') => (if e.shape = x.shape then .error .undefined else .error .valueError, fs')
    | (.ok [x, e], fs') => (if e.shape = x.shape then .error .undefined else .error .valueError, fs')
    | (.ok _, fs') => (.error .valueError, fs')
    | (.error e, fs') => (.error e, fs')
  else if t = "csv" then
    (match fs p.str with
      | some (.csv cols) =>
        match csvColumn cols "E", csvColumn cols "values" with
        | some e, some x => finishLoad { v with values := x, E := e, std := csvColumn cols "std" }
        | _, _ => .error .keyError
      | some _ => .error .undefined
      | none => .error .fileNotFound, fs)
  else
    (match mamaRead p.str fs with
      | .ok (.one c x) => finishLoad { v with values := c, E := x }
      | .ok (.two _ _ _) => .error .valueError
      | .error e => .error e, fs)

/-- The layout of a matrix in one array, ompy/filehandling.py:247-253: first row `0, Eg…`, then rows
`Ex_i, values_i…`. The corner (`np.empty`) holds an arbitrary number. -/
def pack2D (corner : ℚ) (values : List (List ℚ)) (Eg Ex : List ℚ) : List (List ℚ) :=
  (corner :: Eg) :: List.zipWith (fun e r => e :: r) Ex values

/-- `mat[1:, 1:], mat[0, 1:], mat[1:, 0]`, ompy/filehandling.py:256-259, 282-285; an array without rows or
without columns raises `IndexError`. -/
def unpack2D : NArr → Except Err (List (List ℚ) × List ℚ × List ℚ)
  | .d2 (_ + 1) (r :: rs) => .ok (rs.map List.tail, r.tail, column rs 0)
  | _ => .error .indexError

/-- The attribute selected by `which`, ompy/matrix.py:234-247. -/
def whichValues (m : Mat) (which : String) : Except Err (List (List ℚ)) :=
  if which.toLower = "values" then .ok m.values
  else if which.toLower = "std" then
    match m.std with
    | some s => .ok s
    | none => .error .runtimeError
  else .error .notImplemented

/-- `Matrix.save`, ompy/matrix.py:211-259. The MAMA branch writes `self`, i.e. `values`, for either
`which`. -/
def Mat.save (f : Fmt) (corner : ℚ) (m : Mat) (p : FPath) (ft : Option String) (which : String)
    (fs : FS) : Except Err FS := do
  let t := pickFiletype p ft
  let vals ← whichValues m which
  if t = "numpy" then
    .ok (fs.set (npyTarget p) (some (.npy (.d2 (m.Eg.length + 1) (pack2D corner vals m.Eg m.Ex)))))
  else if t = "txt" then
    .ok (fs.set p.str (some (.txt (m.Eg.length + 1)
      ((pack2D 0 vals m.Eg m.Ex).map fun r => r.map f.rt))))
  else if t = "tar" then
    .ok (saveTar f.member [.d2 m.Eg.length vals, .d1 m.Eg, .d1 m.Ex] p fs)
  else if t = "mama" then mamaWrite2D f.rc f.rv m p.str fs
  else .error .valueError

/-- `verify_integrity` after `Matrix.load`. -/
def finishLoadM (m : Mat) : Except Err Mat := if m.consistent then .ok m else .error .valueError

/-- `Matrix.load`, ompy/matrix.py:179-209; `std` and `state` stay what they were.  A tar file with
arrays of other dimensions is `undefined` here (`LoadObj.lean` has them). -/
def Mat.load (m : Mat) (p : FPath) (ft : Option String) (fs : FS) : Except Err Mat × FS :=
  let t := pickFiletype p ft
  if t = "numpy" then
    (match fs p.str with
      | some (.npy a) => do
        let (x, g, e) ← unpack2D a
        finishLoadM { m with values := x, Eg := g, Ex := e }
      | some _ => .error .undefined
      | none => .error .fileNotFound, fs)
  else if t = "txt" then
    (match fs p.str with
      | some (.txt ncol rows) => do
        let (x, g, e) ← unpack2D (loadtxt ncol rows)
        finishLoadM { m with values := x, Eg := g, Ex := e }
      | some _ => .error .undefined
      | none => .error .fileNotFound, fs)
  else if t = "tar" then
    match loadTar p fs with
    | (.ok [.d2 _ x, .d1 g, .d1 e], fs') => (finishLoadM { m with values := x, Eg := g, Ex := e }, fs')
    | (.ok [_, _, _], fs') => (.error .undefined, fs')
    | (.ok _, fs') => (.error .valueError, fs')
    | (.error e, fs') => (.error e, fs')
  else
    (match mamaRead p.str fs with
      | .ok (.two c x y) => finishLoadM { m with values := c, Eg := x, Ex := y }
      | .ok (.one _ _) => .error .valueError
      | .error e => .error e, fs)

end Ompy
