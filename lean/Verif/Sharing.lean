import Verif.MatrixRebin
import Verif.Trapezoid
import Verif.Diagonal

/-!
# Arrays that objects share

Vectors and matrices with the arrays they refer to.  Methods in place bind attributes to new arrays, to views of their own arrays or to arrays of the caller, or write into an array.
Several attributes may refer to one piece of memory.
-/

namespace Ompy

/-- Memory: the numbers in each buffer, by position (row, column); buffers from `next` on are not in use yet. -/
structure Memory where
  next : ℕ
  cell : ℕ → ℕ × ℕ → ℚ

/-- A numpy array of one dimension: its buffer and the positions of its entries in it.  Slices are views: other positions, same buffer. -/
structure Ref1 where
  buf : ℕ
  pos : List (ℕ × ℕ)
  deriving DecidableEq

/-- A numpy array of two dimensions. -/
structure Ref2 where
  buf : ℕ
  pos : List (List (ℕ × ℕ))
  deriving DecidableEq

namespace Memory

/-- The numbers of an array. -/
def read1 (h : Memory) (r : Ref1) : List ℚ := r.pos.map (h.cell r.buf)

/-- The numbers of an array of two dimensions. -/
def read2 (h : Memory) (r : Ref2) : List (List ℚ) := r.pos.map fun row => row.map (h.cell r.buf)

/-- A new array. -/
def new1 (h : Memory) (d : List ℚ) : Memory × Ref1 :=
  (⟨h.next + 1, Function.update h.cell h.next fun p => d.getD p.2 0⟩, ⟨h.next, (List.range d.length).map fun j => (0, j)⟩)

/-- A new array of two dimensions. -/
def new2 (h : Memory) (d : List (List ℚ)) : Memory × Ref2 :=
  (⟨h.next + 1, Function.update h.cell h.next fun p => (d.getD p.1 []).getD p.2 0⟩,
    ⟨h.next, (List.range d.length).map fun i => (List.range (d.getD i []).length).map fun j => (i, j)⟩)

/-- A new array, if there is one. -/
def newOpt1 (h : Memory) : Option (List ℚ) → Memory × Option Ref1
  | none => (h, none)
  | some d => ((h.new1 d).1, some (h.new1 d).2)

/-- A new array of two dimensions, if there is one. -/
def newOpt2 (h : Memory) : Option (List (List ℚ)) → Memory × Option Ref2
  | none => (h, none)
  | some d => ((h.new2 d).1, some (h.new2 d).2)

/-- Writing numbers to positions of a buffer, one after the other. -/
def put (h : Memory) (b : ℕ) (w : List ((ℕ × ℕ) × ℚ)) : Memory :=
  { h with cell := Function.update h.cell b (w.foldl (fun f q => Function.update f q.1 q.2) (h.cell b)) }

/-- `array[...] = d`, `array /= c` and the like: the array keeps its memory. -/
def store1 (h : Memory) (r : Ref1) (d : List ℚ) : Memory := h.put r.buf (r.pos.zip d)

/-- The same for two dimensions. -/
def store2 (h : Memory) (r : Ref2) (d : List (List ℚ)) : Memory := h.put r.buf (r.pos.flatten.zip d.flatten)

end Memory

/-- `array[a:b]`. -/
def Ref1.slice (r : Ref1) (a b : ℤ) : Ref1 := { r with pos := pySlice r.pos a b }

/-- `array[a:b, :]`. -/
def Ref2.rows (r : Ref2) (a b : ℤ) : Ref2 := { r with pos := pySlice r.pos a b }

/-- `array[:, a:b]`. -/
def Ref2.cols (r : Ref2) (a b : ℤ) : Ref2 := { r with pos := r.pos.map fun row => pySlice row a b }

/-- A `Vector`, ompy/vector.py:36-82, by the arrays it refers to. -/
structure VObj where
  E : Ref1
  values : Ref1
  std : Option Ref1
  units : String

/-- A `Matrix`, ompy/matrix.py:81-138, by the arrays it refers to. -/
structure MObj where
  values : Ref2
  Eg : Ref1
  Ex : Ref1
  std : Option Ref2
  state : Option MState

/-- The numbers of a vector. -/
def VObj.view (h : Memory) (o : VObj) : Vec ℚ := ⟨h.read1 o.E, h.read1 o.values, o.std.map h.read1, o.units⟩

/-- The numbers of a matrix. -/
def MObj.view (h : Memory) (o : MObj) : Mat := ⟨h.read2 o.values, h.read1 o.Eg, h.read1 o.Ex, o.std.map h.read2, o.state⟩

/-- The constructor of `Vector` copies what it is given, ompy/vector.py:63-76; also `copy`, ompy/abstractarray.py:20-22 (vectors whose attributes are one array are not followed). -/
def VObj.make (h : Memory) (v : Vec ℚ) : Memory × VObj :=
  let (h1, rv) := h.new1 v.values
  let (h2, re) := h1.new1 v.E
  let (h3, rs) := h2.newOpt1 v.std
  (h3, ⟨re, rv, rs, v.units⟩)

/-- New arrays for all attributes of a matrix. -/
def MObj.make (h : Memory) (m : Mat) : Memory × MObj :=
  let (h1, rv) := h.new2 m.values
  let (h2, rg) := h1.new1 m.Eg
  let (h3, rx) := h2.new1 m.Ex
  let (h4, rs) := h3.newOpt2 m.std
  (h4, ⟨rv, rg, rx, rs, m.state⟩)

/-- Vectors that methods return are built by the constructor. -/
def returnVec (h : Memory) (r : Except Err (Vec ℚ)) : Memory × Except Err (Option VObj) :=
  match r with
  | .error e => (h, .error e)
  | .ok v => ((VObj.make h v).1, .ok (some (VObj.make h v).2))

/-- Matrices that methods return, from new arrays. -/
def returnMat (h : Memory) (r : Except Err Mat) : Memory × Except Err (Option MObj) :=
  match r with
  | .error e => (h, .error e)
  | .ok m => ((MObj.make h m).1, .ok (some (MObj.make h m).2))

/-! ### Vectors -/

/-- `Vector.cut(inplace=True)`, ompy/vector.py:349-365: views of the arrays. -/
def VObj.cut (h : Memory) (o : VObj) (emin emax : Option ℚ) : VObj × Except Err Unit :=
  let bounds : Except Err (ℤ × ℤ) := do
    let lo ← orElseE emin (listMin (h.read1 o.E))
    let hi ← orElseE emax (listMax (h.read1 o.E))
    let imin ← index (h.read1 o.E) lo
    let imax ← index (h.read1 o.E) hi
    pure ((imin : ℤ), (imax : ℤ) + 1)
  match bounds with
  | .error e => (o, .error e)
  | .ok (a, b) => ({ o with E := o.E.slice a b, values := o.values.slice a b, std := o.std.map fun s => s.slice a b }, .ok ())

/-- `Vector.rebin(inplace=True)`, ompy/vector.py:405-426: `self.E = mids` is the array of the caller if `mids` is given. -/
def VObj.rebin (h : Memory) (o : VObj) (mids : Option Ref1) (factor : Option ℚ) : Memory × VObj × Except Err Unit :=
  match rebinMids (h.read1 o.E) (mids.map h.read1) factor with
  | .error e => (h, o, .error e)
  | .ok m =>
    match rebin1D (h.read1 o.values) (h.read1 o.E) m with
    | .error e => (h, o, .error e)
    | .ok r =>
      let (h1, rv) := h.new1 r
      match mids with
      | some a => (h1, { o with values := rv, E := a }, (VObj.view h1 { o with values := rv, E := a }).verify)
      | none =>
        let (h2, re) := h1.new1 m
        (h2, { o with values := rv, E := re }, (VObj.view h2 { o with values := rv, E := re }).verify)

/-- `to_MeV`, ompy/vector.py:430-438: `self.E /= 1e3` writes into the array. -/
def VObj.toMeV (h : Memory) (o : VObj) : Memory × VObj × Except Err Unit :=
  if o.units = "MeV" then (h, o, .ok ())
  else if o.units = "keV" then (h.store1 o.E ((h.read1 o.E).map (· / 1000)), { o with units := "MeV" }, .ok ())
  else (h, o, .error .notImplemented)

/-- `to_keV`, ompy/vector.py:440-448. -/
def VObj.toKeV (h : Memory) (o : VObj) : Memory × VObj × Except Err Unit :=
  if o.units = "keV" then (h, o, .ok ())
  else if o.units = "MeV" then (h.store1 o.E ((h.read1 o.E).map (· * 1000)), { o with units := "keV" }, .ok ())
  else (h, o, .error .notImplemented)

/-- `closest(inplace=True)`, ompy/vector.py:471-495: `self.E = E_new` is the array of the caller. -/
def VObj.closest (h : Memory) (o : VObj) (a : Ref1) (right : Bool) : Memory × VObj × Except Err Unit :=
  match (VObj.view h o).closest (h.read1 a) right with
  | .error e => (h, o, .error e)
  | .ok v =>
    let (h1, rv) := h.new1 v.values
    let (h2, rs) := h1.newOpt1 v.std
    (h2, { o with E := a, values := rv, std := rs }, .ok ())

/-- Methods in place that bind `values` and `std` to new arrays: `transform`, ompy/vector.py:283-297, `cumulative`, ompy/vector.py:525-533. -/
def VObj.renew (h : Memory) (o : VObj) (r : Except Err (Vec ℚ)) : Memory × VObj × Except Err Unit :=
  match r with
  | .error e => (h, o, .error e)
  | .ok v =>
    let (h1, rv) := h.new1 v.values
    let (h2, rs) := h1.newOpt1 v.std
    (h2, { o with values := rv, std := rs }, .ok ())

/-- `vector[k] = x`, ompy/abstractarray.py:137-138. -/
def VObj.setItem (h : Memory) (o : VObj) (k : ℕ) (x : ℚ) : Memory × VObj × Except Err Unit :=
  if k < o.values.pos.length then (h.store1 o.values ((h.read1 o.values).set k x), o, .ok ())
  else (h, o, .error .indexError)

/-! ### Matrices -/

/-- `Matrix.cut(inplace=True)`, ompy/matrix.py:508-550: views of the arrays. -/
def MObj.cut (h : Memory) (o : MObj) (axis : ℕ) (emin emax : Option ℚ) (minIncl maxIncl : Bool) : MObj × Except Err Unit :=
  match cutBounds (if axis = 0 then h.read1 o.Eg else h.read1 o.Ex) emin emax minIncl maxIncl with
  | .error e => (o, .error e)
  | .ok (a, b) =>
    if axis = 0 then ({ o with values := o.values.cols a b, Eg := o.Eg.slice a b }, .ok ())
    else if axis = 1 then ({ o with values := o.values.rows a b, Ex := o.Ex.slice a b }, .ok ())
    else (o, .error .valueError)

/-- The array bound to the axis, ompy/matrix.py:729-743: that of the caller, or a new one. -/
def newAxis (h : Memory) (mids : Option Ref1) (m : List ℚ) : Memory × Ref1 :=
  match mids with
  | some a => (h, a)
  | none => h.new1 m

/-- One axis of `Matrix.rebin(inplace=True)`, ompy/matrix.py:715-744: the axis is the array of the caller if `mids` is given. -/
def MObj.rebinOne (h : Memory) (o : MObj) (isEx : Bool) (mids : Option Ref1) (factor : Option ℚ) : Memory × MObj × Except Err Unit :=
  match rebinMids (if isEx then h.read1 o.Ex else h.read1 o.Eg) (mids.map h.read1) factor with
  | .error e => (h, o, .error e)
  | .ok m =>
    match rebin2D (h.read2 o.values) (h.read1 o.Eg).length (if isEx then h.read1 o.Ex else h.read1 o.Eg) m (if isEx then 0 else 1) with
    | .error e => (h, o, .error e)
    | .ok r =>
      let (h1, rv) := h.new2 r
      let (h2, ra) := newAxis h1 mids m
      let o' : MObj := if isEx then { o with values := rv, Ex := ra } else { o with values := rv, Eg := ra }
      (h2, o', (o'.view h2).verify)

/-- `Matrix.rebin(axis, mids, factor, inplace=True)`, ompy/matrix.py:712-744. -/
def MObj.rebin (h : Memory) (o : MObj) (axis : ℕ) (mids : Option Ref1) (factor : Option ℚ) : Memory × MObj × Except Err Unit :=
  if axis = 2 then
    match MObj.rebinOne h o false mids factor with
    | (h1, o1, .error e) => (h1, o1, .error e)
    | (h1, o1, .ok ()) => MObj.rebinOne h1 o1 true mids factor
  else MObj.rebinOne h o (axis ≠ 0) mids factor

/-- `Matrix.rebin(axis, mids, factor, inplace=False)`, ompy/matrix.py:712-753.  For both axes the matrix returned is rebinned in place in the second step (725-727). -/
def MObj.rebinCopy (h : Memory) (o : MObj) (axis : ℕ) (mids : Option Ref1) (factor : Option ℚ) : Memory × Except Err (Option MObj) :=
  if axis = 2 then
    match (o.view h).rebinOneCopy false (mids.map h.read1) factor with
    | .error e => (h, .error e)
    | .ok m =>
      let (h1, n) := MObj.make h m
      match MObj.rebinOne h1 n true mids factor with
      | (h2, _, .error e) => (h2, .error e)
      | (h2, n', .ok ()) => (h2, .ok (some n'))
  else returnMat h ((o.view h).rebinOneCopy (axis ≠ 0) (mids.map h.read1) factor)

/-- Methods that write into `values`: `fill`, ompy/matrix.py:774, `cut_diagonal`, 597-598, `matrix[i, j] = x`, ompy/abstractarray.py:137-138. -/
def MObj.write (h : Memory) (o : MObj) (r : Except Err (List (List ℚ))) : Memory × MObj × Except Err Unit :=
  match r with
  | .error e => (h, o, .error e)
  | .ok d => (h.store2 o.values d, o, .ok ())

/-- `remove_negative`, ompy/matrix.py:780-782: a new array. -/
def MObj.removeNegative (h : Memory) (o : MObj) : Memory × MObj × Except Err Unit :=
  let (h1, rv) := h.new2 (removeNegativeQ (h.read2 o.values))
  (h1, { o with values := rv }, .ok ())

/-- `to_lower_bin` (sign -1) and `to_mid_bin` (sign 1), ompy/matrix.py:851-863: both widths are taken before the axes are changed, `Ex` first, in place. -/
def MObj.shiftBins (h : Memory) (o : MObj) (sign : ℚ) : Memory × MObj × Except Err Unit :=
  match halfBin (h.read1 o.Ex), halfBin (h.read1 o.Eg) with
  | .ok dEx, .ok dEg =>
    let h1 := h.store1 o.Ex ((h.read1 o.Ex).map (· + sign * dEx))
    (h1.store1 o.Eg ((h1.read1 o.Eg).map (· + sign * dEg)), o, .ok ())
  | .error e, _ => (h, o, .error e)
  | _, .error e => (h, o, .error e)

/-- `trapezoid(inplace=True)`, ompy/matrix.py:661-687: the arrays of a copy (here with just the numbers that are left). -/
def MObj.trapezoid (h : Memory) (o : MObj) (exMin exMax egMin : ℚ) (egMax : Option ℚ) : Memory × MObj × Except Err Unit :=
  match (o.view h).trapezoid exMin exMax egMin egMax with
  | .error e => (h, o, .error e)
  | .ok t =>
    let (h1, rv) := h.new2 t.values
    let (h2, rx) := h1.new1 t.Ex
    let (h3, rg) := h2.new1 t.Eg
    (h3, { o with values := rv, Ex := rx, Eg := rg, state := t.state }, .ok ())

/-- `copy`, ompy/abstractarray.py:20-22.  An array that is both axes is both axes of the copy (deepcopy keeps a memo); other attributes that are one array are not followed. -/
def MObj.copy (h : Memory) (o : MObj) : Memory × MObj :=
  let (h1, n) := MObj.make h (o.view h)
  if o.Ex = o.Eg then (h1, { n with Ex := n.Eg }) else (h1, n)

/-! ### Programs -/

/-- An object of the caller. -/
inductive AnyObj
  | vec (o : VObj)
  | mat (o : MObj)

/-- The numbers of an object. -/
inductive ObjVal
  | vec (v : Vec ℚ)
  | mat (m : Mat)
  deriving DecidableEq

/-- An array given to a call: a new one, or an attribute of one of the objects. -/
inductive Arg
  | lit (d : List ℚ)
  | vecE (k : ℕ)
  | vecValues (k : ℕ)
  | matEg (k : ℕ)
  | matEx (k : ℕ)
  deriving DecidableEq

/-- The same for two dimensions. -/
inductive Arg2
  | lit (d : List (List ℚ))
  | matValues (k : ℕ)
  | matStd (k : ℕ)
  deriving DecidableEq

/-- Calls of methods of a vector. -/
inductive VCall
  | cut (emin emax : Option ℚ) | cutCopy (emin emax : Option ℚ)
  | rebin (mids : Option Arg) (factor : Option ℚ) | rebinCopy (mids : Option Arg) (factor : Option ℚ)
  | toMeV | toKeV
  | closest (e : Arg) (right : Bool) | closestCopy (e : Arg) (right : Bool)
  | transform (const alpha : ℚ) | transformCopy (const alpha : ℚ)
  | cumulative (factor : CumFactor) | cumulativeCopy (factor : CumFactor)
  | setItem (k : ℕ) (x : ℚ) | copy

/-- Calls of methods of a matrix. -/
inductive MCall
  | cut (axis : ℕ) (emin emax : Option ℚ) (minIncl maxIncl : Bool) | cutCopy (axis : ℕ) (emin emax : Option ℚ) (minIncl maxIncl : Bool)
  | rebin (axis : ℕ) (mids : Option Arg) (factor : Option ℚ) | rebinCopy (axis : ℕ) (mids : Option Arg) (factor : Option ℚ)
  | fill (eg ex c : ℚ) | cutDiagonal (E1 E2 : Option (ℚ × ℚ)) | removeNegative
  | toLowerBin | toMidBin
  | trapezoid (exMin exMax egMin : ℚ) (egMax : Option ℚ) | copy

/-- Calls: constructors (ompy/vector.py:36-82, ompy/matrix.py:81-138, with `values` and axes given) and methods of object `k`. -/
inductive PyCall
  | newVec (values E : Arg) (std : Option Arg) (units : String)
  | newMat (values : Arg2) (Eg Ex : Arg) (std : Option Arg2) (state : Option MState)
  | onVec (k : ℕ) (c : VCall)
  | onMat (k : ℕ) (c : MCall)

/-- Memory and objects. -/
structure World where
  mem : Memory
  objs : List AnyObj

/-- The array of an argument. -/
def World.arg (s : World) : Arg → Except Err (Memory × Ref1)
  | .lit d => .ok (s.mem.new1 d)
  | .vecE k => match s.objs[k]? with
    | some (.vec o) => .ok (s.mem, o.E)
    | _ => .error .nameError
  | .vecValues k => match s.objs[k]? with
    | some (.vec o) => .ok (s.mem, o.values)
    | _ => .error .nameError
  | .matEg k => match s.objs[k]? with
    | some (.mat o) => .ok (s.mem, o.Eg)
    | _ => .error .nameError
  | .matEx k => match s.objs[k]? with
    | some (.mat o) => .ok (s.mem, o.Ex)
    | _ => .error .nameError

/-- The array of an argument that may be left out. -/
def World.argOpt (s : World) : Option Arg → Except Err (Memory × Option Ref1)
  | none => .ok (s.mem, none)
  | some a => match s.arg a with
    | .ok (h, r) => .ok (h, some r)
    | .error e => .error e

/-- The array of an argument of two dimensions. -/
def World.arg2 (s : World) : Arg2 → Except Err (Memory × Ref2)
  | .lit d => .ok (s.mem.new2 d)
  | .matValues k => match s.objs[k]? with
    | some (.mat o) => .ok (s.mem, o.values)
    | _ => .error .nameError
  | .matStd k => match s.objs[k]? with
    | some (.mat ⟨_, _, _, some r, _⟩) => .ok (s.mem, r)
    | _ => .error .nameError

/-- The same for an argument that may be left out. -/
def World.argOpt2 (s : World) : Option Arg2 → Except Err (Memory × Option Ref2)
  | none => .ok (s.mem, none)
  | some a => match s.arg2 a with
    | .ok (h, r) => .ok (h, some r)
    | .error e => .error e

/-- After a method in place. -/
def World.setVec (s : World) (k : ℕ) (r : Memory × VObj × Except Err Unit) : World × Except Err Unit :=
  (⟨r.1, s.objs.set k (.vec r.2.1)⟩, r.2.2)

/-- After a method in place. -/
def World.setMat (s : World) (k : ℕ) (r : Memory × MObj × Except Err Unit) : World × Except Err Unit :=
  (⟨r.1, s.objs.set k (.mat r.2.1)⟩, r.2.2)

/-- After a method that returns a vector. -/
def World.addVec (s : World) (r : Memory × Except Err (Option VObj)) : World × Except Err Unit :=
  match r with
  | (h, .error e) => (⟨h, s.objs⟩, .error e)
  | (h, .ok none) => (⟨h, s.objs⟩, .ok ())
  | (h, .ok (some o)) => (⟨h, s.objs ++ [.vec o]⟩, .ok ())

/-- After a method that returns a matrix. -/
def World.addMat (s : World) (r : Memory × Except Err (Option MObj)) : World × Except Err Unit :=
  match r with
  | (h, .error e) => (⟨h, s.objs⟩, .error e)
  | (h, .ok none) => (⟨h, s.objs⟩, .ok ())
  | (h, .ok (some o)) => (⟨h, s.objs ++ [.mat o]⟩, .ok ())

/-- A call of a method of a vector; `ex` is the exponential function, `rt` the square root.  `transform` of a vector whose `std` has another length than `values` (after a `rebin` that
raised) raises in the code or repeats a single entry; here the shorter length counts. -/
def World.vecCall (ex rt : ℚ → ℚ) (s : World) (k : ℕ) (o : VObj) : VCall → World × Except Err Unit
  | .cut a b => s.setVec k (s.mem, VObj.cut s.mem o a b)
  | .cutCopy a b => s.addVec (returnVec s.mem ((o.view s.mem).cut a b))
  | .rebin mids f => match s.argOpt mids with
    | .error e => (s, .error e)
    | .ok (h, r) => s.setVec k (VObj.rebin h o r f)
  | .rebinCopy mids f => match s.argOpt mids with
    | .error e => (s, .error e)
    | .ok (h, r) => s.addVec (returnVec h ((o.view h).rebinCopy (r.map h.read1) f))
  | .toMeV => s.setVec k (VObj.toMeV s.mem o)
  | .toKeV => s.setVec k (VObj.toKeV s.mem o)
  | .closest e right => match s.arg e with
    | .error e => (s, .error e)
    | .ok (h, r) => s.setVec k (VObj.closest h o r right)
  | .closestCopy e right => match s.arg e with
    | .error e => (s, .error e)
    | .ok (h, r) => s.addVec (returnVec h ((o.view h).closest (h.read1 r) right))
  | .transform c a => s.setVec k (VObj.renew s.mem o (.ok ((o.view s.mem).transform id ex c a)))
  | .transformCopy c a => s.addVec (returnVec s.mem (.ok ((o.view s.mem).transform id ex c a)))
  | .cumulative f => s.setVec k (VObj.renew s.mem o ((o.view s.mem).cumulative id rt f))
  | .cumulativeCopy f => s.addVec (returnVec s.mem ((o.view s.mem).cumulative id rt f))
  | .setItem j x => s.setVec k (VObj.setItem s.mem o j x)
  | .copy => s.addVec (returnVec s.mem (.ok (o.view s.mem)))

/-- A call of a method of a matrix. -/
def World.matCall (s : World) (k : ℕ) (o : MObj) : MCall → World × Except Err Unit
  | .cut ax a b i j => s.setMat k (s.mem, MObj.cut s.mem o ax a b i j)
  | .cutCopy ax a b i j => s.addMat (returnMat s.mem ((o.view s.mem).cutCopy ax a b i j))
  | .rebin ax mids f => match s.argOpt mids with
    | .error e => (s, .error e)
    | .ok (h, r) => s.setMat k (MObj.rebin h o ax r f)
  | .rebinCopy ax mids f => match s.argOpt mids with
    | .error e => (s, .error e)
    | .ok (h, r) => s.addMat (MObj.rebinCopy h o ax r f)
  | .fill eg ex c => s.setMat k (MObj.write s.mem o (((o.view s.mem).fill eg ex c).map Mat.values))
  | .cutDiagonal p q => s.setMat k (MObj.write s.mem o (((o.view s.mem).cutDiagonal p q true).2.map fun _ => ((o.view s.mem).cutDiagonal p q true).1.values))
  | .removeNegative => s.setMat k (MObj.removeNegative s.mem o)
  | .toLowerBin => s.setMat k (MObj.shiftBins s.mem o (-1))
  | .toMidBin => s.setMat k (MObj.shiftBins s.mem o 1)
  | .trapezoid a b c d => s.setMat k (MObj.trapezoid s.mem o a b c d)
  | .copy => s.addMat ((MObj.copy s.mem o).1, .ok (some (MObj.copy s.mem o).2))

/-- One call.  The constructor of `Matrix` copies values and axes but not `std`, ompy/matrix.py:121-132. -/
def World.step (ex rt : ℚ → ℚ) (s : World) : PyCall → World × Except Err Unit
  | .newVec values E std units =>
    match s.arg values with
    | .error e => (s, .error e)
    | .ok (h1, rv) =>
      match World.arg ⟨h1, s.objs⟩ E with
      | .error e => (s, .error e)
      | .ok (h2, re) =>
        match World.argOpt ⟨h2, s.objs⟩ std with
        | .error e => (s, .error e)
        | .ok (h3, rs) => s.addVec (returnVec h3 (Vec.new (some (h3.read1 rv)) (some (h3.read1 re)) (rs.map h3.read1) units))
  | .newMat values Eg Ex std state =>
    match s.arg2 values with
    | .error e => (s, .error e)
    | .ok (h1, rv) =>
      match World.arg ⟨h1, s.objs⟩ Eg with
      | .error e => (s, .error e)
      | .ok (h2, rg) =>
        match World.arg ⟨h2, s.objs⟩ Ex with
        | .error e => (s, .error e)
        | .ok (h3, rx) =>
          match World.argOpt2 ⟨h3, s.objs⟩ std with
          | .error e => (s, .error e)
          | .ok (h4, rs) =>
            let (h5, n) := MObj.make h4 ⟨h4.read2 rv, h4.read1 rg, h4.read1 rx, none, state⟩
            if (MObj.view h5 { n with std := rs }).consistent then (⟨h5, s.objs ++ [.mat { n with std := rs }]⟩, .ok ())
            else (⟨h5, s.objs⟩, .error .valueError)
  | .onVec k c => match s.objs[k]? with
    | some (.vec o) => s.vecCall ex rt k o c
    | _ => (s, .error .attributeError)
  | .onMat k c => match s.objs[k]? with
    | some (.mat o) => s.matCall k o c
    | _ => (s, .error .attributeError)

/-- A program: objects at the end and the outcome of each call.  A call that raises an exception does not end it (the caller may catch it). -/
def World.run (ex rt : ℚ → ℚ) (s : World) : List PyCall → World × List (Except Err Unit)
  | [] => (s, [])
  | c :: cs => ((World.run ex rt (s.step ex rt c).1 cs).1, (s.step ex rt c).2 :: (World.run ex rt (s.step ex rt c).1 cs).2)

/-- No objects yet. -/
def World.start : World := ⟨⟨0, fun _ _ => 0⟩, []⟩

/-- The numbers of an object. -/
def AnyObj.view (h : Memory) : AnyObj → ObjVal
  | .vec o => .vec (o.view h)
  | .mat o => .mat (o.view h)

/-- The numbers of all objects. -/
def World.vals (s : World) : List ObjVal := s.objs.map (AnyObj.view s.mem)

end Ompy
