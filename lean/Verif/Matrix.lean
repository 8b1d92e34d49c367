import Verif.Vector

/-!
# Model of `ompy/matrix.py`

`Mat` is a `Matrix`: values as a list of rows (one row per excitation energy `Ex`), the two axes,
`std` and `state`.  Entries are exact rationals; where NaN decides a branch (`remove_negative`)
a version on `Num` is used.
-/

namespace Ompy

/-- `MatrixState`, ompy/matrixstate.py:4-12. -/
inductive MState
  | raw | unfolded | firstGeneration | std | promptAndBackground | background
  deriving DecidableEq

/-- The attributes of a `Matrix`, ompy/matrix.py:81-138. -/
structure Mat where
  values : List (List ℚ)
  Eg : List ℚ
  Ex : List ℚ
  std : Option (List (List ℚ))
  state : Option MState
  deriving DecidableEq

/-- A rectangular array with `nr` rows and `nc` columns. -/
def hasShape {α : Type} (v : List (List α)) (nr nc : ℕ) : Bool :=
  v.length == nr && v.all fun r => r.length == nc

/-- The shape checks of `verify_integrity`, ompy/matrix.py:140-177, as a predicate. -/
def Mat.consistent (m : Mat) : Bool :=
  hasShape m.values m.Ex.length m.Eg.length &&
    match m.std with
    | none => true
    | some s => hasShape s m.Ex.length m.Eg.length

/-- `verify_integrity`. -/
def Mat.verify (m : Mat) : Except Err Unit :=
  if m.consistent then .ok () else .error .valueError

/-- The default axis of the constructor, ompy/matrix.py:123-128: `range(n) + 0.5`. -/
def defaultAxis (n : ℕ) : List ℚ := (List.range n).map fun k : ℕ => (k : ℚ) + 1 / 2

/-- The constructor with `values` given, ompy/matrix.py:81-138. -/
def Mat.new (values : List (List ℚ)) (nc : ℕ) (Eg Ex : Option (List ℚ))
    (std : Option (List (List ℚ))) (state : Option MState) : Except Err Mat :=
  let m : Mat := ⟨values, Eg.getD (defaultAxis nc), Ex.getD (defaultAxis values.length), std, state⟩
  if m.consistent then .ok m else .error .valueError

/-- Axis numbers as accepted by `to_plot_axis`, ompy/abstractarray.py:142-167. -/
inductive AxisArg
  | num (k : ℤ) | str (s : String)

/-- `to_plot_axis`, ompy/abstractarray.py:142-167. -/
def toPlotAxis : AxisArg → Except Err ℕ
  | .num k => if k = 0 then .ok 0 else if k = 1 then .ok 1 else if k = 2 then .ok 2
    else .error .valueError
  | .str s =>
    let a := s.toLower
    if a = "eg" ∨ a = "x" then .ok 0
    else if a = "ex" ∨ a = "y" then .ok 1
    else if a = "both" ∨ a = "egex" ∨ a = "exeg" ∨ a = "xy" ∨ a = "yx" then .ok 2
    else .error .valueError

/-- The slice bounds computed in `Matrix.cut`, ompy/matrix.py:511-531, for the axis `E`.  (The
"fix for boundaries", 526-529, changes variables that are not used afterwards.) -/
def cutBounds (E : List ℚ) (emin emax : Option ℚ) (minIncl maxIncl : Bool) :
    Except Err (ℤ × ℤ) := do
  let lo ← orElseE emin (listMin E)
  let hi ← orElseE emax (listMax E)
  let i0 ← index E lo
  let i1 : ℤ := if E.getD i0 0 < lo then (i0 : ℤ) + 1 else i0
  let i2 : ℤ := if minIncl then i1 else i1 + 1
  let j0 ← index E hi
  let j1 : ℤ := if E.getD j0 0 > hi then (j0 : ℤ) - 1 else j0
  let j2 : ℤ := if maxIncl then j1 else j1 - 1
  pure (i2, j2 + 1)

/-- `Matrix.cut(inplace=True)`, ompy/matrix.py:484-553: the object afterwards.  `axis` is already
translated (`to_plot_axis`); `std` is not touched. -/
def Mat.cut (m : Mat) (axis : ℕ) (emin emax : Option ℚ) (minIncl maxIncl : Bool) :
    Except Err Mat :=
  let E := if axis = 0 then m.Eg else m.Ex
  match cutBounds E emin emax minIncl maxIncl with
  | .error e => .error e
  | .ok (a, b) =>
    if axis = 0 then
      .ok { m with values := m.values.map fun r => pySlice r a b, Eg := pySlice m.Eg a b }
    else if axis = 1 then
      .ok { m with values := pySlice m.values a b, Ex := pySlice m.Ex a b }
    else .error .valueError

/-- `Matrix.cut(inplace=False)`, ompy/matrix.py:552-553: a new matrix without `std` and `state`. -/
def Mat.cutCopy (m : Mat) (axis : ℕ) (emin emax : Option ℚ) (minIncl maxIncl : Bool) :
    Except Err Mat := do
  let c ← m.cut axis emin emax minIncl maxIncl
  Mat.new c.values c.Eg.length (some c.Eg) (some c.Ex) none none

/-- `cut_like(inplace=True)`, ompy/matrix.py:567-569. -/
def Mat.cutLike (m other : Mat) : Except Err Mat := do
  let a ← listMin other.Ex
  let b ← listMax other.Ex
  let m1 ← m.cut 1 (some a) (some b) true true
  let c ← listMin other.Eg
  let d ← listMax other.Eg
  m1.cut 0 (some c) (some d) true true

/-- `div0` for a scalar divisor, ompy/library.py:10-23: division by zero gives 0. -/
def div0 (a b : ℚ) : ℚ := if b = 0 then 0 else a / b

/-- Bounds of the summed window in `projection`, ompy/matrix.py:440-444: indices closest to the
limits, or the ends of the axis. -/
def projWindow (E : List ℚ) (emin emax : Option ℚ) : Except Err (ℤ × ℤ) := do
  let imin ← match emin with
    | some e => index E e
    | none => if E = [] then .error .indexError else .ok 0
  let imax ← match emax with
    | some e => index E e
    | none => if E = [] then .error .indexError else .ok (E.length - 1)
  pure ((imin : ℤ), (imax : ℤ) + 1)

/-- `projection`, ompy/matrix.py:417-453: counts and the energy axis projected onto.  With
`normalize` the counts are divided by their sum through `div0`. -/
def Mat.projection (m : Mat) (axis : ℕ) (emin emax : Option ℚ) (normalize : Bool) :
    Except Err (List ℚ × List ℚ) :=
  if axis = 1 then
    match projWindow m.Eg emin emax with
    | .error e => .error e
    | .ok (a, b) =>
      let p := m.values.map fun r => (pySlice r a b).sum
      .ok (if normalize then p.map fun x => div0 x p.sum else p, m.Ex)
  else if axis = 0 then
    match projWindow m.Ex emin emax with
    | .error e => .error e
    | .ok (a, b) =>
      let p := (List.range m.Eg.length).map fun j : ℕ => (colOf (pySlice m.values a b) j).sum
      .ok (if normalize then p.map fun x => div0 x p.sum else p, m.Eg)
  else .error .valueError

/-- `values[i][j] += c`. -/
def addAt (v : List (List ℚ)) (i j : ℕ) (c : ℚ) : List (List ℚ) :=
  v.modify i fun r => r.modify j fun x => x + c

/-- `fill`, ompy/matrix.py:767-774. -/
def Mat.fill (m : Mat) (eg ex c : ℚ) : Except Err Mat := do
  let i ← index m.Ex ex
  let j ← index m.Eg eg
  pure { m with values := addAt m.values i j c }

/-- `np.where(values > 0, values, 0)` on one entry, ompy/matrix.py:782; comparisons with NaN are
false. -/
def clampNum : Num → Num
  | .fin q => if 0 < q then .fin q else .fin 0
  | .pinf => .pinf
  | .ninf => .fin 0
  | .nan => .fin 0

/-- `remove_negative`, ompy/matrix.py:780-782. -/
def removeNegative (v : List (List Num)) : List (List Num) := v.map fun r => r.map clampNum

/-- `remove_negative` on finite entries. -/
def removeNegativeQ (v : List (List ℚ)) : List (List ℚ) :=
  v.map fun r => r.map fun x => if 0 < x then x else 0

/-- Inner loop of `diagonal_elements`, ompy/library.py:380-383, over the reversed row; `j` counts
from the right end. -/
def diagLoop (ny : ℕ) (j : ℕ) : List ℚ → Option ℤ
  | [] => none
  | x :: xs => if x ≠ 0 then some ((ny : ℤ) - j) else diagLoop ny (j + 1) xs

/-- `diagonal_elements`, ompy/library.py:370-384. `ny = matrix.shape[1]`. -/
def diagonalElements (v : List (List ℚ)) (ny : ℕ) : List (ℕ × ℤ) :=
  v.zipIdx.filterMap fun p => (diagLoop ny 0 p.1.reverse).map fun c => (p.2, c)

/-- Half a bin width from the first two energies; IndexError on shorter axes. -/
def halfBin : List ℚ → Except Err ℚ
  | a :: b :: _ => .ok ((b - a) / 2)
  | _ => .error .indexError

/-- `to_lower_bin`, ompy/matrix.py:851-856. -/
def Mat.toLowerBin (m : Mat) : Except Err Mat := do
  let dEx ← halfBin m.Ex
  let dEg ← halfBin m.Eg
  pure { m with Ex := m.Ex.map (· - dEx), Eg := m.Eg.map (· - dEg) }

/-- `to_mid_bin`, ompy/matrix.py:858-863. -/
def Mat.toMidBin (m : Mat) : Except Err Mat := do
  let dEx ← halfBin m.Ex
  let dEg ← halfBin m.Eg
  pure { m with Ex := m.Ex.map (· + dEx), Eg := m.Eg.map (· + dEg) }

end Ompy
