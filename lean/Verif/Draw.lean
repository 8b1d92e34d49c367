import Verif.Index
import Verif.Library
import Verif.Vector
import Verif.Matrix
import Mathlib.Data.List.Sort
import Mathlib.Data.List.Dedup

/-!
# Model of what is drawn of a matrix, ompy/matrix.py:275-373, 455-482, 945-977

The bins handed to `pcolormesh`, the value shown at the mouse position, the ticks in the middle of the bins and the drawing made of characters.
The drawing library itself is not modelled.  `ascii_plot` does not use its argument `shape`.
-/

namespace Ompy

/-- `np.append(E, E[-1] + (E[-1] - E[-2]))`, ompy/matrix.py:318-321. -/
def extendEdge (E : List ℚ) : List ℚ :=
  E ++ [E.getD (E.length - 1) 0 + (E.getD (E.length - 1) 0 - E.getD (E.length - 2) 0)]

/-- Scale of the colours. -/
inductive ZScale
  | log | linear
  deriving DecidableEq

/-- The choice of the scale, ompy/matrix.py:305-314. -/
def zScale (counts : ℚ) (scale : Option String) (vmin : Option ℚ) : Except Err ZScale :=
  let s := scale.getD (if 1000 < counts then "log" else "linear")
  if s = "log" then
    (match vmin with
    | some v => if v ≤ 0 then .error .valueError else .ok .log
    | none => .ok .log)
  else if s = "linear" then .ok .linear
  else .error .valueError

/-- What `plot` leaves behind: the matrix, the edges `Eg` and `Ex` given to `pcolormesh` and the scale. -/
structure Plotted where
  mat : Mat
  eg : List ℚ
  ex : List ℚ
  scale : ZScale
  deriving DecidableEq

/-- Sum of all entries, ompy/matrix.py:831-832. -/
def Mat.countsSum (m : Mat) : ℚ := (m.values.map List.sum).sum

/-- `Matrix.plot`, ompy/matrix.py:301-323. -/
def Mat.plot (m : Mat) (scale : Option String) (vmin : Option ℚ) : Except Err Plotted :=
  if m.Ex.length ≤ 1 ∨ m.Eg.length ≤ 1 then .error .valueError
  else do
    let z ← zScale m.countsSum scale vmin
    let low ← m.toLowerBin
    let back ← low.toMidBin
    pure ⟨back, extendEdge low.Eg, extendEdge low.Ex, z⟩

/-- The bin between the edges, ompy/matrix.py:350-353: `none` outside. -/
def edgeBin (edges : List ℚ) (x : ℚ) : Option ℕ :=
  if edges.getD 0 0 < x ∧ x ≤ edges.getD (edges.length - 1) 0 then some (searchsorted edges x false - 1) else none

/-- `format_coord`, ompy/matrix.py:347-358, for ascending edges: row and column whose value is shown. -/
def formatCoord (p : Plotted) (x y : ℚ) : Option (ℕ × ℕ) :=
  match edgeBin p.eg x, edgeBin p.ex y with
  | some col, some row => some (row, col)
  | _, _ => none

/-! ## Ticks -/

/-- `np.around(t, -i)`: to multiples of `10 ^ i`. -/
def aroundTens (i : ℕ) (t : ℚ) : ℚ := (roundHalfEven (t / 10 ^ i) : ℚ) * 10 ^ i

/-- Exponent of the rounding, ompy/matrix.py:974-975: `min(int(log10(|e|)), 2)` but at least 1.  The logarithm of 0 is `-inf`, whose
conversion raises OverflowError. -/
def tickExp (e : ℚ) : Except Err ℕ := if e = 0 then .error .runtimeError else .ok (if 100 ≤ |e| then 2 else 1)

/-- `locs[imin:imax+1:step]`. -/
def stepSlice (locs : List ℚ) (imin imax step : ℕ) : List ℚ :=
  if imin ≤ imax then (List.range ((imax - imin) / step + 1)).map fun k : ℕ => locs.getD (imin + k * step) 0 else []

/-- The step, ompy/matrix.py:969. -/
def tickStep (imin imax nbins : ℕ) : ℕ := max ((imax - imin + nbins - 1) / nbins) 1

/-- `np.unique`. -/
def uniqueQ (l : List ℚ) : List ℚ := l.dedup.insertionSort (· ≤ ·)

/-- `MeshLocator.tick_values`, ompy/matrix.py:956-977, with the data interval `dmin`, `dmax`. -/
def tickValues (locs : List ℚ) (nbins : ℕ) (dmin dmax vmin vmax : ℚ) : Except Err (List ℚ) := do
  let v := if vmax < vmin then (vmax, vmin) else (vmin, vmax)
  let v := if v.1 = v.2 then (v.1 - 1, v.2 + 1) else v
  let imin ← iFromE v.1 locs
  let imax ← iFromE v.2 locs
  let ticks := stepSlice locs imin imax (tickStep imin imax nbins)
  if 8 / 10 * (dmax - dmin) < v.2 - v.1 ∧ 20 < imax - imin then
    (tickExp (locs.getD imax 0)).map fun i => uniqueQ (ticks.map (aroundTens i))
  else pure ticks

/-! ## Drawing with characters -/

/-- The distinct positive counts in ascending order, ompy/matrix.py:461-462. -/
def positiveCounts (values : List (List ℚ)) : List ℚ := (uniqueQ values.flatten).filter fun x => decide (0 < x)

/-- `block`, ompy/matrix.py:465-468: the number of the shade, with `N = len(values)/4`. -/
def shade (vals : List ℚ) (count : ℚ) : Except Err ℕ := do
  let i ← argmin (vals.map fun x => |count - x|)
  let b := ⌊(i : ℚ) / ((vals.length : ℚ) / 4)⌋.toNat
  if b < 4 then pure b else .error .indexError

/-- One character: blank or a shade, ompy/matrix.py:473-477. -/
def asciiCell (vals : List ℚ) (x : ℚ) : Except Err (Option ℕ) :=
  if x = 0 then .ok none else (shade vals x).map some

/-- `ascii_plot`, ompy/matrix.py:455-482: the lines from top to bottom. -/
def asciiPlot (values : List (List ℚ)) : Except Err (List (List (Option ℕ))) :=
  values.reverse.mapM fun row => row.mapM (asciiCell (positiveCounts values))

end Ompy
