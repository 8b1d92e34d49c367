import Verif.Trapezoid
import Verif.Rounding

/-!
# Model of the cuts in floating point

`Matrix.cut` (ompy/matrix.py:484-553), `Vector.cut` (ompy/vector.py:335-367) and `Matrix.trapezoid`
(ompy/matrix.py:641-689) with a rounding `fl` after every operation on energies, and with limits that may be infinite
or NaN.
-/

namespace Ompy

/-- `index(array, element)` with rounding, ompy/decomposition.pyx:119-142, for any double.  If the element is infinite
all distances are infinite, if it is NaN they are NaN: no comparison is true and the last index is returned. -/
def indexNum (fl : ℚ → ℚ) (E : List ℚ) : Num → ℕ
  | .fin q => indexF fl E q
  | _ => E.length - 1

/-- `q < x` for doubles. -/
def ltNum (q : ℚ) : Num → Bool
  | .fin x => decide (q < x)
  | .pinf => true
  | _ => false

/-- `q > x` for doubles. -/
def gtNum (q : ℚ) : Num → Bool
  | .fin x => decide (x < q)
  | .ninf => true
  | _ => false

/-- `Emin if Emin is not None else min(range)`, ompy/matrix.py:515-516. -/
def limitOr (x : Option Num) (d : Except Err ℚ) : Except Err Num :=
  match x with
  | some n => .ok n
  | none => d.map .fin

/-- The lower bound of the slice, ompy/matrix.py:518-522. -/
def cutLowF (fl : ℚ → ℚ) (E : List ℚ) (lo : Num) (incl : Bool) : ℤ :=
  let i := indexNum fl E lo
  let i1 : ℤ := if ltNum (E.getD i 0) lo then (i : ℤ) + 1 else i
  if incl then i1 else i1 + 1

/-- The upper bound of the slice, ompy/matrix.py:523-527, 533. -/
def cutHighF (fl : ℚ → ℚ) (E : List ℚ) (hi : Num) (incl : Bool) : ℤ :=
  let j := indexNum fl E hi
  let j1 : ℤ := if gtNum (E.getD j 0) hi then (j : ℤ) - 1 else j
  (if incl then j1 else j1 - 1) + 1

/-- The slice bounds of `Matrix.cut`, ompy/matrix.py:512-534. -/
def cutBoundsF (fl : ℚ → ℚ) (E : List ℚ) (emin emax : Option Num) (minIncl maxIncl : Bool) : Except Err (ℤ × ℤ) := do
  let lo ← limitOr emin (listMin E)
  let hi ← limitOr emax (listMax E)
  if E = [] then .error .undefined
  else pure (cutLowF fl E lo minIncl, cutHighF fl E hi maxIncl)

/-- `Matrix.cut(inplace=True)`, ompy/matrix.py:484-553. -/
def Mat.cutF (fl : ℚ → ℚ) (m : Mat) (axis : ℕ) (emin emax : Option Num) (minIncl maxIncl : Bool) : Except Err Mat :=
  let E := if axis = 0 then m.Eg else m.Ex
  match cutBoundsF fl E emin emax minIncl maxIncl with
  | .error e => .error e
  | .ok (a, b) =>
    if axis = 0 then
      .ok { m with values := m.values.map fun r => pySlice r a b, Eg := pySlice m.Eg a b }
    else if axis = 1 then
      .ok { m with values := pySlice m.values a b, Ex := pySlice m.Ex a b }
    else .error .valueError

/-- `Vector.cut`, ompy/vector.py:348-367. -/
def Vec.cutF {α : Type} (fl : ℚ → ℚ) (v : Vec α) (emin emax : Option Num) : Except Err (Vec α) := do
  let lo ← limitOr emin (listMin v.E)
  let hi ← limitOr emax (listMax v.E)
  if v.E = [] then .error .undefined
  else
    let imin : ℤ := indexNum fl v.E lo
    let imax : ℤ := indexNum fl v.E hi
    pure { v with
      E := pySlice v.E imin (imax + 1)
      values := pySlice v.values imin (imax + 1)
      std := v.std.map fun s => pySlice s imin (imax + 1) }

/-- `mask[Eg >= Ex + dEg] = True; matrix[mask] = 0`, ompy/matrix.py:680-681, with rounding. -/
def maskDiagF (fl : ℚ → ℚ) (m : Mat) (shift : List (Option ℚ)) : Mat :=
  { m with values := List.zipWith (fun ex row => List.zipWith (fun (p : ℚ × Option ℚ) v =>
      match p.2 with
      | none => v
      | some s => if p.1 ≥ fl (ex + s) then 0 else v) (m.Eg.zip shift) row) m.Ex m.values }

/-- `trapezoid`, ompy/matrix.py:659-681, with rounding and finite limits. -/
def Mat.trapezoidF (fl : ℚ → ℚ) (m : Mat) (exMin exMax egMin : ℚ) (egMax : Option ℚ) : Except Err Mat := do
  let m1 ← m.cutF fl 1 (some (.fin exMin)) (some (.fin exMax)) true true
  let g ← match egMax with
    | some g => pure g
    | none => autoEgMax m1
  let m2 ← m1.cutF fl 0 (some (.fin egMin)) (some (.fin g)) true true
  let s ← diagShift m2 (fl (g - exMax))
  pure (maskDiagF fl m2 s)

end Ompy
