import Verif.Matrix

/-!
# Model of `Matrix.trapezoid`, ompy/matrix.py:641-689
-/

namespace Ompy

/-- `np.nonzero(row)[0][-1]`; `none` if there is no such element. -/
def lastNonzero (row : List ℚ) : Option ℕ :=
  ((List.range row.length).filter fun k => decide (row.getD k 0 ≠ 0)).getLast?

/-- The automatic `Eg_max`, ompy/matrix.py:663-669.  The handler `except IndexError():` names an instance, not a
class; when it is reached python raises TypeError. -/
def autoEgMax (m : Mat) : Except Err ℚ :=
  match m.values.getLast? with
  | none => .error .indexError
  | some row =>
    match lastNonzero row with
    | none => .error .typeError
    | some k => if k < m.Eg.length then .ok (m.Eg.getD k 0) else .error .indexError

/-- Row `i` of the first array of `np.meshgrid(matrix.Eg, matrix.Ex)`, ompy/matrix.py:673: every row is the gamma
axis. -/
def meshEg (m : Mat) (_i : ℕ) : List ℚ := m.Eg

/-- The shift of the diagonal for every gamma bin, ompy/matrix.py:676-679; `none` is NaN.  `Eg[1]-Eg[0]` are
differences between rows of the mesh.  For a positive number and width 0 the quotient is infinite and its product
with the width NaN. -/
def diagShift (m : Mat) (d : ℚ) : Except Err (List (Option ℚ)) :=
  if 0 < d then
    if m.Ex.length < 2 then .error .indexError
    else .ok ((List.zipWith (fun a b => a - b) (meshEg m 1) (meshEg m 0)).map fun b =>
      if b = 0 then none else some ((⌈d / b⌉ : ℤ) * b))
  else .ok (m.Eg.map fun _ => some d)

/-- `mask[Eg >= Ex + dEg] = True; matrix[mask] = 0`, ompy/matrix.py:680-681.  A comparison with NaN is false. -/
def maskDiag (m : Mat) (shift : List (Option ℚ)) : Mat :=
  { m with values := List.zipWith (fun ex row => List.zipWith (fun (p : ℚ × Option ℚ) v =>
      match p.2 with
      | none => v
      | some s => if p.1 ≥ ex + s then 0 else v) (m.Eg.zip shift) row) m.Ex m.values }

/-- `trapezoid`, ompy/matrix.py:641-689: the cut matrix.  In place the attributes `values`, `Ex`, `Eg` and `state`
are taken over; `std` of the cut copy is that of the original. -/
def Mat.trapezoid (m : Mat) (exMin exMax egMin : ℚ) (egMax : Option ℚ) : Except Err Mat := do
  let m1 ← m.cut 1 (some exMin) (some exMax) true true
  let g ← match egMax with
    | some g => pure g
    | none => autoEgMax m1
  let m2 ← m1.cut 0 (some egMin) (some g) true true
  let s ← diagShift m2 (g - exMax)
  pure (maskDiag m2 s)

/-- The call: the object afterwards and what is returned, ompy/matrix.py:683-689. -/
def Mat.trapezoidCall (m : Mat) (exMin exMax egMin : ℚ) (egMax : Option ℚ) (inplace : Bool) :
    Mat × Except Err (Option Mat) :=
  match m.trapezoid exMin exMax egMin egMax with
  | .error e => (m, .error e)
  | .ok t =>
    if inplace then ({ m with values := t.values, Ex := t.Ex, Eg := t.Eg, state := t.state }, .ok none)
    else (m, .ok (some t))

end Ompy
