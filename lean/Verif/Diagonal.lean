import Verif.Matrix

/-!
# Model of the cuts along a line

`Matrix.cut_diagonal`, `Matrix.line_mask` and the functions `line`, `make_mask`, `cut_diagonal` of `ompy/library.py`.
-/

namespace Ompy

/-- `line_mask`, ompy/matrix.py:604-639.  The first coordinate of a point is the gamma energy (627), whatever the
docstring says. -/
def Mat.lineMask (m : Mat) (E1 E2 : ℚ × ℚ) : Except Err (List (List Bool)) := do
  let x1 ← index m.Eg E1.1
  let x2 ← index m.Eg E2.1
  let y1 ← index m.Ex E1.2
  let y2 ← index m.Ex E2.2
  if x2 = x1 then .error .assertion
  else
    let a : ℚ := ((y2 : ℚ) - y1) / ((x2 : ℚ) - x1)
    let b : ℚ := (y1 : ℚ) - a * x1
    pure ((List.range m.Ex.length).map fun j : ℕ =>
      (List.range m.Eg.length).map fun i : ℕ => decide ((j : ℚ) < a * (i : ℚ) + b))

/-- `values[mask] = 0.0`, ompy/matrix.py:598, 601; IndexError if the shapes differ. -/
def setMasked (values : List (List ℚ)) (mask : List (List Bool)) : Except Err (List (List ℚ)) :=
  if values.map List.length = mask.map List.length then
    .ok (List.zipWith (List.zipWith fun v c => if c then 0 else v) values mask)
  else .error .indexError

/-- `cut_diagonal`, ompy/matrix.py:576-602: the object afterwards and what is returned. -/
def Mat.cutDiagonal (m : Mat) (E1 E2 : Option (ℚ × ℚ)) (inplace : Bool) : Mat × Except Err (Option Mat) :=
  match E1, E2 with
  | some p, some q =>
    match m.lineMask p q with
    | .error e => (m, .error e)
    | .ok mask =>
      match setMasked m.values mask with
      | .error e => (m, .error e)
      | .ok v => if inplace then ({ m with values := v }, .ok none) else (m, .ok (some { m with values := v }))
  | _, _ => (m, .error .valueError)

/-- `line`, ompy/library.py:32-37, for integer points; `none` is NaN.  A vertical line has slope NaN or ±inf.  In the
latter case the intercept is ∓inf, or NaN for the abscissa 0, and the value NaN everywhere. -/
def libLine (x : ℚ) (x1 y1 x2 y2 : ℕ) : Option ℚ :=
  if x2 = x1 then none
  else
    let a : ℚ := ((y2 : ℚ) - y1) / ((x2 : ℚ) - x1)
    some (a * x + ((y1 : ℚ) - a * x1))

/-- `make_mask`, ompy/library.py:40-48: the entries to keep.  A comparison with NaN is false. -/
def makeMask (Ex Eg : List ℚ) (ex1 eg1 ex2 eg2 : ℚ) : Except Err (List (List Bool)) := do
  let x1 ← iFromE eg1 Eg
  let y1 ← iFromE ex1 Ex
  let x2 ← iFromE eg2 Eg
  let y2 ← iFromE ex2 Ex
  pure ((List.range Ex.length).map fun i : ℕ =>
    (List.range Eg.length).map fun j : ℕ =>
      match libLine (j : ℚ) x1 y1 x2 y2 with
      | none => false
      | some l => decide ((i : ℚ) > l))

/-- `cut_diagonal`, ompy/library.py:218-235; the points are ordered (Ex, Eg).  Arrays that cannot be broadcast raise
ValueError (only equal shapes are modelled as valid). -/
def libCutDiagonal (values : List (List ℚ)) (Ex Eg : List ℚ) (E1 E2 : ℚ × ℚ) : Except Err (List (List ℚ)) := do
  let mask ← makeMask Ex Eg E1.1 E1.2 E2.1 E2.2
  if values.map List.length = mask.map List.length then
    .ok (List.zipWith (List.zipWith fun v c => if c then v else 0) values mask)
  else .error .valueError

end Ompy
