import Verif.Diagonal
import Verif.Rounding

/-!
# Model of the cuts along a line in floating point

`Matrix.cut_diagonal` (ompy/matrix.py:576-639) and `cut_diagonal` (ompy/library.py:26-48, 218-235) with a rounding `fl`
after every operation on doubles.  Differences of indices are computed with integers.
-/

namespace Ompy

/-- The line through two bins at the index `x`, ompy/matrix.py:632-634 and ompy/library.py:35-37. -/
def lineF (fl : ℚ → ℚ) (x1 y1 x2 y2 x : ℚ) : ℚ :=
  let a := fl ((y2 - y1) / (x2 - x1))
  let b := fl (y1 - fl (a * x1))
  fl (fl (a * x) + b)

/-- `line_mask` with rounding, ompy/matrix.py:604-639; an empty axis is read outside of its bounds. -/
def Mat.lineMaskF (fl : ℚ → ℚ) (m : Mat) (E1 E2 : ℚ × ℚ) : Except Err (List (List Bool)) :=
  if m.Eg = [] ∨ m.Ex = [] then .error .undefined
  else if indexF fl m.Eg E2.1 = indexF fl m.Eg E1.1 then .error .assertion
  else .ok ((List.range m.Ex.length).map fun j : ℕ => (List.range m.Eg.length).map fun i : ℕ =>
    decide ((j : ℚ) < lineF fl (indexF fl m.Eg E1.1) (indexF fl m.Ex E1.2) (indexF fl m.Eg E2.1) (indexF fl m.Ex E2.2) i))

/-- `cut_diagonal` with rounding, ompy/matrix.py:576-602: the object afterwards and what is returned. -/
def Mat.cutDiagonalF (fl : ℚ → ℚ) (m : Mat) (E1 E2 : Option (ℚ × ℚ)) (inplace : Bool) : Mat × Except Err (Option Mat) :=
  match E1, E2 with
  | some p, some q =>
    match m.lineMaskF fl p q with
    | .error e => (m, .error e)
    | .ok mask =>
      match setMasked m.values mask with
      | .error e => (m, .error e)
      | .ok v => if inplace then ({ m with values := v }, .ok none) else (m, .ok (some { m with values := v }))
  | _, _ => (m, .error .valueError)

/-- `i_from_E` with rounding, ompy/library.py:26-29. -/
def iFromEF (fl : ℚ → ℚ) (e : ℚ) (arr : List ℚ) : Except Err ℕ := argmin (arr.map fun x => |fl (x - e)|)

/-- `make_mask` with rounding, ompy/library.py:40-48: the entries to keep.  A vertical line is NaN everywhere, see
`libLine`. -/
def makeMaskF (fl : ℚ → ℚ) (Ex Eg : List ℚ) (ex1 eg1 ex2 eg2 : ℚ) : Except Err (List (List Bool)) := do
  let x1 ← iFromEF fl eg1 Eg
  let y1 ← iFromEF fl ex1 Ex
  let x2 ← iFromEF fl eg2 Eg
  let y2 ← iFromEF fl ex2 Ex
  pure ((List.range Ex.length).map fun i : ℕ => (List.range Eg.length).map fun j : ℕ =>
    if x2 = x1 then false else decide ((i : ℚ) > lineF fl x1 y1 x2 y2 j))

/-- `cut_diagonal` with rounding, ompy/library.py:218-235; the points are ordered (Ex, Eg). -/
def libCutDiagonalF (fl : ℚ → ℚ) (values : List (List ℚ)) (Ex Eg : List ℚ) (E1 E2 : ℚ × ℚ) :
    Except Err (List (List ℚ)) := do
  let mask ← makeMaskF fl Ex Eg E1.1 E1.2 E2.1 E2.2
  if values.map List.length = mask.map List.length then
    .ok (List.zipWith (List.zipWith fun v c => if c then v else 0) values mask)
  else .error .valueError

end Ompy
