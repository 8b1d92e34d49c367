import Verif.Response

/-!
# Model of `interpolate_matrix_1D` and `interpolate_matrix_2D`, ompy/library.py:238-291

For increasing input axes with at least two energies.
-/

namespace Ompy

/-- `interpolate_matrix_1D`, ompy/library.py:238-263; `nc` is the number of columns. (`raise Exception` is `runtimeError`.) -/
def interpMat1D (m : List (List ℚ)) (nc : ℕ) (Ein Eout : List ℚ) (axis : ℤ) : Except Err (List (List ℚ)) :=
  if axis = 1 then
    if nc = Ein.length then
      .ok (m.map fun r => Eout.map fun E => interpZero Ein (fun i => r.getD i 0) E)
    else .error .runtimeError
  else if axis = 0 then
    if m.length = Ein.length then
      .ok (Eout.map fun E => (List.range nc).map fun j : ℕ => interpZero Ein (fun i => (m.getD i []).getD j 0) E)
    else .error .runtimeError
  else .error .indexError

/-- Whether the mask of `interpolate_matrix_2D` keeps an energy, ompy/library.py:281-285. -/
def insideOf (Ein : List ℚ) (E : ℚ) : Prop := ¬ (E ≤ Ein.getD 0 0 ∨ Ein.getD (Ein.length - 1) 0 ≤ E)

instance (Ein : List ℚ) (E : ℚ) : Decidable (insideOf Ein E) := by unfold insideOf; infer_instance

/-- The spline of degree one through the entries of a matrix, at a point inside. -/
def bilinear (m : List (List ℚ)) (E0 E1 : List ℚ) (x y : ℚ) : ℚ :=
  interpLin E0 (fun i => interpLin E1 (fun j => (m.getD i []).getD j 0) y) x

/-- `interpolate_matrix_2D`, ompy/library.py:266-291. -/
def interpMat2D (m : List (List ℚ)) (nc : ℕ) (E0 E1 O0 O1 : List ℚ) : Except Err (List (List ℚ)) :=
  if m.length = E0.length ∧ nc = E1.length then
    .ok (O0.map fun x => O1.map fun y => if insideOf E0 x ∧ insideOf E1 y then bilinear m E0 E1 x y else 0)
  else .error .runtimeError

end Ompy
