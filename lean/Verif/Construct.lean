import Verif.Equality

/-!
# Model of the constructors of empty matrices and vectors, and of the check of the axes

ompy/matrix.py:81-138, 910-942, ompy/vector.py:63-82, ompy/abstractarray.py:24-49
-/

namespace Ompy

/-- `np.zeros`. -/
def zerosOf (r c : ℕ) : List (List ℚ) := List.replicate r (List.replicate c 0)

/-- `Matrix.__init__` with values given and without path, ompy/matrix.py:116-138: shapes are verified first, the state is set last. -/
def matInit (values : List (List ℚ)) (nc : ℕ) (Ex Eg : Option (List ℚ)) (std : Option (List (List ℚ))) (state : PyVal) :
    Except Err Mat := do
  let m ← Mat.new values nc Eg Ex std none
  let s ← setState state
  pure { m with state := s }

/-- The shape of a `ZerosMatrix`, ompy/matrix.py:929-934. -/
def zerosShape (shape : Option (ℕ × ℕ)) (Ex Eg : Option (List ℚ)) : Except Err (ℕ × ℕ) :=
  match shape, Ex, Eg with
  | some s, _, _ => .ok s
  | none, some x, some g => .ok (x.length, g.length)
  | none, _, _ => .error .assertion

/-- The call of `Matrix.__init__` with `std=True`: the shapes of the axes are compared first (ompy/matrix.py:153-169), then `True.shape` is
asked for (174-176). -/
def zerosStd (r c : ℕ) (Ex Eg : Option (List ℚ)) : Except Err Mat :=
  match Mat.new (zerosOf r c) c Eg Ex none none with
  | .error e => .error e
  | .ok _ => .error .attributeError

/-- `ZerosMatrix.__init__`, ompy/matrix.py:922-942. -/
def zerosMatrix (shape : Option (ℕ × ℕ)) (Ex Eg : Option (List ℚ)) (std : Bool) (state : PyVal) : Except Err Mat := do
  let s ← zerosShape shape Ex Eg
  if std then zerosStd s.1 s.2 Ex Eg else matInit (zerosOf s.1 s.2) s.2 Ex Eg none state

/-- `Matrix(values, Eg, Ex, std, shape=…)`, ompy/matrix.py:110-116: a shape replaces the values given. -/
def matrixShape (_values : Option (List (List ℚ))) (shape : ℕ × ℕ) (Ex Eg : Option (List ℚ)) (std : Option (List (List ℚ)))
    (state : PyVal) : Except Err Mat := do
  let z ← zerosMatrix (some shape) Ex Eg false .none
  matInit z.values shape.2 Ex Eg std state

/-- `verify_equdistant` of one axis, ompy/abstractarray.py:42-49; `assert_array_almost_equal` to six decimals is
`|difference| < 1.5e-6`. -/
def equidistantCheck (E : List ℚ) : Except Err Unit :=
  let diff := List.zipWith (fun a b => b - a) E E.tail
  if 2 < E.length then
    if diff.all fun d => decide (|d - diff.getD 1 0| < 15 / 10 ^ 7) then .ok () else .error .valueError
  else .ok ()

/-- `verify_equdistant` of a matrix, ompy/abstractarray.py:32-40. -/
def Mat.verifyEquidistant (m : Mat) (axis : AxisArg) : Except Err Unit := do
  let k ← toPlotAxis axis
  equidistantCheck (if k = 1 then m.Ex else m.Eg)

/-- The numbers a numpy array can hold. -/
inductive DType
  | int | float
  deriving DecidableEq

/-- The values of a vector with their type. -/
structure TypedVec where
  E : List ℚ
  values : List ℚ
  dtype : DType
  deriving DecidableEq

/-- `Vector(E=E)`, ompy/vector.py:68-70: `zeros_like` of the argument, so that the values have its type (`dt`); the axis is
always of floats. -/
def vecOfE (E : List ℚ) (dt : DType) : TypedVec := ⟨E, List.replicate E.length 0, dt⟩

/-- `Vector(values=…, E=E)`, ompy/vector.py:65-67. -/
def vecOfValues (values E : List ℚ) : TypedVec := ⟨E, values, .float⟩

/-- `vector[i] = x`: numpy drops the decimals if the array is one of integers. -/
def TypedVec.set (v : TypedVec) (i : ℕ) (x : ℚ) : Except Err TypedVec :=
  if i < v.values.length then
    .ok { v with values := v.values.set i (match v.dtype with | .int => (truncZ x : ℚ) | .float => x) }
  else .error .indexError

/-- `vector + x` with a float `x`, ompy/abstractarray.py:65-72: `result.values += x`; numpy refuses to store floats in place in an array of
integers. -/
def TypedVec.addFloat (v : TypedVec) (x : ℚ) : Except Err TypedVec :=
  match v.dtype with
  | .int => .error .typeError
  | .float => .ok { v with values := v.values.map fun y => y + x }

end Ompy
