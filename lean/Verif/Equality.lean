import Verif.Matrix

/-!
# Model of the comparison of vectors and matrices, ompy/abstractarray.py:51-63

Entries are `Option ℚ`, `none` is NaN.
-/

namespace Ompy

/-- One pair of `np.allclose` with its default tolerances (`rtol=1e-5`, `atol=1e-8`). -/
def isClose : Option ℚ → Option ℚ → Bool
  | some x, some y => decide (|x - y| ≤ 1 / 10 ^ 8 + 1 / 10 ^ 5 * |y|)
  | _, _ => false

/-- numpy broadcasting of two one-dimensional arrays: the pairs that are compared. -/
def bcast {α : Type} (a b : List α) : Except Err (List (α × α)) :=
  if a.length = b.length then .ok (a.zip b)
  else match a, b with
    | [x], b => .ok (b.map fun y => (x, y))
    | a, [y] => .ok (a.map fun x => (x, y))
    | _, _ => .error .valueError

/-- `np.allclose` of one-dimensional arrays. -/
def allclose1 (a b : List (Option ℚ)) : Except Err Bool :=
  (bcast a b).map fun l => l.all fun p => isClose p.1 p.2

/-- `np.allclose` of two-dimensional arrays: the rows are broadcast, then the columns. -/
def allclose2 (a b : List (List (Option ℚ))) : Except Err Bool := do
  let rows ← bcast a b
  let ts ← rows.mapM fun p => allclose1 p.1 p.2
  pure (ts.all id)

/-- The end of `__eq__` once the arrays have been compared (`t`): the comparison of `std` and of the attribute that is no
array (`tag`), and `all(truth)`.  `cmp` is `np.allclose` and `size` the number of elements.
`None == array` is an array; `all` asks for its truth value if everything before was true. -/
def eqRest {β : Type} (t : Bool) (cmp : β → β → Except Err Bool) (size : β → ℕ) (s s' : Option β) (tag : Bool) :
    Except Err Bool :=
  match s, s' with
  | none, none => .ok (t && tag)
  | some a, some b => (cmp a b).map fun c => t && c && tag
  | some _, none => .error .typeError
  | none, some b => if t = false then .ok false else if size b ≤ 1 then .ok false else .error .valueError

/-- A matrix with possible NaN. -/
structure NMat where
  values : List (List (Option ℚ))
  Eg : List (Option ℚ)
  Ex : List (Option ℚ)
  std : Option (List (List (Option ℚ)))
  state : Option MState

/-- A vector with possible NaN. -/
structure NVec where
  values : List (Option ℚ)
  E : List (Option ℚ)
  std : Option (List (Option ℚ))
  units : String

/-- `__eq__` of two matrices, ompy/abstractarray.py:55-63, attributes in the order of ompy/matrix.py:121-138. -/
def NMat.eq (a b : NMat) : Except Err Bool := do
  let t1 ← allclose2 a.values b.values
  let t2 ← allclose1 a.Eg b.Eg
  let t3 ← allclose1 a.Ex b.Ex
  eqRest (t1 && t2 && t3) allclose2 (fun s => (s.map List.length).sum) a.std b.std (decide (a.state = b.state))

/-- `__eq__` of two vectors, attributes in the order of ompy/vector.py:65-80. -/
def NVec.eq (a b : NVec) : Except Err Bool := do
  let t1 ← allclose1 a.values b.values
  let t2 ← allclose1 a.E b.E
  eqRest (t1 && t2) allclose1 List.length a.std b.std (decide (a.units = b.units))

/-- Operands of `==`. -/
inductive EqArg
  | vec (v : NVec) | mat (m : NMat) | other

/-- `__eq__`, ompy/abstractarray.py:51-63: objects of other classes are different. -/
def EqArg.eq : EqArg → EqArg → Except Err Bool
  | .vec a, .vec b => a.eq b
  | .mat a, .mat b => a.eq b
  | _, _ => .ok false

/-! ### States, ompy/matrixstate.py and ompy/matrix.py:834-849 -/

/-- The value of a state, ompy/matrixstate.py:7-12. -/
def MState.value : MState → ℤ
  | .raw => 1 | .unfolded => 2 | .firstGeneration => 3 | .std => 4 | .promptAndBackground => 5 | .background => 6

/-- `__str__`, ompy/matrixstate.py:14-18. -/
def MState.str : MState → String
  | .raw => "Raw" | .unfolded => "Unfolded" | .firstGeneration => "First Generation"
  | .std => "Standard Deviation" | .promptAndBackground => "Prompt + background" | .background => "Background"

/-- `str_to_state`, ompy/matrixstate.py:25-33. -/
def strToState (s : String) : Except Err MState :=
  let l := s.toLower
  if l = "raw" then .ok .raw
  else if l = "unfolded" then .ok .unfolded
  else if l = "firstgen" then .ok .firstGeneration
  else if l = "std" then .ok .std
  else if l = "prompt+bg" then .ok .promptAndBackground
  else if l = "bg" then .ok .background
  else .error .keyError

/-- Things a state is compared with or set to. -/
inductive PyVal
  | none | str (s : String) | state (s : MState) | int (k : ℤ) | other

/-- `__eq__`, ompy/matrixstate.py:20-23 (only states have an attribute `value` here). -/
def MState.pyEq (s : MState) : PyVal → Bool
  | .state t => decide (s.value = t.value)
  | _ => false

/-- `!=`: `MatrixState` does not define it, so that of `int` is used; things that are no integers are different. -/
def MState.pyNe (s : MState) : PyVal → Bool
  | .state t => decide (s.value ≠ t.value)
  | .int k => decide (s.value ≠ k)
  | _ => true

/-- The setter of `Matrix.state`, ompy/matrix.py:838-849: the state afterwards. -/
def setState : PyVal → Except Err (Option MState)
  | .none => .ok Option.none
  | .str s => (strToState s).map some
  | .state s => .ok (some s)
  | _ => .error .valueError

end Ompy
