import Verif.Equality

/-!
# Model of the products `@` of matrices and vectors, ompy/matrix.py:894-907 and ompy/vector.py:565-573
-/

namespace Ompy

/-- numpy's `a @ b` of two-dimensional arrays, `a` of `n` columns: ValueError unless `b` has `n` rows; `q` is the number of columns of `b`. -/
def npMatmul (a b : List (List ℚ)) (n q : ℕ) : Except Err (List (List ℚ)) :=
  if b.length = n then
    .ok (a.map fun row => (List.range q).map fun j : ℕ => (List.zipWith (fun x r => x * r.getD j 0) row b).sum)
  else .error .valueError

/-- The right operand of `@`. -/
inductive MulArg
  | mat (m : Mat) | noValues

/-- The comparison of the axes in `__matmul__`, ompy/matrix.py:899-902. -/
def mulCheck (a b : Mat) : Except Err Unit :=
  if a.Eg.length ≠ a.Ex.length then .error .valueError
  else match allclose1 (a.Eg.map some) (b.Eg.map some) with
    | .error e => .error e
    | .ok false => .error .valueError
    | .ok true => .ok ()

/-- `Matrix.__matmul__`, ompy/matrix.py:894-907.  The NotImplementedError of line 904 is made but not raised, so that an operand
without `values` leads to an AttributeError in 906. -/
def Mat.matmul (a : Mat) : MulArg → Except Err Mat
  | .noValues => .error .attributeError
  | .mat b =>
    match mulCheck a b with
    | .error e => .error e
    | .ok () =>
      match npMatmul a.values b.values a.Eg.length b.Eg.length with
      | .error e => .error e
      | .ok v => .ok { a with values := v }

/-- What `Vector.__matmul__` returns: the attributes of the left vector with a number for its values. -/
structure DotResult where
  E : List ℚ
  value : ℚ
  std : Option (List ℚ)
  units : String

/-- `Vector.__matmul__`, ompy/vector.py:565-573 with the comparison of the binning of 537-559. -/
def Vec.matmul (a b : Vec ℚ) : Except Err DotResult :=
  if a.values.length ≠ b.values.length then .error .valueError
  else match allclose1 (a.E.map some) (b.E.map some) with
    | .error e => .error e
    | .ok false => .error .valueError
    | .ok true => .ok ⟨a.E, (List.zipWith (· * ·) a.values b.values).sum, a.std, a.units⟩

/-- `verify_integrity` of that result, ompy/vector.py:97-103: the shape of a number is `()`. -/
def DotResult.verify (_ : DotResult) : Except Err Unit := .error .valueError

end Ompy
