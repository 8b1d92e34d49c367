import Verif.Rounding
import Verif.Vector

/-!
# Model of `Vector.transform` in floating point

`Vector.transform` (ompy/vector.py:264-297) with a rounding `fl` after every operation and a computed exponential
function `ex`.  Overflow is left out.
-/

namespace Ompy

/-- `const*self.values*np.exp(alpha*self.E)` for one bin, ompy/vector.py:284. -/
def transformValue (fl ex : ℚ → ℚ) (const alpha x e : ℚ) : ℚ :=
  fl (fl (const * x) * ex (fl (alpha * e)))

/-- The uncertainty of one bin, ompy/vector.py:283 and 287: `(std/values) * transformed`.  A value of zero gives `inf` or
NaN for the quotient and NaN (`none`) for the product, because the new value is zero, too. -/
def transformStd (fl : ℚ → ℚ) (x t : ℚ) : Option ℚ → Option ℚ
  | none => none
  | some s => if x = 0 then none else some (fl (fl (s / x) * t))

/-- A vector whose uncertainties may be NaN. -/
structure TVec where
  E : List ℚ
  values : List ℚ
  std : Option (List (Option ℚ))
  units : String

/-- `Vector.transform`, ompy/vector.py:264-297; the result is the same in place and as a new vector. -/
def TVec.transformF (fl ex : ℚ → ℚ) (v : TVec) (const alpha : ℚ) : TVec :=
  let transformed := List.zipWith (fun x e => transformValue fl ex const alpha x e) v.values v.E
  { v with
    values := transformed
    std := v.std.map fun s => List.zipWith (fun (p : ℚ × ℚ) r => transformStd fl p.1 p.2 r) (v.values.zip transformed) s }

/-- Several transformations one after the other. -/
def TVec.transformsF (fl ex : ℚ → ℚ) : TVec → List (ℚ × ℚ) → TVec
  | v, [] => v
  | v, p :: r => TVec.transformsF fl ex (v.transformF fl ex p.1 p.2) r

end Ompy
