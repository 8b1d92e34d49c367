import Verif.NldLike
import Verif.SumRounding

/-!
# The weighted χ² of two vectors with rounded numbers

`fl` rounds the result of every operation, `sum` adds the entries of an array.
-/

namespace Ompy

/-- `sigmasq` at entry `k` with rounding, ompy/vector.py:321-330; `s` are the own standard deviations, `t` the ones given. -/
def sigmasqF (fl : ℚ → ℚ) (s t : Option (List ℚ)) (k : ℕ) : ℚ :=
  match s, t with
  | some s, some t => fl (fl (s.getD k 0 * s.getD k 0) + fl (t.getD k 0 * t.getD k 0))
  | some s, none => fl (s.getD k 0 * s.getD k 0)
  | none, some t => fl (t.getD k 0 * t.getD k 0)
  | none, none => 1

/-- One entry of `div0((self.values - other)**2, sigmasq)` with rounding, ompy/vector.py:320, 332. -/
def chiTermF (fl : ℚ → ℚ) (x y sigmasq : ℚ) : ℚ :=
  if sigmasq = 0 then 0 else fl (fl (fl (x - y) * fl (x - y)) / sigmasq)

/-- `Vector.error` of two vectors with rounding, ompy/vector.py:299-333; the standard deviations have the shape of the vector. -/
def Vec.errorF (fl : ℚ → ℚ) (sum : List ℚ → ℚ) (close : ℚ → ℚ → Bool) (v other : Vec ℚ) (std : Option (List ℚ)) : Except Err ℚ :=
  if v.values.length == other.values.length && v.E.length == other.E.length && (List.zipWith close v.E other.E).all id then
    .ok (sum ((List.range v.values.length).map fun k : ℕ =>
      chiTermF fl (v.values.getD k 0) (other.values.getD k 0) (sigmasqF fl v.std std k)))
  else .error .valueError

end Ompy
