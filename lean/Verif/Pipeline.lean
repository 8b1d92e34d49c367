import Verif.DecomposeFit
import Verif.EnsNorm

/-!
# From the first generation matrix to the normalised functions

`Extractor.decompose` (ompy/extractor.py:310-429) followed by `EnsembleNormalizer.step` (ompy/ensembleNormalizer.py:137-205) for one member of an ensemble. The models of the two are those of
`Verif.DecomposeFit` and `Verif.EnsNorm`; here they are only put together.
-/

namespace Ompy

variable {P B R : Type}

/-- The two vectors `decompose` returns, ompy/extractor.py:424-429: no standard deviations, and the default units of `Vector` (ompy/vector.py:53-57). -/
def FitOut.vectors (out : FitOut) (Eg : List ℚ) : RawVec × RawVec := (⟨out.E, out.nld, none, "keV"⟩, ⟨Eg, out.gsf, none, "keV"⟩)

/-- One member: the matrix is decomposed (ompy/extractor.py:310-429), the vectors are handed to `step` (ompy/ensembleNormalizer.py:112-133, 137-205). -/
noncomputable def osloMethod (f : FitEnv) (e : EnsEnv P B R) (s : EnsState P B R) (num : ℕ) (values : List (List ℝ)) (std : Option (List (List ℝ))) (Eg Ex : List ℚ) :
    Except Err (GsfOut (NldPopt R)) :=
  match decompose f values std Eg Ex with
  | .error x => .error x
  | .ok out => (ensStep e s num (out.vectors Eg)).2.2

end Ompy
