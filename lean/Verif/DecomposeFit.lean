import Verif.Extractor
import Mathlib.Analysis.Real.Sqrt
import Mathlib.Analysis.SpecialFunctions.Trigonometric.Basic

/-!
# Model of `Extractor.decompose`, ompy/extractor.py:310-429, with the fit

Values and uncertainties are reals, energies rationals.  The minimiser of scipy is an arbitrary function of the
error function and the start values.  `none` stands for NaN (in `gsf` also for an infinite number).
-/

namespace Ompy

open Classical in
/-- `chisquare_diagonal` with a product that may hold rows of NaN, ompy/decomposition.pyx:174-182: such a row
makes the sum NaN if one of its elements enters, that is if it is on the right side of the diagonal and its `std`
is not 0. -/
noncomputable def chiNaN (fact : List (List ℝ)) (fit : List (Option (List ℝ))) (std : List (List ℝ))
    (res Eg Ex : List ℚ) : Option ℝ :=
  if ∃ i < Ex.length, fit.getD i none = none ∧ ∃ j < Eg.length,
      Eg.getD j 0 ≤ Ex.getD i 0 + res.getD i 0 ∧ (std.getD i []).getD j 0 ≠ 0 then none
  else some (chisquareDiagonal fact (fit.map fun r => r.getD []) std res Eg Ex)

open Classical in
/-- `errfun`, ompy/extractor.py:387-401, for a given `std` (without one `decompose` has already failed). -/
noncomputable def errfun (values std : List (List ℝ)) (res E Eg Ex : List ℚ) (x : List ℝ) : Option ℝ :=
  if ∃ v ∈ x, v < 0 then some (10 ^ 20)
  else
    match nldTProduct (x.drop Eg.length) (x.take Eg.length) res E Eg Ex with
    | .error _ => none
    | .ok fit => chiNaN values fit std res Eg Ex

/-- What `decompose` calls. `close` is `np.isclose`; `resolution` is `diagonal_resolution` or zeros,
ompy/extractor.py:375-378; `start` are the initial values given by the caller or guessed from the axis and the
normalised matrix, after the randomisation, 380-385; `minimize` is `scipy.optimize.minimize(...).x`, 403-407. -/
structure FitEnv where
  close : ℚ → ℚ → Bool
  resolution : List ℚ → List ℚ → List ℚ
  start : List ℚ → List (List ℝ) → List ℝ
  minimize : (List ℝ → Option ℝ) → List ℝ → List ℝ

/-- What `decompose` returns with `product=True`, ompy/extractor.py:420-426; `E` is the axis of `nld`. -/
structure FitOut where
  E : List ℚ
  nld : List (Option ℝ)
  gsf : List (Option ℝ)
  product : List (Option (List ℝ))

open Classical in
/-- Elements without counts become NaN, ompy/extractor.py:411-414. -/
noncomputable def setNaN (v counts : List ℝ) : List (Option ℝ) :=
  List.zipWith (fun x c => if c = 0 then none else some x) v counts

/-- The assignment through the mask raises IndexError unless the mask of the counts has the length of the array,
ompy/extractor.py:411-414. -/
noncomputable def maskNaN (v counts : List ℝ) : Except Err (List (Option ℝ)) :=
  if v.length = counts.length then .ok (setNaN v counts) else .error .indexError

/-- `gsf = T/(2*np.pi*matrix.Eg**3)`, ompy/extractor.py:418. -/
noncomputable def gsfOf (T : List (Option ℝ)) (Eg : List ℚ) : List (Option ℝ) :=
  List.zipWith (fun (t : Option ℝ) (g : ℚ) =>
    if g = 0 then none else t.map fun v => v / (2 * Real.pi * (g : ℝ) ^ 3)) T Eg

open Classical in
/-- The fit and its result, ompy/extractor.py:362-429, for normalised values and uncertainties. -/
noncomputable def fitPart (e : FitEnv) (v s : List (List ℝ)) (Eg Ex : List ℚ) : Except Err FitOut := do
  let E ← eNld e.close Ex Eg
  let res := e.resolution Eg Ex
  let x0 := e.start E v
  if x0.length ≠ E.length + Eg.length then .error .assertion
  else
    let x := e.minimize (errfun v s res E Eg Ex) x0
    let counts := countsV v Eg Ex res
    let T ← maskNaN (x.take Eg.length) counts.2
    let nld ← maskNaN (x.drop Eg.length) counts.1
    let P ← nldTProduct (nld.map fun q => q.getD 0) (T.map fun q => q.getD 0) res E Eg Ex
    pure ⟨E, nld, gsfOf T Eg, P⟩

open Classical in
/-- `decompose`, ompy/extractor.py:310-429. -/
noncomputable def decompose (e : FitEnv) (values : List (List ℝ)) (std : Option (List (List ℝ)))
    (Eg Ex : List ℚ) : Except Err FitOut :=
  if ∃ r ∈ values, ∃ q ∈ r, q < 0 then .error .valueError
  else
    match std with
    | none => .error .typeError
    | some s =>
      if ∃ r ∈ s, ∃ q ∈ r, q < 0 then .error .valueError
      else if hasShape s Ex.length Eg.length = false then .error .assertion
      else
        match normalizeUnc values (some s) with
        | .error er => .error er
        | .ok (v, var) => fitPart e v (var.map fun r => r.map Real.sqrt) Eg Ex

end Ompy
