import Verif.Matrix
import Mathlib.Analysis.SpecialFunctions.Pow.Real

/-!
# Model of the perturbation of the matrices of an ensemble, ompy/ensemble.py:269-303, 419-450, 533-573

The random numbers are parameters: `z i j` is the standard normal number and `draw i j` the Poisson generator for bin
`(i, j)`.
-/

namespace Ompy

/-- `np.where(values > 0, values, 0)` in one bin, ompy/ensemble.py:431, 448. -/
noncomputable def posPart (v : ℝ) : ℝ := if 0 < v then v else 0

/-- One bin of `generate_gaussian`, ompy/ensemble.py:431-434: `normal(loc, scale)` is `loc + scale * z`, negative numbers are set to 0. -/
noncomputable def gaussBin (v z : ℝ) : ℝ := if v + Real.sqrt (posPart v) * z < 0 then 0 else v + Real.sqrt (posPart v) * z

/-- `generate_gaussian`, ompy/ensemble.py:419-435. -/
noncomputable def perturbGauss (z : ℕ → ℕ → ℝ) (values : List (List ℚ)) : List (List ℝ) :=
  values.mapIdx fun i row => row.mapIdx fun j (v : ℚ) => gaussBin (v : ℝ) (z i j)

/-- `generate_poisson`, ompy/ensemble.py:437-450. -/
noncomputable def perturbPoisson (draw : ℕ → ℕ → ℝ → ℕ) (values : List (List ℚ)) : List (List ℝ) :=
  values.mapIdx fun i row => row.mapIdx fun j (v : ℚ) => ((draw i j (posPart (v : ℝ)) : ℕ) : ℝ)

/-- The matrices an ensemble starts from. -/
structure EnsBase where
  raw : Option Mat
  promptWbg : Option Mat
  bg : Option Mat

/-- `matrix_from_state`, ompy/ensemble.py:554-573 (`None` if the attribute is not set). -/
def matrixFromState (b : EnsBase) (state : String) : Except Err (Option Mat) :=
  if state = "raw" then .ok b.raw
  else if state = "prompt+bg" then .ok b.promptWbg
  else if state = "bg" then .ok b.bg
  else .error .notImplemented

/-- The actions of an ensemble. -/
structure EnsActions (A : Type) where
  raw : A
  promptWbg : A
  bg : A
  unfolded : A
  firstgen : A

/-- `action_from_state`, ompy/ensemble.py:533-552. -/
def actionFromState {A : Type} (a : EnsActions A) (state : String) : Except Err A :=
  if state = "raw" then .ok a.raw
  else if state = "prompt+bg" then .ok a.promptWbg
  else if state = "bg" then .ok a.bg
  else if state = "unfolded" then .ok a.unfolded
  else if state = "firstgen" then .ok a.firstgen
  else .error .notImplemented

/-- The matrix of a state; `None` has no attribute `values`. -/
def baseMatrix (b : EnsBase) (state : String) : Except Err Mat :=
  match matrixFromState b state with
  | .error e => .error e
  | .ok none => .error .attributeError
  | .ok (some m) => .ok m

/-- `generate_perturbed`, ompy/ensemble.py:285-303, without the action: values and axes (Eg, Ex) of the matrix.  `file` is the
content of the file of the member, if it exists. -/
noncomputable def perturbed (b : EnsBase) (file : Option (List (List ℝ) × List ℚ × List ℚ)) (regenerate : Bool)
    (method state : String) (z : ℕ → ℕ → ℝ) (draw : ℕ → ℕ → ℝ → ℕ) : Except Err (List (List ℝ) × List ℚ × List ℚ) :=
  if ¬ (state = "raw" ∨ state = "prompt+bg" ∨ state = "bg") then .error .notImplemented
  else
    match (if regenerate then none else file) with
    | some f => .ok f
    | none =>
      if method = "gaussian" then (baseMatrix b state).map fun m => (perturbGauss z m.values, m.Eg, m.Ex)
      else if method = "poisson" then (baseMatrix b state).map fun m => (perturbPoisson draw m.values, m.Eg, m.Ex)
      else .error .valueError

end Ompy
