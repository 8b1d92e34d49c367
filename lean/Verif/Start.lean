import Verif.DecomposeFit
import Mathlib.Analysis.SpecialFunctions.Pow.Real
import Mathlib.Analysis.SpecialFunctions.Log.Basic

/-!
# Model of the start values of the decomposition, ompy/extractor.py:380-385, 431-540
-/

namespace Ompy

/-- `U = E_nld - E0; U[U <= 0] = 0.5`, ompy/extractor.py:491-492. -/
noncomputable def bsfgU (E0 e : ℝ) : ℝ := if e - E0 ≤ 0 then 1 / 2 else e - E0

/-- `np.exp(2*np.sqrt(a*U)) / (a**(1/4)*U**(5/4))`, ompy/extractor.py:493. -/
noncomputable def bsfgFG (a U : ℝ) : ℝ := Real.exp (2 * Real.sqrt (a * U)) / (a ^ (1 / 4 : ℝ) * U ^ (5 / 4 : ℝ))

/-- `x0_BSFG`, ompy/extractor.py:474-502, for `a > 0`; `none` is NaN.  If the energies at `N//4` and at the end are
equal so are the values there, `alpha` is 0/0 and everything NaN. -/
noncomputable def x0BSFG (E : List ℝ) (E0 a : ℝ) : Except Err (List (Option ℝ)) :=
  let N := E.length
  if N = 0 then .error .indexError
  else
    let fg := E.map fun e => bsfgFG a (bsfgU E0 e)
    let e4 := E.getD (N / 4) 0
    let eN := E.getD (N - 1) 0
    if eN = e4 then .ok (E.map fun _ => none)
    else
      let alpha := Real.log (fg.getD (N / 4) 0 / fg.getD (N - 1) 0) / (eN - e4)
      let fg2 := List.zipWith (fun f e => f * Real.exp (alpha * e)) fg E
      .ok (fg2.map fun f => some (f / (fg2.getD (N / 2) 0 * (7 / 10))))

/-- `x0_CT`, ompy/extractor.py:504-518. -/
def x0CT (E : List ℝ) : List ℝ := E.map fun _ => 1

/-- `x0_parabola`, ompy/extractor.py:520-540. -/
noncomputable def x0Parabola (E : List ℝ) (E0 y0 a : ℝ) : Except Err (List ℝ) :=
  let vals := E.map fun e => a * (e - E0) ^ 2 + y0
  if ∃ v ∈ vals, v < 0 then .error .assertion else .ok vals

/-- `matrix.projection('Eg')` without limits: the sum over the rows for every gamma bin, ompy/matrix.py:442-449,
called in ompy/extractor.py:468. -/
def colSums (values : List (List ℝ)) (ny : ℕ) : List ℝ :=
  (List.range ny).map fun j => (values.map fun r => r.getD j 0).sum

/-- `guess_initial_values`, ompy/extractor.py:431-472.  The last check (471) tests a method object, which is always
true; NaN is passed on. -/
noncomputable def guessInitial (E : List ℝ) (values : List (List ℝ)) (ny : ℕ) (method : Option String) :
    Except Err (List (Option ℝ)) :=
  if E = [] then .error .indexError
  else
    let E' := if E.getD (E.length - 1) 0 > 100 then E.map (· / 1000) else E
    let nld0 : Except Err (List (Option ℝ)) :=
      if method = none ∨ method = some "BSFG-like" then x0BSFG E' (-(2 / 10)) 15
      else if method = some "CT-like" then .ok ((x0CT E').map some)
      else if method = some "parabola" then (x0Parabola E' 4 (1 / 100) 1).map (List.map some)
      else .error .notImplemented
    nld0.map fun n => (colSums values ny).map some ++ n

/-- The start values of a call or of the object: an array or the name of a method. -/
inductive StartArg
  | arr (x : List ℝ)
  | method (s : String)

/-- The start values of `decompose` before randomisation, ompy/extractor.py:380-383; `arg` is the argument, `self` the
attribute. -/
noncomputable def startValues (arg self : Option StartArg) (E : List ℝ) (values : List (List ℝ)) (ny : ℕ) :
    Except Err (List (Option ℝ)) := do
  let x0 ← match (if arg.isNone then self else arg) with
    | none => guessInitial E values ny none
    | some (.method s) => guessInitial E values ny (some s)
    | some (.arr x) => pure (x.map some)
  if x0.length ≠ E.length + ny then .error .assertion else pure x0

/-- `np.random.uniform(x0/5, x0*5)`, ompy/extractor.py:384-385, with the random numbers `u` of [0, 1). -/
noncomputable def randomizeStart (x0 u : List ℝ) : List ℝ := List.zipWith (fun x t => x / 5 + (x * 5 - x / 5) * t) x0 u

end Ompy
