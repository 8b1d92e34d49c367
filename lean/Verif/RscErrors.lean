import Verif.RhoSigChiFit
import Mathlib.Analysis.SpecialFunctions.Pow.Real

/-!
# Model of the error analysis of rhosigchi, ompy/pyrhosigchi.py:321-382

The iteration itself (`iterate` with `sFgN`, C42) is a function `fit` of the normalised spectra and the start values; it gives the last rows of `nld` and `gsf`.  Random numbers
are any numbers `z`, one for each bin, drawn from the state of a generator.
-/

namespace Ompy

/-- The start values of `gsf` and `gsfv`, ompy/pyrhosigchi.py:326-331, 350-353, in an array of `n` bins. -/
def rscStart (F : List (List ℚ)) (imin imax igmin : ℕ) (igmax : List ℕ) (n : ℕ) : Except Err (List ℚ) :=
  if ∃ ix ∈ List.range imax, imin ≤ ix ∧ igmin < igmax.getD ix 0 ∧ n < igmax.getD ix 0 then .error .indexError
  else .ok ((List.range n).map fun ig : ℕ =>
    ∑ ix ∈ Finset.Ico imin imax, if igmin ≤ ig ∧ ig < igmax.getD ix 0 then (F.getD ix []).getD ig 0 else 0)

/-- The perturbed first-generation matrix, ompy/pyrhosigchi.py:344-347. -/
def rscPerturb (v s : List (List ℚ)) (z : ℕ → ℕ → ℚ) : List (List ℚ) :=
  (List.range v.length).map fun i : ℕ => (List.range (v.getD i []).length).map fun j : ℕ =>
    let p := (v.getD i []).getD j 0 + z i j * (s.getD i []).getD j 0
    if p < 0 then 0 else p

/-- The limits of the fit. -/
structure RscLims where
  imin : ℕ
  imax : ℕ
  igmin : ℕ
  igmax : List ℕ
  u0 : ℕ

/-- Normalisation, start values and fit, ompy/pyrhosigchi.py:322-334 and 348-357. -/
def rscRun (fit : List (List ℚ) → List ℚ → Except Err (List ℚ × List ℚ)) (mat std : List (List ℚ)) (l : RscLims) :
    Except Err (List ℚ × List ℚ) := do
  let F ← rscNormalize mat std l.imin l.imax l.igmin l.igmax
  let g ← rscStart F.1 l.imin l.imax l.igmin l.igmax (l.imax + l.u0)
  fit F.1 g

/-- The loop of the error analysis, ompy/pyrhosigchi.py:343-361: the results and the state of the generator afterwards. -/
def rscRuns {S : Type} (next : S → (ℕ → ℕ → ℚ) × S) (one : (ℕ → ℕ → ℚ) → Except Err (List ℚ × List ℚ)) :
    ℕ → S → Except Err (List (List ℚ × List ℚ) × S)
  | 0, g => .ok ([], g)
  | k + 1, g => do
    let r ← one (next g).1
    let rs ← rscRuns next one k (next g).2
    pure (r :: rs.1, rs.2)

/-- `np.sqrt(nlderr/nunc)`, ompy/pyrhosigchi.py:360-365; without runs it is 0/0. -/
noncomputable def rmsDev (base : List ℚ) (runs : List (List ℚ)) : Except Err (List ℝ) :=
  if runs = [] then .error .undefined
  else .ok ((List.range base.length).map fun k : ℕ =>
    √(((runs.map fun r => (r.getD k 0 - base.getD k 0) ^ 2).sum / runs.length : ℚ) : ℝ))

/-- What is returned: values and uncertainties of level density and transmission coefficient. -/
structure RscOut where
  nld : List ℚ
  nldErr : List ℝ
  gsf : List ℚ
  gsfErr : List ℝ

/-- `np.max(igmax)`. -/
def maxOf (l : List ℕ) : ℕ := l.foldr max 0

/-- The end, ompy/pyrhosigchi.py:373-377: the transmission coefficient is cut at the highest limit; values and energies of a vector must have one length. -/
noncomputable def rscVectors (base : List ℚ × List ℚ) (e1 e2 : List ℝ) (l : RscLims) : Except Err RscOut :=
  if (base.2.take (maxOf l.igmax)).length ≠ maxOf l.igmax then .error .valueError
  else .ok ⟨base.1, e1, base.2.take (maxOf l.igmax), e2.take (maxOf l.igmax)⟩

/-- `pyrhosigchi` from the normalisation on, ompy/pyrhosigchi.py:321-382. -/
noncomputable def rscFit {S : Type} (fit : List (List ℚ) → List ℚ → Except Err (List ℚ × List ℚ)) (next : S → (ℕ → ℕ → ℚ) × S)
    (mat std : List (List ℚ)) (l : RscLims) (nunc : ℕ) (g : S) : Except Err (RscOut × S) := do
  let base ← rscRun fit mat std l
  let rs ← rscRuns next (fun z => rscRun fit (rscPerturb mat std z) std l) nunc g
  let e1 ← rmsDev base.1 (rs.1.map Prod.fst)
  let e2 ← rmsDev base.2 (rs.1.map Prod.snd)
  let out ← rscVectors base e1 e2 l
  pure (out, rs.2)

end Ompy
