import Verif.Spin
import Verif.Prior

/-!
# Model of what the fits report

`NormalizerNLD.initial_guess` and `optimize`, ompy/normalizer_nld.py:263-286, 359-400, and
`NormalizerSimultan.initial_guess` and `optimize`, ompy/normalizer_simultan.py:197-214, 300-345: everything around the differential evolution and the nested
sampling.  `OverflowError` and StopIteration are `runtimeError`.
-/

namespace Ompy

/-- The marginal distribution of one parameter as the analyzer gives it: the one-sigma interval and the median. -/
structure Marginal where
  lo : ℝ
  hi : ℝ
  med : ℝ

/-- `sigma`, ompy/normalizer_nld.py:391 and ompy/normalizer_simultan.py:331. -/
noncomputable def Marginal.sigma (m : Marginal) : ℝ := (m.hi - m.lo) / 2

/-- The number of decimals, ompy/normalizer_nld.py:393 and ompy/normalizer_simultan.py:333: the logarithm of 0 is `-inf`, and `int(inf)` raises OverflowError; that of a
negative number is NaN, and `int(nan)` raises ValueError. -/
noncomputable def decimals (sigma : ℝ) : Except Err ℕ :=
  if sigma = 0 then .error .runtimeError
  else if sigma < 0 then .error .valueError
  else .ok (max 0 (-⌊Real.logb 10 sigma⌋ + 1)).toNat

/-- A number printed with `i` decimals (`%.<i>f`); `rd` rounds to an integer. -/
noncomputable def printedWith (rd : ℝ → ℤ) (i : ℕ) (x : ℝ) : ℝ := (rd (x * 10 ^ i) : ℝ) / 10 ^ i

/-- One turn of the loop, ompy/normalizer_nld.py:388-396: the entry of `popt` and the two numbers printed. -/
noncomputable def reportOne (rd : ℝ → ℤ) (name : String) (m : Marginal) : Except Err ((String × ℝ × ℝ) × (ℝ × ℝ)) :=
  (decimals m.sigma).map fun i => ((name, m.med, m.sigma), (printedWith rd i m.med, printedWith rd i m.sigma))

/-- The end of `optimize`, ompy/normalizer_nld.py:373-400 and ompy/normalizer_simultan.py:313-345: `popt` and the printed numbers, `names` being the keys of
the guess, and `marginals` in the order of the cube. -/
noncomputable def report (rd : ℝ → ℤ) (names : List String) (marginals : List Marginal) :
    Except Err (List (String × ℝ × ℝ) × List (ℝ × ℝ)) :=
  ((names.zip marginals).mapM fun p => reportOne rd p.1 p.2).map fun l => (l.map Prod.fst, l.map Prod.snd)

/-- A value of a dictionary. -/
def lookupPar {α : Type} (d : List (String × α)) (name : String) : Option α := (d.find? fun p => p.1 == name).map Prod.snd

/-- The order of the parameters in the cube of the level density, ompy/normalizer_nld.py:339-357, 486-500. -/
def cubeNld : List String := ["A", "alpha", "T", "Eshift"]

/-- The order of the parameters in the cube of the simultaneous fit, ompy/normalizer_simultan.py:274-296, 362. -/
def cubeSim : List String := ["A", "alpha", "T", "Eshift", "B"]

/-- The length of the path of the sampling, ompy/normalizer_nld.py:360 and ompy/normalizer_simultan.py:301, in a directory with a name of `dirLen` characters (other than
the current one): `/nld_norm_<num>_` or `/sim_norm_<num>_`. -/
def samplingPathLen (dirLen num : ℕ) : ℕ := dirLen + 1 + 9 + (Nat.repr num).length + 1

/-- The check of the path, ompy/normalizer_nld.py:361. -/
def checkPath (dirLen num : ℕ) : Except Err Unit := if samplingPathLen dirLen num < 60 then .ok () else .error .assertion

/-- The parameters that are warned about, ompy/normalizer_nld.py:281-285. -/
noncomputable def edgeWarnings (bounds : List (String × (ℝ × ℝ))) (p0 : List (String × ℝ)) : Except Err (List String) := by
  classical
  exact p0.foldrM (fun (p : String × ℝ) acc =>
    match lookupPar bounds p.1 with
    | none => .error .keyError
    | some b => .ok (if p.2 = b.1 ∨ p.2 = b.2 then p.1 :: acc else acc)) []

/-- The level density at the separation energy with its uncertainty, ompy/normalizer_nld.py:267-269. -/
noncomputable def nldSnWithError (g : ℝ → Except Err ℝ) (D0 : ℝ × ℝ) (Jt : ℝ) : Except Err (ℝ × ℝ) := do
  let n ← nldSnFromD0 g D0.1 Jt
  pure (n, n * (D0.2 / D0.1))

/-- The guess of the simultaneous fit, ompy/normalizer_simultan.py:197-207: `B` is set behind the others. -/
noncomputable def simGuess (guess : List (String × ℝ)) (B : ℝ) : List (String × ℝ) := guess ++ [("B", B)]

end Ompy
