import Verif.Trapezoid

/-!
# Model of the extraction of an ensemble, ompy/extractor.py:101-198, 275-308

The decomposition is an arbitrary function of the state of the random number generator, the cut matrix and the cut
uncertainties.  A result is the pair of level density and strength function.
-/

namespace Ompy

/-- The state of an extraction: the keyword `Eg_max` of the caller's Action, the random numbers, the files `nld_i` and
`gsf_i`. -/
structure ExState (σ V : Type) where
  egMax : Option ℚ
  rng : σ
  files : ℕ → Option V × Option V

/-- What an extraction needs: the replay of the Action on a matrix for a given keyword `Eg_max`
(ompy/action.py:26-31), `decompose` (ompy/extractor.py:310-429), the state after `np.random.seed(self.seed)` (180). -/
structure ExEnv (σ V : Type) where
  cut : Option ℚ → Mat → Except Err Mat
  dec : σ → Mat → Mat → Except Err ((V × V) × σ)
  seed : σ

/-- The ensemble: size, members (`get_firstgen`) and `std_firstgen`. -/
structure ExEns where
  size : ℕ
  member : ℕ → Mat
  std : Mat

/-- The keyword after the first act, ompy/extractor.py:300-302: for member 0 it is set to the last energy of the cut
matrix. -/
def curryStep (num : ℕ) (m : Mat) (g : Option ℚ) : Except Err (Option ℚ) :=
  if num = 0 then
    match m.Eg.getLast? with
    | none => .error .indexError
    | some e => .ok (some e)
  else .ok g

/-- `_extract`, ompy/extractor.py:284-308: the result and the state afterwards. -/
def extractMember {σ V : Type} (env : ExEnv σ V) (ens : ExEns) (num : ℕ) (s : ExState σ V) :
    Except Err (V × V) × ExState σ V :=
  match env.cut s.egMax (ens.member num) with
  | .error e => (.error e, s)
  | .ok m =>
    match curryStep num m s.egMax with
    | .error e => (.error e, s)
    | .ok g =>
      match env.cut g ens.std with
      | .error e => (.error e, { s with egMax := g })
      | .ok sd =>
        match env.dec s.rng m sd with
        | .error e => (.error e, { s with egMax := g })
        | .ok (r, rng) => (.ok r, { s with egMax := g, rng := rng })

/-- The pair of files of a member if both exist, ompy/extractor.py:184. -/
def bothFiles {V : Type} (f : Option V × Option V) : Option (V × V) :=
  match f with
  | (some a, some b) => some (a, b)
  | _ => none

/-- The loop over the members, ompy/extractor.py:181-193.  An exception leaves the files written so far. -/
def extractLoop {σ V : Type} (env : ExEnv σ V) (ens : ExEns) (regenerate : Bool) :
    List ℕ → ExState σ V → Except Err (List (V × V)) × ExState σ V
  | [], s => (.ok [], s)
  | i :: is, s =>
    match (if regenerate then none else bothFiles (s.files i)) with
    | some r =>
      let (rs, s') := extractLoop env ens regenerate is s
      (rs.map (r :: ·), s')
    | none =>
      match extractMember env ens i s with
      | (.error e, s') => (.error e, s')
      | (.ok r, s') =>
        let (rs, s'') := extractLoop env ens regenerate is
          { s' with files := Function.update s'.files i (some r.1, some r.2) }
        (rs.map (r :: ·), s'')

/-- `standard`, ompy/extractor.py:145-198, after the arguments are settled: seed, loop. -/
def extractStandard {σ V : Type} (env : ExEnv σ V) (ens : ExEns) (regenerate : Bool) (s : ExState σ V) :
    Except Err (List (V × V)) × ExState σ V :=
  extractLoop env ens regenerate (List.range ens.size) { s with rng := env.seed }

/-- What `extract_from` goes on to do. -/
inductive ExRun
  | standard
  | rhosigchi
  | nothing
deriving DecidableEq

/-- `extract_from`, ompy/extractor.py:106-143: which ensemble and Action are used, whether to regenerate, and what is
run.  `path` tells whether the path is set. -/
def extractFrom {E A : Type} (ensemble selfEnsemble : Option E) (trapezoid selfTrapezoid : Option A)
    (regenerate : Option Bool) (selfRegenerate path : Bool) (algorithm : String) :
    Except Err (E × A × Bool × ExRun) :=
  match ensemble.or selfEnsemble with
  | none => .error .valueError
  | some e =>
    match trapezoid.or selfTrapezoid with
    | none => .error .valueError
    | some t =>
      if ¬ path then .error .typeError
      else if algorithm = "standard" then .ok (e, t, regenerate.getD selfRegenerate, .standard)
      else if algorithm = "rhosigchi" then
        -- `ensemble.firstgen` of the argument, ompy/extractor.py:219, not of the attribute
        if ensemble.isNone then .error .attributeError
        else .ok (e, t, regenerate.getD selfRegenerate, .rhosigchi)
      else .ok (e, t, regenerate.getD selfRegenerate, .nothing)

end Ompy
