import Verif.Basic
import Mathlib.Data.Real.Basic

/-!
# The global random numbers: the samples of `B` and the seed of the extractor

Model of `scipynorm.rvs` in `EnsembleNormalizer.normalizeStagewise` (ompy/ensembleNormalizer.py:199-205), of the process pool around it (98-135) and of
the seeding in `Extractor.__init__` and `Extractor.standard` (ompy/extractor.py:94-95, 180).  The generator behind `np.random` is an arbitrary one.
Every process of the pool starts with a copy of the state of the program at that time; the pool hands out the members in order, and which process gets a member is
left open.
-/

namespace Ompy

/-- A generator of standard normal numbers with states `σ`. -/
structure NGen (σ : Type) where
  seed : ℕ → σ
  next : σ → σ × ℝ

variable {σ : Type}

/-- The next `n` numbers. -/
def NGen.draw (g : NGen σ) : ℕ → σ → σ × List ℝ
  | 0, s => (s, [])
  | n + 1, s =>
    let a := g.next s
    let b := NGen.draw g n a.1
    (b.1, a.2 :: b.2)

/-- What is needed of a member: `B[0]`, `B[1]` and the number of samples, ompy/ensembleNormalizer.py:199-200. -/
structure BPar where
  loc : ℝ
  scale : ℝ
  n : ℕ

/-- `scipynorm.rvs(loc=…, scale=…, size=…)`, ompy/ensembleNormalizer.py:201-204: a negative scale raises ValueError, and for the scale 0 no random number is used. -/
noncomputable def NGen.rvs (g : NGen σ) (m : BPar) (s : σ) : σ × Except Err (List ℝ) :=
  if m.scale < 0 then (s, .error .valueError)
  else if m.scale = 0 then (s, .ok (List.replicate m.n m.loc))
  else
    let d := g.draw m.n s
    (d.1, .ok (d.2.map fun z => z * m.scale + m.loc))

/-- The state of the process that gets member `i`, before that: it has treated those members before `i` that were given to it. -/
noncomputable def stateBefore (g : NGen σ) (s0 : σ) (ms : List BPar) (worker : ℕ → ℕ) (p : ℕ) : ℕ → σ
  | 0 => s0
  | j + 1 =>
    let s := stateBefore g s0 ms worker p j
    if worker j = p then
      match ms[j]? with
      | some m => (g.rvs m s).1
      | none => s
    else s

/-- The samples of member `i` in the pool. -/
noncomputable def poolOne (g : NGen σ) (s0 : σ) (ms : List BPar) (worker : ℕ → ℕ) (i : ℕ) : Except Err (List ℝ) :=
  match ms[i]? with
  | some m => (g.rvs m (stateBefore g s0 ms worker (worker i) i)).2
  | none => .error .indexError

/-- All members in the pool, ompy/ensembleNormalizer.py:115-124. -/
noncomputable def poolAll (g : NGen σ) (s0 : σ) (ms : List BPar) (worker : ℕ → ℕ) : Except Err (List (List ℝ)) :=
  (List.range ms.length).mapM (poolOne g s0 ms worker)

/-- The loop in a single process, ompy/ensembleNormalizer.py:131-133. -/
noncomputable def serialAll (g : NGen σ) : List BPar → σ → σ × Except Err (List (List ℝ))
  | [], s => (s, .ok [])
  | m :: ms, s =>
    match g.rvs m s with
    | (s1, .error e) => (s1, .error e)
    | (s1, .ok x) =>
      match serialAll g ms s1 with
      | (s2, .error e) => (s2, .error e)
      | (s2, .ok xs) => (s2, .ok (x :: xs))

/-- `EnsembleNormalizer.normalize`, ompy/ensembleNormalizer.py:98-135, as far as the samples of `B` are concerned: the state of the program afterwards and the samples.  What the
processes of the pool do to their copies of the state is lost. -/
noncomputable def normalizeB (g : NGen σ) (ms : List BPar) (worker : ℕ → ℕ) (s0 : σ) : σ × Except Err (List (List ℝ)) :=
  match poolAll g s0 ms worker with
  | .ok r => (s0, .ok r)
  | .error _ => serialAll g ms s0

/-- The random part of `Extractor.__init__`, ompy/extractor.py:94-95: the state afterwards. -/
def extractorInit (g : NGen σ) (_s : σ) : σ := g.seed 98743215

/-- The random part of the head of `Extractor.standard`, ompy/extractor.py:180: the state afterwards. -/
def extractorSeed (g : NGen σ) (seed : ℕ) (_s : σ) : σ := g.seed seed

end Ompy
