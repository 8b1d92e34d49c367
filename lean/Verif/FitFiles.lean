import Verif.Report

/-!
# Model of the files of fits that run at the same time

`optimize` of the level density and of the simultaneous normalisation (ompy/normalizer_nld.py:359-382,
ompy/normalizer_simultan.py:299-323) hand MultiNest a base name made of the directory `multinest_path` and the number of the
member; MultiNest writes its files there, and an `Analyzer` reads them.  `EnsembleNormalizer.normalize`
(ompy/ensembleNormalizer.py:116-133) runs the members in a process pool, and one after the other if that fails.  MultiNest is
an arbitrary program that reads and writes files with its base name; a file is a value `C`, and writing it is one step.
-/

namespace Ompy

/-- The two fits that use MultiNest. -/
inductive FitKind
  | nld
  | sim
  deriving DecidableEq

/-- The first part of the file names, ompy/normalizer_nld.py:360 and ompy/normalizer_simultan.py:300. -/
def FitKind.stem : FitKind → List Char
  | .nld => ['n', 'l', 'd', '_', 'n', 'o', 'r', 'm', '_']
  | .sim => ['s', 'i', 'm', '_', 'n', 'o', 'r', 'm', '_']

/-- A fit: its directory, kind and number. -/
structure FitJob where
  dir : List Char
  kind : FitKind
  num : ℕ
  deriving DecidableEq

/-- The base name `path`, ompy/normalizer_nld.py:360 and ompy/normalizer_simultan.py:300, in a directory other than the current
one. -/
def FitJob.base (j : FitJob) : List Char := j.dir ++ '/' :: (j.kind.stem ++ (Nat.toDigits 10 j.num ++ ['_']))

/-- What a fit does with its files, which are named by what follows the base name: look at one (`none`: it does not exist),
write or remove one (ompy/normalizer_nld.py:368-382, ompy/normalizer_simultan.py:309-323). -/
inductive FitProg (C R : Type)
  | ret (r : Except Err R)
  | read (s : List Char) (k : Option C → FitProg C R)
  | write (s : List Char) (c : Option C) (k : FitProg C R)

variable {C R : Type}

/-- The files. -/
abbrev FitDisk (C : Type) := List Char → Option C

/-- One step of a fit with the base name `b`. -/
def FitProg.next (b : List Char) : FitProg C R → FitDisk C → FitProg C R × FitDisk C
  | .ret r, d => (.ret r, d)
  | .read s k, d => (k (d (b ++ s)), d)
  | .write s c k, d => (k, Function.update d (b ++ s) c)

/-- The result of a fit that has ended. -/
def FitProg.done : FitProg C R → Option (Except Err R)
  | .ret r => some r
  | _ => none

/-- `n` steps of a fit alone. -/
def FitProg.steps (b : List Char) : ℕ → FitProg C R → FitDisk C → FitProg C R × FitDisk C
  | 0, p, d => (p, d)
  | n + 1, p, d => FitProg.steps b n (p.next b d).1 (p.next b d).2

/-- A fit alone, to its end: the result and the files. -/
def FitProg.exec (b : List Char) : FitProg C R → FitDisk C → Except Err R × FitDisk C
  | .ret r, d => (r, d)
  | .read s k, d => (k (d (b ++ s))).exec b d
  | .write s c k, d => k.exec b (Function.update d (b ++ s) c)

/-- `optimize` up to the result: the assertion on the length of the path, ompy/normalizer_nld.py:361, and then the fit. -/
def optimizeProg (j : FitJob) (fit : FitProg C R) : FitProg C R :=
  if j.base.length < 60 then fit else .ret (.error .assertion)

/-- The process pool, ompy/ensembleNormalizer.py:118-120. -/
structure FitPool (C R : Type) where
  procs : ℕ → FitProg C R
  disk : FitDisk C

/-- One step of process `i`; `jobs` are the fits. -/
def fitPoolStep (jobs : ℕ → FitJob) (s : FitPool C R) (i : ℕ) : FitPool C R :=
  ⟨Function.update s.procs i ((s.procs i).next (jobs i).base s.disk).1, ((s.procs i).next (jobs i).base s.disk).2⟩

/-- The pool under a schedule: the number of the process that makes the next step. -/
def fitPoolRun (jobs : ℕ → FitJob) (sched : List ℕ) (s : FitPool C R) : FitPool C R := sched.foldl (fitPoolStep jobs) s

/-- The fits of an ensemble, ompy/ensembleNormalizer.py:174-177, 195: member `i` is number `i` in the one directory of the
normaliser, which every process has a copy of. -/
def ensJobs (dir : List Char) (kind : FitKind) (i : ℕ) : FitJob := ⟨dir, kind, i⟩

/-- The pool of an ensemble at its start. -/
def ensFitPool (dir : List Char) (kind : FitKind) (fits : ℕ → FitProg C R) (d : FitDisk C) : FitPool C R :=
  ⟨fun i => optimizeProg (ensJobs dir kind i) (fits i), d⟩

/-- The loop over the members with a single thread, ompy/ensembleNormalizer.py:131-133: the results up to the first exception. -/
def fitLoop (dir : List Char) (kind : FitKind) (fits : ℕ → FitProg C R) : List ℕ → FitDisk C → Except Err (List R) × FitDisk C
  | [], d => (.ok [], d)
  | i :: l, d =>
    match (optimizeProg (ensJobs dir kind i) (fits i)).exec (ensJobs dir kind i).base d with
    | (.error e, d1) => (.error e, d1)
    | (.ok r, d1) =>
      match fitLoop dir kind fits l d1 with
      | (.error e, d2) => (.error e, d2)
      | (.ok rs, d2) => (.ok (r :: rs), d2)

/-- A keyword of MultiNest. -/
inductive FitKw
  | seed (n : ℕ)
  | resume (b : Bool)
  | other (name : String)
  deriving DecidableEq

/-- The default `multinest_kwargs`, ompy/normalizer_nld.py:122 and ompy/normalizer_simultan.py:92. -/
def defaultFitKw : List FitKw := [.seed 65498, .resume false]

/-- The argument `resume` of `pymultinest.run` when called with `**multinest_kwargs` (ompy/normalizer_nld.py:369-371); its
default there is `True`. -/
def resumeArg (kw : List FitKw) : Bool := (kw.findSome? fun k => match k with | .resume b => some b | _ => none).getD true

/-- MultiNest with the argument `resume`, followed by the analysis: with `resume=True` an earlier state is looked for in the
file `resume`, and sampling goes on from there. `sample` draws the posterior of the data, given a state to go on from; `result`
reads it. Simplified to one file for the state and one for the posterior. -/
def multinestProg (state post : List Char) (sample : Option C → C) (result : Option C → Except Err R) (resume : Bool) : FitProg C R :=
  if resume then .read state fun old => .write post (some (sample old)) (.write state (some (sample old)) (.read post fun c => .ret (result c)))
  else .write post (some (sample none)) (.write state (some (sample none)) (.read post fun c => .ret (result c)))

end Ompy
