import Verif.Basic
import Mathlib.Logic.Function.Basic

/-!
# Model of `ompy/ensemble.py`

A member of the ensemble is made by `Ensemble.step`, a program that reads and writes files.  Programs are
trees of file operations, so that interleavings (process pool) and interruptions are prefixes of runs.
Matrices `M`, generator states `S` are arbitrary types; unfolding, first-generation method, subtraction and
actions are arbitrary functions that may raise and may change their argument.
-/

namespace Ompy

/-- The kinds of files of one member; `firstgenMain` is `firstgen.npy`, written by member 0
(ompy/ensemble.py:259-260). -/
inductive EFile
  | raw | prompt | bg | unfolded | firstgen | firstgenMain
  deriving DecidableEq, Repr

/-- A file: kind and member number, ompy/ensemble.py:288, 317, 338, 358. -/
abbrev EKey := EFile × ℕ

/-- Files present in `self.path`. -/
abbrev Disk (M : Type) := EKey → Option M

/-- A program: returns, raises, looks for a file (and loads it if it exists), or saves a file. -/
inductive Prog (M α : Type) where
  | ret (a : α)
  | fail (e : Err)
  | read (k : EKey) (c : Option M → Prog M α)
  | write (k : EKey) (m : M) (c : Prog M α)

namespace Prog

variable {M α β : Type}

/-- Sequential composition. -/
def bind : Prog M α → (α → Prog M β) → Prog M β
  | ret a, f => f a
  | fail e, _ => fail e
  | read k c, f => read k fun x => (c x).bind f
  | write k m c, f => write k m (c.bind f)

/-- A computation that may raise. -/
def ofExcept : Except Err α → Prog M α
  | .ok a => ret a
  | .error e => fail e

/-- One file operation; `reload` is the effect of saving and loading on a matrix (values and axes are
kept, the state is forgotten). -/
def next (reload : M → M) : Prog M α → Disk M → Prog M α × Disk M
  | ret a, d => (ret a, d)
  | fail e, d => (fail e, d)
  | read k c, d => (c ((d k).map reload), d)
  | write k m c, d => (c, Function.update d k (some m))

/-- Run to the end. -/
def run (reload : M → M) : Prog M α → Disk M → Except Err α × Disk M
  | ret a, d => (.ok a, d)
  | fail e, d => (.error e, d)
  | read k c, d => (c ((d k).map reload)).run reload d
  | write k m c, d => c.run reload (Function.update d k (some m))

/-- The program has ended. -/
def done : Prog M α → Option (Except Err α)
  | ret a => some (.ok a)
  | fail e => some (.error e)
  | _ => none

end Prog

/-- The settings of an `Ensemble`, ompy/ensemble.py:76-127, with the method of perturbation fixed. -/
structure Ens (M S : Type) where
  /-- `self.bg is not None` -/
  hasBg : Bool
  /-- `self.regenerate` -/
  regenerate : Bool
  /-- generator made from child `i` of the seed sequence (line 197-199, 246) -/
  child : ℕ → S
  /-- `generate_gaussian`/`generate_poisson` with the base matrix of a state, lines 291-299 -/
  gen : EFile → S → Except Err (M × S)
  /-- `matrix - self.bg_ratio * bg` and `remove_negative`, lines 321-322 -/
  sub : M → M → Except Err M
  /-- `self.unfolder`: argument afterwards and result -/
  unf : M → M × Except Err M
  /-- `self.first_generation_method` -/
  fg : M → M × Except Err M
  /-- `action.act_on(mat)`: matrix afterwards, or the exception -/
  act : EFile → M → M × Except Err Unit
  /-- the shape check, lines 262-265 -/
  sameShape : M → M → M → Bool
  /-- saving and loading -/
  reload : M → M

namespace Ens

variable {M S : Type}

/-- `load_matrix`, ompy/ensemble.py:452-462. -/
def load (e : Ens M S) (k : EKey) : Prog M (Option M) :=
  if e.regenerate then .ret none else .read k .ret

/-- `action.act_on(mat); return mat`. -/
def actProg (e : Ens M S) (f : EFile) (m : M) : Prog M M :=
  match (e.act f m).2 with
  | .ok _ => .ret (e.act f m).1
  | .error err => .fail err

/-- `generate_perturbed`, ompy/ensemble.py:269-303; also returns the state of the generator. -/
def generatePerturbed (e : Ens M S) (f : EFile) (i : ℕ) (s : S) : Prog M (M × S) :=
  (e.load (f, i)).bind fun
    | some m => (e.actProg f m).bind fun m' => .ret (m', s)
    | none => (Prog.ofExcept (e.gen f s)).bind fun p =>
        .write (f, i) p.1 ((e.actProg f p.1).bind fun m' => .ret (m', p.2))

/-- `subtract_bg`, ompy/ensemble.py:305-325. -/
def subtractBg (e : Ens M S) (i : ℕ) (matrix bg : M) : Prog M M :=
  (e.load (.raw, i)).bind fun
    | some m => e.actProg .raw m
    | none => (Prog.ofExcept (e.sub matrix bg)).bind fun m => .write (.raw, i) m (e.actProg .raw m)

/-- `unfold`, ompy/ensemble.py:327-345: the raw matrix afterwards and the unfolded one. -/
def unfold (e : Ens M S) (i : ℕ) (raw : M) : Prog M (M × M) :=
  (e.load (.unfolded, i)).bind fun
    | some m => (e.actProg .unfolded m).bind fun u => .ret (raw, u)
    | none => (Prog.ofExcept (e.unf raw).2).bind fun m =>
        .write (.unfolded, i) m ((e.actProg .unfolded m).bind fun u => .ret ((e.unf raw).1, u))

/-- `first_generation`, ompy/ensemble.py:347-365: the unfolded matrix afterwards and the first
generation. -/
def firstGeneration (e : Ens M S) (i : ℕ) (unfolded : M) : Prog M (M × M) :=
  (e.load (.firstgen, i)).bind fun
    | some m => (e.actProg .firstgen m).bind fun u => .ret (unfolded, u)
    | none => (Prog.ofExcept (e.fg unfolded).2).bind fun m =>
        .write (.firstgen, i) m ((e.actProg .firstgen m).bind fun u => .ret ((e.fg unfolded).1, u))

/-- The raw matrix of a member, ompy/ensemble.py:247-256. -/
def rawStage (e : Ens M S) (i : ℕ) : Prog M M :=
  if e.hasBg then
    (e.generatePerturbed .prompt i (e.child i)).bind fun p =>
      (e.generatePerturbed .bg i p.2).bind fun b => e.subtractBg i p.1 b.1
  else (e.generatePerturbed .raw i (e.child i)).bind fun p => .ret p.1

/-- The end of `step`, ompy/ensemble.py:259-266. -/
def finish (e : Ens M S) (i : ℕ) (raw unfolded firstgen : M) : Prog M (M × M × M) :=
  let r : Prog M (M × M × M) :=
    if e.sameShape raw unfolded firstgen then .ret (raw, unfolded, firstgen) else .fail .assertion
  if i = 0 then .write (.firstgenMain, 0) firstgen r else r

/-- `step`, ompy/ensemble.py:233-267. -/
def step (e : Ens M S) (i : ℕ) : Prog M (M × M × M) :=
  (e.rawStage i).bind fun raw =>
    (e.unfold i raw).bind fun ru =>
      (e.firstGeneration i ru.2).bind fun uf => e.finish i ru.1 uf.1 uf.2

end Ens

/-! ### The process pool -/

/-- Programs of the members and the shared disk. -/
structure PoolState (M α : Type) where
  procs : ℕ → Prog M α
  disk : Disk M

/-- The process that works on member `i` makes one file operation. -/
def poolStep {M α : Type} (reload : M → M) (s : PoolState M α) (i : ℕ) : PoolState M α :=
  ⟨Function.update s.procs i ((s.procs i).next reload s.disk).1, ((s.procs i).next reload s.disk).2⟩

/-- Run a schedule.  A crash is the end of the schedule; any list is possible. -/
def poolRun {M α : Type} (reload : M → M) (sched : List ℕ) (s : PoolState M α) : PoolState M α :=
  sched.foldl (poolStep reload) s

/-- The pool after `sched` when `generate` is called with disk `d` (ompy/ensemble.py:196-201). -/
def Ens.pool {M S : Type} (e : Ens M S) (d : Disk M) (sched : List ℕ) : PoolState M (M × M × M) :=
  poolRun e.reload sched ⟨e.step, d⟩

/-- `generate` with one process: the members in order; the first exception is raised by `list(...)`. -/
def Ens.generateSerial {M S : Type} (e : Ens M S) : ℕ → Disk M → Except Err (List (M × M × M)) × Disk M
  | 0, d => (.ok [], d)
  | n + 1, d =>
    match e.generateSerial n d with
    | (.error err, d') => (.error err, d')
    | (.ok l, d') =>
      match (e.step n).run e.reload d' with
      | (.error err, d'') => (.error err, d'')
      | (.ok r, d'') => (.ok (l ++ [r]), d'')

/-! ### Loading -/

/-- `load`, ompy/ensemble.py:129-165: `listing` is the order in which the directory lists the files of the
members (names `raw_<i>.npy` and so on), `disk` their content.  The matrices are taken in the order
of the listing, for each kind separately. -/
def loadEnsemble {M : Type} (disk : Disk M) (listing : List EKey) :
    Except Err (List M × List M × List M) :=
  if disk (.firstgenMain, 0) = none then .error .fileNotFound
  else
    let names := fun f => (listing.filter fun k => k.1 = f)
    let raws := names .raw
    let unfolds := names .unfolded
    let firsts := names .firstgen
    if ¬ (raws.length = unfolds.length ∧ unfolds.length = firsts.length) then .error .assertion
    else if raws.length = 0 then .error .assertion
    else .ok (raws.filterMap disk, unfolds.filterMap disk, firsts.filterMap disk)

end Ompy
