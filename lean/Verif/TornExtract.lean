import Verif.TornFiles
import Verif.ExtractLoop

/-!
# Model of the files of an extraction that are written piece by piece

The loop of ompy/extractor.py:178-193 (and that of `rhosigchi`, ompy/extractor.py:229-268, which treats its files in the same
way), where saving is a series of operations on the disk and the program may be interrupted after each of them.
-/

namespace Ompy

/-- The two files of a member, ompy/extractor.py:182-183. -/
inductive XKind
  | nld
  | gsf
  deriving DecidableEq

/-- The files `nld_i` and `gsf_i`. -/
abbrev XKey := XKind × ℕ

/-- The files, as pieces. -/
abbrev XDisk (C : Type) := XKey → Option (List C)

/-- An operation on the disk: opening a file for writing, which empties it, and writing one more piece. -/
inductive XEv (C : Type)
  | open (k : XKey)
  | piece (k : XKey) (x : C)

variable {V C S : Type}

/-- The disk after an operation. -/
def XEv.act (d : XDisk C) : XEv C → XDisk C
  | .open k => Function.update d k (some [])
  | .piece k x => Function.update d k (some ((d k).getD [] ++ [x]))

/-- `vector.save(path)`, ompy/extractor.py:190-191. -/
def saveEvents (fmt : FileFormat V C) (k : XKey) (v : V) : List (XEv C) := .open k :: (fmt.enc v).map (.piece k)

/-- `nld_path.exists() and gsf_path.exists()`, ompy/extractor.py:184: the contents if so. -/
def bothThere (d : XDisk C) (i : ℕ) : Option (List C × List C) :=
  match d (.nld, i), d (.gsf, i) with
  | some x, some y => some (x, y)
  | _, _ => none

/-- The loop over the members, ompy/extractor.py:181-193: the operations on the disk up to the end or an exception, and the
result.  `fit i s` is `step` (ompy/extractor.py:275-308) for member `i` in the state `s` of the random numbers and of the Action. -/
def tornLoop (fmt : FileFormat V C) (fit : ℕ → S → Except Err ((V × V) × S)) (regenerate : Bool) :
    List ℕ → S → XDisk C → List (XEv C) × Except Err (List (V × V))
  | [], _, _ => ([], .ok [])
  | i :: is, s, d =>
    match (if regenerate then none else bothThere d i) with
    | some (x, y) =>
      match fmt.dec x, fmt.dec y with
      | some a, some b =>
        let r := tornLoop fmt fit regenerate is s d
        (r.1, r.2.map ((a, b) :: ·))
      | _, _ => ([], .error .valueError)
    | none =>
      match fit i s with
      | .error e => ([], .error e)
      | .ok ((a, b), s') =>
        let ev := saveEvents fmt (.nld, i) a ++ saveEvents fmt (.gsf, i) b
        let r := tornLoop fmt fit regenerate is s' (ev.foldl XEv.act d)
        (ev ++ r.1, r.2.map ((a, b) :: ·))

/-- One call: what it fits, from which state, for how many members, and after how many operations on the disk it is
interrupted. -/
structure XRun (V S : Type) where
  fit : ℕ → S → Except Err ((V × V) × S)
  start : S
  size : ℕ
  regenerate : Bool
  stop : ℕ

/-- The files after an interrupted call. -/
def XRun.disk (fmt : FileFormat V C) (d : XDisk C) (r : XRun V S) : XDisk C :=
  ((tornLoop fmt r.fit r.regenerate (List.range r.size) r.start d).1.take r.stop).foldl XEv.act d

/-- The result of a call that is not interrupted. -/
def XRun.result (fmt : FileFormat V C) (d : XDisk C) (r : XRun V S) : Except Err (List (V × V)) :=
  (tornLoop fmt r.fit r.regenerate (List.range r.size) r.start d).2

/-- `step` of ompy/extractor.py:275-308 as a function of the state, from the model of C80. -/
def fitOf {σ : Type} (env : ExEnv σ V) (ens : ExEns) (i : ℕ) (s : Option ℚ × σ) : Except Err ((V × V) × (Option ℚ × σ)) :=
  match extractMember env ens i ⟨s.1, s.2, fun _ => (none, none)⟩ with
  | (.error e, _) => .error e
  | (.ok r, s') => .ok (r, (s'.egMax, s'.rng))

end Ompy
