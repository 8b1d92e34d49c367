import Verif.FileIO

/-!
# Tar files written and read by several processes

`save_tar` and `load_tar` (ompy/filehandling.py:215-244) step by step, so that several processes can take turns on one
disk.  A temporary file is written, packed and removed for every array; `load_tar` extracts every array to the disk, reads
it and removes it.  Simplifications: every step is atomic, a member is in the archive as soon as it was added (no buffering),
an archive without members can be opened, the contents of an archive that is open for reading do not change.
-/

namespace Ompy

/-- Where a process is in `save_tar` or `load_tar`. `ms` is the archive so far, or the archive that was opened. -/
inductive TarProc
  | saveOpen (p : FPath) (objs : List NArr)
  | saveWrite (p : FPath) (num : ℕ) (objs : List NArr) (ms : List (String × NArr))
  | saveAdd (p : FPath) (num : ℕ) (objs : List NArr) (ms : List (String × NArr))
  | saveUnlink (p : FPath) (num : ℕ) (objs : List NArr) (ms : List (String × NArr))
  | loadOpen (p : FPath)
  | extract (ms : List (String × NArr)) (names : List String) (objs : List NArr)
  | read (ms : List (String × NArr)) (name : String) (names : List String) (objs : List NArr)
  | unlink (ms : List (String × NArr)) (name : String) (names : List String) (objs : List NArr)
  | done (r : Except Err (List NArr))
  deriving DecidableEq

/-- The member `tar.extract(name)` takes: the last one of that name (tarfile's `getmember`, called from
ompy/filehandling.py:241). -/
def lastNamed (ms : List (String × NArr)) (name : String) : Option NArr :=
  (ms.reverse.find? fun m => m.1 == name).map Prod.snd

/-- One step: one line of `save_tar` (ompy/filehandling.py:223-229) or `load_tar` (238-244). `np.load` of a file that is not an
array is `undefined`. -/
def TarProc.step (member : String → String) : TarProc → FS → TarProc × FS
  | .saveOpen p objs, fs => (.saveWrite p 0 objs [], fs.set (tarPath p) (some (.tar [])))
  | .saveWrite p _ [] ms, fs => (.done (.ok []), fs.set (tarPath p) (some (.tar ms)))
  | .saveWrite p num (o :: objs) ms, fs => (.saveAdd p num objs ms, fs.set (tmpName p num) (some (.npy o)))
  | .saveAdd p num objs ms, fs =>
    match fs (tmpName p num) with
    | some (.npy a) =>
      (.saveUnlink p num objs (ms ++ [(member (tmpName p num), a)]),
        fs.set (tarPath p) (some (.tar (ms ++ [(member (tmpName p num), a)]))))
    | some _ => (.done (.error .undefined), fs)
    | none => (.done (.error .fileNotFound), fs)
  | .saveUnlink p num objs ms, fs =>
    match fs (tmpName p num) with
    | some _ => (.saveWrite p (num + 1) objs ms, fs.set (tmpName p num) none)
    | none => (.done (.error .fileNotFound), fs)
  | .loadOpen p, fs =>
    match fs (tarPath p) with
    | some (.tar ms) => (.extract ms (ms.map Prod.fst) [], fs)
    | some _ => (.done (.error .undefined), fs)
    | none => (.done (.error .fileNotFound), fs)
  | .extract _ [] objs, fs => (.done (.ok objs), fs)
  | .extract ms (name :: names) objs, fs =>
    match lastNamed ms name with
    | some a => (.read ms name names objs, fs.set name (some (.npy a)))
    | none => (.done (.error .keyError), fs)
  | .read ms name names objs, fs =>
    match fs name with
    | some (.npy a) => (.unlink ms name names (objs ++ [a]), fs)
    | some _ => (.done (.error .undefined), fs)
    | none => (.done (.error .fileNotFound), fs)
  | .unlink ms name names objs, fs =>
    match fs name with
    | some _ => (.extract ms names objs, fs.set name none)
    | none => (.done (.error .fileNotFound), fs)
  | .done r, fs => (.done r, fs)

/-- A process alone on the disk: `n` steps of ompy/filehandling.py:215-244. -/
def TarProc.iter (member : String → String) : ℕ → TarProc × FS → TarProc × FS
  | 0, s => s
  | n + 1, s => TarProc.iter member n (s.1.step member s.2)

/-- Several processes on one disk: `sched` says whose turn it is. -/
def tarRun {ι : Type} [DecidableEq ι] (member : String → String) : List ι → (ι → TarProc) × FS → (ι → TarProc) × FS
  | [], s => s
  | i :: sched, s =>
    let r := (s.1 i).step member s.2
    tarRun member sched (Function.update s.1 i r.1, r.2)

end Ompy
