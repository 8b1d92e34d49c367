import Verif.FileIO

/-!
# Model of `save_results_txt`, ompy/abstract_normalizer.py:70-106 and ompy/ensembleNormalizer.py:629-643

The disk of `FileIO.lean` with the header lines of text files beside it.  Creating the directory (ompy/ensembleNormalizer.py:639-640) is left out; `dir` is
the directory with the final separator.
-/

namespace Ompy

/-- The name of a file without its suffix as `pathlib` understands it: everything from the last dot on, unless that is the first or the last character. -/
def dropSuffix (l : List Char) : List Char :=
  match l.reverse.span (· ≠ '.') with
  | (_, []) => l
  | (t, _ :: rest) => if t = [] ∨ rest = [] then l else rest.reverse

/-- `Path(name).with_suffix('.txt')` without the new suffix, ompy/abstract_normalizer.py:88, 91, 104. -/
def txtStem (name : String) : String := String.ofList (dropSuffix name.toList)

/-- The disk and the header lines of its text files. -/
structure TxtDisk where
  fs : FS
  header : String → Option (List String)

/-- `array[i, :] = values` for an array of `n` columns, ompy/abstract_normalizer.py:98-99: a single number is broadcast. -/
def sampleRow (n : ℕ) (values : List ℚ) : Except Err (List ℚ) :=
  if values.length = n then .ok values
  else match values with
    | [x] => .ok (List.replicate n x)
    | _ => .error .valueError

/-- The table of the samples, ompy/abstract_normalizer.py:96-99; without any parameter `next` raises StopIteration (`runtimeError` here). -/
def samplesTable (samples : List (String × List ℚ)) : Except Err (List (List ℚ)) :=
  match samples with
  | [] => .error .runtimeError
  | s :: ss => (s :: ss).mapM fun p => sampleRow s.2.length p.2

/-- The path of a text file. -/
def txtPath (dir kind suffix : String) : FPath := ⟨dir ++ txtStem (kind ++ suffix), ".txt"⟩

/-- The last part of `save_results_txt`, ompy/abstract_normalizer.py:95-106. -/
def saveSamples (f : Fmt) (dir : String) (samples : List (String × List ℚ)) (suffix : String) (d : TxtDisk) :
    TxtDisk × Except Err Unit :=
  match samplesTable samples with
  | .error e => (d, .error e)
  | .ok rows =>
    let p := (txtPath dir "samples_" suffix).str
    (⟨d.fs.set p (some (.txt (rows.getD 0 []).length (rows.map fun r => r.map f.rt))),
      fun q => if q = p then some (samples.map Prod.fst) else d.header q⟩, .ok ())

/-- `AbstractNormalizer.save_results_txt`, ompy/abstract_normalizer.py:70-106: the disk afterwards and the exception. -/
def saveResults (f : Fmt) (dir : String) (nld gsf : Vec ℚ) (samples : List (String × List ℚ)) (suffix : String) (d : TxtDisk) :
    TxtDisk × Except Err Unit :=
  match nld.save f (txtPath dir "nld_" suffix) none "keV" d.fs with
  | .error e => (d, .error e)
  | .ok fs1 =>
    match gsf.save f (txtPath dir "gsf_" suffix) none "keV" fs1 with
    | .error e => (⟨fs1, d.header⟩, .error e)
    | .ok fs2 => saveSamples f dir samples suffix ⟨fs2, d.header⟩

/-- What is kept of a `ResultsNormalized`. -/
structure ResTxt where
  nld : Vec ℚ
  gsf : Vec ℚ
  samples : List (String × List ℚ)

/-- The loop of `EnsembleNormalizer.save_results_txt` from member `i` on, ompy/ensembleNormalizer.py:641-643. -/
def saveFrom (f : Fmt) (dir : String) : ℕ → List ResTxt → TxtDisk → TxtDisk × Except Err Unit
  | _, [], d => (d, .ok ())
  | i, r :: rs, d =>
    match saveResults f dir r.nld r.gsf r.samples (Nat.repr i) d with
    | (d', .error e) => (d', .error e)
    | (d', .ok ()) => saveFrom f dir (i + 1) rs d'

/-- `EnsembleNormalizer.save_results_txt`, ompy/ensembleNormalizer.py:629-643; the argument `suffix` is not used. -/
def saveAllTxt (f : Fmt) (dir : String) (_suffix : Option String) (res : List ResTxt) (d : TxtDisk) : TxtDisk × Except Err Unit :=
  saveFrom f dir 0 res d

end Ompy
