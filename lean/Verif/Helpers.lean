import Verif.Unfolder
import Verif.MamaText

/-!
# Model of small helper functions

Iteration over cells and searches for several energies (ompy/matrix.py:796-828, 865-868), `cut_like` into a new matrix (555-574), `shift_matrix` (ompy/unfolder.py:435-444), the examples (ompy/examples.py),
`read_response` (ompy/filehandling.py:187-212), `gettype` (ompy/models.py:134-141), the choice of the multiplicity (ompy/firstgeneration.py:308-318) and the version (ompy/version.py).
-/

namespace Ompy

/-- `Matrix.iter`, ompy/matrix.py:865-868, for the shape of `values`. -/
def cells (nr nc : ℕ) : List (ℕ × ℕ) := (List.range nr).flatMap fun r : ℕ => (List.range nc).map fun c : ℕ => (r, c)

/-- `indices_Eg`, `indices_Ex`, ompy/matrix.py:806-814. -/
def indicesOf (E es : List ℚ) : Except Err (List ℕ) := es.mapM (index E)

/-- `cut_like(inplace=True)`, ompy/matrix.py:567-569: the object afterwards and the exception. -/
def Mat.cutLikeInplace (m other : Mat) : Mat × Except Err Unit :=
  match listMin other.Ex, listMax other.Ex with
  | .ok a, .ok b =>
    match m.cut 1 (some a) (some b) true true with
    | .error e => (m, .error e)
    | .ok m1 =>
      match listMin other.Eg, listMax other.Eg with
      | .ok c, .ok d =>
        match m1.cut 0 (some c) (some d) true true with
        | .error e => (m1, .error e)
        | .ok m2 => (m2, .ok ())
      | .error e, _ => (m1, .error e)
      | _, .error e => (m1, .error e)
  | .error e, _ => (m, .error e)
  | _, .error e => (m, .error e)

/-- `cut_like(inplace=False)`, ompy/matrix.py:570-574: the first cut makes a new matrix. -/
def Mat.cutLikeCopy (m other : Mat) : Except Err Mat := do
  let a ← listMin other.Ex
  let b ← listMax other.Ex
  let out ← m.cutCopy 1 (some a) (some b) true true
  let c ← listMin other.Eg
  let d ← listMax other.Eg
  out.cut 0 (some c) (some d) true true

/-- One row of `shift_matrix`, ompy/unfolder.py:442-443: the result is assigned to a row of the old length. -/
def shiftInto (row E : List ℚ) (d : ℚ) : Except Err (List ℚ) :=
  match shiftRow row E d with
  | .error e => .error e
  | .ok out => if out.length = row.length then .ok out else .error .valueError

/-- `shift_matrix`, ompy/unfolder.py:435-444. -/
def shiftMatrix (values : List (List ℚ)) (E : List ℚ) (d : ℚ) : Except Err (List (List ℚ)) := values.mapM fun r => shiftInto r E d

/-! ### Examples -/

/-- `EXAMPLES`, ompy/examples.py:6-10. -/
def exampleTable : List (String × List (String × String)) :=
  [("dy164", [("raw", "../../example_data/Dy164_raw.m")]), ("si28", [("raw", "../../example_data/Si28_raw_matrix_compressed.m")])]

/-- `list_examples`, ompy/examples.py:18-20. -/
def listExamples : List String := exampleTable.map Prod.fst

/-- `EXAMPLES[name.lower()][kind]`, ompy/examples.py:23-33: the relative path handed to the loader. -/
def examplePath (kind name : String) : Except Err String :=
  match exampleTable.lookup name.toLower with
  | none => .error .keyError
  | some t =>
    match t.lookup kind with
    | none => .error .keyError
    | some p => .ok p

/-- `disjoint_rows`, ompy/examples.py:36-56. -/
def disjointRows (nr nc : ℕ) : Except Err Mat :=
  Mat.new (tabulate nr nc fun r c => if r % 2 ≠ 0 ∧ c < r then 1 else 0) nc none none none none

/-! ### `read_response` -/

/-- `read_response`, ompy/filehandling.py:187-189: four names are assigned from what `mama_read` returns, which is a pair or a triple.  The rest is not reached. -/
def readResponse (mama : Except Err MamaOut) : Except Err Unit :=
  match mama with
  | .error e => .error e
  | .ok (.one _ _) => .error .valueError
  | .ok (.two _ _ _) => .error .valueError

/-! ### `gettype` -/

/-- `\w` for ASCII. -/
def nameChar (c : Char) : Bool := c.isAlphanum || c == '_'

/-- `signature.replace('typing.', '')`, ompy/models.py:136. -/
def dropTyping : List Char → List Char
  | [] => []
  | c :: cs => if ['t', 'y', 'p', 'i', 'n', 'g', '.'].isPrefixOf (c :: cs) then dropTyping ((c :: cs).drop 7) else c :: dropTyping cs
  termination_by s => s.length
  decreasing_by all_goals (simp; try omega)

/-- `re.sub(r"\w+\.", '', signature)`, ompy/models.py:138; `run` holds the word characters just before, last one first. -/
def stripGo : List Char → List Char → List Char
  | run, [] => run.reverse
  | run, c :: cs =>
    if nameChar c then stripGo (c :: run) cs
    else if c = '.' ∧ run ≠ [] then stripGo [] cs
    else run.reverse ++ c :: stripGo [] cs

/-- `gettype`, ompy/models.py:134-141. -/
def gettype (signature : List Char) : Except Err (List Char) :=
  match stripGo [] (dropTyping signature) with
  | [] => .error .indexError
  | c :: cs =>
    if c = '<' then
      match (cutAt '\'' (c :: cs))[1]? with
      | none => .error .indexError
      | some t => .ok t
    else .ok (c :: cs)

/-! ### The choice of the multiplicity -/

/-- The setter of `multiplicity_estimation`, ompy/firstgeneration.py:312-318. -/
def setMultiplicity (method : String) : Except Err String :=
  if method.toLower = "statistical" ∨ method.toLower = "total" then .ok method.toLower else .error .valueError

/-- The dispatch of `multiplicity`, ompy/firstgeneration.py:195-199: whether the total one is used. -/
def multiplicityKind (method : String) : Except Err Bool :=
  if method = "statistical" then .ok false else if method = "total" then .ok true else .error .assertion

/-! ### The version -/

/-- What `get_version_info` finds: a directory `.git`, the output of `git rev-parse HEAD` without white space at its ends (or a failure of the command), the file `ompy/version_setup.py` and the name in it. -/
structure VersionEnv where
  hasGit : Bool
  gitOut : Option (List Char)
  hasSetup : Bool
  setupRev : Option (List Char)

/-- `git_version`, ompy/version.py:10-35. -/
def gitVersion (e : VersionEnv) : List Char :=
  match e.gitOut with
  | none => "Unknown".toList
  | some r => if r = [] then "Unknown".toList else r

/-- `get_version_info`, ompy/version.py:38-64: the working directory afterwards and the result.  `here` is the directory above the package. An ImportError is `runtimeError`. -/
def versionInfo (version : List Char) (e : VersionEnv) (cwd here : String) : String × Except Err (List Char × List Char) :=
  let rev : Option (List Char) := if e.hasGit then some (gitVersion e) else if e.hasSetup then e.setupRev else some "Unknown".toList
  match rev with
  | none => (here, .error .runtimeError)
  | some r => (cwd, .ok (version ++ ".dev0+".toList ++ r.take 7, r))

end Ompy
