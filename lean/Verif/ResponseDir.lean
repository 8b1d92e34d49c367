import Verif.Response
import Verif.Library

/-!
# Model of `Response.LoadDir`, ompy/response.py:150-233
-/

namespace Ompy

/-- A line of `resp.dat` as far as it is looked at: whether it starts with `# Next: Numer of Lines`, and what `int(line)` and
`np.array(line.split(), dtype="double")` give (`none` for a ValueError). -/
structure RLine where
  marker : Bool
  asInt : Option ℤ
  asRow : Option (List ℚ)

/-- Line `i` of the body of the table, ompy/response.py:190-194.  Past the end of the file `readline` gives an empty line, that is no numbers. -/
def readRow (body : List RLine) (i : ℕ) : Except Err (List ℚ) :=
  match body[i]? with
  | none => .ok []
  | some l => match l.asRow with
    | none => .error .valueError
    | some r => .ok r

/-- One row of the table as seven columns; `resp.T` cannot be unpacked otherwise, ompy/response.py:198. -/
def rowOf : List ℚ → Except Err RespRow
  | [a, b, c, d, e, f, g] => .ok ⟨a, b, c, d, e, f, g⟩
  | _ => .error .valueError

/-- What follows the number of lines, ompy/response.py:185-198: one line is skipped. (`raise Exception` is `runtimeError`.) -/
def readBody (n : ℤ) : List RLine → Except Err (List RespRow)
  | [] => .error .runtimeError
  | _ :: body => do
    let rs ← (List.range n.toNat).mapM (readRow body)
    let rows ← rs.mapM rowOf
    if rows = [] then .error .valueError else pure rows

/-- The table, ompy/response.py:171-198. -/
def readTable (lines : List RLine) : Except Err (List RespRow) :=
  match lines.dropWhile fun l => !l.marker with
  | [] => .error .runtimeError
  | [_] => .error .valueError
  | _ :: c :: rest => match c.asInt with
    | none => .error .valueError
    | some n => readBody n rest

/-- `Vector.calibration`, ompy/vector.py:108-116. -/
def calibrationOf : List ℚ → Except Err (ℚ × ℚ)
  | a :: b :: _ => .ok (a, b - a)
  | _ => .error .indexError

/-- `Vector(path=…)`: values and energies in the file `cmp<k>`, or none. -/
def openSpec (spec : ℤ → Option (List ℚ × List ℚ)) (k : ℤ) : Except Err (List ℚ × List ℚ) :=
  match spec k with
  | none => .error .fileNotFound
  | some v => .ok v

/-- One row of the Compton matrix, ompy/response.py:217-222, `last` being the spectrum of the last line of the table.  The name is the energy
with no decimals, rounded. -/
def dirRow (spec : ℤ → Option (List ℚ × List ℚ)) (last : List ℚ × List ℚ) (r : RespRow) : Except Err (List ℚ) := do
  let cur ← openSpec spec (roundHalfEven r.Eg)
  let c ← calibrationOf cur.2
  let cl ← calibrationOf last.2
  if c ≠ cl then .error .notImplemented
  else if last.1.length < cur.1.length then .error .valueError
  else pure (cur.1 ++ List.replicate (last.1.length - cur.1.length) 0)

/-- `LoadDir`, ompy/response.py:150-233. -/
def loadDir (lines : List RLine) (spec : ℤ → Option (List ℚ × List ℚ)) : Except Err RespData := do
  let rows ← readTable lines
  let last ← openSpec spec (roundHalfEven ((rows.map RespRow.Eg).getLastD 0))
  let compton ← rows.mapM (dirRow spec last)
  pure ⟨rows.map (·.Eg), rows.map (·.fwhmRel), rows.map (·.effTot), rows.map (·.FE), rows.map (·.SE), rows.map (·.DE),
    rows.map (·.c511), compton, last.2⟩

/-- What is found at a path. -/
inductive PathKind
  | dir | file | missing | special

/-- `Response.__init__`, ompy/response.py:67-80: where the data come from; for something that is neither a directory nor a file but exists, nothing
is loaded and nothing raised. -/
def respInit (k : PathKind) (dir zip : Except Err RespData) : Except Err (Option RespData) :=
  match k with
  | .dir => dir.map some
  | .file => zip.map some
  | .missing => .error .valueError
  | .special => .ok none

end Ompy
