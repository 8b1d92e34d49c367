import Verif.Printf
import Verif.FileIO

/-!
# Model of text files character by character

MAMA files (`mama_write1D`, `mama_write2D`, `mama_read`, ompy/filehandling.py:11-184) and the tables of `np.savetxt` and `np.loadtxt` with the `header` of
`save_txt_1D` and `save_txt_2D` (ompy/filehandling.py:262-285, 335-356).  Characters outside latin-1 and tabs are not modelled.
-/

namespace Ompy

/-! ## Lines and words -/

/-- `text.split(c)`. -/
def cutAt (c : Char) : List Char → List (List Char)
  | [] => [[]]
  | x :: xs => if x = c then [] :: cutAt c xs else (x :: (cutAt c xs).headD []) :: (cutAt c xs).tail

/-- `c.join(parts)`. -/
def joinC (c : Char) : List (List Char) → List Char
  | [] => []
  | [w] => w
  | w :: v :: ws => w ++ c :: joinC c (v :: ws)

/-- Universal newlines: a carriage return ends a line too. -/
def univNl : List Char → List Char
  | '\r' :: '\n' :: t => '\n' :: univNl t
  | '\r' :: t => '\n' :: univNl t
  | c :: t => c :: univNl t
  | [] => []

/-- The lines of a text. What follows the last line end is a line too (without characters it is ignored by all readers here). -/
def linesOf (text : List Char) : List (List Char) := cutAt '\n' (univNl text)

/-- The fields of a line: everything from `#` on is a comment. -/
def fieldsOf (line : List Char) : List (List Char) := (cutAt ' ' (line.takeWhile (· ≠ '#'))).filter (· ≠ [])

/-! ## Writing MAMA files -/

/-- `%4d` of a natural number. -/
def int4 (n : ℕ) : List Char :=
  let d := padDigits (Nat.log 10 n + 1) n
  List.replicate (4 - d.length) ' ' ++ d

/-- The header, ompy/filehandling.py:101-119 and 149-174: its lines without the line ends. -/
def mamaHeader (kind comment time : List Char) (cal : List ℚ) (dim channel : List Char) : List (List Char) :=
  ["!FILE=Disk ".toList, "!KIND=".toList ++ kind ++ [' '], "!LABORATORY=Oslo Cyclotron Laboratory (OCL) ".toList,
    "!EXPERIMENT= oslo_method_python ".toList, "!COMMENT=".toList ++ comment ++ [' '], "!TIME=DATE:".toList ++ time ++ "   ".toList,
    joinC ',' ("!CALIBRATION EkeV=6".toList :: cal.map fun a => ' ' :: printRight 12 6 a) ++ [' '], "!PRECISION=16 ".toList, dim, channel]

/-- A row of counts, `fmt="%-17.8E"` and `delimiter=" "`, ompy/filehandling.py:123-132 and 178-187. -/
def mamaRow (r : List ℚ) : List Char := joinC ' ' (r.map fun x => printLeft 17 8 x)

/-- The whole file. -/
def mamaFile (header : List (List Char)) (rows : List (List ℚ)) : List Char :=
  joinC '\n' (header ++ rows.map mamaRow ++ ["!IDEND=".toList, [], []])

/-- `mama_write1D`, ompy/filehandling.py:85-129: the text written. -/
def mamaText1D (comment time : List Char) (v : Vec ℚ) : Except Err (List Char) :=
  if 8192 < v.values.length then .error .assertion
  else (vecCalibration v.E).map fun c =>
    mamaFile (mamaHeader "Spectrum".toList comment time [c.1, c.2, 0] ("!DIMENSION=1,0:".toList ++ int4 (v.values.length - 1) ++ [' '])
      ("!CHANNEL=(0:".toList ++ int4 (v.values.length - 1) ++ ") ".toList)) (v.values.map fun x => [x])

/-- `mama_write2D`, ompy/filehandling.py:132-184: the text written. -/
def mamaText2D (comment time : List Char) (m : Mat) : Except Err (List Char) :=
  if 2048 < m.Ex.length ∨ 2048 < m.Eg.length then .error .assertion
  else (vecCalibration m.Ex).bind fun cx => (vecCalibration m.Eg).map fun cy =>
    mamaFile (mamaHeader "Matrix".toList comment time [cy.1, cy.2, 0, cx.1, cx.2, 0]
      ("!DIMENSION=2,0:".toList ++ int4 (m.Eg.length - 1) ++ ",0:".toList ++ int4 (m.Ex.length - 1) ++ [' '])
      ("!CHANNEL=(0:".toList ++ int4 (m.Eg.length - 1) ++ ",0:".toList ++ int4 (m.Ex.length - 1) ++ ") ".toList)) m.values

/-! ## Reading MAMA files -/

/-- `np.genfromtxt(…, skip_header=h, skip_footer=f)`, ompy/filehandling.py:29-30: number of columns and rows.  Lines with another number of
fields than the first are refused unless they are counted to the footer; fields that are not numbers become NaN (`none`). -/
def genFromTxt (h f : ℕ) (ls : List (List Char)) : Except Err (ℕ × List (List (Option ℚ))) :=
  let fs := ((((ls.drop h).map fieldsOf).dropWhile (· = [])).zipIdx).filter fun p => p.1 ≠ []
  let nc := (fs.head?.map fun p => p.1.length).getD 0
  let good := fs.filter fun p => p.1.length = nc
  let bad := fs.filter fun p => p.1.length ≠ nc
  let skipped := bad.filter fun p => good.length + bad.length + h < p.2 + h + 1 + f
  if skipped.length < bad.length then .error .valueError
  else .ok (nc, (good.take (good.length - (f - skipped.length))).map fun p => p.1.map readFloat)

/-- What `mama_read` returns; NaN is `none`. -/
inductive MamaOut
  | one (counts : List (Option ℚ)) (x : List ℚ)
  | two (counts : List (List (Option ℚ))) (x y : List ℚ)
  deriving DecidableEq

/-- `float(s)` as used for the calibration. -/
def floatOf (s : List Char) : Except Err ℚ := match readFloat s with
  | some q => .ok q
  | none => .error .valueError

/-- The calibration line, ompy/filehandling.py:33-54. -/
def calibrationLine (ls : List (List Char)) : Except Err (List ℚ) :=
  match ls[6]? with
  | none => .error .indexError
  | some l =>
    let parts := cutAt ',' l
    if parts.length = 4 ∨ parts.length = 7 then parts.tail.mapM floatOf else .error .valueError

/-- The arrays, ompy/filehandling.py:56-72, `counts` being squeezed by `genfromtxt`. Two-dimensional counts with a calibration for one dimension are `undefined` here. -/
def mamaArrays (nc : ℕ) (rows : List (List (Option ℚ))) : List ℚ → Except Err MamaOut
  | [a0, a1, a2] =>
    if rows = [] then .ok (.one [] [])
    else if nc = 1 then
      (if rows.length = 1 then .error .indexError
      else .ok (.one (rows.map fun r => r.getD 0 none) (calAxis a0 a1 a2 rows.length)))
    else if rows.length = 1 then .ok (.one (rows.getD 0 []) (calAxis a0 a1 a2 (rows.getD 0 []).length))
    else .error .undefined
  | [a0, a1, a2, b0, b1, b2] =>
    if nc ≤ 1 ∨ rows.length ≤ 1 then .error .valueError
    else .ok (.two rows (calAxis a0 a1 a2 nc) (calAxis b0 b1 b2 rows.length))
  | _ => .error .valueError

/-- `mama_read`, ompy/filehandling.py:11-72. -/
def mamaReadText (text : List Char) : Except Err MamaOut := do
  let g ← genFromTxt 10 1 (linesOf text)
  let c ← calibrationLine (linesOf text)
  mamaArrays g.1 g.2 c

/-! ## Tables -/

/-- The argument `header` of `save_txt_2D`: left out, `False` or a text, ompy/filehandling.py:262-279. -/
inductive HeaderArg
  | default | off | text (s : List Char)

/-- The header of `save_txt_2D`, ompy/filehandling.py:266-271. -/
def header2D : List Char := "Format:\n 0   Eg0    Eg1    Eg2   ...\nEx0  val00  val01  val02\nEx1  val10  val11  ...\nEx2  ...\n...".toList

/-- A row of a table, `fmt="%.18e"`. -/
def txtRow (r : List ℚ) : List Char := joinC ' ' (r.map fun x => printL 'e' 18 x)

/-- The header of `np.savetxt`: `# ` in front of every line. -/
def hashed (header : List Char) : List (List Char) := if header = [] then [] else (cutAt '\n' header).map fun l => '#' :: ' ' :: l

/-- `np.savetxt(path, rows, header=header)`: the text of the file. -/
def saveTxtText (header : List Char) (rows : List (List ℚ)) : List Char := joinC '\n' (hashed header ++ rows.map txtRow ++ [[]])

/-- `save_txt_2D`, ompy/filehandling.py:262-279: what the file holds afterwards, and the exception.  With `header=False` `np.savetxt` is given `None`: the file has been
opened for writing when `len(None)` raises TypeError. -/
def saveTxt2D (arg : HeaderArg) (rows : List (List ℚ)) : List Char × Except Err Unit :=
  match arg with
  | .default => (saveTxtText header2D rows, .ok ())
  | .off => ([], .error .typeError)
  | .text s => (saveTxtText s rows, .ok ())

/-- `np.loadtxt`: number of columns and rows; all lines must have the same number of fields, and all fields must be numbers. -/
def loadTxtText (text : List Char) : Except Err (ℕ × List (List ℚ)) :=
  let fs := ((linesOf text).map fieldsOf).filter (· ≠ [])
  let nc := (fs.headD []).length
  if fs.all fun f => decide (f.length = nc) then (fs.mapM fun f : List (List Char) => f.mapM floatOf).map fun rows => (nc, rows)
  else .error .valueError

end Ompy
