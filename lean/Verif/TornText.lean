import Verif.MamaText

/-!
# Model of text files that end too early

A text file whose writing was interrupted holds the first characters of the text only.  The readers are those of
`MamaText.lean` (`np.loadtxt`, `mama_read`).
-/

namespace Ompy

/-- The file after `n` characters of the text have been written. -/
def tornText (n : ℕ) (text : List Char) : List Char := text.take n

/-- `save_txt_1D`, ompy/filehandling.py:348-356, with its default header. -/
def saveVecText (v : Vec ℚ) : List Char := saveTxtText "E[keV] values".toList (columnStack (columns1D v))

/-- `load_txt_1D`, ompy/filehandling.py:335-345: values, energies, standard deviations. -/
def loadVecText (text : List Char) : Except Err (List ℚ × List ℚ × Option (List ℚ)) :=
  match loadTxtText text with
  | .error e => .error e
  | .ok r => split1D (loadtxt r.1 r.2)

/-- `save_txt_2D`, ompy/filehandling.py:262-279, with its default header; the corner is 0. -/
def saveMatText (m : Mat) : List Char := saveTxtText header2D (pack2D 0 m.values m.Eg m.Ex)

/-- `load_txt_2D`, ompy/filehandling.py:282-285: values, `Eg`, `Ex`. -/
def loadMatText (text : List Char) : Except Err (List (List ℚ) × List ℚ × List ℚ) :=
  match loadTxtText text with
  | .error e => .error e
  | .ok r => unpack2D (loadtxt r.1 r.2)

end Ompy
