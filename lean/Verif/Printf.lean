import Verif.Library
import Mathlib.Data.Int.Log
import Mathlib.Algebra.Order.Field.Power

/-!
# Model of the numbers in text files

The conversions `%.<p>E`, `%-17.8E` and `%12.6E` of ompy/filehandling.py:110, 124, 159-160, 179, the default `%.18e` of `np.savetxt`
(ompy/filehandling.py:279, 356) and the reading of such numbers (`float`, ompy/filehandling.py:37-50).  Numbers are rationals; infinities and NaN are not modelled, nor
are the other ways to write a number that `float` understands (names, underscores, no digit before or behind the point).
-/

namespace Ompy

/-! ## Printing -/

/-- The digits of the mantissa (one before, `p` behind the point) and the exponent, as `%.<p>E` prints them. -/
def eParts (p : ℕ) (x : ℚ) : ℕ × ℤ :=
  if x = 0 then (0, 0)
  else
    let e := Int.log 10 |x|
    let m := (roundHalfEven (|x| * (10 : ℚ) ^ ((p : ℤ) - e))).toNat
    if m = 10 ^ (p + 1) then (10 ^ p, e + 1) else (m, e)

/-- The number that is printed. -/
def sigRound (p : ℕ) (x : ℚ) : ℚ :=
  (if x < 0 then -1 else 1) * ((eParts p x).1 : ℚ) * (10 : ℚ) ^ ((eParts p x).2 - p)

/-- The character of a digit. -/
def digitC (d : ℕ) : Char := Char.ofNat (48 + d)

/-- The last `n` digits of a number. -/
def padDigits : ℕ → ℕ → List Char
  | 0, _ => []
  | n + 1, m => padDigits n (m / 10) ++ [digitC (m % 10)]

/-- The number of digits of an exponent: at least two. -/
def expWidth (n : ℕ) : ℕ := max 2 (Nat.log 10 n + 1)

/-- `%.<p>E` and `%.<p>e` for `1 ≤ p`; `l` is the letter. -/
def printL (l : Char) (p : ℕ) (x : ℚ) : List Char :=
  let d := eParts p x
  (if x < 0 then ['-'] else []) ++ padDigits 1 (d.1 / 10 ^ p) ++ ['.'] ++ padDigits p (d.1 % 10 ^ p) ++ [l] ++
    (if d.2 < 0 then ['-'] else ['+']) ++ padDigits (expWidth d.2.natAbs) d.2.natAbs

/-- `%.<p>E`. -/
def printE (p : ℕ) (x : ℚ) : List Char := printL 'E' p x

/-- `%-<w>.<p>E`: blanks behind. -/
def printLeft (w p : ℕ) (x : ℚ) : List Char := printE p x ++ List.replicate (w - (printE p x).length) ' '

/-- `%<w>.<p>E`: blanks in front. -/
def printRight (w p : ℕ) (x : ℚ) : List Char := List.replicate (w - (printE p x).length) ' ' ++ printE p x

/-! ## Reading -/

/-- The value of a digit. -/
def digitV (c : Char) : Option ℕ := if 48 ≤ c.toNat ∧ c.toNat ≤ 57 then some (c.toNat - 48) else none

/-- The number written by digits only, `acc` being the number so far. -/
def readDigits : ℕ → List Char → Option ℕ
  | acc, [] => some acc
  | acc, c :: cs => (digitV c).bind fun d => readDigits (10 * acc + d) cs

/-- Optional sign. -/
def readSign : List Char → Bool × List Char
  | '-' :: cs => (true, cs)
  | '+' :: cs => (false, cs)
  | cs => (false, cs)

/-- Sign and digits of an exponent. -/
def readExp (s : List Char) : Option ℤ :=
  let r := readSign s
  if r.2 = [] then none
  else (readDigits 0 r.2).map fun (n : ℕ) => if r.1 then -(n : ℤ) else (n : ℤ)

/-- Digits with a point: the digits as a number and how many stand behind the point. -/
def readMantissa (s : List Char) : Option (ℕ × ℕ) :=
  let a := s.takeWhile (· ≠ '.')
  let b := (s.dropWhile (· ≠ '.')).drop 1
  if a = [] ∧ b = [] then none else (readDigits 0 (a ++ b)).map fun n => (n, b.length)

/-- Blanks in front and behind are dropped. -/
def stripC (s : List Char) : List Char := ((s.dropWhile (· = ' ')).reverse.dropWhile (· = ' ')).reverse

/-- Is it the letter in front of the exponent? -/
def isE (c : Char) : Bool := c = 'E' || c = 'e'

/-- `float(s)`: `none` if this is not a number. -/
def readFloat (s : List Char) : Option ℚ :=
  let r := readSign (stripC s)
  let m := r.2.takeWhile fun c => !isE c
  let x := r.2.dropWhile fun c => !isE c
  (readMantissa m).bind fun d =>
    (if x = [] then some 0 else readExp (x.drop 1)).map fun e =>
      (if r.1 then -1 else 1) * (d.1 : ℚ) * (10 : ℚ) ^ (e - (d.2 : ℤ))

end Ompy
