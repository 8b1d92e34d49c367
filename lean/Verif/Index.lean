import Verif.Basic

/-!
# Model of the index searches

`ompy/decomposition.pyx` `index`/`_index`, `ompy/library.py` `i_from_E` and numpy's
`argmin`/`argmax`; Python slices.
-/

namespace Ompy

/-- The loop of `index`, ompy/decomposition.pyx:136-142 (same text in `_index`, 99-105).
`prev` is `prev_distance`, `i` the running index, the list is `array[i:]`. When the array is
exhausted the code returns the last value of `i`. -/
def indexLoop (e prev : ℚ) (i : ℕ) : List ℚ → ℕ
  | [] => i - 1
  | x :: xs =>
    if (x - e) ^ 2 > prev then i - 1
    else indexLoop e ((x - e) ^ 2) (i + 1) xs

/-- `index` and `_index`, ompy/decomposition.pyx:82-105, 119-142. Bounds checks are off, so an
empty array is undefined behaviour (line 97/134). -/
def index (array : List ℚ) (e : ℚ) : Except Err ℕ :=
  match array with
  | [] => .error .undefined
  | a :: as => .ok (indexLoop e ((a - e) ^ 2) 1 as)

/-- Loop of `np.argmin`: the first minimum. `bi`/`best` position and value of the best so far. -/
def argminFrom (best : ℚ) (bi i : ℕ) : List ℚ → ℕ
  | [] => bi
  | x :: xs => if x < best then argminFrom x i (i + 1) xs else argminFrom best bi (i + 1) xs

/-- `np.argmin` (ValueError on an empty array). -/
def argmin (l : List ℚ) : Except Err ℕ :=
  match l with
  | [] => .error .valueError
  | a :: as => .ok (argminFrom a 0 1 as)

/-- `np.argmax` is `argmin` of the negated array (first maximum). -/
def argmax (l : List ℚ) : Except Err ℕ := argmin (l.map (- ·))

/-- `i_from_E`, ompy/library.py:26-29. -/
def iFromE (e : ℚ) (arr : List ℚ) : Except Err ℕ := argmin (arr.map fun x => |x - e|)

/-- Position denoted by a slice bound `i` on an array of length `n` (negative bounds count from
the end, everything is clipped). -/
def pyIdx (n : ℕ) (i : ℤ) : ℕ := if i < 0 then (i + n).toNat else min i.toNat n

/-- Python/numpy slice `l[a:b]`. -/
def pySlice {α : Type} (l : List α) (a b : ℤ) : List α :=
  (l.take (pyIdx l.length b)).drop (pyIdx l.length a)

end Ompy
