import Verif.Decomposition
import Verif.FirstGen

/-!
# Model of `ompy/extractor.py` (`decompose`, `constraining_counts`, `normalize`)
-/

namespace Ompy

/-- The final-energy axis, ompy/extractor.py:362-373.  `close` is `np.isclose`. -/
def eNld (close : ℚ → ℚ → Bool) (Ex Eg : List ℚ) : Except Err (List ℚ) :=
  if Ex.length < 2 ∨ Eg.length < 2 then .error .indexError
  else
    let dEx := Ex.getD 1 0 - Ex.getD 0 0
    let dEg := Eg.getD 1 0 - Eg.getD 0 0
    if !close dEx dEg then .error .assertion
    else if dEx = 0 then .error .undefined
    else do
      let exMin ← listMin Ex
      let egMax ← listMax Eg
      let exMax ← listMax Ex
      let egMin ← listMin Eg
      let emin := exMin - egMax
      let emax := exMax - egMin
      linspaceZ emin emax (truncZ (⌈(emax - emin) / dEx⌉ : ℤ) + 1)

/-- The masked entry `(i, j)`, ompy/extractor.py:560-563: masked elements count 0. -/
def maskedV {α : Type} [Field α] (values : List (List α)) (Eg Ex res : List ℚ) (i j : ℕ) : α :=
  if Eg.getD j 0 > Ex.getD i 0 + res.getD i 0 + (Eg.getD 1 0 - Eg.getD 0 0) / 2 then 0
  else (values.getD i []).getD j 0

/-- `values.trace(offset=d)` of the masked array: the sum over `i` of the entries `(i, i + d)`. -/
def traceOff {α : Type} [Field α] (values : List (List α)) (Eg Ex res : List ℚ) (d : ℤ) : α :=
  ∑ i ∈ Finset.range Ex.length,
    if 0 ≤ (i : ℤ) + d ∧ (i : ℤ) + d < Eg.length then maskedV values Eg Ex res i ((i : ℤ) + d).toNat else 0

/-- `constraining_counts`, ompy/extractor.py:543-574: counts per nld bin and per gsf bin. -/
def countsV {α : Type} [Field α] (values : List (List α)) (Eg Ex res : List ℚ) : List α × List α :=
  let nx := Ex.length
  let ny := Eg.length
  (((List.range (nx + ny - 1)).map fun q : ℕ =>
      traceOff values Eg Ex res (-((nx : ℤ) - 1) + (q : ℤ))).reverse,
   (List.range ny).map fun j : ℕ => ∑ i ∈ Finset.range nx, maskedV values Eg Ex res i j)

/-- `constraining_counts` of a matrix of rationals. -/
def constrainingCounts (m : Mat) (res : List ℚ) : List ℚ × List ℚ := countsV m.values m.Eg m.Ex res

/-- One row of `normalize`, ompy/extractor.py:707-732, on numbers with uncertainties: value and variance.
The comparison `total == 0` of the `uncertainties` package is true only if value and uncertainty both
vanish; otherwise a vanishing total is a division by zero (`ZeroDivisionError`, here `undefined`).
The entries of a row are independent variables, the total is their sum, so the variance of `x/total` is
propagated with the correlation. -/
def normUncRow {α : Type} [Field α] [DecidableEq α] (row std : List α) : Except Err (List α × List α) :=
  let total := row.sum
  let varT := (std.map fun s => s ^ 2).sum
  if total = 0 ∧ varT = 0 then .ok (row, std.map fun s => s ^ 2)
  else if total = 0 ∧ row ≠ [] then .error .undefined
  else .ok (row.map (· / total),
    List.zipWith (fun x s => (1 / total - x / total ^ 2) ^ 2 * s ^ 2
      + (x / total ^ 2) ^ 2 * (varT - s ^ 2)) row std)

/-- `normalize`, ompy/extractor.py:707-732: values and variances.  Without `std`, `unumpy.uarray` raises
TypeError. -/
def normalizeUnc {α : Type} [Field α] [DecidableEq α] (values : List (List α)) (std : Option (List (List α))) :
    Except Err (List (List α) × List (List α)) :=
  match std with
  | none => .error .typeError
  | some s => do
    let rows ← (List.zip values s).mapM fun p => normUncRow p.1 p.2
    pure (rows.map Prod.fst, rows.map Prod.snd)

/-- The head of `decompose`, ompy/extractor.py:345-358: checks and normalisation; result is the caller's
matrix object afterwards and what is handed on (values and variances).  In line 358 `normalize(matrix)`
lacks an argument: TypeError. -/
def decomposeHead (m : Mat) (std : Option (List (List ℚ))) :
    Mat × Except Err (List (List ℚ) × List (List ℚ)) :=
  if m.values.any (fun r => r.any fun x => x < 0) then (m, .error .valueError)
  else
    match std with
    | none => (m, .error .typeError)
    | some s =>
      if s.any (fun r => r.any fun x => x < 0) then (m, .error .valueError)
      else if hasShape s m.values.length m.Eg.length = false then (m, .error .assertion)
      else
        match normalizeUnc m.values (some s) with
        | .error e => (m, .error e)
        | .ok (v, s') => ({ m with values := v }, .ok (v, s'))

end Ompy
