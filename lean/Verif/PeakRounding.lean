import Verif.Response
import Verif.Rounding

/-!
# Discrete peaks of the response with rounded numbers

`fl` rounds the result of every operation.
-/

namespace Ompy

/-- `two_channel_split` with rounding, ompy/response.py:759-767. -/
def splitF (fl : ℚ → ℚ) (E : ℚ) (arr : List ℚ) : Except Err (ℤ × ℤ × ℚ) :=
  match arr with
  | e0 :: e1 :: _ =>
    if fl (e1 - e0) = 0 then .error .undefined
    else
      let b := fl (fl (E - e0) / fl (e1 - e0))
      .ok (⌊b⌋, ⌈b⌉, fl (b - ⌊b⌋))
  | _ => .error .indexError

/-- `arr[i] += x` with rounding (ompy/response.py:680-682). -/
def addAtF (fl : ℚ → ℚ) (l : List ℚ) (i : ℤ) (x : ℚ) : Except Err (List ℚ) := do
  let k ← npIndex l.length i
  pure (l.set k (fl (l.getD k 0 + x)))

/-- One peak of content `p` at `E` with rounding, ompy/response.py:678-682, 687-691, 696-700. -/
def addPeakF (fl : ℚ → ℚ) (l : List ℚ) (Eout : List ℚ) (E p : ℚ) : Except Err (List ℚ) := do
  let s ← splitF fl E Eout
  let l ← addAtF fl l s.1 (fl (fl (1 - s.2.2) * p))
  addAtF fl l s.2.1 (fl (s.2.2 * p))

/-- A peak that is only added under a condition (ompy/response.py:677, 686, 694). -/
def optPeakF (fl : ℚ → ℚ) (c : Prop) [Decidable c] (l : List ℚ) (Eout : List ℚ) (E p : ℚ) : Except Err (List ℚ) :=
  if c then addPeakF fl l Eout E p else .ok l

/-- `discrete_peaks` with rounding and before the smoothing, ompy/response.py:667-700, given the interpolated probabilities at
the full energy. -/
def discretePeaksF (fl : ℚ → ℚ) (pFE pSE pDE p511 : ℚ) (Eout : List ℚ) (i : ℕ) : Except Err (List ℚ) := do
  if Eout.length ≤ i then throw .indexError
  let e0 := Eout.getD 0 0
  let E := Eout.getD i 0
  let l := (List.replicate Eout.length (0 : ℚ)).set i pFE
  let l ← optPeakF fl (0 ≤ fl (E - 511) ∧ e0 ≤ fl (E - 511)) l Eout (fl (E - 511)) pSE
  let l ← optPeakF fl (0 ≤ fl (E - 1022) ∧ e0 ≤ fl (E - 1022)) l Eout (fl (E - 1022)) pDE
  optPeakF fl (511 < E ∧ e0 ≤ 511) l Eout 511 p511

end Ompy
