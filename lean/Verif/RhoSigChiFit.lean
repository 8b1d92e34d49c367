import Verif.RhoSigChi
import Verif.MatrixRebin

/-!
# Setting up and judging the rhosigchi fit

Model of the functions of `ompy/pyrhosigchi.py` around the iteration and of
`Extractor.rhosigchi` (`ompy/extractor.py` 200-273).
-/

namespace Ompy

/-- `np.arange(start, stop, step)` for a positive step. -/
def arange (start stop step : ℚ) : List ℚ :=
  (List.range ⌈(stop - start) / step⌉.toNat).map fun k : ℕ => start + step * (k : ℚ)

/-- `a1`, `a0` (`ompy/pyrhosigchi.py` 299-301): bin width and energy of the first bin of the
extended axis. -/
def rscCalib (Ex : List ℚ) (extend : ℚ) : Except Err (ℚ × ℚ) :=
  match Ex with
  | e0 :: e1 :: _ =>
    let a1 := e1 - e0
    if a1 = 0 then .error .undefined
    else
      let a0 := (e0 / a1 - (truncZ (e0 / a1) : ℚ)) * a1
      .ok (a1, a0 - (truncZ (extend / a1 + 1 / 2) : ℚ) * a1)
  | _ => .error .indexError

/-- What the setup of `pyrhosigchi` leaves: calibration and the two matrices, which are the objects
of the caller, rebinned. -/
structure RscHead where
  a1 : ℚ
  a0 : ℚ
  fg : Mat
  std : Mat

/-- The tests and the rebinning at the start of `pyrhosigchi` (`ompy/pyrhosigchi.py` 285-309).
`close` stands for `np.allclose` (which itself raises `ValueError` if the lengths differ). -/
def rscHead (close : List ℚ → List ℚ → Except Err Bool) (extend : ℚ) (fg std : Mat) :
    Except Err RscHead :=
  if (fg.Ex.length, fg.Eg.length) ≠ (std.Ex.length, std.Eg.length) then .error .valueError
  else do
    if ¬ (← close fg.Ex fg.Eg) then throw .valueError
    if ¬ (← close fg.Ex std.Ex) then throw .valueError
    let c ← rscCalib fg.Ex extend
    match fg.Ex.getLast? with
    | none => throw .indexError
    | some last =>
      let r := fg.rebinInplace 2 (some (arange c.2 (last + c.1) c.1)) none
      r.2
      match r.1.Ex.getLast? with
      | none => throw .indexError
      | some last' =>
        let s := std.rebinInplace 2 (some (arange c.2 (last' + c.1) c.1)) none
        s.2
        pure ⟨c.1, c.2, r.1, s.1⟩

/-- Indices of the limits and the offset of the level density axis (`ompy/pyrhosigchi.py` 311-319):
`igmin`, `imin`, `imax`, `u0`. -/
def rscLimits (a0 a1 ExMin ExMax EgMin : ℚ) : ℤ × ℤ × ℤ × ℤ :=
  (truncZ ((EgMin - a0) / a1 + 1 / 2), truncZ ((ExMin - a0) / a1 + 1 / 2),
    truncZ ((ExMax - a0) / a1 + 1 / 2) + 1, truncZ (|a0 / a1| + 1 / 2))

/-- `igmax[ix]` (`ompy/pyrhosigchi.py` 314-318): one more than the last gamma bin with a positive
entry at or above `igmin`, else 0. -/
def rscIgmax (row : List ℚ) (igmin : ℕ) : ℕ :=
  (List.range row.length).foldl (fun m ig => if igmin ≤ ig ∧ row.getD ig 0 > 0 ∧ m < ig + 1
    then ig + 1 else m) 0

/-- Energies given to the bins of the level density and of the transmission coefficient
(`ompy/pyrhosigchi.py` 373-377). -/
def rscLabel (a0 a1 : ℚ) (k : ℤ) : ℚ := (k : ℚ) * a1 + a0

/-- One row of `normalize` and of `normalize_array` (`ompy/pyrhosigchi.py` 49-51, 76-77) on the
slice `lo:hi`; zero outside.  An empty slice is left alone, a slice with sum 0 gives NaN. -/
def rscNormRow (row : List ℚ) (lo hi : ℕ) : Except Err (List ℚ) :=
  let norm := ∑ j ∈ Finset.Ico lo (min hi row.length), row.getD j 0
  if lo < min hi row.length ∧ norm = 0 then .error .undefined
  else .ok ((List.range row.length).map fun j : ℕ =>
    if lo ≤ j ∧ j < hi then row.getD j 0 / norm else 0)

/-- `normalize(mat, std, imin, imax, igmin, igmax)` (`ompy/pyrhosigchi.py` 34-58).  The array `err`
is computed and thrown away: the function returns the `std` it was given. -/
def rscNormalize (mat std : List (List ℚ)) (imin imax igmin : ℕ) (igmax : List ℕ) :
    Except Err (List (List ℚ) × List (List ℚ)) := do
  if imin < imax ∧ mat.length < imax then throw .indexError
  if imin < imax ∧ igmax.length < imax then throw .indexError
  let res ← (List.range mat.length).mapM fun i : ℕ =>
    if imin ≤ i ∧ i < imax then rscNormRow (mat.getD i []) igmin (igmax.getD i 0)
    else .ok ((mat.getD i []).map fun _ => 0)
  pure (res, std)

/-- The mean and what `Extractor.rhosigchi` calls the standard deviation of the members
(`ompy/extractor.py` 219-227); both are `np.mean`. -/
def rscMember (members : List (List (List ℚ))) (i j : ℕ) : ℚ × ℚ :=
  ((members.map fun m => (m.getD i []).getD j 0).sum / members.length,
   (members.map fun m => (m.getD i []).getD j 0).sum / members.length)

/-- The loop of `Extractor.rhosigchi` (`ompy/extractor.py` 241-268) without files on disk: each
member is fitted with the one object `first_gen_std`, which `pyrhosigchi` rebins in place.  `fit` is
everything after the setup. -/
def extractRsc {R : Type} (close : List ℚ → List ℚ → Except Err Bool) (extend : ℚ)
    (fit : RscHead → Except Err R) : List Mat → Mat → Except Err (List R)
  | [], _ => .ok []
  | m :: ms, std => do
    let h ← rscHead close extend m std
    let r ← fit h
    let rs ← extractRsc close extend fit ms h.std
    pure (r :: rs)

/-- One element of the chi-square of the fit (`ompy/pyrhosigchi.py` 246-258): its contribution, or
`none` if the element is not counted.  Squares of `sRhoT` and `sAll` replace the square roots. -/
def rscChiElem (fg F s rho sig sRho sSig : ℚ) : Option ℚ :=
  let v := if fg > 0 then fg ^ 2 * ((sRho / rho) ^ 2 + (sSig / sig) ^ 2) else 0
  if s > 0 ∧ v > 0 then some ((fg - F) ^ 2 / (s ^ 2 + v)) else none

/-- The loop over the rows in `chisquare` (`ompy/pyrhosigchi.py` 238-260): state `(chiSq, deg)`.  The
division by the degrees of freedom stands inside the loop. -/
def rscChiRows (rows : List (List (Option ℚ))) (st : ℚ × ℤ) : ℚ × ℤ :=
  rows.foldl (fun st row =>
    let chi := st.1 + (row.map fun x => x.getD 0).sum
    let deg := st.2 - ((row.filter fun x => x.isNone).length : ℤ)
    (if deg > 0 then chi / deg else chi, deg)) st

/-- `chisquare` for one iteration (`ompy/pyrhosigchi.py` 210-261). -/
def rscChi (rows : List (List (Option ℚ))) (degrees : ℤ) : ℚ := (rscChiRows rows (0, degrees)).1

/-- `pad_matrix` (`ompy/pyrhosigchi.py` 81-95) on equidistant axes given by their first two
entries. -/
def padMatrix (close : List ℚ → List ℚ → Except Err Bool) (m : Mat) (n : ℕ) : Except Err Mat := do
  if ¬ (← close m.Ex m.Eg) then throw .valueError
  match m.Ex with
  | e0 :: e1 :: _ =>
    let values := List.replicate n (List.replicate (n + m.Eg.length) 0) ++
      m.values.map fun r => List.replicate n 0 ++ r
    let E := ((List.range n).map fun k : ℕ => -((n : ℚ) - (k : ℚ)) * (e1 - e0) + e0) ++ m.Ex
    let m' : Mat := ⟨values, E, E, none, none⟩
    m'.verify
    pure m'
  | _ => throw .indexError

/-- `find_limits` (`ompy/pyrhosigchi.py` 8-31): `imin`, `imax`, `igmin` and `u0`. -/
def findLimits (gain shift ExMin ExMax EgMin : ℚ) : ℤ × ℤ × ℤ × ℤ :=
  (⌈(ExMin - shift) / gain⌉, ⌊(ExMax - shift) / gain⌋ + 1, ⌈(EgMin - shift) / gain⌉,
    truncZ (|shift / gain| + 1 / 2))

end Ompy
