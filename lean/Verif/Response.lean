import Verif.Smoothing
import Verif.RhoSigChiFit
import Mathlib.Analysis.SpecialFunctions.Trigonometric.Inverse

/-!
# Model of `ompy/response.py`

Tables, spectra and axes hold floats, so they are rational; the parts that use trigonometric functions
or the Gaussian are over the real numbers.
-/

namespace Ompy

/-! ## Tables -/

/-- The data a `Response` holds (`ompy/response.py` 40-50): the columns of `resp`, `compton_matrix`
and `Ecmp_array`. -/
structure RespData where
  Eg : List ℚ
  fwhmRel : List ℚ
  effTot : List ℚ
  FE : List ℚ
  SE : List ℚ
  DE : List ℚ
  c511 : List ℚ
  compton : List (List ℚ)
  Ecmp : List ℚ

/-- One row of the table `resp.csv` (`ompy/response.py` 118-122). -/
structure RespRow where
  Eg : ℚ
  fwhmRel : ℚ
  effTot : ℚ
  FE : ℚ
  SE : ℚ
  DE : ℚ
  c511 : ℚ

/-- Sorted insertion for `sorted(resp['Eg'])`. -/
def insertSorted (x : ℚ) : List ℚ → List ℚ
  | [] => [x]
  | y :: ys => if x ≤ y then x :: y :: ys else y :: insertSorted x ys

/-- `sorted` (`ompy/response.py` 125). -/
def sortedQ (l : List ℚ) : List ℚ := l.foldr insertSorted []

/-- `LoadZip` (`ompy/response.py` 88-148) after parsing: `rows` is the table in file order, `spec k`
the spectrum in the file `cmp<k>` (`none` if absent), `a0 a1 N` the calibration and number of channels
read from the spectrum of the highest energy.  A spectrum longer than `N` is a ValueError
(assignment to a shorter slice, line 144). -/
def loadZip (rows : List RespRow) (spec : ℤ → Option (List ℚ)) (a0 a1 : ℚ) (N : ℕ) :
    Except Err RespData := do
  let files := (sortedQ (rows.map (·.Eg))).map truncZ
  if ¬ files.all fun k => (spec k).isSome then throw .valueError
  if files = [] then throw .valueError
  let compton ← files.mapM fun k =>
    let s := (spec k).getD []
    if N < s.length then (.error .valueError : Except Err (List ℚ))
    else .ok (s ++ List.replicate (N - s.length) 0)
  pure ⟨rows.map (·.Eg), rows.map (·.fwhmRel), rows.map (·.effTot), rows.map (·.FE),
    rows.map (·.SE), rows.map (·.DE), rows.map (·.c511), compton,
    linspace a0 (a1 * ((N : ℚ) - 1)) N⟩

/-- `sum_spec[i]` (`ompy/response.py` 238-241). -/
def RespData.sumSpec (d : RespData) (i : ℕ) : ℚ :=
  (d.compton.getD i []).sum + d.FE.getD i 0 + d.SE.getD i 0 + d.DE.getD i 0 + d.c511.getD i 0

/-- `cmp_matrix[i, :]` (`ompy/response.py` 244-245). -/
def RespData.cmpRow (d : RespData) (i : ℕ) : List ℚ :=
  (d.compton.getD i []).map fun x => div0 x (d.sumSpec i)

/-- `pcmp` (`ompy/response.py` 247). -/
def RespData.pcmp (d : RespData) (i : ℕ) : ℚ := (d.cmpRow i).sum

/-- `pFE`, `pSE`, `pDE`, `p511` (`ompy/response.py` 250-253). -/
def RespData.prob (d : RespData) (col : List ℚ) (i : ℕ) : ℚ := div0 (col.getD i 0) (d.sumSpec i)

/-- `interp1d(x, y, kind="linear", fill_value="extrapolate")` (`ompy/response.py` 256-259) for an
increasing `x` with at least two entries: the segment is found by `searchsorted` and clipped, so that
the first and last segment are continued outside. -/
def interpLin (xs : List ℚ) (ys : ℕ → ℚ) (x : ℚ) : ℚ :=
  let hi := max 1 (min (searchsorted xs x false) (xs.length - 1))
  let lo := hi - 1
  (ys hi - ys lo) / (xs.getD hi 0 - xs.getD lo 0) * (x - xs.getD lo 0) + ys lo

/-- The same with `fill_value=0`. -/
def interpZero (xs : List ℚ) (ys : ℕ → ℚ) (x : ℚ) : ℚ :=
  if x < xs.getD 0 0 ∨ xs.getD (xs.length - 1) 0 < x then 0 else interpLin xs ys x

def RespData.fFE (d : RespData) (E : ℚ) : ℚ := interpLin d.Eg (d.prob d.FE) E
def RespData.fSE (d : RespData) (E : ℚ) : ℚ := interpZero d.Eg (d.prob d.SE) E
def RespData.fDE (d : RespData) (E : ℚ) : ℚ := interpZero d.Eg (d.prob d.DE) E
def RespData.f511 (d : RespData) (E : ℚ) : ℚ := interpZero d.Eg (d.prob d.c511) E
def RespData.fcmp (d : RespData) (E : ℚ) : ℚ := interpLin d.Eg d.pcmp E

/-- `f_fwhm_rel_perCent(E)` (`ompy/response.py` 270-272). -/
def RespData.fwhmPercent (d : RespData) (fwhmAbs E : ℚ) : ℚ :=
  interpLin d.Eg (fun i => d.fwhmRel.getD i 0 * (fwhmAbs / 1330 * 100)) E

/-- `fwhm_abs_array` (`ompy/response.py` 323). -/
def RespData.fwhmArray (d : RespData) (fwhmAbs : ℚ) (Eout : List ℚ) : List ℚ :=
  Eout.map fun E => E * d.fwhmPercent fwhmAbs E / 100

/-! ## Discrete peaks -/

/-- `two_channel_split` (`ompy/response.py` 747-767): lower and upper channel and the distance to the
lower one. -/
def twoChannelSplit (E : ℚ) (arr : List ℚ) : Except Err (ℤ × ℤ × ℚ) :=
  match arr with
  | e0 :: e1 :: _ =>
    if e1 - e0 = 0 then .error .undefined
    else
      let b := (E - e0) / (e1 - e0)
      .ok (⌊b⌋, ⌈b⌉, b - ⌊b⌋)
  | _ => .error .indexError

/-- `arr[i] += x` (numpy indexing). -/
def addAtZ (l : List ℚ) (i : ℤ) (x : ℚ) : Except Err (List ℚ) := do
  let k ← npIndex l.length i
  pure (l.set k (l.getD k 0 + x))

/-- One escape or annihilation peak of content `p` at `E` (`ompy/response.py` 678-682). -/
def addPeak (l : List ℚ) (Eout : List ℚ) (E p : ℚ) : Except Err (List ℚ) := do
  let s ← twoChannelSplit E Eout
  let l ← addAtZ l s.1 ((1 - s.2.2) * p)
  addAtZ l s.2.1 (s.2.2 * p)

/-- A peak that is only added under a condition (`ompy/response.py` 677, 686, 694). -/
def optPeak (c : Prop) [Decidable c] (l : List ℚ) (Eout : List ℚ) (E p : ℚ) : Except Err (List ℚ) :=
  if c then addPeak l Eout E p else .ok l

/-- `discrete_peaks` (`ompy/response.py` 656-700) before the smoothing, given the interpolated
probabilities at the full energy. -/
def discretePeaks (pFE pSE pDE p511 : ℚ) (Eout : List ℚ) (i : ℕ) : Except Err (List ℚ) := do
  if Eout.length ≤ i then throw .indexError
  let e0 := Eout.getD 0 0
  let E := Eout.getD i 0
  let l := (List.replicate Eout.length (0 : ℚ)).set i pFE
  let l ← optPeak (0 ≤ E - 511 ∧ e0 ≤ E - 511) l Eout (E - 511) pSE
  let l ← optPeak (0 ≤ E - 2 * 511 ∧ e0 ≤ E - 2 * 511) l Eout (E - 2 * 511) pDE
  optPeak (511 < E ∧ e0 ≤ 511) l Eout 511 p511

/-! ## Compton spectra -/

/-- The result of `get_closest_compton` (`ompy/response.py` 448-453). -/
structure Closest where
  Elow : ℚ
  Ehigh : ℚ
  low : List ℚ
  high : List ℚ

/-- `get_closest_compton` (`ompy/response.py` 412-455) for an increasing table. -/
def RespData.closest (d : RespData) (Eout : List ℚ) (E : ℚ) : Except Err Closest := do
  let N := d.Eg.length
  if N = 0 then throw .keyError
  let ihigh0 := searchsorted d.Eg E true
  let ihigh := if ihigh0 = N then ihigh0 - 1 else ihigh0
  let ch := d.cmpRow ihigh
  let (el, cl) := if ihigh = 0 then (0, ch.map fun _ => 0) else
    (d.Eg.getD (ihigh - 1) 0, d.cmpRow (ihigh - 1))
  match Eout, d.Ecmp.getLast? with
  | e0 :: e1 :: _, some last =>
    if e1 - e0 = 0 then throw .undefined
    let Enew := arange e0 last (e1 - e0)
    let low ← rebin1D cl d.Ecmp Enew
    let high ← rebin1D ch d.Ecmp Enew
    pure ⟨el, d.Eg.getD ihigh 0, low, high⟩
  | _, _ => throw .indexError

/-- Linear interpolation between two points (`ompy/response.py` 564-565, 617-618). -/
def linInterp {K : Type} [Field K] (x x0 y0 x1 y1 : K) : K := y0 + (y1 - y0) * (x - x0) / (x1 - x0)

/-- `linear_cmp_interpolation` (`ompy/response.py` 457-476): `interp1d` through two points with
extrapolation is the straight line. -/
def Closest.linear (c : Closest) (E : ℚ) : List ℚ :=
  List.zipWith (fun l h => linInterp E c.Elow l c.Ehigh h) c.low c.high

/-- `R[R < 0] = 0`. -/
def clip0 {K : Type} [Field K] [LinearOrder K] (l : List K) : List K :=
  l.map fun x => if x < 0 then 0 else x

/-- `R = np.zeros(n); R[lo:hi] = src[lo:hi]` for `0 ≤ lo`: a source slice of length one is broadcast,
other lengths must agree. -/
def zerosAssign (n lo hi : ℕ) (src : List ℚ) : Except Err (List ℚ) :=
  let s := (src.take hi).drop lo
  let m := min hi n - lo
  if s.length = m then
    .ok ((List.range n).map fun k : ℕ => if lo ≤ k ∧ k < hi then s.getD (k - lo) 0 else 0)
  else if s.length = 1 then
    .ok ((List.range n).map fun k : ℕ => if lo ≤ k ∧ k < hi then s.getD 0 0 else 0)
  else .error .valueError

/-! ## Real-valued part -/

/-- `E_compton` (`ompy/response.py` 710-727). -/
noncomputable def eCompton (Eg theta : ℝ) : ℝ :=
  if 1 / 10 < Eg then Eg - Eg / (1 + Eg / 511 * (1 - Real.cos theta)) else Eg

/-- `dE_dtheta` (`ompy/response.py` 730-745). -/
noncomputable def dEdTheta (Eg theta : ℝ) : ℝ :=
  (Eg * Eg / 511 * Real.sin theta) / (1 + Eg / 511 * (1 - Real.cos theta)) ^ 2

/-- The loop of `index` over real numbers, cf. `indexLoop`. -/
noncomputable def indexLoopR (e prev : ℝ) (i : ℕ) : List ℚ → ℕ
  | [] => i - 1
  | x :: xs => if ((x : ℝ) - e) ^ 2 > prev then i - 1 else indexLoopR e (((x : ℝ) - e) ^ 2) (i + 1) xs

/-- `index`, ompy/decomposition.pyx:119-142, for a real energy. -/
noncomputable def indexR (array : List ℚ) (e : ℝ) : ℕ :=
  match array with
  | [] => 0
  | a :: as => indexLoopR e (((a : ℝ) - e) ^ 2) 1 as

/-- Cast of an array to the reals. -/
noncomputable def toR (l : List ℚ) : List ℝ := List.map (fun x : ℚ => (x : ℝ)) l

/-- `linear_backscatter` (`ompy/response.py` 478-500): the response and `i_bsc`. -/
noncomputable def linearBackscatter (Eout : List ℚ) (c : Closest) (E : ℚ) :
    Except Err (List ℚ × ℕ) := do
  let ibsc := indexR Eout ((E : ℝ) - eCompton E Real.pi)
  let R ← zerosAssign Eout.length 0 (ibsc + 1) (c.linear E)
  pure (clip0 R, ibsc)

/-- `linear_to_end` (`ompy/response.py` 502-520). -/
def linearToEnd (Eout : List ℚ) (c : Closest) (E : ℚ) (istart istop : ℕ) : Except Err (List ℚ) := do
  let R ← zerosAssign Eout.length istart (istop + 1) (c.linear E)
  pure (clip0 R)

/-- `counts[i]` for an array of a `Closest`. -/
def countAt (l : List ℚ) (i : ℕ) : Except Err ℚ :=
  if i < l.length then .ok (l.getD i 0) else .error .indexError

/-- The angle of the fan method (`ompy/response.py` 627-628).  Out of range arguments of `arccos` give
NaN, which fails the test of line 629; `Real.arccos` gives 0 or π there, which fails it as well. -/
noncomputable def fanAngle (E Ei : ℝ) : ℝ :=
  let den := E / 511 * (E - Ei)
  Real.arccos (1 - if den = 0 then 0 else Ei / den)

/-- One step of the loop of `fan_method_compton` (`ompy/response.py` 621-647); state `(R, i_last)`. -/
noncomputable def fanStep (Eout : List ℚ) (c : Closest) (E : ℚ) (st : List ℝ × ℕ) (i : ℕ) :
    Except Err (List ℝ × ℕ) := do
  let Ei : ℝ := (Eout.getD i 0 : ℚ)
  let theta := fanAngle E Ei
  if Ei < 1 / 10 ∨ Ei > eCompton E Real.pi then pure st
  else if 0 < theta ∧ theta < Real.pi then
    let c1 ← countAt c.low (indexR Eout (eCompton c.Elow theta))
    let c2 ← countAt c.high (indexR Eout (eCompton c.Ehigh theta))
    let interpol := linInterp (E : ℝ) c.Elow (c1 * dEdTheta c.Elow theta) c.Ehigh
      (c2 * dEdTheta c.Ehigh theta)
    pure (st.1.set i (interpol / dEdTheta E theta), i)
  else pure st

/-- `fan_method_compton` (`ompy/response.py` 590-654). -/
noncomputable def fanMethod (Eout : List ℚ) (c : Closest) (E : ℚ) (istart istop : ℕ) :
    Except Err (List ℝ × ℕ) := do
  let ice := min (indexR Eout (eCompton E Real.pi)) (min istop Eout.length)
  let st ← ((List.range ice).filter fun i => istart ≤ i).foldlM (fanStep Eout c E)
    (List.replicate Eout.length (0 : ℝ), istart)
  pure (clip0 st.1, st.2)

/-- `counts[i]` after the cut at the end (`ompy/response.py` 573-579). -/
def countCut (l : List ℚ) (i : ℤ) : Except Err ℚ := do
  let k ← npIndex l.length (if (l.length : ℤ) ≤ i then (l.length : ℤ) - 1 else i)
  pure (l.getD k 0)

/-- `fan_to_end` (`ompy/response.py` 522-588).  A zero distance between `i_start` and `i_stop` gives an
infinite scale, whose conversion by `int` raises; it is mapped to `undefined`. -/
noncomputable def fanToEnd (Eout : List ℚ) (fwhm : List ℚ) (c : Closest) (E : ℚ)
    (istart istop : ℕ) : Except Err (List ℝ) := do
  let ec1 := eCompton c.Elow Real.pi
  let ec2 := eCompton c.Ehigh Real.pi
  let il := indexR Eout ec1
  let ih := indexR Eout ec2
  let den : ℝ := ((Eout.getD istop 0 - Eout.getD istart 0 : ℚ) : ℝ)
  if Eout.length ≤ istart ∨ Eout.length ≤ istop then throw .indexError
  if den = 0 then throw .undefined
  let sig1 : ℝ := (fwhm.getD (indexR Eout c.Elow) 0 : ℚ) / (235 / 100)
  let scale1 := ((c.Elow : ℝ) + 6 * sig1 - ec1) / den
  let sig2 : ℝ := (fwhm.getD (indexR Eout c.Ehigh) 0 : ℚ) / (235 / 100)
  let scale2 := ((c.Ehigh : ℝ) + 6 * sig2 - ec2) / den
  let vals ← ((List.range Eout.length).filter fun i => istart ≤ i).mapM fun i : ℕ => do
    let k : ℝ := ((i : ℝ) - ((istart : ℝ) - 1))
    let c1 ← countCut c.low (truncR ((il : ℝ) + scale1 * k))
    let c2 ← countCut c.high (truncR ((ih : ℝ) + scale2 * k))
    (pure ((linInterp E c.Elow c1 c.Ehigh c2 : ℚ) : ℝ) : Except Err ℝ)
  pure (clip0 (List.replicate istart 0 ++ vals))

/-- The Compton part of one row (`ompy/response.py` 329-348). -/
noncomputable def comptonPart (d : RespData) (Eout fwhm : List ℚ) (j : ℕ) : Except Err (List ℝ) := do
  let E := Eout.getD j 0
  let iEgmax := min (indexR Eout ((E : ℝ) + 6 * ((fwhm.getD j 0 : ℚ) / (235 / 100) : ℝ)))
    (Eout.length - 1)
  let c ← d.closest Eout E
  let low ← linearBackscatter Eout c E
  let fan ← fanMethod Eout c E (low.2 + 1) iEgmax
  if fan.2 ≤ low.2 + 2 then
    let high ← linearToEnd Eout c E (low.2 + 1) iEgmax
    pure (List.zipWith (· + ·) (toR low.1) (toR high))
  else
    let high ← fanToEnd Eout fwhm c E (fan.2 + 1) iEgmax
    pure (List.zipWith (· + ·) (List.zipWith (· + ·) (toR low.1) fan.1) high)

/-- Division of a row by its sum (`ompy/response.py` 365). -/
noncomputable def normRowR (l : List ℝ) : List ℝ :=
  l.map fun x => if l.sum = 0 then 0 else x / l.sum

/-- One row of the response matrix (`ompy/response.py` 328-365). -/
noncomputable def responseRow (d : RespData) (Eout fwhm : List ℚ) (smooth : Bool) (truncate : ℝ)
    (j : ℕ) : Except Err (List ℝ) := do
  let E := Eout.getD j 0
  let R ← comptonPart d Eout fwhm j
  let R := if E < d.Eg.getD 0 0 then
    (List.range R.length).map fun k : ℕ => if j < k then 0 else R.getD k 0 else R
  let p ← discretePeaks (d.fFE E) (d.fSE E) (d.fDE E) (d.f511 E) Eout j
  if smooth then
    let R ← gaussSmoothing (List.zipWith (· + ·) R (toR p)) (toR Eout) (toR fwhm) truncate
    pure (normRowR R)
  else
    let p ← gaussSmoothing (toR p) (toR Eout) (toR fwhm) truncate
    pure (normRowR (List.zipWith (· + ·) R p))

/-- `interpolate` (`ompy/response.py` 278-390) with the checks 392-407: the values of the response
matrix on the axes `Eout`. -/
noncomputable def respInterpolate (d : RespData) (Eout : List ℚ) (fwhmAbs : ℚ) (smooth : Bool)
    (truncate : ℝ) : Except Err (List (List ℝ)) := do
  if d.Eg.length < 2 then throw .valueError
  if ¬ (1 / 10 ≤ fwhmAbs ∧ fwhmAbs ≤ 1000) then throw .assertion
  if Eout.length ≤ 1 then throw .valueError
  if ¬ |interpLin d.Eg (fun i => d.fwhmRel.getD i 0) 1330 - 1| < 5 / 100 then throw .assertion
  let fwhm := d.fwhmArray fwhmAbs Eout
  let R ← (List.range Eout.length).mapM (responseRow d Eout fwhm smooth truncate)
  pure (R.map clip0)

end Ompy
