import Verif.FirstGen

/-!
# Model of `ompy/unfolder.py`

Counts are exact rationals.  The ratio of fluctuations divides by what may be zero (fluctuations of the raw
spectrum), so scores are `Num`.  Parameters of the model, left arbitrary: `smooth` is
`scipy.ndimage.gaussian_filter1d` on one row with `sigma = 50 / a1` (and its default `reflect` mode), `close`
is `np.allclose`, `gs` is `gauss_smoothing` on one row (axis, fwhm; modelled in `Smoothing.lean`).
-/

namespace Ompy

/-- `A @ B` for arrays with `n` rows, `q` inner and `m` outer columns. -/
def matMul (A B : List (List ℚ)) (n q m : ℕ) : List (List ℚ) :=
  tabulate n m fun i k => ∑ j ∈ Finset.range q, at2 A i j * at2 B j k

/-- `step`, ompy/unfolder.py:189-213; `r` is the raw spectrum with `n` rows and `m` columns. -/
def unfoldStep (r R : List (List ℚ)) (n m : ℕ) (s : List (List ℚ) × List (List ℚ)) (step : ℕ) :
    List (List ℚ) × List (List ℚ) :=
  let u := if 0 < step then tabulate n m fun i k => at2 s.1 i k + (at2 r i k - at2 s.2 i k) else s.1
  (u, matMul u R n m m)

/-- `(unfolded, folded)` after the pass with index `k` of the loop, ompy/unfolder.py:149-155. -/
def unfoldIter (r R : List (List ℚ)) (n m : ℕ) : ℕ → List (List ℚ) × List (List ℚ)
  | 0 => unfoldStep r R n m (r, tabulate n m fun _ _ => 0) 0
  | k + 1 => unfoldStep r R n m (unfoldIter r R n m k) (k + 1)

/-- `chi_square` of one row, ompy/unfolder.py:215-222. -/
def chiSquareRow (r f : List ℚ) : ℚ :=
  (List.zipWith (fun fi ri => div0 ((fi - ri) ^ 2) (if 0 < ri then ri else 0)) f r).sum

/-- `fluctuations` of one row, ompy/unfolder.py:224-247. -/
def fluctRow (smooth : List ℚ → List ℚ) (c : List ℚ) : ℚ :=
  (List.zipWith (fun s x => |div0 (s - x) s|) (smooth c) c).sum

/-- `1 / F(r) * F(u)` as IEEE numbers, ompy/unfolder.py:145, 154; both are at least 0. -/
def fluctRatio (fr fu : ℚ) : Num :=
  if fr = 0 then (if fu = 0 then .nan else .pinf) else .fin (1 / fr * fu)

/-- `(1 - w) * chi + w * fluct`, ompy/unfolder.py:267-268. -/
def scoreNum (w chi : ℚ) : Num → Num
  | .fin f => .fin ((1 - w) * chi + w * f)
  | .nan => .nan
  | .pinf => if w = 0 then .nan else if 0 < w then .pinf else .ninf
  | .ninf => if w = 0 then .nan else if 0 < w then .ninf else .pinf

/-- `x < y` on IEEE numbers. -/
def numLt : Num → Num → Bool
  | .fin a, .fin b => decide (a < b)
  | .fin _, .pinf => true
  | .ninf, .fin _ => true
  | .ninf, .pinf => true
  | _, _ => false

/-- Does `np.argmin` replace the best so far `b` by `x`?  A NaN wins and is never replaced. -/
def argminBetter (x b : Num) : Bool := !b.isNan && (x.isNan || numLt x b)

/-- Loop of `np.argmin` on floats. -/
def argminNumFrom (best : Num) (bi i : ℕ) : List Num → ℕ
  | [] => bi
  | x :: xs => if argminBetter x best then argminNumFrom x i (i + 1) xs
    else argminNumFrom best bi (i + 1) xs

/-- `np.argmin` on floats (ValueError on an empty array). -/
def argminNum : List Num → Except Err ℕ
  | [] => .error .valueError
  | a :: as => .ok (argminNumFrom a 0 1 as)

/-- `score` for one excitation bin, ompy/unfolder.py:264-276, given the scores of the iterations and
`minimum_iterations` (already limited). -/
def selectIter (minIter : ℕ) (scores : List Num) : Except Err ℕ := do
  let best ← argminNum scores
  pure (if best < minIter then minIter else best)

/-- The columns of the response table used here, ompy/unfolder.py:344-349. -/
structure RespTab where
  E : List ℚ
  fwhm : List ℚ
  eff : List ℚ
  pf : List ℚ
  ps : List ℚ
  pd : List ℚ
  pa : List ℚ
  deriving DecidableEq

/-- The attributes of an `Unfolder`, ompy/unfolder.py:70-92. -/
structure Unf where
  numIter : ℕ
  minIter : ℕ
  weight : ℚ
  R : Option Mat
  useCompton : Bool
  tab : Option RespTab
  tweak : Option (List (String × ℚ))
  iscores : Option (List ℕ)
  deriving DecidableEq

/-- `fold`, ompy/unfolder.py:278-290.  The inner lengths must match (ValueError of `@`). -/
def Unf.fold (o : Unf) (m : Mat) : Except Err Mat :=
  match o.R with
  | none => .error .assertion
  | some R =>
    if m.Eg.length = R.Ex.length then
      .ok { m with values := matMul m.values R.values m.Ex.length R.Ex.length R.Eg.length }
    else .error .valueError

/-- `update_values`, ompy/unfolder.py:93-120. -/
def updateValues (close : List ℚ → List ℚ → Bool) (R : Option Mat) (raw : Mat) : Except Err Mat :=
  match R with
  | none => .error .assertion
  | some R =>
    if R.values.length ≠ R.Eg.length then .error .assertion
    else if raw.Eg.length ≠ R.Eg.length then .error .valueError
    else if !close raw.Eg R.Eg then .error .valueError
    else if raw.values.any (fun r => r.any fun x => x < 0) ||
        R.values.any (fun r => r.any fun x => x < 0) then .error .valueError
    else .ok R

/-- `shift`, ompy/unfolder.py:416-432. -/
def shiftRow (counts E : List ℚ) (d : ℚ) : Except Err (List ℚ) :=
  rebin1D counts (E.map (· + d)) E

/-- The multipliers, ompy/unfolder.py:351-365. -/
def tweakOf (t : Option (List (String × ℚ))) : Except Err (ℚ × ℚ × ℚ × ℚ) :=
  match t with
  | none => .ok (1, 1, 1, 1)
  | some d =>
    match d.lookup "fe", d.lookup "se", d.lookup "de", d.lookup "511" with
    | some a, some b, some c, some e => .ok (a, b, c, e)
    | _, _, _, _ => .error .valueError

/-- Elementwise product. -/
def mulL (a b : List ℚ) : List ℚ := List.zipWith (· * ·) a b

/-- Elementwise sum. -/
def addL (a b : List ℚ) : List ℚ := List.zipWith (· + ·) a b

/-- Elementwise difference. -/
def subL (a b : List ℚ) : List ℚ := List.zipWith (· - ·) a b

/-- Full-energy part `uf` and the other peaks `w = us + ud + ua` of one row,
ompy/unfolder.py:369-390.  `gs row E fwhm` may raise. -/
def comptonParts (gs : List ℚ → List ℚ → List ℚ → Except Err (List ℚ)) (t : RespTab)
    (tw : ℚ × ℚ × ℚ × ℚ) (u0 : List ℚ) : Except Err (List ℚ × List ℚ) := do
  let scale (c : ℚ) := t.fwhm.map fun f => c * f
  let uf ← gs (mulL t.pf u0) t.E (scale (1 / 2 * tw.1))
  let us0 ← gs (mulL t.ps u0) t.E (scale (1 / 2 * tw.2.1))
  let us ← shiftRow us0 t.E (-511)
  let ud0 ← gs (mulL t.pd u0) t.E (scale (1 / 2 * tw.2.2.1))
  let ud ← shiftRow ud0 t.E (-1024)
  let i511 ← iFromE 511 t.E
  let ua0 := (List.replicate u0.length 0).set i511 (mulL t.pa u0).sum
  let ua ← gs ua0 t.E (scale tw.2.2.2)
  pure (uf, addL (addL us ud) ua)

/-- `compton_subtraction` of one row, ompy/unfolder.py:366-402. -/
def comptonRow (gs : List ℚ → List ℚ → List ℚ → Except Err (List ℚ)) (t : RespTab)
    (tw : ℚ × ℚ × ℚ × ℚ) (r u0 : List ℚ) : Except Err (List ℚ) := do
  let (uf, w) ← comptonParts gs t tw u0
  let c ← gs (subL r (addL uf w)) t.E (t.fwhm.map fun f => 1 * f)
  pure (List.zipWith div0 (List.zipWith div0 (subL (subL r c) w) t.pf) t.eff)

/-- `compton_subtraction`, ompy/unfolder.py:301-402. -/
def comptonSubtraction (gs : List ℚ → List ℚ → List ℚ → Except Err (List ℚ)) (o : Unf) (R raw : Mat)
    (unfolded : List (List ℚ)) : Except Err (List (List ℚ)) :=
  match o.tab with
  | none => .error .valueError
  | some t =>
    if t.E.length ≠ R.Eg.length then .error .valueError
    else if t.E ≠ R.Eg then .error .assertion
    else do
      let tw ← tweakOf o.tweak
      (List.zip raw.values unfolded).mapM fun p => comptonRow gs t tw p.1 p.2

/-- The scores of all iterations for row `i`, ompy/unfolder.py:143-154, 267-268. -/
def rowScores (smooth : List ℚ → List ℚ) (w : ℚ) (r R : List (List ℚ)) (n m numIter i : ℕ) :
    List Num :=
  (List.range numIter).map fun k : ℕ =>
    let s := unfoldIter r R n m k
    scoreNum w (chiSquareRow (r.getD i []) (s.2.getD i []))
      (fluctRatio (fluctRow smooth (r.getD i [])) (fluctRow smooth (s.1.getD i [])))

/-- `unfolded_cube[iscores[iEx], iEx, :]`, ompy/unfolder.py:167-168. -/
def cubeRow (r R : List (List ℚ)) (n m numIter : ℕ) (i s : ℕ) : Except Err (List ℚ) :=
  if s < numIter then .ok ((unfoldIter r R n m s).1.getD i []) else .error .indexError

/-- `apply`, ompy/unfolder.py:122-187: the object afterwards and the outcome.  Warnings and logging are
left out. -/
def Unf.apply (smooth : List ℚ → List ℚ) (close : List ℚ → List ℚ → Bool)
    (gs : List ℚ → List ℚ → List ℚ → Except Err (List ℚ)) (o : Unf) (raw : Mat)
    (response : Option Mat) : Unf × Except Err Mat :=
  let o1 : Unf := { o with R := response.orElse fun _ => o.R }
  match updateValues close o1.R raw with
  | .error e => (o1, .error e)
  | .ok R =>
    if raw.Eg.length < 2 then (o1, .error .indexError)
    else
      let n := raw.Ex.length
      let m := raw.Eg.length
      let o2 : Unf := { o1 with minIter := min o1.minIter o1.numIter }
      match (List.range n).mapM fun i : ℕ => selectIter o2.minIter
          (rowScores smooth o.weight raw.values R.values n m o.numIter i) with
      | .error e => (o2, .error e)
      | .ok sel =>
        let o3 : Unf := { o2 with iscores := some sel }
        match (List.range n).mapM fun i : ℕ =>
            cubeRow raw.values R.values n m o.numIter i (sel.getD i 0) with
        | .error e => (o3, .error e)
        | .ok u =>
          match (if o.useCompton then comptonSubtraction gs o3 R raw u else .ok u) with
          | .error e => (o3, .error e)
          | .ok u' =>
            (o3, .ok ⟨removeNegativeQ u', raw.Eg, raw.Ex, none, some .unfolded⟩)

end Ompy
