import Verif.Matrix

/-!
# Model of `ompy/firstgeneration.py`

Exact rationals; no NaN arises in `step` on finite input, so `np.nan_to_num` is the identity.
-/

namespace Ompy

/-- IEEE division of finite numbers. -/
def ieeeDiv (a b : ℚ) : Num :=
  if b = 0 then (if a = 0 then .nan else if 0 < a then .pinf else .ninf) else .fin (a / b)

/-- `div0` of arrays as written, ompy/library.py:14-17: divide, then overwrite what is not finite. -/
def div0Num (a b : ℚ) : Num :=
  match ieeeDiv a b with
  | .fin q => .fin q
  | _ => .fin 0

/-- Build an `n × m` array from its entries. -/
def tabulate (n m : ℕ) (f : ℕ → ℕ → ℚ) : List (List ℚ) :=
  (List.range n).map fun i : ℕ => (List.range m).map fun j : ℕ => f i j

/-- `M[i, j]` (0 outside). -/
def at2 (M : List (List ℚ)) (i j : ℕ) : ℚ := (M.getD i []).getD j 0

/-- `normalize_rows`, ompy/firstgeneration.py:382-384. -/
def normalizeRows (W : List (List ℚ)) : List (List ℚ) := W.map fun r => r.map fun x => div0 x r.sum

/-- The attributes of `FirstGeneration`, ompy/firstgeneration.py:55-73. -/
structure FGParams where
  numIter : ℕ
  total : Bool
  upper : ℚ
  lower : ℚ
  ratio : ℚ
  shift : ℚ
  entryStat : ℚ
  useSlide : Bool

/-- The threshold of an excitation energy, ompy/firstgeneration.py:219-227. -/
def slideOf (p : FGParams) (ex : ℚ) : ℚ :=
  if p.useSlide then min (max (ex * p.ratio) p.lower) p.upper else p.upper

/-- `values[slide > Eg] = 0` for one row, ompy/firstgeneration.py:228. -/
def maskRow (s : ℚ) (Eg row : List ℚ) : List ℚ :=
  List.zipWith (fun g x => if g < s then 0 else x) Eg row

/-- Mean gamma energy of a row, ompy/firstgeneration.py:231-233, 256-258. -/
def meanEg (Eg row : List ℚ) : ℚ := div0 (List.zipWith (fun g x => g * x) Eg row).sum row.sum

/-- One entry of `multiplicity_statistical`, ompy/firstgeneration.py:201-243. -/
def multStatistical (p : FGParams) (Eg : List ℚ) (ex : ℚ) (row : List ℚ) : ℚ :=
  let masked := maskRow (slideOf p ex) Eg row
  let entry := max (min (ex - p.shift) p.entryStat) 0
  div0 (ex - entry) (meanEg Eg masked)

/-- One entry of `multiplicity_total`, ompy/firstgeneration.py:245-261. -/
def multTotal (Eg : List ℚ) (ex : ℚ) (row : List ℚ) : ℚ :=
  let m := div0 ex (meanEg Eg row)
  if m < 0 then 0 else m

/-- `multiplicity`, ompy/firstgeneration.py:185-199. -/
def multiplicities (p : FGParams) (m : Mat) : List ℚ :=
  List.zipWith (fun ex row => if p.total then multTotal m.Eg ex row
    else multStatistical p m.Eg ex row) m.Ex m.values

/-- `multiplicity_normalization`, ompy/firstgeneration.py:163-183.  `matrix.projection('Ex')` sums each
row. -/
def multNormalization (p : FGParams) (m : Mat) : Except Err (List (List ℚ)) :=
  let mult := multiplicities p m
  let s := m.values.map List.sum
  if mult.all (fun x => 0 ≤ x) then
    .ok (tabulate mult.length mult.length fun i j =>
      div0 (s.getD i 0 * mult.getD j 0) (mult.getD i 0 * s.getD j 0))
  else .error .assertion

/-- `row_normalized`, ompy/firstgeneration.py:263-276: `H[i, :j] = 1/max(1, j)` for the diagonal elements
`(i, j)`; rows without counts stay 0. -/
def rowNormalized (values : List (List ℚ)) (ny : ℕ) : List (List ℚ) :=
  let d := diagonalElements values ny
  tabulate values.length ny fun i k =>
    match d.find? fun q => q.1 == i with
    | some (_, j) => if (k : ℤ) < j then 1 / max 1 (j : ℚ) else 0
    | none => 0

/-- `W[i, :i] = H[i, i:0:-1]`, ompy/firstgeneration.py:142-143, entry `(i, j)`. -/
def flipWeight (H : List (List ℚ)) (i j : ℕ) : ℚ := if j < i then at2 H i (i - j) else 0

/-- The new weights, ompy/firstgeneration.py:139-152. -/
def newWeights (iteration : ℕ) (n : ℕ) (H Wold : List (List ℚ)) : List (List ℚ) :=
  let W := tabulate n n (flipWeight H)
  let W1 := if 4 < iteration then
      tabulate n n fun i j => 7 / 10 * at2 W i j + 3 / 10 * at2 Wold i j else W
  let W2 := W1.map fun r => r.map fun x => if x < 0 then 0 else x
  normalizeRows W2

/-- `matrix.values - (N * W * valley) @ matrix.values`, ompy/firstgeneration.py:154-160. `ny` columns. -/
def subtractG (M N W : List (List ℚ)) (valley : Option (List ℚ)) (n ny : ℕ) : List (List ℚ) :=
  tabulate n ny fun i k =>
    at2 M i k - ∑ j ∈ Finset.range n, at2 N i j * at2 W i j *
      (match valley with | some v => v.getD j 0 | none => 1) * at2 M j k

/-- `step`, ompy/firstgeneration.py:121-161. -/
def fgStep (m : Mat) (N : List (List ℚ)) (valley : Option (List ℚ)) (iteration : ℕ)
    (s : List (List ℚ) × List (List ℚ)) : Except Err (List (List ℚ) × List (List ℚ)) := do
  let H ← rebin2D s.1 m.Eg.length m.Eg m.Ex 1
  let W := newWeights iteration m.Ex.length H s.2
  pure (subtractG m.values N W valley m.Ex.length m.Eg.length, W)

/-- State `(H, W)` after `k` passes of the loop in `apply`, ompy/firstgeneration.py:97-105. -/
def fgIter (p : FGParams) (m : Mat) (valley : Option (List ℚ)) :
    ℕ → Except Err (List (List ℚ) × List (List ℚ))
  | 0 => do
    let _ ← multNormalization p m
    pure (rowNormalized m.values m.Eg.length, rowNormalized m.values m.Eg.length)
  | k + 1 => do
    let s ← fgIter p m valley k
    let N ← multNormalization p m
    fgStep m N valley k s

/-- `cut_valley_correction`, ompy/firstgeneration.py:278-306: the outcome and the valley object afterwards.
The copy in line 301 is thrown away; the cut works on the object itself.  `close` is `np.allclose`. -/
def cutValley (close : List ℚ → List ℚ → Bool) (valley : Option (Vec ℚ)) (m : Mat) :
    Except Err (Option (List ℚ)) × Option (Vec ℚ) :=
  match valley with
  | none => (.ok none, none)
  | some v =>
    match listMin m.Ex, listMax m.Ex with
    | .ok lo, .ok hi =>
      match v.cut (some lo) (some hi) with
      | .error e => (.error e, some v)
      | .ok c =>
        if close c.E m.Ex then
          if c.values.any (fun x => x < 0) then (.error .valueError, some c)
          else (.ok (some c.values), some c)
        else (.error .assertion, some c)
    | .error e, _ => (.error e, some v)
    | _, .error e => (.error e, some v)

/-- `apply` on the copy after the action, ompy/firstgeneration.py:88-109: the outcome and the valley object
afterwards. -/
def fgApply (close : List ℚ → List ℚ → Bool) (p : FGParams) (valley : Option (Vec ℚ)) (m : Mat) :
    Except Err Mat × Option (Vec ℚ) :=
  if m.Ex.any (fun x => x < 0) then (.error .valueError, valley)
  else if m.values.any (fun r => r.any fun x => x < 0) then (.error .valueError, valley)
  else
    match cutValley close valley m with
    | (.error e, v') => (.error e, v')
    | (.ok vc, v') =>
      match fgIter p m vc p.numIter with
      | .error e => (.error e, v')
      | .ok (H, _) =>
        (.ok ⟨removeNegativeQ H, m.Eg, m.Ex, none, some .firstGeneration⟩, v')

/-! ### Objects -/

/-- The objects of a program: matrices and vectors by number; `next` is the number of matrices. -/
structure Store where
  mats : ℕ → Mat
  vecs : ℕ → Vec ℚ
  next : ℕ

/-- A `FirstGeneration` object: parameters, the number of the valley vector, and the recorded action as
what it does to a matrix (ompy/firstgeneration.py:71-75). -/
structure FGObj where
  params : FGParams
  valley : Option ℕ
  action : Mat → Mat × Except Err Unit

/-- `FirstGeneration.apply(unfolded)`, ompy/firstgeneration.py:77-109, on the store: the matrix is copied
(`next`), the action works on the copy, the result is a further matrix (`next + 1`). -/
def FGObj.apply (close : List ℚ → List ℚ → Bool) (fg : FGObj) (st : Store) (unfolded : ℕ) :
    Store × Except Err ℕ :=
  let (m, r) := fg.action (st.mats unfolded)
  let st1 : Store := { st with mats := Function.update st.mats st.next m, next := st.next + 1 }
  match r with
  | .error e => (st1, .error e)
  | .ok _ =>
    let (res, v') := fgApply close fg.params (fg.valley.map st1.vecs) m
    let st2 : Store := match fg.valley, v' with
      | some k, some v => { st1 with vecs := Function.update st1.vecs k v }
      | _, _ => st1
    match res with
    | .error e => (st2, .error e)
    | .ok f =>
      ({ st2 with mats := Function.update st2.mats st2.next f, next := st2.next + 1 }, .ok st2.next)

/-! ### `allgen_from_primary` -/

/-- The weights of `allgen_from_primary`, ompy/firstgeneration.py:352-354: `w[i, :i+1] = fg[i, i::-1]`,
then normalised rows. -/
def allgenWeights (fg : List (List ℚ)) (n ny : ℕ) : List (List ℚ) :=
  normalizeRows (tabulate n ny fun i j => if j ≤ i then at2 fg i (i - j) else 0)

/-- Inner loop over `j`, ompy/firstgeneration.py:364-365, on the current content `ag` of the whole
array; row `i` is updated in place. -/
def allgenInner (xs : List ℚ) (w : List (List ℚ)) (i ny : ℕ) : ℕ → List (List ℚ) → List (List ℚ)
  | 0, ag => ag
  | j + 1, ag =>
    let prev := allgenInner xs w i ny j ag
    prev.set i ((List.range ny).map fun k : ℕ =>
      at2 prev i k + xs.getD i 0 * at2 w i j * div0 (at2 prev j k) (xs.getD j 0))

/-- The rows of `ag` after the first `i` passes of the outer loop, ompy/firstgeneration.py:357-365. -/
def allgenLoop (fg : List (List ℚ)) (xs : List ℚ) (w : List (List ℚ)) (n ny : ℕ) :
    ℕ → List (List ℚ)
  | 0 => tabulate n ny fun _ _ => 0
  | i + 1 =>
    let ag := allgenLoop fg xs w n ny i
    let r := fg.getD i []
    let ag1 := ag.set i ((List.range ny).map fun k : ℕ => div0 (r.getD k 0) r.sum * xs.getD i 0)
    if i = 0 then ag1 else allgenInner xs w i ny n ag1

/-- `allgen_from_primary`, ompy/firstgeneration.py:321-367, for a square matrix (`w` and `fg` have the
shape of `fg`; the assignment to `w[i, :i+1]` needs at least as many columns as rows). -/
def allgenFromPrimary (fg : Mat) (xs : Option (List ℚ)) : List (List ℚ) :=
  let xs := xs.getD (fg.values.map List.sum)
  allgenLoop fg.values xs (allgenWeights fg.values fg.Ex.length fg.Eg.length) fg.Ex.length
    fg.Eg.length fg.Ex.length

end Ompy
