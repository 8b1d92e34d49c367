import Verif.Basic

/-!
# The rhosigchi iteration

Model of `iterate` in `ompy/rhosigchi.cpp` and of its Python twin `iterate_python` in
`ompy/pyrhosigchi.py`.  Both are the same program over two kinds of arrays: the C++ class `Array`
checks the row number only and reads `data[i*ysize + j]`, numpy counts negative indices from the
end and raises `IndexError` beyond it.
-/

namespace Ompy

/-- A two dimensional array of doubles in one block of memory
(`ompy/rhosigchi.cpp` 13-98, class `Array`; numpy arrays are laid out alike). -/
structure CArr where
  nx : ℕ
  ny : ℕ
  cell : ℕ → ℚ

/-- `np.zeros((nx, ny))` / `SimpleMatrix(nx, ny)` (`ompy/rhosigchi.cpp` 153-164). -/
def CArr.zeros (nx ny : ℕ) : CArr := ⟨nx, ny, fun _ => 0⟩

/-- How an element access `a(i, j)` finds its memory cell. -/
structure Access where
  /-- elements of the arrays handed in -/
  arr : (nx ny : ℕ) → ℤ → ℤ → Except Err ℕ
  /-- elements of the scratch matrices `nom`, `denom` -/
  scratch : (nx ny : ℕ) → ℤ → ℤ → Except Err ℕ
  /-- elements of one dimensional arrays (`igmax`, `fun1`, …) -/
  vec : ℕ → ℤ → Except Err ℕ

/-- `Array::operator()(i, j)` (`ompy/rhosigchi.cpp` 64-79): an error if `i` is not a row (a negative
`int` becomes a huge `size_t`), no test of `j`.  A cell outside the block is undefined behaviour.
`SimpleMatrix` (`ompy/rhosigchi.cpp` 166-176) tests both indices; `Array::operator()(i)`
(48-63) and `SimpleVector` (120-130) test the one they have. -/
def cppAccess : Access where
  arr nx ny i j :=
    if i < 0 ∨ (nx : ℤ) ≤ i then .error .runtimeError
    else if i * ny + j < 0 ∨ (nx : ℤ) * ny ≤ i * ny + j then .error .undefined
    else .ok (i * ny + j).toNat
  scratch nx ny i j :=
    if i < 0 ∨ (nx : ℤ) ≤ i ∨ j < 0 ∨ (ny : ℤ) ≤ j then .error .runtimeError
    else .ok (i * ny + j).toNat
  vec n i := if i < 0 ∨ (n : ℤ) ≤ i then .error .runtimeError else .ok i.toNat

/-- A numpy index on an axis of length `n`. -/
def npIndex (n : ℕ) (i : ℤ) : Except Err ℕ :=
  if (n : ℤ) ≤ i ∨ i < -(n : ℤ) then .error .indexError
  else if i < 0 then .ok (i + n).toNat else .ok i.toNat

/-- numpy element access, used by `iterate_python` (`ompy/pyrhosigchi.py` 126-207). -/
def pyAccess : Access where
  arr nx ny i j := do
    let i ← npIndex nx i
    let j ← npIndex ny j
    pure (i * ny + j)
  scratch nx ny i j := do
    let i ← npIndex nx i
    let j ← npIndex ny j
    pure (i * ny + j)
  vec := npIndex

namespace CArr

/-- Read `a(i, j)`. -/
def get (res : (nx ny : ℕ) → ℤ → ℤ → Except Err ℕ) (a : CArr) (i j : ℤ) : Except Err ℚ :=
  (res a.nx a.ny i j).map a.cell

/-- Write `a(i, j) = v`. -/
def set (res : (nx ny : ℕ) → ℤ → ℤ → Except Err ℕ) (a : CArr) (i j : ℤ) (v : ℚ) :
    Except Err CArr :=
  (res a.nx a.ny i j).map fun k => { a with cell := Function.update a.cell k v }

end CArr

/-- `for (i = lo; i < hi; ++i)` / `range(lo, hi)`. -/
def rangeZ (lo hi : ℤ) : List ℤ := (List.range (hi - lo).toNat).map fun k : ℕ => lo + (k : ℤ)

/-- A loop `s += f(i)` whose body can fail. -/
def sumM (f : ℤ → Except Err ℚ) : List ℤ → Except Err ℚ
  | [] => .ok 0
  | i :: l => do
    let x ← f i
    let s ← sumM f l
    pure (x + s)

/-- The inputs that stay fixed during the iteration. -/
structure RscIn where
  FgN : CArr
  sFgN : CArr
  jmin : ℤ
  jmax : ℤ
  igmin : ℤ
  igmax : List ℤ
  iu0 : ℤ

/-- The factor by which an element may change (`ompy/rhosigchi.cpp` 196-205,
`ompy/pyrhosigchi.py` 137-146). -/
def rscVar (it : ℤ) : ℚ :=
  if it ≤ 5 then 12 / 10 else if it ≤ 12 then 11 / 10 else if it ≤ 21 then 105 / 100
  else if it ≤ 30 then 1025 / 1000 else 101 / 100

/-- The new value of an element (`ompy/rhosigchi.cpp` 249-257 and 269-277,
`ompy/pyrhosigchi.py` 181-189 and 198-206). -/
def clampStep (var x up down : ℚ) : ℚ :=
  if down > 0 then
    if up / down > var * x then var * x else if up / down < x / var then x / var else up / down
  else 0

namespace RscIn

/-- `maxig` (`ompy/rhosigchi.cpp` 191; `max(igmax)` in Python).  An empty `igmax` is undefined in
C++ (`*end()`), and a `ValueError` in Python; both have `jmax = 0` and the loops read nothing. -/
def maxig (p : RscIn) : ℤ := p.igmax.foldl max (p.igmax.headD 0)

/-- `size_use` (`ompy/rhosigchi.cpp` 192; `max_idx` in Python). -/
def sizeUse (p : RscIn) : ℤ := if p.maxig > p.jmax + p.iu0 then p.maxig else p.jmax + p.iu0

/-- `igmax(ix)`. -/
def igmaxAt (acc : Access) (p : RscIn) (ix : ℤ) : Except Err ℤ :=
  (acc.vec p.igmax.length ix).map fun k => p.igmax.getD k 0

/-- `fun1(ix)`, `fun2(ix)`, `fun3(ix)` (`ompy/rhosigchi.cpp` 207-226, `ompy/pyrhosigchi.py`
147-163) from row `it-1` of `rho` and `sig`.  The three sums of the loop are taken one after the
other. -/
def funs (acc : Access) (p : RscIn) (rho sig : CArr) (it ix : ℤ) : Except Err (ℚ × ℚ × ℚ) := do
  let _ ← acc.vec p.jmax.toNat ix
  let hi ← p.igmaxAt acc ix
  let sr : ℤ → Except Err ℚ := fun ig => do
    let s ← sig.get acc.arr (it - 1) ig
    let r ← rho.get acc.arr (it - 1) (ix - ig + p.iu0)
    pure (s * r)
  let f1 ← sumM sr (rangeZ p.igmin hi)
  let f2 ← sumM (fun ig => do
    let e ← p.sFgN.get acc.arr ix ig
    if e > 0 then do
      let x ← sr ig
      pure ((x / e) ^ 2)
    else pure 0) (rangeZ p.igmin hi)
  let f3 ← sumM (fun ig => do
    let e ← p.sFgN.get acc.arr ix ig
    if e > 0 then do
      let x ← sr ig
      let g ← p.FgN.get acc.arr ix ig
      pure (x * g / e ^ 2)
    else pure 0) (rangeZ p.igmin hi)
  if f1 > 0 then pure (f1, f2 / f1 ^ 3, f3 / f1 ^ 2) else pure (f1, 0, 0)

/-- Filling row `ix` of `nom` and `denom` (`ompy/rhosigchi.cpp` 227-236, `ompy/pyrhosigchi.py`
164-171). -/
def nomRow (acc : Access) (p : RscIn) (rho sig : CArr) (it : ℤ) (nd : CArr × CArr) (ix : ℤ) :
    Except Err (CArr × CArr) := do
  let f ← p.funs acc rho sig it ix
  let hi ← p.igmaxAt acc ix
  (rangeZ p.igmin hi).foldlM (fun nd ig => do
    let e ← p.sFgN.get acc.arr ix ig
    let g ← p.FgN.get acc.arr ix ig
    if f.1 * e > 0 then do
      let n ← nd.1.set acc.scratch ix ig (f.2.1 - f.2.2 + g / (f.1 * e ^ 2))
      let d ← nd.2.set acc.scratch ix ig (1 / (f.1 * e) ^ 2)
      pure (n, d)
    else do
      let n ← nd.1.set acc.scratch ix ig 0
      let d ← nd.2.set acc.scratch ix ig 0
      pure (n, d)) nd

/-- `nom` and `denom` of an iteration (`ompy/rhosigchi.cpp` 207-237).  The code allocates them once
before the iterations; every iteration writes the same cells, so starting each from zeros is the
same. -/
def noms (acc : Access) (p : RscIn) (rho sig : CArr) (it : ℤ) : Except Err (CArr × CArr) :=
  (rangeZ p.jmin p.jmax).foldlM (p.nomRow acc rho sig it)
    (CArr.zeros p.sizeUse.toNat p.sizeUse.toNat, CArr.zeros p.sizeUse.toNat p.sizeUse.toNat)

/-- Updating one element of `sig` (`ompy/rhosigchi.cpp` 240-258, `ompy/pyrhosigchi.py` 173-189). -/
def sigStep (acc : Access) (p : RscIn) (rho : CArr) (nd : CArr × CArr) (it : ℤ) (sig : CArr)
    (ig : ℤ) : Except Err CArr := do
  let up ← sumM (fun ix => do
    let r ← rho.get acc.arr (it - 1) (ix - ig + p.iu0)
    let n ← nd.1.get acc.scratch ix ig
    pure (r * n)) (rangeZ (max p.jmin ig) p.jmax)
  let down ← sumM (fun ix => do
    let r ← rho.get acc.arr (it - 1) (ix - ig + p.iu0)
    let d ← nd.2.get acc.scratch ix ig
    pure (r * r * d)) (rangeZ (max p.jmin ig) p.jmax)
  let x ← if down > 0 then sig.get acc.arr (it - 1) ig else pure 0
  sig.set acc.arr it ig (clampStep (rscVar it) x up down)

/-- Updating one element of `rho` (`ompy/rhosigchi.cpp` 260-278, `ompy/pyrhosigchi.py` 190-206). -/
def rhoStep (acc : Access) (p : RscIn) (sig : CArr) (nd : CArr × CArr) (it : ℤ) (rho : CArr)
    (iu : ℤ) : Except Err CArr := do
  let up ← sumM (fun ix => do
    let s ← sig.get acc.arr (it - 1) (ix - iu + p.iu0)
    let n ← nd.1.get acc.scratch ix (ix - iu + p.iu0)
    pure (s * n)) (rangeZ (max p.jmin iu) p.jmax)
  let down ← sumM (fun ix => do
    let s ← sig.get acc.arr (it - 1) (ix - iu + p.iu0)
    let d ← nd.2.get acc.scratch ix (ix - iu + p.iu0)
    pure (s * s * d)) (rangeZ (max p.jmin iu) p.jmax)
  let x ← if down > 0 then rho.get acc.arr (it - 1) iu else pure 0
  rho.set acc.arr it iu (clampStep (rscVar it) x up down)

/-- One iteration (`ompy/rhosigchi.cpp` 195-279): the state is `(rho, sig)`. -/
def oneIter (acc : Access) (p : RscIn) (st : CArr × CArr) (it : ℤ) : Except Err (CArr × CArr) := do
  let nd ← p.noms acc st.1 st.2 it
  let sig ← (rangeZ p.igmin p.maxig).foldlM (p.sigStep acc st.1 nd it) st.2
  let rho ← (rangeZ 0 (p.jmax - p.igmin + p.iu0)).foldlM (p.rhoStep acc sig nd it) st.1
  pure (rho, sig)

/-- `iterate(FgN, sFgN, rho, sig, jmin, jmax, igmin, igmax, iu0, nit)`
(`ompy/rhosigchi.cpp` 183-280). -/
def iterate (acc : Access) (p : RscIn) (rho sig : CArr) (nit : ℕ) : Except Err (CArr × CArr) :=
  (rangeZ 1 nit).foldlM (p.oneIter acc) (rho, sig)

end RscIn

end Ompy
