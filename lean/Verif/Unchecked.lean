import Verif.Extractor
import Verif.Equality
import Verif.Rebin
import Verif.RhoSigChi

/-!
# Model of the memory accesses of the compiled code

In `ompy/decomposition.pyx` the tests of indices are switched off (`boundscheck(False)`, `wraparound(False)`): an index outside of an array reads foreign memory.  Here every
access is explicit; one outside of its array is `undefined`.  In `ompy/rebin.pyx` the same switches are set, but the arrays that are read are untyped (`np.ndarray`), so that
numpy tests the index and raises IndexError.
-/

namespace Ompy

variable {α : Type} [Field α] [DecidableEq α]

/-- An unchecked access to a one-dimensional array. -/
def readAt {β : Type} (l : List β) (i : ℕ) : Except Err β :=
  match l[i]? with
  | some x => .ok x
  | none => .error .undefined

/-- The loop of `index` and `_index` from `i` on, ompy/decomposition.pyx:99-105, 136-142; `n` passes are left. -/
def indexScan (E : List ℚ) (e : ℚ) : ℕ → ℕ → ℚ → Except Err ℕ
  | 0, i, _ => .ok (i - 1)
  | n + 1, i, prev =>
    match readAt E i with
    | .error er => .error er
    | .ok x => if (x - e) ^ 2 > prev then .ok (i - 1) else indexScan E e n (i + 1) ((x - e) ^ 2)

/-- `index` and `_index` with their accesses, ompy/decomposition.pyx:82-105, 119-142. -/
def indexC (E : List ℚ) (e : ℚ) : Except Err ℕ :=
  match readAt E 0 with
  | .error er => .error er
  | .ok a => indexScan E e (E.length - 1) 1 ((a - e) ^ 2)

/-- One pass of the inner loop with its accesses, ompy/decomposition.pyx:69-71. -/
def cellC (nld T : List α) (Enld : List ℚ) (ex g : ℚ) (j : ℕ) : Except Err α := do
  let k ← indexC Enld (ex - g)
  let a ← readAt nld k
  let b ← readAt T j
  pure (a * b)

/-- The `while` loop of one row with its accesses, ompy/decomposition.pyx:67-72; `n` is `num_Eg - i_Eg`.  The rest of the row stays 0. -/
def rowScan (nld T : List α) (Enld Eg : List ℚ) (ex egMax : ℚ) : ℕ → ℕ → Except Err (List α)
  | 0, _ => .ok []
  | n + 1, j =>
    match readAt Eg j with
    | .error er => .error er
    | .ok g =>
      if g ≤ egMax then
        match cellC nld T Enld ex g j with
        | .error er => .error er
        | .ok c =>
          match rowScan nld T Enld Eg ex egMax n (j + 1) with
          | .error er => .error er
          | .ok r => .ok (c :: r)
      else .ok (List.replicate (n + 1) 0)

/-- One row, ompy/decomposition.pyx:64-72. -/
def prodRowC (nld T : List α) (res Enld Eg Ex : List ℚ) (half : ℚ) (i : ℕ) : Except Err (List α) := do
  let ex ← readAt Ex i
  let r ← readAt res i
  rowScan nld T Enld Eg ex (ex + r + half) Eg.length 0

/-- `nld_T_product` before the normalisation, with its accesses, ompy/decomposition.pyx:41-72. -/
def productC (nld T : List α) (res Enld Eg Ex : List ℚ) : Except Err (List (List α)) := do
  let g1 ← readAt Eg 1
  let g0 ← readAt Eg 0
  (List.range Ex.length).mapM (prodRowC nld T res Enld Eg Ex ((g1 - g0) / 2))

/-- A contiguous two-dimensional array (`double[:, ::1]`) of `nx` rows and `ny` columns. -/
structure MemView (α : Type) where
  nx : ℕ
  ny : ℕ
  data : List α
  full : data.length = nx * ny

/-- An unchecked access `a[i, j]` to a contiguous array. -/
def MemView.read {β : Type} (a : MemView β) (i j : ℕ) : Except Err β := readAt a.data (i * a.ny + j)

/-- One term of a chi-square with its accesses, ompy/decomposition.pyx:179-181, 207-209. -/
def termC (fact fit std : MemView α) (i j : ℕ) (chi : α) : Except Err α :=
  match std.read i j with
  | .error er => .error er
  | .ok s =>
    if s = 0 then .ok chi
    else
      match fact.read i j, fit.read i j with
      | .ok x, .ok y => .ok (chi + (x - y) ^ 2 / s ^ 2)
      | .error er, _ => .error er
      | _, .error er => .error er

/-- The inner loop of `chisquare`, ompy/decomposition.pyx:206-209; `n` passes are left. -/
def chiRowC (fact fit std : MemView α) (i : ℕ) : ℕ → ℕ → α → Except Err α
  | 0, _, chi => .ok chi
  | n + 1, j, chi =>
    match termC fact fit std i j chi with
    | .error er => .error er
    | .ok c => chiRowC fact fit std i n (j + 1) c

/-- The outer loop of `chisquare`, ompy/decomposition.pyx:205-210. -/
def chiC (fact fit std : MemView α) : ℕ → ℕ → α → Except Err α
  | 0, _, chi => .ok chi
  | n + 1, i, chi =>
    match chiRowC fact fit std i fact.ny 0 chi with
    | .error er => .error er
    | .ok c => chiC fact fit std n (i + 1) c

/-- `chisquare` with its accesses, ompy/decomposition.pyx:188-210. -/
def chisquareC (fact fit std : MemView α) : Except Err α := chiC fact fit std fact.nx 0 0

/-- The inner loop of `chisquare_diagonal`, ompy/decomposition.pyx:176-181. -/
def chiDiagRowC (fact fit std : MemView α) (Eg : List ℚ) (egMax : ℚ) (i : ℕ) : ℕ → ℕ → α → Except Err α
  | 0, _, chi => .ok chi
  | n + 1, j, chi =>
    match readAt Eg j with
    | .error er => .error er
    | .ok g =>
      if g > egMax then .ok chi
      else
        match termC fact fit std i j chi with
        | .error er => .error er
        | .ok c => chiDiagRowC fact fit std Eg egMax i n (j + 1) c

/-- The outer loop of `chisquare_diagonal`, ompy/decomposition.pyx:174-182. -/
def chiDiagLoopC (fact fit std : MemView α) (res Eg Ex : List ℚ) : ℕ → ℕ → α → Except Err α
  | 0, _, chi => .ok chi
  | n + 1, i, chi =>
    match readAt Ex i, readAt res i with
    | .ok ex, .ok r =>
      match chiDiagRowC fact fit std Eg (ex + r) i Eg.length 0 chi with
      | .error er => .error er
      | .ok c => chiDiagLoopC fact fit std res Eg Ex n (i + 1) c
    | .error er, _ => .error er
    | _, .error er => .error er

/-- `chisquare_diagonal` with its accesses, ompy/decomposition.pyx:148-182. -/
def chiDiagC (fact fit std : MemView α) (res Eg Ex : List ℚ) : Except Err α :=
  chiDiagLoopC fact fit std res Eg Ex Ex.length 0 0

/-- A checked access of numpy to `counts[j]`, `j ≥ 0`. -/
def readPy {β : Type} (l : List β) (i : ℕ) : Except Err β :=
  match l[i]? with
  | some x => .ok x
  | none => .error .indexError

/-- The inner loop of `rebin_1D` with its accesses, ompy/rebin.pyx:85-90; `n` passes are left. -/
def rebinScan (counts : List ℚ) (a0in a1in a0out a1out : ℚ) (i : ℕ) : ℕ → ℕ → ℚ → Except Err ℚ
  | 0, _, acc => .ok acc
  | n + 1, j, acc =>
    match readPy counts j with
    | .error er => .error er
    | .ok c => rebinScan counts a0in a1in a0out a1out i n (j + 1) (acc + rebinTerm (fun _ => c) a0in a1in a0out a1out i j)

/-- One pass of the outer loop, ompy/rebin.pyx:78-90. -/
def rebinPassC (counts : List ℚ) (nin : ℕ) (a0in a1in a0out a1out : ℚ) (i : ℕ) : Except Err ℚ :=
  let jmin := jminOf a0in a1in a0out a1out i
  let jmax := jmaxOf nin a0in a1in a0out a1out i
  rebinScan counts a0in a1in a0out a1out i (jmax + 1 - jmin).toNat jmin.toNat 0

/-- `rebin_1D` with its accesses, ompy/rebin.pyx:42-92: a missing count is reported when it is reached. -/
def rebin1DC (counts midsIn midsOut : List ℚ) : Except Err (List ℚ) :=
  match midsIn, midsOut with
  | m0 :: m1 :: ms, n0 :: n1 :: ns =>
    if m1 - m0 = 0 then .error .undefined
    else (List.range (n0 :: n1 :: ns).length).mapM
      (rebinPassC counts (m0 :: m1 :: ms).length (m0 - (m1 - m0) / 2) (m1 - m0) (n0 - (n1 - n0) / 2) (n1 - n0))
  | _, _ => .error .indexError

end Ompy
