import Verif.Library
import Mathlib.Algebra.BigOperators.Field

/-!
# Model of `ompy/decomposition.pyx` (product and chi-square)

Energies are rationals; the entries of `nld`, `T` and the matrices are in a field `α` (`ℚ` for computed
examples, `ℝ` where the exponential function enters).  Bounds checks are off in the code, so arrays that
are too short are undefined behaviour.
-/

namespace Ompy

variable {α : Type} [Field α] [DecidableEq α]

/-- `_index` on a non-empty array, ompy/decomposition.pyx:82-105. -/
def indexD (E : List ℚ) (e : ℚ) : ℕ :=
  match index E e with
  | .ok i => i
  | .error _ => 0

/-- The value written at `(i_Ex, i_Eg)`, ompy/decomposition.pyx:59-61. -/
def prodEntry (nld T : List α) (Enld : List ℚ) (ex g : ℚ) (j : ℕ) : α :=
  nld.getD (indexD Enld (ex - g)) 0 * T.getD j 0

/-- The `while` loop of one row, ompy/decomposition.pyx:66-72 (56-62 for OpenMP); the list holds the
remaining gamma energies, `j` is `i_Eg`.  What is not written stays 0. -/
def rowLoop (nld T : List α) (Enld : List ℚ) (ex egMax : ℚ) (j : ℕ) : List ℚ → List α
  | [] => []
  | g :: gs =>
    if g ≤ egMax then prodEntry nld T Enld ex g j :: rowLoop nld T Enld ex egMax (j + 1) gs
    else List.replicate (gs.length + 1) 0

/-- The product before normalisation, ompy/decomposition.pyx:64-72. -/
def rawProduct (nld T : List α) (res Enld Eg Ex : List ℚ) : List (List α) :=
  (List.range Ex.length).map fun i : ℕ =>
    rowLoop nld T Enld (Ex.getD i 0)
      (Ex.getD i 0 + res.getD i 0 + (Eg.getD 1 0 - Eg.getD 0 0) / 2) 0 Eg

/-- `normalize` of one row, ompy/decomposition.pyx:215-221; `none` when the sum is 0 (the row becomes
NaN or infinite). -/
def normRow (r : List α) : Option (List α) := if r.sum = 0 then none else some (r.map (· / r.sum))

/-- `nld_T_product`, ompy/decomposition.pyx:17-76. -/
def nldTProduct (nld T : List α) (res Enld Eg Ex : List ℚ) : Except Err (List (Option (List α))) :=
  if Eg.length < 2 ∨ Enld = [] ∨ nld.length < Enld.length ∨ T.length < Eg.length ∨
      res.length < Ex.length then .error .undefined
  else .ok ((rawProduct nld T res Enld Eg Ex).map normRow)

/-! ### The parallel loop -/

/-- State of the parallel loop, ompy/decomposition.pyx:53-62: the private `i_Eg` of each iteration of
`prange` and the shared array. -/
structure ParState (α : Type) where
  pc : ℕ → ℕ
  mem : ℕ → ℕ → α

/-- One pass of the `while` loop by the thread that works on row `i`. -/
def parStep (nld T : List α) (res Enld Eg Ex : List ℚ) (s : ParState α) (i : ℕ) : ParState α :=
  let j := s.pc i
  let egMax := Ex.getD i 0 + res.getD i 0 + (Eg.getD 1 0 - Eg.getD 0 0) / 2
  if i < Ex.length ∧ j < Eg.length ∧ Eg.getD j 0 ≤ egMax then
    ⟨Function.update s.pc i (j + 1),
     Function.update s.mem i (Function.update (s.mem i) j
      (prodEntry nld T Enld (Ex.getD i 0) (Eg.getD j 0) j))⟩
  else s

/-- Run a schedule: which row makes the next pass. -/
def parRun (nld T : List α) (res Enld Eg Ex : List ℚ) (sched : List ℕ) : ParState α :=
  sched.foldl (parStep nld T res Enld Eg Ex) ⟨fun _ => 0, fun _ _ => 0⟩

/-- All rows have left their `while` loop. -/
def parDone (res Eg Ex : List ℚ) (s : ParState α) : Prop :=
  ∀ i < Ex.length, ¬ (s.pc i < Eg.length ∧
    Eg.getD (s.pc i) 0 ≤ Ex.getD i 0 + res.getD i 0 + (Eg.getD 1 0 - Eg.getD 0 0) / 2)

/-! ### Chi-square -/

/-- One term, ompy/decomposition.pyx:179-181. -/
def chiTerm (fact fit std : α) : α := if std = 0 then 0 else (fact - fit) ^ 2 / std ^ 2

/-- Inner loop of `chisquare_diagonal`, ompy/decomposition.pyx:176-181, with `break`; accumulates `chi`. -/
def chiDiagRow (egMax : ℚ) (chi : α) (fact fit std : List α) (j : ℕ) : List ℚ → α
  | [] => chi
  | g :: gs =>
    if g > egMax then chi
    else if std.getD j 0 = 0 then chiDiagRow egMax chi fact fit std (j + 1) gs
    else chiDiagRow egMax (chi + (fact.getD j 0 - fit.getD j 0) ^ 2 / std.getD j 0 ^ 2) fact fit std
      (j + 1) gs

/-- `chisquare_diagonal`, ompy/decomposition.pyx:148-182 (all arrays large enough). -/
def chisquareDiagonal (fact fit std : List (List α)) (res Eg Ex : List ℚ) : α :=
  (List.range Ex.length).foldl (fun chi i =>
    chiDiagRow (Ex.getD i 0 + res.getD i 0) chi (fact.getD i []) (fit.getD i []) (std.getD i []) 0 Eg) 0

/-- `chisquare`, ompy/decomposition.pyx:188-210, for `nx × ny` arrays. -/
def chisquare (fact fit std : List (List α)) (nx ny : ℕ) : α :=
  (List.range nx).foldl (fun chi i => (List.range ny).foldl (fun chi j =>
    if (std.getD i []).getD j 0 = 0 then chi
    else chi + ((fact.getD i []).getD j 0 - (fit.getD i []).getD j 0) ^ 2 / (std.getD i []).getD j 0 ^ 2)
    chi) 0

end Ompy
