import Verif.Rounding
import Verif.FirstGen

/-!
# Model of sums and normalised rows in floating point

`normalize`, `nld_T_product`, `chisquare_diagonal` and `chisquare` of ompy/decomposition.pyx and `normalize_rows` of
ompy/firstgeneration.py with a rounding `fl` after every operation on the values.  In which order `ndarray.sum` adds
is numpy's business: the sum is a parameter, with the order of numpy's pairwise summation as one case.
-/

namespace Ompy

/-- An order of adding numbers. -/
inductive SumOrder
  | leaf (q : ℚ)
  | add (l r : SumOrder)

namespace SumOrder

/-- The numbers that are added. -/
def leaves : SumOrder → List ℚ
  | leaf q => [q]
  | add l r => l.leaves ++ r.leaves

/-- The largest number of additions that a number takes part in. -/
def depth : SumOrder → ℕ
  | leaf _ => 0
  | add l r => max l.depth r.depth + 1

/-- The sum in this order, rounded after every addition. -/
def val (fl : ℚ → ℚ) : SumOrder → ℚ
  | leaf q => q
  | add l r => fl (l.val fl + r.val fl)

end SumOrder

/-- Add the elements one after the other, as a Python or C loop does. -/
def loopOrder (start : SumOrder) (l : List ℚ) : SumOrder := l.foldl (fun o q => .add o (.leaf q)) start

/-- The loop of `chi`, ompy/decomposition.pyx:174-181, and numpy's loop for fewer than 8 elements. -/
def loopSum (fl : ℚ → ℚ) (l : List ℚ) : ℚ := (loopOrder (.leaf 0) l).val fl

/-- numpy's sum of 8 to 128 elements: eight running sums, added in pairs, then the remaining elements
(`pairwise_sum` in numpy; called from ompy/decomposition.pyx:221 and ompy/firstgeneration.py:384). -/
def eightOrder (r0 r1 r2 r3 r4 r5 r6 r7 : SumOrder) : List ℚ → SumOrder
  | a0 :: a1 :: a2 :: a3 :: a4 :: a5 :: a6 :: a7 :: rest =>
    eightOrder (.add r0 (.leaf a0)) (.add r1 (.leaf a1)) (.add r2 (.leaf a2)) (.add r3 (.leaf a3))
      (.add r4 (.leaf a4)) (.add r5 (.leaf a5)) (.add r6 (.leaf a6)) (.add r7 (.leaf a7)) rest
  | rest => loopOrder (.add (.add (.add r0 r1) (.add r2 r3)) (.add (.add r4 r5) (.add r6 r7))) rest

/-- The first eight elements start the running sums. -/
def blockOrder : List ℚ → SumOrder
  | a0 :: a1 :: a2 :: a3 :: a4 :: a5 :: a6 :: a7 :: rest =>
    eightOrder (.leaf a0) (.leaf a1) (.leaf a2) (.leaf a3) (.leaf a4) (.leaf a5) (.leaf a6) (.leaf a7) rest
  | l => loopOrder (.leaf 0) l

/-- numpy's pairwise sum: more than 128 elements are cut in two at a multiple of 8.  The length of the list is
enough fuel. -/
def pairOrder : ℕ → List ℚ → SumOrder
  | 0, l => loopOrder (.leaf 0) l
  | fuel + 1, l =>
    if l.length ≤ 128 then blockOrder l
    else
      let h := l.length / 2 - l.length / 2 % 8
      .add (pairOrder fuel (l.take h)) (pairOrder fuel (l.drop h))

/-- `array.sum(axis=1)` of one contiguous row: the pairwise sum is added to the 0 the result starts with. -/
def npSum (fl : ℚ → ℚ) (l : List ℚ) : ℚ := (SumOrder.add (.leaf 0) (pairOrder l.length l)).val fl

/-- `normalize` of one row with rounding, ompy/decomposition.pyx:215-221; `none` when the computed sum is 0. -/
def normRowF (fl : ℚ → ℚ) (sum : List ℚ → ℚ) (r : List ℚ) : Option (List ℚ) :=
  if sum r = 0 then none else some (r.map fun x => fl (x / sum r))

/-- The `while` loop of one row with the products rounded too, ompy/decomposition.pyx:66-72. -/
def rowLoopR (fl : ℚ → ℚ) (nld T Enld : List ℚ) (ex egMax : ℚ) (j : ℕ) : List ℚ → List ℚ
  | [] => []
  | g :: gs =>
    if g ≤ egMax then
      fl (nld.getD (indexF fl Enld (fl (ex - g))) 0 * T.getD j 0) :: rowLoopR fl nld T Enld ex egMax (j + 1) gs
    else List.replicate (gs.length + 1) 0

/-- `nld_T_product` with rounding of energies and values, ompy/decomposition.pyx:17-76. -/
def nldTProductR (fl : ℚ → ℚ) (sum : List ℚ → ℚ) (nld T res Enld Eg Ex : List ℚ) :
    Except Err (List (Option (List ℚ))) :=
  if Eg.length < 2 ∨ Enld = [] ∨ nld.length < Enld.length ∨ T.length < Eg.length ∨
      res.length < Ex.length then .error .undefined
  else .ok (((List.range Ex.length).map fun i : ℕ =>
    rowLoopR fl nld T Enld (Ex.getD i 0) (cutF fl res Eg Ex i) 0 Eg).map (normRowF fl sum))

/-- `normalize_rows` with rounding, ompy/firstgeneration.py:382-384; `div0` (ompy/library.py:10-24) puts 0 where the
quotient is not finite. -/
def normalizeRowsF (fl : ℚ → ℚ) (sum : List ℚ → ℚ) (W : List (List ℚ)) : List (List ℚ) :=
  W.map fun r => r.map fun x => if sum r = 0 then 0 else fl (x / sum r)

/-- One passage through the body of the inner loops of `chisquare` and `chisquare_diagonal`,
ompy/decomposition.pyx:179-181, 207-209: `ZeroDivisionError` when the rounded square of `std` is 0. -/
def chiStepF (fl : ℚ → ℚ) (chi fact fit std : ℚ) : Except Err ℚ :=
  if std = 0 then .ok chi
  else if fl (std ^ 2) = 0 then .error .runtimeError
  else .ok (fl (chi + fl (fl (fl (fact - fit) ^ 2) / fl (std ^ 2))))

/-- `chisquare` with rounding, ompy/decomposition.pyx:188-210, for `nx × ny` arrays. -/
def chisquareF (fl : ℚ → ℚ) (fact fit std : List (List ℚ)) (nx ny : ℕ) : Except Err ℚ :=
  (List.range nx).foldlM (fun chi i => (List.range ny).foldlM (fun chi j =>
    chiStepF fl chi (at2 fact i j) (at2 fit i j) (at2 std i j)) chi) 0

/-- Inner loop of `chisquare_diagonal` with rounding, ompy/decomposition.pyx:176-181, with `break`. -/
def chiDiagRowF (fl : ℚ → ℚ) (egMax chi : ℚ) (fact fit std : List ℚ) (j : ℕ) : List ℚ → Except Err ℚ
  | [] => .ok chi
  | g :: gs =>
    if g > egMax then .ok chi
    else do
      let chi ← chiStepF fl chi (fact.getD j 0) (fit.getD j 0) (std.getD j 0)
      chiDiagRowF fl egMax chi fact fit std (j + 1) gs

/-- `chisquare_diagonal` with rounding, ompy/decomposition.pyx:148-182 (all arrays large enough). -/
def chisquareDiagonalF (fl : ℚ → ℚ) (fact fit std : List (List ℚ)) (res Eg Ex : List ℚ) : Except Err ℚ :=
  (List.range Ex.length).foldlM (fun chi i =>
    chiDiagRowF fl (fl (Ex.getD i 0 + res.getD i 0)) chi (fact.getD i []) (fit.getD i []) (std.getD i []) 0 Eg) 0

/-- Doubles with gradual underflow: below `2 ^ -1022` the nearest multiple of `2 ^ -1074`. -/
def dblU (q : ℚ) : ℚ :=
  if |q| < 1 / 2 ^ 1022 then (roundHalfEven (q * 2 ^ 1074) : ℚ) / 2 ^ 1074 else dbl q

end Ompy
