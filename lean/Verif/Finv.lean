import Verif.PriorProps
import Verif.Basic

/-!
# Model of `Finv`, ompy/rhosigchi.cpp:294-310

The numbers that perturb the first-generation matrix in the error analysis of rhosigchi (ompy/pyrhosigchi.py:344-346).
-/

namespace Ompy

/-- `0.5*(1.+erf(x/1.414213562))`, ompy/rhosigchi.cpp:299. -/
noncomputable def cdfC (x : ℝ) : ℝ := 1 / 2 * (1 + erf (x / 1.414213562))

/-- The variables of the loop, ompy/rhosigchi.cpp:296. -/
structure FState where
  xl : ℝ
  xh : ℝ
  x : ℝ
  yl : ℝ
  yh : ℝ
  y : ℝ

/-- Their initial values, ompy/rhosigchi.cpp:296. -/
noncomputable def FState.init : FState := ⟨-3, 3, 0, 0, 1, 1 / 2⟩

/-- One turn of the loop, ompy/rhosigchi.cpp:298-306, for the distribution function `F`; a division by 0 is `undefined`. -/
noncomputable def finvStep (F : ℝ → ℝ) (y0 : ℝ) (s : FState) : Except Err FState :=
  if s.yh - s.yl = 0 then .error .undefined
  else
    let x := s.xl + (s.xh - s.xl) * (y0 - s.yl) / (s.yh - s.yl)
    let y := F x
    if y0 < y then .ok { s with x := x, y := y, yl := y, xl := x }
    else .ok { s with x := x, y := y, yh := y, xh := x }

/-- The loop, ompy/rhosigchi.cpp:297-309, with at most `fuel` turns; `none`: not finished. -/
noncomputable def finvLoop (F : ℝ → ℝ) (y0 : ℝ) : ℕ → FState → Option (Except Err ℝ)
  | 0, _ => none
  | fuel + 1, s =>
    if 1 / 1000 < |s.y - y0| then
      match finvStep F y0 s with
      | .error e => some (.error e)
      | .ok s' => finvLoop F y0 fuel s'
    else some (.ok s.x)

/-- `Finv`, ompy/rhosigchi.cpp:294-310. -/
noncomputable def finv (fuel : ℕ) (y0 : ℝ) : Option (Except Err ℝ) := finvLoop cdfC y0 fuel .init

end Ompy
