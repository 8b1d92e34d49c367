import Verif.ResponseProps

/-!
# More on C59: the resolution used for smoothing
-/

namespace Ompy

theorem interpLin_scale (xs : List ℚ) (ys : ℕ → ℚ) (k x : ℚ) :
    interpLin xs (fun i => ys i * k) x = interpLin xs ys x * k := by
  unfold interpLin
  simp only
  ring

/-- **C59.** The full width at half maximum (keV) used at energy `E` is the tabulated relative width,
interpolated to `E`, times `E · fwhm_abs / 1330`: `fwhm_abs` is the width at 1330 keV of a detector whose
relative width there is 1. -/
theorem C59_resolution (d : RespData) (fwhmAbs : ℚ) (Eout : List ℚ) :
    (d.fwhmArray fwhmAbs Eout).length = Eout.length ∧
    ∀ k < Eout.length, (d.fwhmArray fwhmAbs Eout).getD k 0 =
      interpLin d.Eg (fun i => d.fwhmRel.getD i 0) (Eout.getD k 0) * (Eout.getD k 0 * fwhmAbs / 1330) := by
  refine ⟨by simp [RespData.fwhmArray], fun k hk => ?_⟩
  unfold RespData.fwhmArray RespData.fwhmPercent
  rw [List.getD_eq_getElem _ _ (by simpa using hk), List.getElem_map, List.getD_eq_getElem _ _ hk,
    interpLin_scale]
  ring

/-- Non-vacuity: two tabulated energies with relative widths 1 and 3. -/
example : RespData.fwhmArray ⟨[1000, 2000], [1, 3], [], [], [], [], [], [], []⟩ 133 [1500] = [300] := by
  decide +kernel

/-- **C59.** The interpolation refuses a table with fewer than two energies, a resolution outside of
0.1 … 1000 keV, an output axis with one energy, and a table whose relative width at 1330 keV is not 1
within 5 %; in each case nothing is returned. -/
theorem C59_refuses (d : RespData) (Eout : List ℚ) (fwhmAbs : ℚ) (smooth : Bool) (truncate : ℝ) :
    (d.Eg.length < 2 → respInterpolate d Eout fwhmAbs smooth truncate = .error .valueError) ∧
    (2 ≤ d.Eg.length → (fwhmAbs < 1 / 10 ∨ 1000 < fwhmAbs) →
      respInterpolate d Eout fwhmAbs smooth truncate = .error .assertion) ∧
    (2 ≤ d.Eg.length → 1 / 10 ≤ fwhmAbs → fwhmAbs ≤ 1000 → Eout.length ≤ 1 →
      respInterpolate d Eout fwhmAbs smooth truncate = .error .valueError) ∧
    (2 ≤ d.Eg.length → 1 / 10 ≤ fwhmAbs → fwhmAbs ≤ 1000 → 2 ≤ Eout.length →
      5 / 100 ≤ |interpLin d.Eg (fun i => d.fwhmRel.getD i 0) 1330 - 1| →
      respInterpolate d Eout fwhmAbs smooth truncate = .error .assertion) := by
  unfold respInterpolate
  refine ⟨fun h => ?_, fun h h1 => ?_, fun h h1 h2 h3 => ?_, fun h h1 h2 h3 h4 => ?_⟩
  · rw [if_pos h]; rfl
  · have e1 : ¬ d.Eg.length < 2 := by omega
    have e2 : ¬ (1 / 10 ≤ fwhmAbs ∧ fwhmAbs ≤ 1000) := by
      rintro ⟨a, b⟩
      rcases h1 with h1 | h1 <;> linarith
    rw [if_neg e1, if_pos e2]; rfl
  · have e1 : ¬ d.Eg.length < 2 := by omega
    rw [if_neg e1, if_neg (not_not.2 ⟨h1, h2⟩), if_pos h3]; rfl
  · have e1 : ¬ d.Eg.length < 2 := by omega
    have e3 : ¬ Eout.length ≤ 1 := by omega
    rw [if_neg e1, if_neg (not_not.2 ⟨h1, h2⟩), if_neg e3, if_pos (not_lt.2 h4)]; rfl

/-- Non-vacuity: a table of two energies, refused for its resolution or for its width at 1330 keV. -/
example : respInterpolate ⟨[1000, 2000], [1, 1], [], [], [], [], [], [], []⟩ [0, 10] 2000 true 3 =
      .error .assertion ∧
    respInterpolate ⟨[1000, 2000], [2, 2], [], [], [], [], [], [], []⟩ [0, 10] 100 true 3 =
      .error .assertion := by
  constructor
  · exact (C59_refuses _ _ _ _ _).2.1 (by simp) (by norm_num)
  · refine (C59_refuses _ _ _ _ _).2.2.2 (by simp) (by norm_num) (by norm_num) (by simp) ?_
    decide +kernel

end Ompy
