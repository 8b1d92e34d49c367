import Verif.GsfNormTotal

/-!
# More on C48: the curves of the extrapolation models
-/

namespace Ompy

/-- **C48.** The curve of an extrapolation model with the range `a … b` and `n ≥ 2` points: the energies
are `a + (b - a) k / (n - 1)`; the lower model has the values `exp (scale · E + shift)`, the upper one these
divided by `E³`; a value at energy 0 of the upper model is not a number. After normalisation the shift
is `shift_after`. -/
theorem C48_extrapolation (m : ExtModel) (a b : ℚ) (scaled : Bool) (ha : m.Emin = some a)
    (hb : m.Emax = some b) (hn : 2 ≤ m.steps) :
    ∃ c, m.extrapolate scaled = .ok c ∧ c.E.length = m.steps ∧ c.v.length = m.steps ∧
      ∀ k < m.steps, c.E.getD k 0 = a + (b - a) * k / ((m.steps : ℚ) - 1) ∧
        ∀ s : ℝ, s = (if scaled then m.shiftAfter.getD m.shift else m.shift) →
        (m.high = false → c.v.getD k none = some (Real.exp (m.scale * (c.E.getD k 0 : ℚ) + s))) ∧
        (m.high = true → c.E.getD k 0 ≠ 0 →
          c.v.getD k none = some (Real.exp (m.scale * (c.E.getD k 0 : ℚ) + s) /
            ((c.E.getD k 0 : ℚ) * (c.E.getD k 0 : ℚ) * (c.E.getD k 0 : ℚ)))) ∧
        (m.high = true → c.E.getD k 0 = 0 → c.v.getD k none = none) := by
  unfold ExtModel.extrapolate
  rw [ha, hb]
  have hl : (linspace a b m.steps).length = m.steps := by
    unfold linspace
    rw [if_neg (by omega)]
    simp
  refine ⟨_, rfl, hl, by simpa using hl, fun k hk => ⟨?_, fun s hs => ?_⟩⟩
  · show (linspace a b m.steps).getD k 0 = _
    unfold linspace
    rw [if_neg (by omega), getD_map_range _ hk]
    ring
  · have hv : ((linspace a b m.steps).map (m.value
        (if scaled then m.shiftAfter.getD m.shift else m.shift))).getD k none =
        m.value s ((linspace a b m.steps).getD k 0) := by
      rw [List.getD_eq_getElem _ none (by simpa [hl] using hk), List.getElem_map,
        List.getD_eq_getElem _ 0 (by simpa [hl] using hk), hs]
    simp only
    rw [hv]
    unfold ExtModel.value
    refine ⟨fun h => by simp [h], fun h h0 => ?_, fun h h0 => ?_⟩
    · rw [if_pos h, if_neg h0]
      congr 2
      ring
    · rw [if_pos h, if_pos h0]

/-- Non-vacuity: the points of an upper model between 2 and 4 MeV. -/
example : ∃ c, (ExtModel.extrapolate ⟨true, 0, 0, none, some 2, some 4, 3, false⟩ false) = .ok c ∧
    c.E = [2, 3, 4] ∧ c.v.getD 0 none = some (1 / 8) := by
  refine ⟨_, rfl, by decide +kernel, ?_⟩
  have h : (linspace 2 4 3) = [2, 3, 4] := by decide +kernel
  simp only [h, List.map_cons, List.getD_cons_zero, ExtModel.value]
  norm_num

/-- **C48.** Without a range the model cannot be extrapolated. -/
theorem C48_no_range (m : ExtModel) (scaled : Bool) (h : m.Emin = none ∨ m.Emax = none) :
    m.extrapolate scaled = .error .typeError := by
  unfold ExtModel.extrapolate
  rcases h with h | h
  · rw [h]
  · rw [h]
    cases m.Emin <;> rfl

example : (ExtModel.extrapolate ⟨true, 0, 0, none, none, some 4, 3, false⟩ false) = .error .typeError :=
  C48_no_range _ _ (Or.inl rfl)

end Ompy
