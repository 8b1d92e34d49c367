import Verif.LibraryProps

/-!
# More on C22: the rounding used for the number of bins
-/

namespace Ompy

/-- **C22.** `np.round` returns a nearest integer; of two nearest integers the even one. -/
theorem C22_round_ties (q : ℚ) (k : ℤ) (h : |(k : ℚ) - q| ≤ 1 / 2) :
    roundHalfEven q = k ∨ ((∃ f : ℤ, q = f + 1 / 2) ∧ roundHalfEven q % 2 = 0 ∧ k % 2 = 1) := by
  have h0 := Int.floor_le q
  have h1 := Int.lt_floor_add_one q
  obtain ⟨ha, hb⟩ := abs_le.1 h
  have hk : k = ⌊q⌋ ∨ k = ⌊q⌋ + 1 := by
    have : (k : ℚ) < ⌊q⌋ + 2 := by linarith
    have h3 : k < ⌊q⌋ + 2 := by exact_mod_cast this
    have : (⌊q⌋ : ℚ) - 1 < k := by linarith
    have h4 : ⌊q⌋ - 1 < k := by exact_mod_cast this
    omega
  unfold roundHalfEven
  by_cases c1 : q - ⌊q⌋ < 1 / 2
  · rw [if_pos c1]
    rcases hk with hk | hk
    · left; exact hk.symm
    · exfalso
      have : (k : ℚ) = ⌊q⌋ + 1 := by exact_mod_cast hk
      linarith
  · rw [if_neg c1]
    by_cases c2 : 1 / 2 < q - ⌊q⌋
    · rw [if_pos c2]
      rcases hk with hk | hk
      · exfalso
        have : (k : ℚ) = ⌊q⌋ := by exact_mod_cast hk
        linarith
      · left; exact hk.symm
    · rw [if_neg c2]
      have hq : q = ⌊q⌋ + 1 / 2 := by linarith
      by_cases c3 : ⌊q⌋ % 2 = 0
      · rw [if_pos c3]
        rcases hk with hk | hk
        · left; exact hk.symm
        · right; exact ⟨⟨_, hq⟩, c3, by omega⟩
      · rw [if_neg c3]
        rcases hk with hk | hk
        · right; exact ⟨⟨_, hq⟩, by omega, by omega⟩
        · left; exact hk.symm

/-- **C22.** With `E_max` the axis has one bin more than the rounded number of steps; the result
does not depend on whether that number is given directly. -/
theorem C22_emax_is_N (a0 a1 e : ℚ) (h : a1 ≠ 0) :
    eArrayFromCalibration a0 a1 none (some e) =
      eArrayFromCalibration a0 a1 (some (roundHalfEven ((e - a0) / a1) + 1)) none := by
  simp [eArrayFromCalibration, h]

example : roundHalfEven (5 / 2) = 2 ∧ roundHalfEven (7 / 2) = 4 ∧ roundHalfEven (-5 / 2) = -2 := by
  decide +kernel

example : eArrayFromCalibration 0 2 none (some 5) = .ok [0, 2, 4] := by decide +kernel

end Ompy
