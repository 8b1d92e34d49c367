import Verif.WidthRoundingProps

/-!
# More about C147: the likelihood
-/

namespace Ompy

theorem within_abs {fl : ℚ → ℚ} {u : ℚ} (hfl : Rounding fl u) (hu : 0 ≤ u) (hu1 : u < 1) (x : ℚ) :
    Within u 1 |x| |fl x| := by
  have h := hfl.rel x
  have h1 : |x| - |fl x| ≤ |fl x - x| := by rw [abs_sub_comm]; exact abs_sub_abs_le_abs_sub x (fl x)
  have h2 : |fl x| - |x| ≤ |fl x - x| := abs_sub_abs_le_abs_sub (fl x) x
  have h0 := abs_nonneg x
  refine ⟨by rw [pow_one]; linarith, ?_⟩
  rw [pow_one]
  calc (1 - u) * |fl x| ≤ (1 - u) * ((1 + u) * |x|) := mul_le_mul_of_nonneg_left (by linarith) (by linarith)
    _ = |x| - u * u * |x| := by ring
    _ ≤ |x| := by linarith [mul_nonneg (mul_nonneg hu hu) h0]

/-- **C147.** The computed `lnlike` is `-((w - Γ)/σ)²/2` up to six roundings, for either sign of the difference. -/
theorem C147_lnlike_value (fl : ℚ → ℚ) (u : ℚ) (hfl : Rounding fl u) (hu : 0 ≤ u) (hu1 : u < 1) (p : WidthPars)
    (hG : p.Gg.2 ≠ 0) (w : ℚ) :
    ∃ l, widthLnlikeF fl p w = .ok l ∧ Within u 6 (((w - p.Gg.1) / p.Gg.2) ^ 2 / 2) (-l) := by
  obtain ⟨l, hl, hl0, -⟩ := C147_lnlike fl u hfl hu1 p hG w
  refine ⟨l, hl, ?_⟩
  unfold widthLnlikeF at hl
  rw [if_neg hG] at hl
  simp only [Except.ok.injEq] at hl
  rw [← abs_of_nonpos hl0, ← hl]
  have a1 := within_abs hfl hu hu1 (w - p.Gg.1)
  have a2 := Within.div hu1 a1 (Within.refl' (u := u) |p.Gg.2|) (abs_nonneg _) (abs_pos.2 hG)
  rw [← abs_div, ← abs_div] at a2
  have a3 := Within.trans hu1 a2 (within_abs hfl hu hu1 _)
  have a4 := Within.mul hu1 a3 a3 (abs_nonneg _) (abs_nonneg _)
  rw [abs_mul_abs_self, abs_mul_abs_self, ← pow_two, ← pow_two, ← abs_of_nonneg (sq_nonneg ((w - p.Gg.1) / p.Gg.2)),
    ← abs_of_nonneg (sq_nonneg (fl (fl (w - p.Gg.1) / p.Gg.2)))] at a4
  have a5 := Within.trans hu1 a4 (within_abs hfl hu hu1 _)
  have a6 := Within.mul hu1 a5 (Within.refl' (u := u) |(-(1 / 2) : ℚ)|) (abs_nonneg _) (abs_nonneg _)
  rw [← abs_mul, ← abs_mul, mul_comm (fl _) (-(1 / 2))] at a6
  have a7 := Within.trans hu1 a6 (within_abs hfl hu hu1 _)
  have e : |((w - p.Gg.1) / p.Gg.2) ^ 2 * -(1 / 2)| = ((w - p.Gg.1) / p.Gg.2) ^ 2 / 2 := by
    rw [abs_mul, abs_of_nonneg (sq_nonneg _), abs_neg, abs_of_nonneg (by norm_num : (0 : ℚ) ≤ 1 / 2)]
    ring
  rw [e] at a7
  exact a7

example : widthLnlikeF dbl widthExample 90 = .ok (-(1 / 2)) ∧ widthExample.Gg.2 ≠ 0 := by decide +kernel

end Ompy
