import Verif.Prior
import Mathlib.MeasureTheory.Integral.Gamma
import Mathlib.Analysis.SpecialFunctions.Gaussian.GaussianIntegral
import Mathlib.Analysis.Real.Pi.Bounds
import Mathlib.Analysis.Complex.ExponentialBounds

/-!
# C68: the prior of the normalisation fit
-/

namespace Ompy

open MeasureTheory

theorem cont_gauss : Continuous fun t : ℝ => Real.exp (-t ^ 2) := by fun_prop

theorem erf_zero : erf 0 = 0 := by simp [erf]

theorem erf_neg (x : ℝ) : erf (-x) = -erf x := by
  unfold erf
  have h := intervalIntegral.integral_comp_neg (a := 0) (b := x) fun t : ℝ => Real.exp (-t ^ 2)
  simp only [neg_sq, neg_zero] at h
  rw [h, intervalIntegral.integral_symm]
  ring

theorem hasDerivAt_erf (x : ℝ) : HasDerivAt erf (2 / √Real.pi * Real.exp (-x ^ 2)) x := by
  unfold erf
  exact (intervalIntegral.integral_hasDerivAt_right (cont_gauss.intervalIntegrable _ _)
    (cont_gauss.stronglyMeasurableAtFilter _ _) cont_gauss.continuousAt).const_mul _

theorem sqrt_pi_pos : 0 < √Real.pi := Real.sqrt_pos.2 Real.pi_pos

theorem deriv_erf (x : ℝ) : deriv erf x = 2 / √Real.pi * Real.exp (-x ^ 2) := (hasDerivAt_erf x).deriv

theorem erf_strictMono : StrictMono erf := by
  apply strictMono_of_deriv_pos
  intro x
  rw [deriv_erf]
  have := sqrt_pi_pos
  positivity

theorem continuous_erf : Continuous erf :=
  continuous_iff_continuousAt.2 fun x => (hasDerivAt_erf x).continuousAt

theorem tendsto_erf : Filter.Tendsto erf Filter.atTop (nhds 1) := by
  have h1 : IntegrableOn (fun t : ℝ => Real.exp (-t ^ 2)) (Set.Ioi 0) := by
    have := (integrable_exp_neg_mul_sq (b := 1) one_pos).integrableOn (s := Set.Ioi 0)
    simpa using this
  have h2 := intervalIntegral_tendsto_integral_Ioi 0 h1 Filter.tendsto_id
  have h3 : ∫ t in Set.Ioi (0 : ℝ), Real.exp (-t ^ 2) = √Real.pi / 2 := by
    have := integral_gaussian_Ioi 1
    simpa using this
  rw [h3] at h2
  have h4 := h2.const_mul (2 / √Real.pi)
  have h5 : 2 / √Real.pi * (√Real.pi / 2) = 1 := by
    have := sqrt_pi_pos
    field_simp
  rw [h5] at h4
  exact h4

theorem erf_lt_one (x : ℝ) : erf x < 1 := by
  have h : erf (x + 1) ≤ 1 := erf_strictMono.monotone.ge_of_tendsto tendsto_erf _
  exact lt_of_lt_of_le (erf_strictMono (by linarith)) h

theorem neg_one_lt_erf (x : ℝ) : -1 < erf x := by
  have := erf_lt_one (-x)
  rw [erf_neg] at this
  linarith

/-- Every number between -1 and 1 is a value of the error function. -/
theorem exists_erf (u : ℝ) (h1 : -1 < u) (h2 : u < 1) : ∃ r, erf r = u := by
  obtain ⟨b, hb⟩ := (tendsto_erf.eventually (lt_mem_nhds h2)).exists
  obtain ⟨c, hc⟩ := (tendsto_erf.eventually (lt_mem_nhds (a := -u) (by linarith))).exists
  have := mem_range_of_exists_le_of_exists_ge continuous_erf
    ⟨-c, by rw [erf_neg]; linarith⟩ ⟨b, hb.le⟩
  exact this

/-- The tangent is above the error function on the positive side. -/
theorem erf_tangent (r s : ℝ) (hr : 0 ≤ r) (hs : 0 ≤ s) :
    erf s ≤ erf r + 2 / √Real.pi * Real.exp (-r ^ 2) * (s - r) := by
  have hpos := sqrt_pi_pos
  rcases lt_trichotomy r s with h | h | h
  · obtain ⟨c, hc, he⟩ := exists_deriv_eq_slope erf h continuous_erf.continuousOn
      fun x _ => (hasDerivAt_erf x).differentiableAt.differentiableWithinAt
    rw [deriv_erf, eq_div_iff (by linarith)] at he
    have : Real.exp (-c ^ 2) ≤ Real.exp (-r ^ 2) := by
      apply Real.exp_le_exp.2
      nlinarith [hc.1]
    have h3 : 2 / √Real.pi * Real.exp (-c ^ 2) * (s - r) ≤ 2 / √Real.pi * Real.exp (-r ^ 2) * (s - r) := by
      apply mul_le_mul_of_nonneg_right _ (by linarith)
      exact mul_le_mul_of_nonneg_left this (by positivity)
    linarith
  · rw [h]
    simp
  · obtain ⟨c, hc, he⟩ := exists_deriv_eq_slope erf h continuous_erf.continuousOn
      fun x _ => (hasDerivAt_erf x).differentiableAt.differentiableWithinAt
    rw [deriv_erf, eq_div_iff (by linarith)] at he
    have : Real.exp (-r ^ 2) ≤ Real.exp (-c ^ 2) := by
      apply Real.exp_le_exp.2
      nlinarith [hc.1, hc.2]
    have h3 : 2 / √Real.pi * Real.exp (-r ^ 2) * (r - s) ≤ 2 / √Real.pi * Real.exp (-c ^ 2) * (r - s) := by
      apply mul_le_mul_of_nonneg_right _ (by linarith)
      exact mul_le_mul_of_nonneg_left this (by positivity)
    linarith

/-- A Newton step from a number that is not negative does not pass the exact value. -/
theorem erfinvStep_le (r s : ℝ) (hr : 0 ≤ r) (hs : 0 ≤ s) : erfinvStep (erf s) r ≤ s := by
  have hpos : 0 < 2 / √Real.pi * Real.exp (-r ^ 2) := by
    have := sqrt_pi_pos
    positivity
  unfold erfinvStep
  have e : -r * r = -r ^ 2 := by ring
  rw [e]
  have h := erf_tangent r s hr hs
  have : r - s ≤ (erf r - erf s) / (2 / √Real.pi * Real.exp (-r ^ 2)) := by
    rw [le_div_iff₀ hpos]
    linarith
  linarith

/-- A Newton step from below goes up. -/
theorem le_erfinvStep (r s : ℝ) (h : r ≤ s) : r ≤ erfinvStep (erf s) r := by
  have hpos : 0 < 2 / √Real.pi * Real.exp (-r * r) := by
    have := sqrt_pi_pos
    positivity
  unfold erfinvStep
  have := erf_strictMono.monotone h
  have : (erf r - erf s) / (2 / √Real.pi * Real.exp (-r * r)) ≤ 0 :=
    div_nonpos_of_nonpos_of_nonneg (by linarith) hpos.le
  linarith

theorem erfinvStep_neg (x r : ℝ) : erfinvStep (-x) (-r) = -erfinvStep x r := by
  unfold erfinvStep
  rw [erf_neg, show -(-r) * -r = -r * r by ring]
  ring

/-- The slope of the error function bounds it from above: `erf r - r erf' r ≤ 4/(3√π) r³`. -/
theorem erf_sub_le (r : ℝ) (hr : 0 ≤ r) :
    erf r - r * (2 / √Real.pi * Real.exp (-r ^ 2)) ≤ 4 / (3 * √Real.pi) * r ^ 3 := by
  have hpos := sqrt_pi_pos
  have hd : ∀ x : ℝ, HasDerivAt
      (fun r : ℝ => 4 / (3 * √Real.pi) * r ^ 3 - (erf r - r * (2 / √Real.pi * Real.exp (-r ^ 2))))
      (4 / √Real.pi * x ^ 2 * (1 - Real.exp (-x ^ 2))) x := by
    intro x
    have h1 := hasDerivAt_erf x
    have h2 : HasDerivAt (fun r : ℝ => Real.exp (-r ^ 2)) (Real.exp (-x ^ 2) * (-(2 * x))) x := by
      have := ((hasDerivAt_pow 2 x).neg).exp
      simpa using this
    have h3 := (hasDerivAt_id x).mul (h2.const_mul (2 / √Real.pi))
    have h4 := ((hasDerivAt_pow 3 x).const_mul (4 / (3 * √Real.pi))).sub (h1.sub h3)
    refine h4.congr_deriv ?_
    simp only [id]
    field_simp
    ring
  have hm : MonotoneOn
      (fun r : ℝ => 4 / (3 * √Real.pi) * r ^ 3 - (erf r - r * (2 / √Real.pi * Real.exp (-r ^ 2))))
      (Set.Ici 0) := by
    apply monotoneOn_of_deriv_nonneg (convex_Ici 0)
    · exact fun x _ => (hd x).continuousAt.continuousWithinAt
    · exact fun x _ => (hd x).differentiableAt.differentiableWithinAt
    · intro x _
      rw [(hd x).deriv]
      have : Real.exp (-x ^ 2) ≤ 1 := Real.exp_le_one_iff.2 (by nlinarith [sq_nonneg x])
      have : 0 ≤ 1 - Real.exp (-x ^ 2) := by linarith
      positivity
  have := hm (Set.mem_Ici.2 le_rfl) (Set.mem_Ici.2 hr) hr
  simp only [erf_zero] at this
  norm_num at this
  linarith

/-- The condition under which a Newton step from `r` does not become negative. -/
theorem erfinvStep_nonneg {x r : ℝ} (h : erf r - r * (2 / √Real.pi * Real.exp (-r ^ 2)) ≤ x) :
    0 ≤ erfinvStep x r := by
  have hpos : 0 < 2 / √Real.pi * Real.exp (-r ^ 2) := by
    have := sqrt_pi_pos
    positivity
  unfold erfinvStep
  rw [show -r * r = -r ^ 2 by ring]
  have : (erf r - x) / (2 / √Real.pi * Real.exp (-r ^ 2)) ≤ r := by
    rw [div_le_iff₀ hpos]
    linarith
  linarith

/-- The central starting value is between 0 and `1.2 x`. -/
theorem erfinvCentral_bounds (x : ℝ) (h0 : 0 ≤ x) (h1 : x ≤ 0.7) :
    0 ≤ erfinvCentral x ∧ erfinvCentral x ≤ 1.2 * x := by
  have ht0 : 0 ≤ x * x := by positivity
  have ht1 : x * x ≤ 0.49 := by nlinarith
  unfold erfinvCentral
  dsimp only
  generalize x * x = t at ht0 ht1
  have hn : 0 ≤ ((-0.140543331 * t + 0.914624893) * t + -1.645349621) * t + 0.886226899 := by
    nlinarith [mul_nonneg ht0 ht0, mul_nonneg (mul_nonneg ht0 ht0) (sub_nonneg.2 ht1)]
  have hd : 0 < (((0.012229801 * t + -0.329097515) * t + 1.442710462) * t + -2.118377725) * t + 1 := by
    nlinarith [mul_nonneg ht0 ht0, mul_nonneg (mul_nonneg ht0 ht0) (sub_nonneg.2 ht1),
      mul_nonneg (mul_nonneg ht0 ht0) (mul_nonneg ht0 ht0)]
  constructor
  · exact div_nonneg (mul_nonneg h0 hn) hd.le
  · rw [div_le_iff₀ hd, show 1.2 * x * ((((0.012229801 * t + -0.329097515) * t + 1.442710462) * t +
      -2.118377725) * t + 1) = x * (1.2 * ((((0.012229801 * t + -0.329097515) * t + 1.442710462) * t +
      -2.118377725) * t + 1)) by ring]
    apply mul_le_mul_of_nonneg_left _ h0
    nlinarith [mul_nonneg ht0 ht0, mul_nonneg (mul_nonneg ht0 ht0) (sub_nonneg.2 ht1),
      mul_nonneg (mul_nonneg ht0 ht0) (mul_nonneg ht0 ht0), sq_nonneg (t - 0.49)]

theorem sqrt_pi_bounds : 1.77 < √Real.pi ∧ √Real.pi < 1.7726 := by
  constructor
  · apply Real.lt_sqrt_of_sq_lt
    have := Real.pi_gt_d4
    norm_num at this ⊢
    linarith
  · rw [Real.sqrt_lt' (by norm_num)]
    have := Real.pi_lt_d4
    norm_num at this ⊢
    linarith

/-- The first Newton step from the central starting value is not negative. -/
theorem central_first (x : ℝ) (h0 : 0 ≤ x) (h1 : x ≤ 0.7) :
    0 ≤ erfinvStep x (erfinvCentral x) := by
  obtain ⟨b0, b1⟩ := erfinvCentral_bounds x h0 h1
  apply erfinvStep_nonneg
  refine (erf_sub_le _ b0).trans ?_
  have h3 : erfinvCentral x ^ 3 ≤ (1.2 * x) ^ 3 := pow_le_pow_left₀ b0 b1 3
  have hq : 4 / (3 * √Real.pi) ≤ 0.76 := by
    rw [div_le_iff₀ (by linarith [sqrt_pi_pos])]
    linarith [sqrt_pi_bounds.1]
  have hx : (1.2 * x) ^ 3 ≤ 0.85 * x := by
    have : x * x ≤ 0.49 := by nlinarith
    nlinarith [mul_nonneg h0 (sub_nonneg.2 this)]
  have hp : 0 ≤ 4 / (3 * √Real.pi) := by
    have := sqrt_pi_pos
    positivity
  calc 4 / (3 * √Real.pi) * erfinvCentral x ^ 3 ≤ 4 / (3 * √Real.pi) * (0.85 * x) :=
        mul_le_mul_of_nonneg_left (h3.trans hx) hp
    _ ≤ 0.76 * (0.85 * x) := mul_le_mul_of_nonneg_right hq (by linarith)
    _ ≤ x := by linarith

/-- The tail starting value as a function of `y`. -/
noncomputable def tailR (y : ℝ) : ℝ :=
  (((1.641345311 * y + 3.429567803) * y + -1.62490649) * y + -1.970840454) /
    ((1.637067800 * y + 3.543889200) * y + 1)

theorem tailR_bounds (y : ℝ) (h0 : 1.37 ≤ y) (h1 : y ≤ 6.12) :
    0.7 ≤ tailR y ∧ tailR y ≤ y - 0.25 ∧ (y ≤ 2 → tailR y ≤ y - 0.5) ∧ (2 ≤ y → 1.4 ≤ tailR y) := by
  have hd : 0 < (1.637067800 * y + 3.543889200) * y + 1 := by nlinarith
  unfold tailR
  refine ⟨?_, ?_, ?_, ?_⟩
  · rw [le_div_iff₀ hd]
    nlinarith [mul_nonneg (sub_nonneg.2 h0) (sub_nonneg.2 h0),
      mul_nonneg (mul_nonneg (sub_nonneg.2 h0) (sub_nonneg.2 h0)) (sub_nonneg.2 h0)]
  · rw [div_le_iff₀ hd]
    nlinarith [mul_nonneg (sub_nonneg.2 h0) (sub_nonneg.2 h1),
      mul_nonneg (mul_nonneg (sub_nonneg.2 h0) (sub_nonneg.2 h0)) (sub_nonneg.2 h1),
      mul_nonneg (mul_nonneg (sub_nonneg.2 h0) (sub_nonneg.2 h1)) (sub_nonneg.2 h1)]
  · intro h2
    rw [div_le_iff₀ hd]
    nlinarith [mul_nonneg (sub_nonneg.2 h0) (sub_nonneg.2 h2),
      mul_nonneg (mul_nonneg (sub_nonneg.2 h0) (sub_nonneg.2 h0)) (sub_nonneg.2 h2),
      mul_nonneg (mul_nonneg (sub_nonneg.2 h0) (sub_nonneg.2 h2)) (sub_nonneg.2 h2)]
  · intro h2
    rw [le_div_iff₀ hd]
    nlinarith [mul_nonneg (sub_nonneg.2 h2) (sub_nonneg.2 h2),
      mul_nonneg (mul_nonneg (sub_nonneg.2 h2) (sub_nonneg.2 h2)) (sub_nonneg.2 h2)]

theorem tail_weight (y : ℝ) (h0 : 1.37 ≤ y) (h1 : y ≤ 6.12) :
    √Real.pi ≤ tailR y * Real.exp (y ^ 2 - tailR y ^ 2) := by
  obtain ⟨b1, b2, b3, b4⟩ := tailR_bounds y h0 h1
  have hp := sqrt_pi_bounds.2
  generalize tailR y = r at *
  have hz : ∀ z : ℝ, 0 ≤ z → z ≤ y ^ 2 - r ^ 2 → 1 + z + z ^ 2 / 2 ≤ Real.exp (y ^ 2 - r ^ 2) := by
    intro z hz h
    exact (Real.quadratic_le_exp_of_nonneg hz).trans (Real.exp_le_exp.2 h)
  rcases le_total y 2 with h | h
  · have := hz 1.035 (by norm_num) (by nlinarith [b3 h])
    have h2 : 2.57 ≤ Real.exp (y ^ 2 - r ^ 2) := by linarith
    nlinarith
  · have := hz 0.8 (by norm_num) (by nlinarith [b4 h])
    have h2 : 2 ≤ Real.exp (y ^ 2 - r ^ 2) := by linarith
    nlinarith [b4 h]

/-- The argument of the tail starting value for the doubles between 0.7 and 1. -/
theorem tail_arg (x : ℝ) (h0 : 0.7 < x) (h1 : x ≤ 1 - 2⁻¹ ^ 53) :
    1.37 ≤ √(-Real.log ((1 - x) / 2)) ∧ √(-Real.log ((1 - x) / 2)) ≤ 6.12 ∧
      x = 1 - 2 * Real.exp (-√(-Real.log ((1 - x) / 2)) ^ 2) := by
  have hx : (0 : ℝ) < 2⁻¹ ^ 53 := by positivity
  have hp : 0 < (1 - x) / 2 := by linarith
  have hl : 1.37 ^ 2 ≤ -Real.log ((1 - x) / 2) := by
    have e1 : Real.log ((1 - x) / 2) ≤ Real.log (3 / 20) := by
      apply Real.log_le_log hp
      linarith
    have e2 : (1.37 : ℝ) ^ 2 ≤ -Real.log (3 / 20) := by
      rw [← Real.log_inv, Real.le_log_iff_exp_le (by norm_num)]
      have h3 := Real.exp_one_lt_d9
      have h4 : Real.exp (1.37 ^ 2) ^ 50 ≤ ((3 / 20 : ℝ)⁻¹) ^ 50 := by
        rw [← Real.exp_nat_mul]
        calc Real.exp ((50 : ℕ) * 1.37 ^ 2) ≤ Real.exp ((94 : ℕ) * 1) := by
              apply Real.exp_le_exp.2
              norm_num
          _ = Real.exp 1 ^ 94 := Real.exp_nat_mul 1 94
          _ ≤ 2.7182818286 ^ 94 := pow_le_pow_left₀ (Real.exp_pos 1).le h3.le 94
          _ ≤ _ := by norm_num
      exact le_of_pow_le_pow_left₀ (by norm_num) (by norm_num) h4
    linarith
  have hu : -Real.log ((1 - x) / 2) ≤ 6.12 ^ 2 := by
    have e1 : Real.log (2⁻¹ ^ 54) ≤ Real.log ((1 - x) / 2) := by
      apply Real.log_le_log (by positivity)
      rw [pow_succ]
      linarith
    rw [Real.log_pow, Real.log_inv] at e1
    have := Real.log_two_lt_d9
    norm_num at e1 this ⊢
    linarith
  have hnn : 0 ≤ -Real.log ((1 - x) / 2) := le_trans (by norm_num) hl
  refine ⟨Real.le_sqrt_of_sq_le hl, Real.sqrt_le_iff.2 ⟨by norm_num, hu⟩, ?_⟩
  rw [Real.sq_sqrt hnn, neg_neg, Real.exp_log hp]
  ring

/-- The tail starting value is positive, and the first Newton step from it is not negative. -/
theorem tail_first (x : ℝ) (h0 : 0.7 < x) (h1 : x ≤ 1 - 2⁻¹ ^ 53) :
    0 ≤ erfinvTail x ∧ 0 ≤ erfinvStep x (erfinvTail x) := by
  obtain ⟨y0, y1, hx⟩ := tail_arg x h0 h1
  have e : erfinvTail x = tailR (√(-Real.log ((1 - x) / 2))) := rfl
  rw [e]
  generalize √(-Real.log ((1 - x) / 2)) = y at *
  have hb := (tailR_bounds y y0 y1).1
  refine ⟨le_trans (by norm_num) hb, ?_⟩
  apply erfinvStep_nonneg
  have hw := tail_weight y y0 y1
  have hpi := sqrt_pi_pos
  have h2 : 2 * Real.exp (-y ^ 2) ≤ tailR y * (2 / √Real.pi * Real.exp (-tailR y ^ 2)) := by
    have e2 : Real.exp (y ^ 2 - tailR y ^ 2) = Real.exp (-tailR y ^ 2) / Real.exp (-y ^ 2) := by
      rw [← Real.exp_sub]
      congr 1
      ring
    rw [e2, ← mul_div_assoc, le_div_iff₀ (Real.exp_pos _)] at hw
    rw [← mul_assoc, ← mul_div_assoc, div_mul_eq_mul_div, le_div_iff₀ hpi]
    nlinarith
  have := erf_lt_one (tailR y)
  rw [hx]
  linarith

/-- Newton steps between 0 and the exact value are ordered like their starting points. -/
theorem erfinvStep_mono (s r : ℝ) (hr : 0 ≤ r) (h : r ≤ s) :
    √Real.pi / 2 * erf s ≤ erfinvStep (erf s) r := by
  have hpi := sqrt_pi_pos
  -- erf r ≥ r erf' r, so that x + r erf' r - erf r ≥ ... ; divided by the slope
  have hs : erf r ≤ erf s := erf_strictMono.monotone h
  have ht := erf_tangent r 0 hr le_rfl
  rw [erf_zero] at ht
  have he : Real.exp (-r ^ 2) ≤ 1 := Real.exp_le_one_iff.2 (by nlinarith [sq_nonneg r])
  have hpos := Real.exp_pos (-r ^ 2)
  have hup : √Real.pi / 2 * erf r ≤ r := by
    have := erf_tangent 0 r le_rfl hr
    rw [erf_zero] at this
    norm_num at this
    rw [div_mul_eq_mul_div, div_le_iff₀ two_pos]
    rw [div_mul_eq_mul_div, le_div_iff₀ hpi] at this
    linarith
  unfold erfinvStep
  rw [show -r * r = -r ^ 2 by ring]
  have key : √Real.pi / 2 * (erf s - erf r) ≤ (erf s - erf r) / (2 / √Real.pi * Real.exp (-r ^ 2)) := by
    rw [le_div_iff₀ (by positivity)]
    have e : √Real.pi / 2 * (erf s - erf r) * (2 / √Real.pi * Real.exp (-r ^ 2)) =
        (erf s - erf r) * Real.exp (-r ^ 2) := by
      field_simp
    rw [e]
    nlinarith
  have e2 : (erf r - erf s) / (2 / √Real.pi * Real.exp (-r ^ 2)) =
      -((erf s - erf r) / (2 / √Real.pi * Real.exp (-r ^ 2))) := by
    rw [← neg_div]
    congr 1
    ring
  rw [e2]
  nlinarith

/-- `erfinv` for numbers that are not negative: a real number between the
linear approximation and the exact value. -/
theorem erfinv_nonneg (s : ℝ) (hs : 0 ≤ s) (h1 : erf s ≤ 1 - 2⁻¹ ^ 53) :
    ∃ r : ℝ, erfinv (erf s) = (r : EReal) ∧ √Real.pi / 2 * erf s ≤ r ∧ r ≤ s := by
  have hx0 : 0 ≤ erf s := by
    rw [← erf_zero]
    exact erf_strictMono.monotone hs
  have hx1 : erf s < 1 := erf_lt_one s
  have hstart : 0 ≤ (if |erf s| ≤ 0.7 then erfinvCentral |erf s| else erfinvTail |erf s|) ∧
      0 ≤ erfinvStep (erf s) (if |erf s| ≤ 0.7 then erfinvCentral |erf s| else erfinvTail |erf s|) := by
    rw [abs_of_nonneg hx0]
    split
    · rename_i h
      exact ⟨(erfinvCentral_bounds _ hx0 h).1, central_first _ hx0 h⟩
    · rename_i h
      exact tail_first _ (not_le.1 h) h1
  refine ⟨_, ?_, ?_, erfinvStep_le _ s hstart.2 hs⟩
  · unfold erfinv
    rw [if_neg (by linarith), if_neg (by linarith)]
    simp only [if_neg (not_lt.2 hx0), mul_one]
    rw [abs_of_nonneg hx0]
  · exact erfinvStep_mono s _ hstart.2 (erfinvStep_le _ s hstart.1 hs)

/-! ## The inverse error function -/

/-- **C68.** `erfinv` is odd, at the ends too. -/
theorem C68_erfinv_odd (x : ℝ) : erfinv (-x) = -erfinv x := by
  unfold erfinv
  by_cases h1 : x ≤ -1
  · rw [if_neg (by linarith), if_pos (by linarith : (1 : ℝ) ≤ -x), if_pos h1]
    rfl
  · by_cases h2 : 1 ≤ x
    · rw [if_pos (by linarith : -x ≤ -1), if_neg h1, if_pos h2]
      rfl
    · rw [if_neg (by linarith), if_neg (by linarith), if_neg h1, if_neg h2]
      dsimp only
      rw [abs_neg, ← EReal.coe_neg]
      congr 1
      rcases lt_trichotomy x 0 with h | h | h
      · rw [if_neg (by linarith), if_pos h]
        simp only [mul_one, mul_neg, erfinvStep_neg, neg_neg]
      · subst h
        have hc : erfinvCentral 0 = 0 := by simp [erfinvCentral]
        have hs : erfinvStep 0 0 = 0 := by simp [erfinvStep, erf_zero]
        norm_num [hc, hs]
      · rw [if_pos (show -x < 0 by linarith), if_neg (show ¬ x < 0 by linarith)]
        simp only [mul_one, mul_neg, erfinvStep_neg]

/-- **C68.** `erfinv` of a double: for every `s` whose `erf` is at most `1 - 2⁻⁵³` in absolute value (the
doubles between -1 and 1) it is a real number between the linear approximation `x √π / 2` and the exact
value `s`, which it never passes. -/
theorem C68_erfinv (s : ℝ) (h : |erf s| ≤ 1 - 2⁻¹ ^ 53) :
    ∃ r : ℝ, erfinv (erf s) = (r : EReal) ∧
      (0 ≤ s → √Real.pi / 2 * erf s ≤ r ∧ r ≤ s) ∧ (s ≤ 0 → s ≤ r ∧ r ≤ √Real.pi / 2 * erf s) := by
  rcases le_total 0 s with hs | hs
  · obtain ⟨r, h1, h2, h3⟩ := erfinv_nonneg s hs ((le_abs_self _).trans h)
    refine ⟨r, h1, fun _ => ⟨h2, h3⟩, fun h4 => ?_⟩
    have : s = 0 := le_antisymm h4 hs
    subst this
    rw [erf_zero, mul_zero] at h2 ⊢
    exact ⟨h2, h3⟩
  · obtain ⟨r, h1, h2, h3⟩ := erfinv_nonneg (-s) (by linarith)
      (by rw [erf_neg]; exact (neg_le_abs _).trans h)
    rw [erf_neg, C68_erfinv_odd, ] at h1
    rw [erf_neg] at h2
    have h5 : erfinv (erf s) = ((-r : ℝ) : EReal) := by
      rw [EReal.coe_neg, ← h1, neg_neg]
    refine ⟨-r, h5, fun h4 => ?_, fun _ => ⟨by linarith, by linarith⟩⟩
    have : s = 0 := le_antisymm hs h4
    subst this
    rw [erf_zero] at h2 ⊢
    constructor <;> linarith

/-- Non-vacuity: every number strictly between -1 and 1 is `erf s` for some `s`. -/
example : ∃ s : ℝ, erf s = 1 / 2 ∧ |erf s| ≤ 1 - 2⁻¹ ^ 53 := by
  obtain ⟨s, hs⟩ := exists_erf (1 / 2) (by norm_num) (by norm_num)
  refine ⟨s, hs, ?_⟩
  rw [hs, abs_of_pos (by norm_num)]
  norm_num

/-- **C68.** The ends. -/
theorem C68_erfinv_ends (x : ℝ) :
    (x ≤ -1 ↔ erfinv x = ⊥) ∧ (1 ≤ x ↔ erfinv x = ⊤) := by
  unfold erfinv
  by_cases h1 : x ≤ -1
  · simp only [h1, if_true]
    refine ⟨trivial, ?_⟩
    constructor
    · intro h; linarith
    · intro h; exact absurd h (by simp)
  · by_cases h2 : 1 ≤ x
    · simp [h1, h2]
    · simp only [h1, h2, if_false, false_iff]
      exact ⟨EReal.coe_ne_bot _, EReal.coe_ne_top _⟩

/-! ## The priors -/

theorem erfE_coe (x : ℝ) : erfE (x : EReal) = erf x := rfl

/-- The number whose `erfinv` is taken: linear between the values at the two limits. -/
theorem truncnorm_arg (x ea eb : ℝ) :
    2 * (x * (1 / 2 * (1 + eb) - 1 / 2 * (1 + ea)) + 1 / 2 * (1 + ea)) - 1 = ea + x * (eb - ea) := by ring

theorem truncnorm_real (x al be : ℝ) :
    truncnormPpf x (al : EReal) (be : EReal) =
      (√2 : ℝ) * erfinv (erf (al / √2) + x * (erf (be / √2) - erf (al / √2))) := by
  unfold truncnormPpf
  dsimp only
  rw [truncnorm_arg, ← EReal.coe_div, ← EReal.coe_div, erfE_coe, erfE_coe]

/-- **C68.** A truncated normal quantile stays in its interval, for all real limits `α ≤ 0 ≤ β` whose
`erf(·/√2)` is at most `1 - 2⁻⁵³` in absolute value. -/
theorem C68_truncnorm (x al be : ℝ) (hx0 : 0 ≤ x) (hx1 : x ≤ 1) (hal : al ≤ 0) (hbe : 0 ≤ be)
    (ha : -(1 - 2⁻¹ ^ 53) ≤ erf (al / √2)) (hb : erf (be / √2) ≤ 1 - 2⁻¹ ^ 53) :
    ∃ r : ℝ, truncnormPpf x (al : EReal) (be : EReal) = (r : EReal) ∧ al ≤ r ∧ r ≤ be := by
  have h2 : 0 < √(2 : ℝ) := Real.sqrt_pos.2 two_pos
  have hab : erf (al / √2) ≤ erf (be / √2) := erf_strictMono.monotone (by gcongr; linarith)
  have l1 : erf (al / √2) ≤ erf (al / √2) + x * (erf (be / √2) - erf (al / √2)) := by nlinarith
  have l2 : erf (al / √2) + x * (erf (be / √2) - erf (al / √2)) ≤ erf (be / √2) := by nlinarith
  obtain ⟨s, hs⟩ := exists_erf (erf (al / √2) + x * (erf (be / √2) - erf (al / √2)))
    (lt_of_lt_of_le (neg_one_lt_erf _) l1) (lt_of_le_of_lt l2 (erf_lt_one _))
  rw [truncnorm_real, ← hs]
  rw [← hs] at l1 l2
  obtain ⟨r, hr, h3, h4⟩ := C68_erfinv s (abs_le.2 ⟨by linarith, by linarith⟩)
  have s1 : al / √2 ≤ s := erf_strictMono.le_iff_le.1 l1
  have s2 : s ≤ be / √2 := erf_strictMono.le_iff_le.1 l2
  have hpi := sqrt_pi_pos
  refine ⟨√2 * r, by rw [hr, EReal.coe_mul], ?_, ?_⟩
  · rw [mul_comm, ← div_le_iff₀ h2]
    rcases le_total 0 s with h | h
    · have : 0 ≤ erf s := by rw [← erf_zero]; exact erf_strictMono.monotone h
      have : 0 ≤ √Real.pi / 2 * erf s := by positivity
      have : al / √2 ≤ 0 := div_nonpos_of_nonpos_of_nonneg hal h2.le
      linarith [(h3 h).1]
    · linarith [(h4 h).1]
  · rw [mul_comm, ← le_div_iff₀ h2]
    rcases le_total 0 s with h | h
    · linarith [(h3 h).2]
    · have : erf s ≤ 0 := by rw [← erf_zero]; exact erf_strictMono.monotone h
      have : √Real.pi / 2 * erf s ≤ 0 := mul_nonpos_of_nonneg_of_nonpos (by positivity) this
      have : 0 ≤ be / √2 := by positivity
      linarith [(h4 h).2]

theorem erf_le_mul (x : ℝ) (hx : 0 ≤ x) : erf x ≤ 1.2 * x := by
  have h := erf_tangent 0 x le_rfl hx
  rw [erf_zero] at h
  norm_num at h
  have : 2 / √Real.pi ≤ 1.2 := by
    rw [div_le_iff₀ sqrt_pi_pos]
    linarith [sqrt_pi_bounds.1]
  nlinarith

theorem inv_sqrt_two_le : 1 / √(2 : ℝ) ≤ 0.71 := by
  rw [div_le_iff₀ (Real.sqrt_pos.2 two_pos)]
  have : 1.41 ≤ √(2 : ℝ) := Real.le_sqrt_of_sq_le (by norm_num)
  linarith

theorem erf_unit_le : erf (1 / √2) ≤ 0.9 := by
  have h := erf_le_mul (1 / √2) (by positivity)
  linarith [inv_sqrt_two_le]

/-- **C68.** The prior of `Eshift` covers numbers between -5 and 5 only. -/
theorem C68_shift (c : ℝ) (h0 : 0 ≤ c) (h1 : c ≤ 1) :
    ∃ r : ℝ, priorShift c = (r : EReal) ∧ -5 ≤ r ∧ r ≤ 5 := by
  have e1 : ((-5 - 0) / 5 : ℝ) = -1 := by norm_num
  have e2 : ((5 - 0) / 5 : ℝ) = 1 := by norm_num
  unfold priorShift
  rw [e1, e2]
  obtain ⟨r, hr, l, u⟩ := C68_truncnorm c (-1) 1 h0 h1 (by norm_num) (by norm_num)
    (by rw [neg_div, erf_neg]
        have := erf_unit_le
        norm_num at this ⊢
        linarith)
    (by have := erf_unit_le
        norm_num at this ⊢
        linarith)
  rw [hr, ← EReal.coe_mul, ← EReal.coe_add]
  exact ⟨_, rfl, by linarith, by linarith⟩

/-- The number whose `erfinv` is taken for the prior of `A`. -/
noncomputable def scaleArg (c : ℝ) : ℝ := erf (-(1 / 10) / √2) + c * (1 - erf (-(1 / 10) / √2))

theorem priorScale_pos (g c : ℝ) (hg : 0 < g) :
    priorScale g c =
      .ok ((√2 : ℝ) * erfinv (scaleArg c) * ((10 * g : ℝ) : EReal) + ((g : ℝ) : EReal)) := by
  unfold priorScale
  rw [if_neg hg.ne']
  dsimp only
  rw [if_pos (by linarith)]
  have e1 : (0 - g) / (10 * g) = -(1 / 10) := by
    field_simp
    norm_num
  have h2 : 0 < √(2 : ℝ) := Real.sqrt_pos.2 two_pos
  have e2 : (⊤ : EReal) / ((√2 : ℝ) : EReal) = ⊤ :=
    EReal.top_div_of_pos_ne_top (by exact_mod_cast h2) (EReal.coe_ne_top _)
  have e3 : erfE ⊤ = 1 := rfl
  unfold truncnormPpf
  dsimp only
  rw [e1, e2, e3, truncnorm_arg, ← EReal.coe_div, erfE_coe]
  rfl

/-- **C68.** The prior of `A` (and of `B`) covers no negative numbers: for a positive guess and every
`c` between 0 and 1 for which the argument of `erfinv` is at most `1 - 2⁻⁵³` (the largest double below 1)
the value is a real number and not negative. For `c = 1` it is infinite. -/
theorem C68_scale (g c : ℝ) (hg : 0 < g) (h0 : 0 ≤ c) :
    (scaleArg c ≤ 1 - 2⁻¹ ^ 53 → ∃ r : ℝ, priorScale g c = .ok (r : EReal) ∧ 0 ≤ r) ∧
    (c = 1 → priorScale g c = .ok ⊤) := by
  have h2 : 0 < √(2 : ℝ) := Real.sqrt_pos.2 two_pos
  rw [priorScale_pos g c hg]
  constructor
  · intro h1
    have hea : -1 < erf (-(1 / 10) / √2) := neg_one_lt_erf _
    have heb : erf (-(1 / 10) / √2) < 1 := erf_lt_one _
    have l1 : erf (-(1 / 10) / √2) ≤ scaleArg c := by
      unfold scaleArg
      nlinarith
    have l3 : -(0.9 : ℝ) ≤ erf (-(1 / 10) / √2) := by
      rw [neg_div, erf_neg]
      have := erf_le_mul (1 / 10 / √2) (by positivity)
      have h5 := inv_sqrt_two_le
      have h6 : 1 / 10 / √(2 : ℝ) = 1 / 10 * (1 / √2) := by ring
      rw [h6] at this ⊢
      linarith
    have hp : (0 : ℝ) < 2⁻¹ ^ 53 := by positivity
    have hp' : (2⁻¹ : ℝ) ^ 53 ≤ 0.1 := by norm_num
    obtain ⟨s, hs⟩ := exists_erf (scaleArg c) (by linarith) (by linarith)
    rw [← hs] at h1 l1 ⊢
    obtain ⟨r, hr, h3, h4⟩ := C68_erfinv s (abs_le.2 ⟨by linarith, h1⟩)
    have s1 : -(1 / 10) / √2 ≤ s := erf_strictMono.le_iff_le.1 l1
    have hpi := sqrt_pi_pos
    rw [hr, ← EReal.coe_mul, ← EReal.coe_mul, ← EReal.coe_add]
    refine ⟨_, rfl, ?_⟩
    have hr' : -(1 / 10) ≤ √2 * r := by
      rw [mul_comm, ← div_le_iff₀ h2]
      rcases le_total 0 s with h | h
      · have : 0 ≤ erf s := by rw [← erf_zero]; exact erf_strictMono.monotone h
        have : 0 ≤ √Real.pi / 2 * erf s := by positivity
        have : -(1 / 10) / √2 ≤ 0 := div_nonpos_of_nonpos_of_nonneg (by norm_num) h2.le
        linarith [(h3 h).1]
      · linarith [(h4 h).1]
    nlinarith
  · intro hc
    have e : scaleArg c = 1 := by
      unfold scaleArg
      rw [hc]
      ring
    rw [e, (C68_erfinv_ends 1).2.1 le_rfl, EReal.coe_mul_top_of_pos h2,
      EReal.top_mul_coe_of_pos (by linarith), EReal.top_add_coe]

/-- Non-vacuity: `c = 0` gives the lower end. -/
example : scaleArg 0 ≤ 1 - 2⁻¹ ^ 53 := by
  unfold scaleArg
  have : erf (-(1 / 10) / √2) ≤ 0 := by
    rw [← erf_zero]
    apply erf_strictMono.monotone
    exact div_nonpos_of_nonpos_of_nonneg (by norm_num) (Real.sqrt_nonneg _)
  norm_num at this ⊢
  linarith

/-- **C68.** The prior of `alpha` and of `T`: log-uniform from a tenth of the guess to ten times the guess,
with the guess in the middle. -/
theorem C68_log (g c : ℝ) (hg : 0 < g) :
    Real.logb 10 (priorLog g c) = Real.logb 10 g - 1 + 2 * c ∧
    (0 ≤ c → c ≤ 1 → g / 10 ≤ priorLog g c ∧ priorLog g c ≤ 10 * g) ∧
    priorLog g 0 = g / 10 ∧ priorLog g (1 / 2) = g ∧ priorLog g 1 = 10 * g := by
  have key : ∀ c, priorLog g c = (10 : ℝ) ^ (2 * c - 1) * g := by
    intro c
    unfold priorLog
    rw [if_neg hg.ne', show c * 2 + (Real.logb 10 g - 1) = (2 * c - 1) + Real.logb 10 g by ring,
      Real.rpow_add (by norm_num), Real.rpow_logb (by norm_num) (by norm_num) hg]
  have h0 : priorLog g 0 = g / 10 := by
    rw [key, show (2 * 0 - 1 : ℝ) = -1 by norm_num, Real.rpow_neg_one]
    ring
  have h1 : priorLog g 1 = 10 * g := by
    rw [key, show (2 * 1 - 1 : ℝ) = 1 by norm_num, Real.rpow_one]
  refine ⟨?_, ?_, h0, ?_, h1⟩
  · rw [key, Real.logb_mul (by positivity) hg.ne', Real.logb_rpow (by norm_num) (by norm_num)]
    ring
  · intro c0 c1
    rw [← h0, ← h1, key, key, key]
    constructor
    · apply mul_le_mul_of_nonneg_right _ hg.le
      exact Real.rpow_le_rpow_of_exponent_le (by norm_num) (by linarith)
    · apply mul_le_mul_of_nonneg_right _ hg.le
      exact Real.rpow_le_rpow_of_exponent_le (by norm_num) (by linarith)
  · rw [key]
    norm_num

/-- **C68.** A guess of exactly 0, which passes the checks for negative numbers, gives the prior a single
point. -/
theorem C68_zero (c : ℝ) : priorLog 0 c = 0 := by simp [priorLog]

/-- **C68.** Negative guesses are refused. -/
theorem C68_refuses (g : NldGuess) (c : ℝ × ℝ × ℝ × ℝ) :
    (g.alpha < 0 → nldPrior g c = .error .notImplemented) ∧
    (0 ≤ g.alpha → g.T < 0 → nldPrior g c = .error .valueError) := by
  unfold nldPrior
  constructor
  · intro h
    rw [if_pos h]
  · intro h1 h2
    rw [if_neg (not_lt.2 h1), if_pos h2]

/-- **C68.** The prior as a whole, for positive guesses. -/
theorem C68_prior (g : NldGuess) (hA : 0 < g.A) (ha : 0 < g.alpha) (hT : 0 < g.T) (c : ℝ × ℝ × ℝ × ℝ)
    (hc : ∀ x ∈ [c.1, c.2.1, c.2.2.1, c.2.2.2], 0 ≤ x ∧ x ≤ 1) (h1 : scaleArg c.1 ≤ 1 - 2⁻¹ ^ 53) :
    ∃ A alpha T S : ℝ, nldPrior g c = .ok ((A : EReal), alpha, T, (S : EReal)) ∧ 0 ≤ A ∧
      g.alpha / 10 ≤ alpha ∧ alpha ≤ 10 * g.alpha ∧ g.T / 10 ≤ T ∧ T ≤ 10 * g.T ∧ -5 ≤ S ∧ S ≤ 5 := by
  obtain ⟨A, hA', hA0⟩ := (C68_scale g.A c.1 hA (hc c.1 (by simp)).1).1 h1
  obtain ⟨S, hS, s1, s2⟩ := C68_shift c.2.2.2 (hc _ (by simp)).1 (hc _ (by simp)).2
  have la := (C68_log g.alpha c.2.1 ha).2.1 (hc _ (by simp)).1 (hc _ (by simp)).2
  have lT := (C68_log g.T c.2.2.1 hT).2.1 (hc _ (by simp)).1 (hc _ (by simp)).2
  refine ⟨A, _, _, S, ?_, hA0, la.1, la.2, lT.1, lT.2, s1, s2⟩
  unfold nldPrior
  rw [if_neg (by linarith), if_neg (by linarith), hA', hS]
  rfl

/-- **C68 fails.** The bounds given to the normaliser bound the guess only: whatever bound `hi` less than
ten times the guess the temperature has, the prior passes it, and likewise for `alpha`. -/
theorem C68_bounds_fails (g hi : ℝ) (hg : 0 < g) (h : hi < 10 * g) :
    ∃ c, 0 ≤ c ∧ c ≤ 1 ∧ hi < priorLog g c :=
  ⟨1, by norm_num, le_rfl, by rw [(C68_log g 1 hg).2.2.2.2]; exact h⟩

/-- The default bounds of `T` are 0.1 and 1: a guess of 0.5 is allowed, and the prior reaches 5. -/
example : ∃ c : ℝ, 0 ≤ c ∧ c ≤ 1 ∧ (1 : ℝ) < priorLog 0.5 c :=
  C68_bounds_fails 0.5 1 (by norm_num) (by norm_num)

/-- **C68.** With bounds in the order `A`, `alpha`, `T`, `Eshift` each name gets a number within its
bounds, for an optimiser that respects bounds. -/
theorem C68_guess_partial (opt : List (ℝ × ℝ) → List ℝ) (bA ba bT bS : ℝ × ℝ)
    (hl : (opt [bA, ba, bT, bS]).length = 4)
    (hb : ∀ k < 4, ([bA, ba, bT, bS].getD k (0, 0)).1 ≤ (opt [bA, ba, bT, bS]).getD k 0 ∧
      (opt [bA, ba, bT, bS]).getD k 0 ≤ ([bA, ba, bT, bS].getD k (0, 0)).2) :
    ∃ A a T S : ℝ, initialGuess opt [("A", bA), ("alpha", ba), ("T", bT), ("Eshift", bS)] =
      [("A", A), ("alpha", a), ("T", T), ("Eshift", S)] ∧ bA.1 ≤ A ∧ A ≤ bA.2 ∧ ba.1 ≤ a ∧ a ≤ ba.2 ∧
      bT.1 ≤ T ∧ T ≤ bT.2 ∧ bS.1 ≤ S ∧ S ≤ bS.2 := by
  unfold initialGuess deNames
  simp only [List.map_cons, List.map_nil]
  match ho : opt [bA, ba, bT, bS], hl with
  | [A, a, T, S], _ =>
    rw [ho] at hb
    have b0 := hb 0 (by simp)
    have b1 := hb 1 (by simp)
    have b2 := hb 2 (by simp)
    have b3 := hb 3 (by simp)
    simp at b0 b1 b2 b3
    exact ⟨A, a, T, S, rfl, b0.1, b0.2, b1.1, b1.2, b2.1, b2.2, b3.1, b3.2⟩

/-- **C68 fails.** With the same bounds in another order the numbers get the wrong names: here an
optimiser that returns the lower bounds, with the default bounds sorted by name, calls the lower bound of
`Eshift`, which is -5, `alpha`. -/
theorem C68_order_fails :
    initialGuess (fun b => b.map Prod.fst)
      [("A", (0.1, 1000)), ("Eshift", (-5, 5)), ("T", (0.1, 1)), ("alpha", (0.1, 20))] =
      [("A", 0.1), ("alpha", -5), ("T", 0.1), ("Eshift", 0.1)] := rfl

/-- Non-vacuity of `C68_guess_partial`: the optimiser returning lower bounds. -/
example : ∃ A a T S : ℝ, initialGuess (fun b => b.map Prod.fst)
    [("A", (1, 2)), ("alpha", (3, 4)), ("T", (5, 6)), ("Eshift", (7, 8))] =
      [("A", A), ("alpha", a), ("T", T), ("Eshift", S)] ∧ (1 : ℝ) ≤ A ∧ A ≤ 2 := by
  obtain ⟨A, a, T, S, h, h1, h2, -⟩ := C68_guess_partial (fun b => b.map Prod.fst) (1, 2) (3, 4) (5, 6)
    (7, 8) rfl (by
      intro k hk
      interval_cases k <;> norm_num)
  exact ⟨A, a, T, S, h, h1, h2⟩

end Ompy
