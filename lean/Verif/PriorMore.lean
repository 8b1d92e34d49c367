import Verif.PriorProps
import Mathlib.Analysis.SpecialFunctions.Exponential
import Mathlib.Analysis.Calculus.Taylor

/-!
# Accuracy of the inverse error function

For `|x| ≤ 0.7` the starting value of `erfinv` is right to 0.2 percent, and two Newton steps make it right
to `10⁻⁸`.
-/

namespace Ompy

/-! ## The error function of small arguments -/

/-- The first terms of the power series of `√π/2 erf r`. -/
noncomputable def erfSeries (r : ℝ) : ℝ :=
  r - r ^ 3 / 3 + r ^ 5 / 10 - r ^ 7 / 42 + r ^ 9 / 216 - r ^ 11 / 1320

theorem exp_neg_sq_bound (t : ℝ) (h0 : 0 ≤ t) (h1 : t ≤ 1) :
    |Real.exp (-t ^ 2) - (1 - t ^ 2 + t ^ 4 / 2 - t ^ 6 / 6 + t ^ 8 / 24 - t ^ 10 / 120)| ≤
      7 / 4320 * t ^ 12 := by
  have h2 : |(-t ^ 2)| ≤ 1 := by
    rw [abs_neg, abs_of_nonneg (by positivity)]
    nlinarith
  have h := Real.exp_bound h2 (n := 6) (by norm_num)
  have e : ∑ m ∈ Finset.range 6, (-t ^ 2) ^ m / (m.factorial : ℝ) =
      1 - t ^ 2 + t ^ 4 / 2 - t ^ 6 / 6 + t ^ 8 / 24 - t ^ 10 / 120 := by
    simp [Finset.sum_range_succ, Nat.factorial]
    ring
  rw [e] at h
  refine h.trans (le_of_eq ?_)
  rw [abs_neg, abs_of_nonneg (by positivity)]
  norm_num [Nat.factorial]
  ring

theorem erf_series (r : ℝ) (h0 : 0 ≤ r) (h1 : r ≤ 1) :
    |√Real.pi / 2 * erf r - erfSeries r| ≤ 7 / 56160 * r ^ 13 := by
  have hpos := sqrt_pi_pos
  have e1 : √Real.pi / 2 * erf r = ∫ t in (0 : ℝ)..r, Real.exp (-t ^ 2) := by
    unfold erf
    field_simp
  have hP : IntervalIntegrable
      (fun t : ℝ => 1 - t ^ 2 + t ^ 4 / 2 - t ^ 6 / 6 + t ^ 8 / 24 - t ^ 10 / 120) MeasureTheory.volume 0 r :=
    (by fun_prop : Continuous fun t : ℝ =>
      1 - t ^ 2 + t ^ 4 / 2 - t ^ 6 / 6 + t ^ 8 / 24 - t ^ 10 / 120).intervalIntegrable _ _
  have e2 : erfSeries r =
      ∫ t in (0 : ℝ)..r, (1 - t ^ 2 + t ^ 4 / 2 - t ^ 6 / 6 + t ^ 8 / 24 - t ^ 10 / 120) := by
    symm
    have := intervalIntegral.integral_eq_sub_of_hasDerivAt (f := erfSeries)
      (f' := fun t : ℝ => 1 - t ^ 2 + t ^ 4 / 2 - t ^ 6 / 6 + t ^ 8 / 24 - t ^ 10 / 120) (a := 0) (b := r)
      (fun x _ => by
        have h : HasDerivAt erfSeries _ x := (((((hasDerivAt_id x).sub ((hasDerivAt_pow 3 x).div_const 3)).add
          ((hasDerivAt_pow 5 x).div_const 10)).sub ((hasDerivAt_pow 7 x).div_const 42)).add
          ((hasDerivAt_pow 9 x).div_const 216)).sub ((hasDerivAt_pow 11 x).div_const 1320)
        refine h.congr_deriv ?_
        norm_num
        ring) hP
    rw [this]
    simp [erfSeries]
  rw [e1, e2, ← intervalIntegral.integral_sub (cont_gauss.intervalIntegrable _ _) hP, ← Real.norm_eq_abs]
  have e3 : (7 / 56160 * r ^ 13 : ℝ) = ∫ t in (0 : ℝ)..r, 7 / 4320 * t ^ 12 := by
    rw [intervalIntegral.integral_const_mul, integral_pow]
    norm_num
    ring
  rw [e3]
  apply intervalIntegral.norm_integral_le_of_norm_le h0
  · refine Filter.Eventually.of_forall fun t ht => ?_
    rw [Real.norm_eq_abs]
    exact exp_neg_sq_bound t ht.1.le (ht.2.trans h1)
  · exact (by fun_prop : Continuous fun t : ℝ => 7 / 4320 * t ^ 12).intervalIntegrable _ _

/-! ## The central starting value -/

/-- The numerator of the starting value divided by `x`, as function of `t = x²`. -/
def cenN (t : ℚ) : ℚ := ((-0.140543331 * t + 0.914624893) * t + -1.645349621) * t + 0.886226899

/-- Its denominator. -/
def cenD (t : ℚ) : ℚ := (((0.012229801 * t + -0.329097515) * t + 1.442710462) * t + -2.118377725) * t + 1

/-- The series divided by `r`, as function of `u = r²`. -/
def serU (u : ℚ) : ℚ := 1 + u * (-1 / 3 + u * (1 / 10 + u * (-1 / 42 + u * (1 / 216 - u / 1320))))

/-- The check on one piece: with the bounds of the quotient on `[a, b]` the series is close to `√π/2`. -/
def cenCheck (a b : ℚ) : Bool :=
  let lo := cenN b / cenD a
  let hi := cenN a / cenD b
  decide (0 < cenN b) && decide (0 < cenD b) && decide (b * hi ^ 2 ≤ 0.6) &&
  decide (0.8843 ≤ lo * serU (b * hi ^ 2)) && decide (hi * serU (a * lo ^ 2) ≤ 0.8882)

set_option maxRecDepth 100000 in
theorem cenCheck_all :
    (List.range 1000).all (fun k : ℕ => cenCheck (0.49 * k / 1000) (0.49 * (k + 1) / 1000)) = true := by
  decide +kernel

theorem cenN_anti (a t : ℝ) (ha : 0 ≤ a) (h : a ≤ t) (ht : t ≤ 0.49) :
    ((-0.140543331 * t + 0.914624893) * t + -1.645349621) * t + 0.886226899 ≤
      ((-0.140543331 * a + 0.914624893) * a + -1.645349621) * a + 0.886226899 := by
  have e : ((-0.140543331 * a + 0.914624893) * a + -1.645349621) * a + 0.886226899 -
      (((-0.140543331 * t + 0.914624893) * t + -1.645349621) * t + 0.886226899) =
      (t - a) * (1.645349621 - 0.914624893 * (a + t) + 0.140543331 * (a ^ 2 + a * t + t ^ 2)) := by ring
  have h2 : 0 ≤ 1.645349621 - 0.914624893 * (a + t) + 0.140543331 * (a ^ 2 + a * t + t ^ 2) := by
    have : 0 ≤ a ^ 2 + a * t + t ^ 2 := by nlinarith
    linarith
  nlinarith [mul_nonneg (sub_nonneg.2 h) h2]

theorem cenD_anti (a t : ℝ) (ha : 0 ≤ a) (h : a ≤ t) (ht : t ≤ 0.49) :
    (((0.012229801 * t + -0.329097515) * t + 1.442710462) * t + -2.118377725) * t + 1 ≤
      (((0.012229801 * a + -0.329097515) * a + 1.442710462) * a + -2.118377725) * a + 1 := by
  have e : (((0.012229801 * a + -0.329097515) * a + 1.442710462) * a + -2.118377725) * a + 1 -
      ((((0.012229801 * t + -0.329097515) * t + 1.442710462) * t + -2.118377725) * t + 1) =
      (t - a) * (2.118377725 - 1.442710462 * (a + t) + 0.329097515 * (a ^ 2 + a * t + t ^ 2) -
        0.012229801 * (a ^ 3 + a ^ 2 * t + a * t ^ 2 + t ^ 3)) := by ring
  have h2 : 0 ≤ 2.118377725 - 1.442710462 * (a + t) + 0.329097515 * (a ^ 2 + a * t + t ^ 2) -
        0.012229801 * (a ^ 3 + a ^ 2 * t + a * t ^ 2 + t ^ 3) := by
    have h3 : 0 ≤ a ^ 2 + a * t + t ^ 2 := by nlinarith
    have h0 : 0 ≤ t := ha.trans h
    have h4 : a ^ 3 ≤ 1 := pow_le_one₀ ha (by linarith)
    have h5 : t ^ 3 ≤ 1 := pow_le_one₀ h0 (by linarith)
    have h6 : a ^ 2 * t ≤ 1 := mul_le_one₀ (pow_le_one₀ ha (by linarith)) h0 (by linarith)
    have h7 : a * t ^ 2 ≤ 1 := mul_le_one₀ (by linarith) (by positivity) (pow_le_one₀ h0 (by linarith))
    linarith
  nlinarith [mul_nonneg (sub_nonneg.2 h) h2]

/-- The series over the real numbers. -/
noncomputable def serR (u : ℝ) : ℝ := 1 + u * (-1 / 3 + u * (1 / 10 + u * (-1 / 42 + u * (1 / 216 - u / 1320))))

theorem serU_cast (u : ℚ) : ((serU u : ℚ) : ℝ) = serR u := by
  unfold serU serR
  push_cast
  ring

theorem serR_anti (u v : ℝ) (hu : 0 ≤ u) (h : u ≤ v) (hv : v ≤ 1) : serR v ≤ serR u := by
  have e : serR u - serR v = (v - u) * (1 / 3 - (u + v) / 10 + (u ^ 2 + u * v + v ^ 2) / 42 -
      (u ^ 3 + u ^ 2 * v + u * v ^ 2 + v ^ 3) / 216 +
      (u ^ 4 + u ^ 3 * v + u ^ 2 * v ^ 2 + u * v ^ 3 + v ^ 4) / 1320) := by
    unfold serR
    ring
  have h0 : 0 ≤ v := hu.trans h
  have h3 : 0 ≤ u ^ 2 + u * v + v ^ 2 := by positivity
  have h8 : 0 ≤ u ^ 4 + u ^ 3 * v + u ^ 2 * v ^ 2 + u * v ^ 3 + v ^ 4 := by positivity
  have h4 : u ^ 3 ≤ 1 := pow_le_one₀ hu (by linarith)
  have h5 : v ^ 3 ≤ 1 := pow_le_one₀ h0 (by linarith)
  have h6 : u ^ 2 * v ≤ 1 := mul_le_one₀ (pow_le_one₀ hu (by linarith)) h0 (by linarith)
  have h7 : u * v ^ 2 ≤ 1 := mul_le_one₀ (by linarith) (by positivity) (pow_le_one₀ h0 (by linarith))
  have : 0 ≤ serR u - serR v := by
    rw [e]
    apply mul_nonneg (sub_nonneg.2 h)
    linarith
  linarith

theorem serR_pos (u : ℝ) (hu : 0 ≤ u) (h : u ≤ 1) : 0 < serR u := by
  have := serR_anti u 1 hu h le_rfl
  have h1 : 0 < serR 1 := by unfold serR; norm_num
  linarith

/-- The quotient of the starting value and `x`, and the series of its error function. -/
theorem cen_piece (a b : ℚ) (ha : 0 ≤ a) (hb : b ≤ 0.49) (hc : cenCheck a b = true) (t : ℝ) (h1 : (a : ℝ) ≤ t)
    (h2 : t ≤ b) :
    let q := (((-0.140543331 * t + 0.914624893) * t + -1.645349621) * t + 0.886226899) /
      ((((0.012229801 * t + -0.329097515) * t + 1.442710462) * t + -2.118377725) * t + 1)
    0 < q ∧ t * q ^ 2 ≤ 0.6 ∧ 0.8843 ≤ q * serR (t * q ^ 2) ∧ q * serR (t * q ^ 2) ≤ 0.8882 := by
  intro q
  unfold cenCheck at hc
  simp only [Bool.and_eq_true, decide_eq_true_eq] at hc
  obtain ⟨⟨⟨⟨c1, c2⟩, c3⟩, c4⟩, c5⟩ := hc
  have hb' : (b : ℝ) ≤ 0.49 := by
    have := (Rat.cast_le (K := ℝ)).2 hb
    push_cast at this
    norm_num at this ⊢
    exact this
  have ha' : (0 : ℝ) ≤ a := by exact_mod_cast ha
  have ht0 : 0 ≤ t := ha'.trans h1
  have n1 := cenN_anti t b ht0 h2 hb'
  have n2 := cenN_anti a t ha' h1 (h2.trans hb')
  have d1 := cenD_anti t b ht0 h2 hb'
  have d2 := cenD_anti a t ha' h1 (h2.trans hb')
  have eN : ∀ z : ℚ, ((cenN z : ℚ) : ℝ) =
      ((-0.140543331 * z + 0.914624893) * z + -1.645349621) * z + 0.886226899 := by
    intro z
    unfold cenN
    push_cast
    norm_num
  have eD : ∀ z : ℚ, ((cenD z : ℚ) : ℝ) =
      (((0.012229801 * z + -0.329097515) * z + 1.442710462) * z + -2.118377725) * z + 1 := by
    intro z
    unfold cenD
    push_cast
    norm_num
  rw [← eN] at n1 n2
  rw [← eD] at d1 d2
  have p1 : (0 : ℝ) < (cenN b : ℚ) := by exact_mod_cast c1
  have p2 : (0 : ℝ) < (cenD b : ℚ) := by exact_mod_cast c2
  have hNt := lt_of_lt_of_le p1 n1
  have hDt := lt_of_lt_of_le p2 d1
  have hDa := lt_of_lt_of_le hDt d2
  have ql : ((cenN b : ℚ) : ℝ) / (cenD a : ℚ) ≤ q := div_le_div₀ hNt.le n1 hDt d2
  have qh : q ≤ ((cenN a : ℚ) : ℝ) / (cenD b : ℚ) := div_le_div₀ (hNt.le.trans n2) n2 p2 d1
  have lpos : 0 < ((cenN b : ℚ) : ℝ) / (cenD a : ℚ) := div_pos p1 hDa
  have qpos : 0 < q := lt_of_lt_of_le lpos ql
  generalize hlo : cenN b / cenD a = lo at c4 c5
  generalize hhi : cenN a / cenD b = hi at c3 c4 c5
  have elo : ((cenN b : ℚ) : ℝ) / (cenD a : ℚ) = lo := by rw [← hlo]; push_cast; rfl
  have ehi : ((cenN a : ℚ) : ℝ) / (cenD b : ℚ) = hi := by rw [← hhi]; push_cast; rfl
  rw [elo] at ql lpos
  rw [ehi] at qh
  have c3' : (b : ℝ) * (hi : ℝ) ^ 2 ≤ 0.6 := by
    have := (Rat.cast_le (K := ℝ)).2 c3
    push_cast at this
    norm_num at this ⊢
    exact this
  have u2 : t * q ^ 2 ≤ b * (hi : ℝ) ^ 2 :=
    mul_le_mul h2 (pow_le_pow_left₀ qpos.le qh 2) (by positivity) (ht0.trans h2)
  have u1 : a * (lo : ℝ) ^ 2 ≤ t * q ^ 2 :=
    mul_le_mul h1 (pow_le_pow_left₀ lpos.le ql 2) (by positivity) ht0
  have u0 : 0 ≤ t * q ^ 2 := by positivity
  have c4' : 0.8843 ≤ (lo : ℝ) * serR (b * (hi : ℝ) ^ 2) := by
    have := (Rat.cast_le (K := ℝ)).2 c4
    rw [Rat.cast_mul, serU_cast] at this
    push_cast at this
    norm_num at this ⊢
    exact this
  have c5' : (hi : ℝ) * serR (a * (lo : ℝ) ^ 2) ≤ 0.8882 := by
    have := (Rat.cast_le (K := ℝ)).2 c5
    rw [Rat.cast_mul, serU_cast] at this
    push_cast at this
    norm_num at this ⊢
    exact this
  have s1 := serR_anti _ _ u0 u2 (by linarith)
  have s2 := serR_anti _ _ (mul_nonneg ha' (sq_nonneg _)) u1 (by linarith)
  have s3 := serR_pos _ u0 (by linarith)
  have s4 := serR_pos (b * (hi : ℝ) ^ 2) (u0.trans u2) (by linarith)
  refine ⟨qpos, u2.trans c3', ?_, ?_⟩
  · exact c4'.trans (mul_le_mul ql s1 s4.le qpos.le)
  · exact (mul_le_mul qh s2 s3.le (qpos.le.trans qh)).trans c5'

theorem cen_all (t : ℝ) (h0 : 0 ≤ t) (h1 : t ≤ 0.49) :
    let q := (((-0.140543331 * t + 0.914624893) * t + -1.645349621) * t + 0.886226899) /
      ((((0.012229801 * t + -0.329097515) * t + 1.442710462) * t + -2.118377725) * t + 1)
    0 < q ∧ t * q ^ 2 ≤ 0.6 ∧ 0.8843 ≤ q * serR (t * q ^ 2) ∧ q * serR (t * q ^ 2) ≤ 0.8882 := by
  have key : ∃ k : ℕ, k < 1000 ∧ 0.49 * (k : ℝ) / 1000 ≤ t ∧ t ≤ 0.49 * ((k : ℝ) + 1) / 1000 := by
    rcases h1.lt_or_eq with h | h
    · refine ⟨⌊t * 1000 / 0.49⌋₊, ?_, ?_, ?_⟩
      · rw [Nat.floor_lt (by positivity)]
        rw [div_lt_iff₀ (by norm_num)]
        push_cast
        linarith
      · have := Nat.floor_le (a := t * 1000 / 0.49) (by positivity)
        rw [le_div_iff₀ (by norm_num)] at this
        linarith
      · have := (Nat.lt_floor_add_one (t * 1000 / 0.49)).le
        rw [div_le_iff₀ (by norm_num)] at this
        linarith
    · refine ⟨999, by norm_num, ?_, ?_⟩ <;> rw [h] <;> norm_num
  obtain ⟨k, hk, l, u⟩ := key
  have hc := List.all_eq_true.1 cenCheck_all k (List.mem_range.2 hk)
  have hk' : (k : ℚ) + 1 ≤ 1000 := by exact_mod_cast hk
  apply cen_piece _ _ (by positivity) _ hc t
  · push_cast
    norm_num at l ⊢
    linarith
  · push_cast
    norm_num at u ⊢
    linarith
  · rw [div_le_iff₀ (by norm_num)]
    linarith

/-- The starting value is right to half a percent, measured with the error function. -/
theorem central_start (x : ℝ) (h0 : 0 ≤ x) (h1 : x ≤ 0.7) :
    erfinvCentral x ≤ 0.8 ∧ |erf (erfinvCentral x) - x| ≤ 0.004 * x := by
  obtain ⟨q0, hu, s1, s2⟩ := cen_all (x * x) (by positivity) (by nlinarith)
  obtain ⟨b0, b1⟩ := erfinvCentral_bounds x h0 h1
  have e : erfinvCentral x = x * ((((-0.140543331 * (x * x) + 0.914624893) * (x * x) + -1.645349621) * (x * x) + 0.886226899) /
      ((((0.012229801 * (x * x) + -0.329097515) * (x * x) + 1.442710462) * (x * x) + -2.118377725) * (x * x) + 1)) := by
    unfold erfinvCentral
    rw [mul_div_assoc]
  generalize (((-0.140543331 * (x * x) + 0.914624893) * (x * x) + -1.645349621) * (x * x) + 0.886226899) /
      ((((0.012229801 * (x * x) + -0.329097515) * (x * x) + 1.442710462) * (x * x) + -2.118377725) * (x * x) + 1) = q at *
  generalize erfinvCentral x = r at *
  have eu : x * x * q ^ 2 = r ^ 2 := by rw [e]; ring
  rw [eu] at hu s1 s2
  have hr : r ≤ 0.8 := by nlinarith
  refine ⟨hr, ?_⟩
  have hs := erf_series r b0 (by linarith)
  have es : erfSeries r = x * (q * serR (r ^ 2)) := by
    rw [← mul_assoc, ← e]
    unfold erfSeries serR
    ring
  have h13 : 7 / 56160 * r ^ 13 ≤ 0.00001 * x := by
    have h6 : r ^ 12 ≤ 0.06 := by
      have : r ^ 12 = (r ^ 2) ^ 6 := by ring
      rw [this]
      calc (r ^ 2) ^ 6 ≤ 0.6 ^ 6 := pow_le_pow_left₀ (by positivity) hu 6
        _ ≤ 0.06 := by norm_num
    have : r ^ 13 = r ^ 12 * r := by ring
    rw [this]
    nlinarith
  rw [es] at hs
  obtain ⟨l, u⟩ := abs_le.1 (hs.trans h13)
  have hp := sqrt_pi_bounds
  have m1 := mul_le_mul_of_nonneg_left s1 h0
  have m2 := mul_le_mul_of_nonneg_left s2 h0
  rw [abs_le]
  constructor
  · by_contra hcon
    push Not at hcon
    nlinarith
  · by_contra hcon
    push Not at hcon
    nlinarith

/-! ## Newton steps -/

theorem gauss_slope (z : ℝ) : |2 * z * Real.exp (-z ^ 2)| ≤ 1 := by
  rw [abs_mul, abs_of_pos (Real.exp_pos _), Real.exp_neg, ← div_eq_mul_inv, div_le_one (Real.exp_pos _)]
  have h := Real.add_one_le_exp (z ^ 2)
  refine le_trans ?_ h
  rw [abs_mul, abs_of_pos two_pos]
  have : z ^ 2 = |z| ^ 2 := (sq_abs z).symm
  rw [this]
  nlinarith [sq_nonneg (|z| - 1)]

/-- The gaussian has slope at most 1. -/
theorem gauss_lip (a b : ℝ) (h : a ≤ b) : Real.exp (-a ^ 2) - Real.exp (-b ^ 2) ≤ b - a := by
  have hm : Monotone fun z : ℝ => Real.exp (-z ^ 2) + z := by
    apply monotone_of_deriv_nonneg
    · fun_prop
    · intro z
      have h2 : HasDerivAt (fun r : ℝ => Real.exp (-r ^ 2)) (Real.exp (-z ^ 2) * (-(2 * z))) z := by
        have := ((hasDerivAt_pow 2 z).neg).exp
        simpa using this
      have h3 : HasDerivAt (fun z : ℝ => Real.exp (-z ^ 2) + z) _ z := h2.add (hasDerivAt_id z)
      rw [h3.deriv]
      have := (abs_le.1 (gauss_slope z)).2
      linarith
  have := hm h
  dsimp only at this
  linarith

/-- The error function is above its tangent less a parabola. -/
theorem erf_parabola (r s : ℝ) :
    erf r + 2 / √Real.pi * Real.exp (-r ^ 2) * (s - r) - 1 / √Real.pi * (s - r) ^ 2 ≤ erf s := by
  have hpos := sqrt_pi_pos
  set f : ℝ → ℝ := fun z => erf z - 2 / √Real.pi * Real.exp (-r ^ 2) * (z - r) + 1 / √Real.pi * (z - r) ^ 2 with hf
  have hd : ∀ z, HasDerivAt f (2 / √Real.pi * (Real.exp (-z ^ 2) - Real.exp (-r ^ 2) + (z - r))) z := by
    intro z
    have h1 := ((hasDerivAt_id z).sub_const r)
    have h2 := ((hasDerivAt_erf z).sub (h1.const_mul (2 / √Real.pi * Real.exp (-r ^ 2)))).add
      ((h1.pow 2).const_mul (1 / √Real.pi))
    refine h2.congr_deriv ?_
    simp
    ring
  have hc : Continuous f := continuous_iff_continuousAt.2 fun z => (hd z).continuousAt
  have hfr : f r = erf r := by simp [hf]
  have key : f r ≤ f s := by
    rcases le_total r s with h | h
    · have hm : MonotoneOn f (Set.Ici r) := by
        apply monotoneOn_of_deriv_nonneg (convex_Ici r) hc.continuousOn
        · exact fun z _ => (hd z).differentiableAt.differentiableWithinAt
        · intro z hz
          rw [interior_Ici] at hz
          rw [(hd z).deriv]
          have := gauss_lip r z (le_of_lt hz)
          have : 0 ≤ Real.exp (-z ^ 2) - Real.exp (-r ^ 2) + (z - r) := by linarith
          positivity
      exact hm (Set.self_mem_Ici) h h
    · have hm : AntitoneOn f (Set.Iic r) := by
        apply antitoneOn_of_deriv_nonpos (convex_Iic r) hc.continuousOn
        · exact fun z _ => (hd z).differentiableAt.differentiableWithinAt
        · intro z hz
          rw [interior_Iic] at hz
          rw [(hd z).deriv]
          have := gauss_lip z r (le_of_lt hz)
          have h3 : Real.exp (-z ^ 2) - Real.exp (-r ^ 2) + (z - r) ≤ 0 := by linarith
          exact mul_nonpos_of_nonneg_of_nonpos (by positivity) h3
      exact hm h Set.self_mem_Iic h
  rw [hfr] at key
  simp only [hf] at key
  linarith

/-- **C68.** Newton's method converges quadratically: the error of a step is at most `exp(r²)/2` times the
square of the error before, for all `r` and `s`. -/
theorem C68_newton (r s : ℝ) : s - erfinvStep (erf s) r ≤ Real.exp (r ^ 2) / 2 * (s - r) ^ 2 := by
  have hpos := sqrt_pi_pos
  have h := erf_parabola r s
  unfold erfinvStep
  rw [show -r * r = -r ^ 2 by ring]
  have hd : 0 < 2 / √Real.pi * Real.exp (-r ^ 2) := by positivity
  have h2 : (erf r - erf s) / (2 / √Real.pi * Real.exp (-r ^ 2)) ≤
      r - s + Real.exp (r ^ 2) / 2 * (s - r) ^ 2 := by
    rw [div_le_iff₀ hd]
    have e : (r - s + Real.exp (r ^ 2) / 2 * (s - r) ^ 2) * (2 / √Real.pi * Real.exp (-r ^ 2)) =
        2 / √Real.pi * Real.exp (-r ^ 2) * (r - s) + 1 / √Real.pi * (s - r) ^ 2 *
          (Real.exp (r ^ 2) * Real.exp (-r ^ 2)) := by ring
    rw [e, ← Real.exp_add, add_neg_cancel, Real.exp_zero]
    linarith
  linarith

theorem exp_064 : Real.exp (0.8 ^ 2) ≤ 2 := by
  have h := Real.exp_one_lt_d9
  have : Real.exp (0.8 ^ 2) ^ 25 ≤ 2 ^ 25 := by
    rw [← Real.exp_nat_mul, show ((25 : ℕ) : ℝ) * 0.8 ^ 2 = (16 : ℕ) * 1 by norm_num, Real.exp_nat_mul]
    refine le_trans (pow_le_pow_left₀ (Real.exp_pos 1).le h.le 16) ?_
    norm_num
  exact le_of_pow_le_pow_left₀ (by norm_num) (by norm_num) this

/-- A Newton step from `0 ≤ r ≤ 0.8`. -/
theorem newton_small (r s : ℝ) (h0 : 0 ≤ r) (h1 : r ≤ 0.8) : s - erfinvStep (erf s) r ≤ (s - r) ^ 2 := by
  refine (C68_newton r s).trans ?_
  have h : Real.exp (r ^ 2) ≤ 2 := (Real.exp_le_exp.2 (pow_le_pow_left₀ h0 h1 2)).trans exp_064
  nlinarith [sq_nonneg (s - r)]

theorem erf_08 : 0.7 ≤ erf 0.8 := by
  have h := (abs_le.1 (erf_series 0.8 (by norm_num) (by norm_num))).1
  have hp := sqrt_pi_bounds.2
  unfold erfSeries at h
  by_contra hc
  have h2 := mul_lt_mul_of_pos_left (not_le.1 hc) (half_pos sqrt_pi_pos)
  norm_num at h hp h2
  linarith

theorem erf_le_lin (s : ℝ) (hs : 0 ≤ s) : erf s ≤ 1.13 * s := by
  have h := erf_tangent 0 s le_rfl hs
  rw [erf_zero] at h
  simp at h
  have hp := sqrt_pi_bounds.1
  have : 2 / √Real.pi ≤ 1.13 := by
    rw [div_le_iff₀ sqrt_pi_pos]
    linarith
  nlinarith

/-- Arguments up to 0.8 that have close error functions are close. -/
theorem erf_close (r s : ℝ) (hr : 0 ≤ r) (hr1 : r ≤ 0.8) (hs : 0 ≤ s) (hs1 : s ≤ 0.8) :
    |r - s| ≤ 1.78 * |erf r - erf s| := by
  have hp := sqrt_pi_bounds
  have hmin : ∀ a b : ℝ, 0 ≤ a → a ≤ b → b ≤ 0.8 → b - a ≤ 1.78 * (erf b - erf a) := by
    intro a b ha hab hb
    have h := erf_tangent b a (ha.trans hab) ha
    have h2 : Real.exp (-b ^ 2) ≥ 1 / 2 := by
      rw [Real.exp_neg, ge_iff_le, one_div, inv_le_inv₀ (by norm_num) (Real.exp_pos _)]
      exact (Real.exp_le_exp.2 (pow_le_pow_left₀ (ha.trans hab) hb 2)).trans exp_064
    have h3 : 1.128 ≤ 2 / √Real.pi := by
      rw [le_div_iff₀ sqrt_pi_pos]
      linarith
    have h4 : 1.128 * (1 / 2) ≤ 2 / √Real.pi * Real.exp (-b ^ 2) := mul_le_mul h3 h2 (by norm_num) (by linarith)
    nlinarith
  rcases le_total r s with h | h
  · have hm := erf_strictMono.monotone h
    rw [abs_of_nonpos (by linarith), abs_of_nonpos (by linarith)]
    have := hmin r s hr h hs1
    linarith
  · have hm := erf_strictMono.monotone h
    rw [abs_of_nonneg (by linarith), abs_of_nonneg (by linarith)]
    exact hmin s r hs h hr1

/-- **C68.** `erfinv` of `x = erf s` for `|x| ≤ 0.7` is right to a relative accuracy of `10⁻⁸`. -/
theorem C68_erfinv_accuracy (s : ℝ) (h : |erf s| ≤ 0.7) :
    ∃ r : ℝ, erfinv (erf s) = (r : EReal) ∧ |r - s| ≤ 1e-8 * |s| := by
  have pos : ∀ s : ℝ, 0 ≤ s → erf s ≤ 0.7 → ∃ r : ℝ, erfinv (erf s) = (r : EReal) ∧ |r - s| ≤ 1e-8 * |s| := by
    intro s hs h
    have hx : 0 ≤ erf s := by
      have := erf_strictMono.monotone hs
      rwa [erf_zero] at this
    have hs1 : s ≤ 0.8 := erf_strictMono.le_iff_le.1 (h.trans erf_08)
    obtain ⟨c1, c2⟩ := central_start (erf s) hx h
    have c0 := (erfinvCentral_bounds (erf s) hx h).1
    have hl := erf_le_lin s hs
    have e : erfinv (erf s) =
        ((erfinvStep (erf s) (erfinvStep (erf s) (erfinvCentral (erf s))) : ℝ) : EReal) := by
      unfold erfinv
      rw [if_neg (by linarith), if_neg (by linarith)]
      dsimp only
      rw [if_neg (not_lt.2 hx), abs_of_nonneg hx, if_pos h, mul_one, mul_one]
    refine ⟨_, e, ?_⟩
    have f0 := central_first (erf s) hx h
    have d0 : |s - erfinvCentral (erf s)| ≤ 0.0081 * s := by
      rw [abs_sub_comm]
      refine (erf_close _ s c0 c1 hs hs1).trans ?_
      nlinarith
    have d1 := newton_small _ s c0 c1
    have l1 := erfinvStep_le (erfinvCentral (erf s)) s c0 hs
    generalize erfinvStep (erf s) (erfinvCentral (erf s)) = r1 at *
    have d1' : s - r1 ≤ 0.0000657 * s ^ 2 := by
      refine d1.trans ?_
      rw [← sq_abs]
      calc |s - erfinvCentral (erf s)| ^ 2 ≤ (0.0081 * s) ^ 2 := pow_le_pow_left₀ (abs_nonneg _) d0 2
        _ ≤ _ := by nlinarith [sq_nonneg s]
    have d2 := newton_small r1 s f0 (l1.trans hs1)
    have l2 := erfinvStep_le r1 s f0 hs
    rw [abs_sub_comm, abs_of_nonneg (by linarith), abs_of_nonneg hs]
    refine d2.trans ?_
    have : (s - r1) ^ 2 ≤ (0.0000657 * s ^ 2) ^ 2 := pow_le_pow_left₀ (by linarith) d1' 2
    refine this.trans ?_
    have h3 : s ^ 3 ≤ 1 := pow_le_one₀ hs (by linarith)
    have : (0.0000657 * s ^ 2) ^ 2 = 0.0000657 ^ 2 * s ^ 3 * s := by ring
    rw [this]
    norm_num
    nlinarith
  rcases le_total 0 s with hs | hs
  · exact pos s hs ((le_abs_self _).trans h)
  · obtain ⟨r, h1, h2⟩ := pos (-s) (by linarith) (by rw [erf_neg]; exact (neg_le_abs _).trans h)
    rw [erf_neg, C68_erfinv_odd] at h1
    refine ⟨-r, by rw [EReal.coe_neg, ← h1, neg_neg], ?_⟩
    rw [abs_neg] at h2
    rw [show -r - s = -(r - -s) by ring, abs_neg]
    exact h2

/-- Non-vacuity: `x = 1/2`. -/
example : ∃ s : ℝ, s ≠ 0 ∧ |erf s| ≤ 0.7 := by
  obtain ⟨s, hs⟩ := exists_erf (1 / 2) (by norm_num) (by norm_num)
  refine ⟨s, ?_, ?_⟩
  · rintro rfl
    rw [erf_zero] at hs
    norm_num at hs
  · rw [hs]
    norm_num [abs_of_pos]

/-! ## Quantiles of the normal distribution -/

/-- The distribution function of the normal distribution. -/
noncomputable def normalCdf (z : ℝ) : ℝ := 1 / 2 * (1 + erf (z / √2))

/-- **C68.** `normal_ppf` inverts the distribution function, up to the accuracy of `erfinv`, within 0.15 and
0.85. -/
theorem C68_normal (z : ℝ) (h0 : 0.15 ≤ normalCdf z) (h1 : normalCdf z ≤ 0.85) :
    ∃ r : ℝ, normalPpf (normalCdf z) = (r : EReal) ∧ |r - z| ≤ 1e-8 * |z| := by
  have h2 : 0 < √(2 : ℝ) := Real.sqrt_pos.2 two_pos
  unfold normalCdf at *
  obtain ⟨r, hr, h⟩ := C68_erfinv_accuracy (z / √2) (abs_le.2 ⟨by linarith, by linarith⟩)
  refine ⟨√2 * r, ?_, ?_⟩
  · unfold normalPpf
    rw [show 2 * (1 / 2 * (1 + erf (z / √2))) - 1 = erf (z / √2) by ring, hr, EReal.coe_mul]
  · have e : √2 * r - z = √2 * (r - z / √2) := by field_simp
    rw [e, abs_mul, abs_of_pos h2]
    rw [abs_div, abs_of_pos h2] at h
    calc √2 * |r - z / √2| ≤ √2 * (1e-8 * (|z| / √2)) := mul_le_mul_of_nonneg_left h h2.le
      _ = 1e-8 * |z| := by field_simp

/-- Non-vacuity: the quartile. -/
example : ∃ z : ℝ, z ≠ 0 ∧ normalCdf z = 0.75 := by
  have h2 : 0 < √(2 : ℝ) := Real.sqrt_pos.2 two_pos
  obtain ⟨s, hs⟩ := exists_erf (1 / 2) (by norm_num) (by norm_num)
  refine ⟨√2 * s, ?_, ?_⟩
  · intro h
    have : s = 0 := by
      rcases mul_eq_zero.1 h with h | h
      · exact absurd h h2.ne'
      · exact h
    rw [this, erf_zero] at hs
    norm_num at hs
  · unfold normalCdf
    rw [mul_div_cancel_left₀ _ h2.ne', hs]
    norm_num

/-- **C68.** `normal_ppf` is symmetric around 1/2 and infinite exactly at 0 and 1 (and beyond); it is the
truncated quantile without limits. -/
theorem C68_normal_ends (x : ℝ) :
    normalPpf (1 - x) = -normalPpf x ∧ (x ≤ 0 ↔ normalPpf x = ⊥) ∧ (1 ≤ x ↔ normalPpf x = ⊤) ∧
    truncnormPpf x ⊥ ⊤ = normalPpf x := by
  have h2 : 0 < √(2 : ℝ) := Real.sqrt_pos.2 two_pos
  have h2' : (0 : EReal) < ((√2 : ℝ) : EReal) := by exact_mod_cast h2
  obtain ⟨e1, e2⟩ := C68_erfinv_ends (2 * x - 1)
  unfold normalPpf
  refine ⟨?_, ?_, ?_, ?_⟩
  · rw [show 2 * (1 - x) - 1 = -(2 * x - 1) by ring, C68_erfinv_odd, mul_neg]
  · rw [show x ≤ 0 ↔ 2 * x - 1 ≤ -1 by constructor <;> intro h <;> linarith, e1]
    constructor
    · intro h
      rw [h, EReal.coe_mul_bot_of_pos h2]
    · intro h
      generalize erfinv (2 * x - 1) = y at *
      induction y with
      | bot => rfl
      | coe y => rw [← EReal.coe_mul] at h; exact absurd h (EReal.coe_ne_bot _)
      | top => rw [EReal.coe_mul_top_of_pos h2] at h; exact absurd h (by simp)
  · rw [show 1 ≤ x ↔ 1 ≤ 2 * x - 1 by constructor <;> intro h <;> linarith, e2]
    constructor
    · intro h
      rw [h, EReal.coe_mul_top_of_pos h2]
    · intro h
      generalize erfinv (2 * x - 1) = y at *
      induction y with
      | bot => rw [EReal.coe_mul_bot_of_pos h2] at h; exact absurd h (by simp)
      | coe y => rw [← EReal.coe_mul] at h; exact absurd h (EReal.coe_ne_top _)
      | top => rfl
  · unfold truncnormPpf
    rw [EReal.bot_div_of_pos_ne_top h2' (EReal.coe_ne_top _), EReal.top_div_of_pos_ne_top h2' (EReal.coe_ne_top _)]
    have : ∀ x : ℝ, 2 * (x * (1 / 2 * (1 + 1) - 1 / 2 * (1 + -1)) + 1 / 2 * (1 + -1)) - 1 = 2 * x - 1 := by
      intro x; ring
    have t1 : erfE ⊤ = 1 := rfl
    have t2 : erfE ⊥ = -1 := rfl
    dsimp only
    rw [t1, t2, this]

/-- **C68.** A guess of 0 for `A` has no prior: the result is not a number. -/
theorem C68_scale_zero (c : ℝ) : priorScale 0 c = .error .undefined := by simp [priorScale]

end Ompy
