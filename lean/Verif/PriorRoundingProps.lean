import Verif.PriorRounding
import Verif.LogInterpRoundingProps
import Verif.Prior
import Mathlib.Analysis.SpecialFunctions.Log.Base
import Mathlib.Analysis.Complex.ExponentialBounds

/-!
# C157: the log-uniform priors of the normalisation fits with rounded numbers
-/

namespace Ompy

/-- A logarithm to the base 10 with relative error `a`. -/
def Log10Fun (lg10 : ℚ → ℚ) (a : ℚ) : Prop := ∀ y : ℚ, 0 < y → |(lg10 y : ℝ) - Real.logb 10 y| ≤ a * |Real.logb 10 y|

/-- A power of ten that is right up to a factor between `exp (-b)` and `exp b`. -/
def Exp10Fun (p10 : ℚ → ℚ) (b : ℝ) : Prop := ∀ x : ℚ, LogNear b ((10 : ℝ) ^ (x : ℝ)) (p10 x)

/-- The error of the exponent for guesses with `|log10 g| ≤ Y`. -/
def priorSlack (u a Y : ℚ) : ℚ := (1 + u) * ((1 + u) * a * Y + u * (Y + 1) + 2 * u) + u * (Y + 1)

/-- **C157.** The prior is `g 10^(2c-1)` up to a factor: for every number `c` of the unit interval, every positive guess and every rounding. -/
theorem C157_value {fl p10 lg10 : ℚ → ℚ} {u a Y : ℚ} {b : ℝ} (hfl : Rounding fl u) (hu : 0 ≤ u) (ha : 0 ≤ a) (hl : Log10Fun lg10 a)
    (hp : Exp10Fun p10 b) (e : Err) {g c : ℚ} (hg : 0 < g) (hY : |Real.logb 10 g| ≤ Y) (h0 : 0 ≤ c) (h1 : c ≤ 1) :
    ∃ r, logPriorF fl p10 lg10 e g c = .ok r ∧ LogNear (priorSlack u a Y * Real.log 10 + b) (g * (10 : ℝ) ^ (2 * (c : ℝ) - 1)) r := by
  refine ⟨_, by unfold logPriorF; rw [if_neg (not_lt.2 hg.le), if_neg hg.ne'], ?_⟩
  have hu' : (0 : ℝ) ≤ u := by exact_mod_cast hu
  have ha' : (0 : ℝ) ≤ a := by exact_mod_cast ha
  have hg' : (0 : ℝ) < g := by exact_mod_cast hg
  have c0 : (0 : ℝ) ≤ c := by exact_mod_cast h0
  have c1 : (c : ℝ) ≤ 1 := by exact_mod_cast h1
  have rel : ∀ q : ℚ, |((fl q : ℚ) : ℝ) - (q : ℝ)| ≤ (u : ℝ) * |(q : ℝ)| := fun q => by exact_mod_cast hfl.rel q
  have ly := hl g hg
  set y := Real.logb 10 (g : ℝ) with hy
  have r1 := rel (c * 2)
  have r2 := rel (lg10 g - 1)
  have r3 := rel (fl (c * 2) + fl (lg10 g - 1))
  set w := fl (c * 2)
  set z := fl (lg10 g - 1)
  set s := fl (w + z)
  push_cast at r1 r2 r3
  have y1 : |y - 1| ≤ Y + 1 := (abs_sub _ _).trans (by rw [abs_one]; linarith)
  have k0 : (a : ℝ) * |y| ≤ a * Y := mul_le_mul_of_nonneg_left hY ha'
  have e1 : |(w : ℝ) - 2 * c| ≤ 2 * u := by
    rw [abs_of_nonneg (by linarith : (0 : ℝ) ≤ (c : ℝ) * 2)] at r1
    rw [mul_comm 2 (c : ℝ)]
    nlinarith
  have e2 : |(z : ℝ) - (y - 1)| ≤ (1 + u) * a * Y + u * (Y + 1) := by
    have t1 : |(lg10 g : ℝ) - 1| ≤ Y + 1 + a * Y := by
      have : (lg10 g : ℝ) - 1 = (y - 1) + ((lg10 g : ℝ) - y) := by ring
      rw [this]
      exact (abs_add_le _ _).trans (by linarith)
    have t2 : (z : ℝ) - (y - 1) = ((z : ℝ) - ((lg10 g : ℝ) - 1)) + ((lg10 g : ℝ) - y) := by ring
    rw [t2]
    refine (abs_add_le _ _).trans ?_
    have := mul_le_mul_of_nonneg_left t1 hu'
    linarith
  have e3 : |(s : ℝ) - (2 * c + (y - 1))| ≤ (priorSlack u a Y : ℚ) := by
    have d : |((w : ℝ) + z) - (2 * c + (y - 1))| ≤ (1 + u) * a * Y + u * (Y + 1) + 2 * u := by
      have : ((w : ℝ) + z) - (2 * c + (y - 1)) = ((w : ℝ) - 2 * c) + ((z : ℝ) - (y - 1)) := by ring
      rw [this]
      exact (abs_add_le _ _).trans (by linarith)
    have m : |2 * (c : ℝ) + (y - 1)| ≤ Y + 1 := by
      rw [abs_le] at hY ⊢
      constructor <;> linarith [hY.1, hY.2]
    have n : |(w : ℝ) + z| ≤ (Y + 1) + ((1 + u) * a * Y + u * (Y + 1) + 2 * u) := by
      have : (w : ℝ) + z = (2 * c + (y - 1)) + (((w : ℝ) + z) - (2 * c + (y - 1))) := by ring
      rw [this]
      exact (abs_add_le _ _).trans (by linarith)
    have : (s : ℝ) - (2 * c + (y - 1)) = ((s : ℝ) - (w + z)) + (((w : ℝ) + z) - (2 * c + (y - 1))) := by ring
    rw [this]
    refine (abs_add_le _ _).trans ?_
    have q := mul_le_mul_of_nonneg_left n hu'
    unfold priorSlack
    push_cast
    nlinarith
  have l10 : 0 < Real.log 10 := Real.log_pos (by norm_num)
  have pow : ∀ t : ℝ, (10 : ℝ) ^ t = Real.exp (t * Real.log 10) := fun t => by
    rw [Real.rpow_def_of_pos (by norm_num), mul_comm]
  have val : (g : ℝ) * (10 : ℝ) ^ (2 * (c : ℝ) - 1) = Real.exp ((2 * c + (y - 1)) * Real.log 10) := by
    have hgy : (g : ℝ) = (10 : ℝ) ^ y := (Real.rpow_logb (by norm_num) (by norm_num) hg').symm
    conv_lhs => rw [hgy]
    rw [← Real.rpow_add (by norm_num), pow]
    ring_nf
  have sh : |(s : ℝ) * Real.log 10 - (2 * c + (y - 1)) * Real.log 10| ≤ (priorSlack u a Y : ℚ) * Real.log 10 := by
    rw [← sub_mul, abs_mul, abs_of_pos l10]
    exact mul_le_mul_of_nonneg_right e3 l10.le
  have h := hp s
  rw [pow] at h
  rw [val]
  exact (LogNear.exp_shift sh).chain h

/-- **C157.** The documented range, from a tenth of the guess to ten times the guess, holds up to that factor. -/
theorem C157_range {fl p10 lg10 : ℚ → ℚ} {u a Y : ℚ} {b : ℝ} (hfl : Rounding fl u) (hu : 0 ≤ u) (ha : 0 ≤ a) (hl : Log10Fun lg10 a)
    (hp : Exp10Fun p10 b) (e : Err) {g c r : ℚ} (hg : 0 < g) (hY : |Real.logb 10 g| ≤ Y) (h0 : 0 ≤ c) (h1 : c ≤ 1)
    (hr : logPriorF fl p10 lg10 e g c = .ok r) :
    Real.exp (-(priorSlack u a Y * Real.log 10 + b)) * (g / 10) ≤ r ∧ r ≤ Real.exp (priorSlack u a Y * Real.log 10 + b) * (10 * g) := by
  obtain ⟨r', hr', n⟩ := C157_value hfl hu ha hl hp e hg hY h0 h1
  rw [hr] at hr'
  cases hr'
  have hg' : (0 : ℝ) < g := by exact_mod_cast hg
  have c0 : (0 : ℝ) ≤ c := by exact_mod_cast h0
  have c1 : (c : ℝ) ≤ 1 := by exact_mod_cast h1
  set d := priorSlack u a Y * Real.log 10 + b
  have p1 : (10 : ℝ) ^ (-1 : ℝ) ≤ (10 : ℝ) ^ (2 * (c : ℝ) - 1) := Real.rpow_le_rpow_of_exponent_le (by norm_num) (by linarith)
  have p2 : (10 : ℝ) ^ (2 * (c : ℝ) - 1) ≤ (10 : ℝ) ^ (1 : ℝ) := Real.rpow_le_rpow_of_exponent_le (by norm_num) (by linarith)
  rw [Real.rpow_neg_one] at p1
  rw [Real.rpow_one] at p2
  constructor
  · refine le_trans (mul_le_mul_of_nonneg_left ?_ (Real.exp_pos _).le) n.1
    rw [div_eq_mul_inv]
    exact mul_le_mul_of_nonneg_left p1 hg'.le
  · have q := n.2
    have e2 : Real.exp d * Real.exp (-d) = 1 := by rw [← Real.exp_add, add_neg_cancel, Real.exp_zero]
    have q' := mul_le_mul_of_nonneg_left q (Real.exp_pos d).le
    rw [← mul_assoc, e2, one_mul] at q'
    refine q'.trans (mul_le_mul_of_nonneg_left ?_ (Real.exp_pos _).le)
    rw [mul_comm 10]
    exact mul_le_mul_of_nonneg_left p2 hg'.le

/-- **C157.** Larger numbers of the unit cube give larger parameters, and a larger guess a larger parameter, if the functions keep the order and the
power of ten is not negative. -/
theorem C157_rises {fl p10 lg10 : ℚ → ℚ} {u : ℚ} (hfl : Rounding fl u) (hp : Monotone p10) (h0 : ∀ x, 0 ≤ p10 x) (hl : MonotoneOn lg10 (Set.Ioi 0)) (e : Err)
    {g g' c c' r r' : ℚ} (hg : g ≤ g') (hc : c ≤ c') (hr : logPriorF fl p10 lg10 e g c = .ok r) (hr' : logPriorF fl p10 lg10 e g' c' = .ok r') :
    r ≤ r' := by
  unfold logPriorF at hr hr'
  split_ifs at hr hr' with a1 a2 a3 a4 a5 a6 <;> cases hr <;> cases hr'
  · exact le_rfl
  · exact h0 _
  · exact absurd (lt_of_le_of_ne (not_lt.1 a1) (Ne.symm a2)) (by linarith)
  · have p : 0 < g := lt_of_le_of_ne (not_lt.1 a1) (Ne.symm a2)
    have a := hfl.mono (show c * 2 ≤ c' * 2 by linarith)
    have b := hfl.mono (show lg10 g - 1 ≤ lg10 g' - 1 by linarith [hl p (p.trans_le hg) hg])
    exact hp (hfl.mono (by linarith))

/-- **C157.** A number comes out exactly for guesses that are not negative; a negative α is not implemented, a negative T is a `ValueError`, and a guess
of 0 gives 0. -/
theorem C157_domain (fl p10 lg10 : ℚ → ℚ) (g c : ℚ) :
    ((∃ r, alphaPriorF fl p10 lg10 g c = .ok r) ↔ 0 ≤ g) ∧ ((∃ r, tempPriorF fl p10 lg10 g c = .ok r) ↔ 0 ≤ g) ∧
      (alphaPriorF fl p10 lg10 g c = .error .notImplemented ↔ g < 0) ∧ (tempPriorF fl p10 lg10 g c = .error .valueError ↔ g < 0) ∧
      (g = 0 → alphaPriorF fl p10 lg10 g c = .ok 0) ∧ (0 ≤ g → alphaPriorF fl p10 lg10 g c = tempPriorF fl p10 lg10 g c) := by
  unfold alphaPriorF tempPriorF logPriorF
  rcases lt_trichotomy g 0 with h | h | h
  · simp [h, h.ne]
  · subst h; simp
  · simp [h.le, h.ne', not_lt.2 h.le]

/-- **C157.** The exact value is the one of the model of C68. -/
theorem C157_exact (g c : ℚ) (hg : 0 < g) : priorLog (g : ℝ) (c : ℝ) = g * (10 : ℝ) ^ (2 * (c : ℝ) - 1) := by
  have hg' : (0 : ℝ) < g := by exact_mod_cast hg
  unfold priorLog
  rw [if_neg hg'.ne', show (c : ℝ) * 2 + (Real.logb 10 g - 1) = Real.logb 10 g + (2 * c - 1) by ring, Real.rpow_add (by norm_num),
    Real.rpow_logb (by norm_num) (by norm_num) hg']

/-- **C157.** In doubles, with functions right to `2/2^53` and guesses between `10^-20` and `10^20`, the exponent of the error is at most `240/2^53`. -/
theorem C157_double {p10 lg10 : ℚ → ℚ} (hl : Log10Fun lg10 (2 / 2 ^ 53)) (hp : Exp10Fun p10 (2 / 2 ^ 53)) (e : Err) {g c : ℚ} (hg : 0 < g)
    (hY : |Real.logb 10 g| ≤ 20) (h0 : 0 ≤ c) (h1 : c ≤ 1) :
    ∃ r, logPriorF dbl p10 lg10 e g c = .ok r ∧ LogNear (240 / 2 ^ 53) (g * (10 : ℝ) ^ (2 * (c : ℝ) - 1)) r := by
  obtain ⟨r, hr, n⟩ := C157_value dbl_rounding (by norm_num) (by norm_num) hl hp e (Y := 20) hg (by exact_mod_cast hY) h0 h1
  have hg' : (0 : ℝ) < g := by exact_mod_cast hg
  have v : (0 : ℝ) < g * (10 : ℝ) ^ (2 * (c : ℝ) - 1) := mul_pos hg' (Real.rpow_pos_of_pos (by norm_num) _)
  refine ⟨r, hr, n.mono v.le (n.pos v).le ?_⟩
  have l16 : Real.log 10 ≤ 4 * Real.log 2 := by
    rw [show (4 : ℝ) * Real.log 2 = Real.log (2 ^ 4) by rw [Real.log_pow]; norm_num]
    exact Real.log_le_log (by norm_num) (by norm_num)
  have l2 := Real.log_two_lt_d9
  have s : ((priorSlack (1 / 2 ^ 53) (2 / 2 ^ 53) 20 : ℚ) : ℝ) ≤ 85 / 2 ^ 53 := by
    unfold priorSlack
    norm_num
  have s0 : (0 : ℝ) ≤ ((priorSlack (1 / 2 ^ 53) (2 / 2 ^ 53) 20 : ℚ) : ℝ) := by
    unfold priorSlack
    norm_num
  have l0 : 0 ≤ Real.log 10 := Real.log_nonneg (by norm_num)
  have : ((priorSlack (1 / 2 ^ 53) (2 / 2 ^ 53) 20 : ℚ) : ℝ) * Real.log 10 ≤ 85 / 2 ^ 53 * (14 / 5) :=
    mul_le_mul s (by linarith) l0 (by norm_num)
  refine (add_le_add_left this _).trans ?_
  norm_num

theorem log10Fun_exists (a : ℚ) (ha : 0 < a) : ∃ lg, Log10Fun lg a := by
  have h : ∀ y : ℚ, ∃ q : ℚ, |(q : ℝ) - Real.logb 10 y| ≤ a * |Real.logb 10 y| := by
    intro y
    by_cases h0 : Real.logb 10 y = 0
    · exact ⟨0, by simp [h0]⟩
    · have p : (0 : ℝ) < a * |Real.logb 10 y| := mul_pos (by exact_mod_cast ha) (abs_pos.2 h0)
      obtain ⟨q, h1, h2⟩ := exists_rat_btwn (show Real.logb 10 y - a * |Real.logb 10 y| < Real.logb 10 y by linarith)
      exact ⟨q, by rw [abs_le]; constructor <;> linarith⟩
  choose lg hlg using h
  exact ⟨lg, fun y _ => hlg y⟩

theorem exp10Fun_exists (b : ℝ) (hb : 0 < b) : ∃ ex, Exp10Fun ex b := by
  have h : ∀ x : ℚ, ∃ q : ℚ, LogNear b ((10 : ℝ) ^ (x : ℝ)) q := by
    intro x
    have e1 : Real.exp (-b) < 1 := by rw [Real.exp_lt_one_iff]; linarith
    have p : (0 : ℝ) < (10 : ℝ) ^ (x : ℝ) := Real.rpow_pos_of_pos (by norm_num) _
    obtain ⟨q, h1, h2⟩ := exists_rat_btwn (show Real.exp (-b) * (10 : ℝ) ^ (x : ℝ) < (10 : ℝ) ^ (x : ℝ) by nlinarith)
    refine ⟨q, h1.le, ?_⟩
    have : (0 : ℝ) < q := lt_trans (by positivity) h1
    nlinarith [Real.exp_pos (-b)]
  choose ex hex using h
  exact ⟨ex, hex⟩

example : (∃ lg, Log10Fun lg (2 / 2 ^ 53)) ∧ (∃ ex, Exp10Fun ex (2 / 2 ^ 53)) ∧ |Real.logb 10 ((100 : ℚ) : ℝ)| ≤ 20 ∧
    logPriorF dbl (fun x => x + 4) (fun x => x / 3) .valueError 6 (1 / 2) = .ok 6 ∧
    logPriorF dbl (fun x => x + 4) (fun x => x / 3) .valueError (-6) (1 / 2) = .error .valueError := by
  refine ⟨log10Fun_exists _ (by norm_num), exp10Fun_exists _ (by norm_num), ?_, by decide +kernel, by decide +kernel⟩
  have : Real.logb 10 ((100 : ℚ) : ℝ) = 2 := by
    rw [show (((100 : ℚ)) : ℝ) = (10 : ℝ) ^ (2 : ℝ) by norm_num, Real.logb_rpow (by norm_num) (by norm_num)]
  rw [this]
  norm_num

/-- Functions that keep the order. -/
example : Monotone (fun x : ℚ => max 0 (x + 4)) ∧ (∀ x : ℚ, 0 ≤ max 0 (x + 4)) ∧ MonotoneOn (fun x : ℚ => x / 3) (Set.Ioi 0) ∧
    logPriorF dbl (fun x => max 0 (x + 4)) (fun x => x / 3) .valueError 6 (1 / 4) = .ok (11 / 2) :=
  ⟨fun a b h => max_le_max le_rfl (by linarith), fun x => le_max_left _ _, fun a _ b _ h => by show a / 3 ≤ b / 3; linarith, by decide +kernel⟩

end Ompy
