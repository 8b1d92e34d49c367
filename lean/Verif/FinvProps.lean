import Verif.Finv
import Mathlib.Tactic.LinearCombination

/-!
# C94: the inverse of the cumulative normal distribution of rhosigchi
-/

namespace Ompy

/-- What is used of a distribution function: values strictly between 0 and 1 with these limits, increasing, no steeper than 1, symmetric at 0. -/
structure DistFun (F : ℝ → ℝ) : Prop where
  pos : ∀ x, 0 < F x
  lt_one : ∀ x, F x < 1
  mono : StrictMono F
  lip : ∀ a b, b ≤ a → F a - F b ≤ a - b
  high : ∀ u < 1, ∃ c, u < F c
  low : ∀ u > 0, ∃ c, F c < u
  zero : F 0 = 1 / 2

/-- The loop ends, with a number whose probability is right to 0.001, however long it may run beyond that. -/
def Reaches (F : ℝ → ℝ) (y0 : ℝ) (s : FState) : Prop :=
  ∃ N x, |F x - y0| ≤ 1 / 1000 ∧ ∀ fuel ≥ N, finvLoop F y0 fuel s = some (.ok x)

theorem reach_done {F : ℝ → ℝ} {y0 : ℝ} {s : FState} (h : s.y = F s.x) (hc : |s.y - y0| ≤ 1 / 1000) : Reaches F y0 s := by
  refine ⟨1, s.x, by rw [← h]; exact hc, fun fuel hf => ?_⟩
  obtain ⟨k, rfl⟩ : ∃ k, fuel = k + 1 := ⟨fuel - 1, by omega⟩
  unfold finvLoop
  rw [if_neg (not_lt.2 hc)]

theorem reach_step {F : ℝ → ℝ} {y0 : ℝ} {s s' : FState} (hc : 1 / 1000 < |s.y - y0|) (hs : finvStep F y0 s = .ok s')
    (h : Reaches F y0 s') : Reaches F y0 s := by
  obtain ⟨N, x, h1, h2⟩ := h
  refine ⟨N + 1, x, h1, fun fuel hf => ?_⟩
  obtain ⟨k, rfl⟩ : ∃ k, fuel = k + 1 := ⟨fuel - 1, by omega⟩
  unfold finvLoop
  rw [if_pos hc, hs]
  exact h2 k (by omega)

/-- One turn, with the two cases of the update, and the test at the start of the next turn. -/
theorem reach_turn {F : ℝ → ℝ} {y0 : ℝ} (s : FState) (hc : 1 / 1000 < |s.y - y0|) (hd : s.yh - s.yl ≠ 0) (x : ℝ)
    (hx : x = s.xl + (s.xh - s.xl) * (y0 - s.yl) / (s.yh - s.yl))
    (hl : y0 + 1 / 1000 < F x → Reaches F y0 { s with x := x, y := F x, yl := F x, xl := x })
    (hh : F x < y0 - 1 / 1000 → Reaches F y0 { s with x := x, y := F x, yh := F x, xh := x }) : Reaches F y0 s := by
  by_cases h : y0 < F x
  · have hs : finvStep F y0 s = .ok { s with x := x, y := F x, yl := F x, xl := x } := by
      unfold finvStep
      rw [if_neg hd]
      simp only [← hx]
      rw [if_pos h]
    refine reach_step hc hs ?_
    by_cases h2 : y0 + 1 / 1000 < F x
    · exact hl h2
    · exact reach_done rfl (by rw [abs_le]; constructor <;> simp only <;> linarith)
  · have hs : finvStep F y0 s = .ok { s with x := x, y := F x, yh := F x, xh := x } := by
      unfold finvStep
      rw [if_neg hd]
      simp only [← hx]
      rw [if_neg h]
    refine reach_step hc hs ?_
    by_cases h2 : F x < y0 - 1 / 1000
    · exact hh h2
    · exact reach_done rfl (by rw [abs_le]; constructor <;> simp only <;> linarith)

/-- Once there is a point on each side - `l` above and `h` below, contrary to their names - each turn shortens the interval by at least one part in 1000. -/
theorem reach_bracket {F : ℝ → ℝ} (hF : DistFun F) (y0 : ℝ) (n : ℕ) : ∀ s : FState, s.yl = F s.xl → s.yh = F s.xh → y0 + 1 / 1000 < s.yl →
    s.yh < y0 - 1 / 1000 → 1 / 1000 < |s.y - y0| → (s.xl - s.xh) * (999 / 1000) ^ n ≤ 2 / 1000 → Reaches F y0 s := by
  induction n with
  | zero =>
    intro s h1 h2 h3 h4 h5 h6
    have hlt : s.xh < s.xl := hF.mono.lt_iff_lt.1 (by rw [← h1, ← h2]; linarith)
    have := hF.lip s.xl s.xh hlt.le
    rw [← h1, ← h2] at this
    linarith
  | succ n ih =>
    intro s h1 h2 h3 h4 h5 h6
    have hlt : s.xh < s.xl := hF.mono.lt_iff_lt.1 (by rw [← h1, ← h2]; linarith)
    have hd : 0 < s.yl - s.yh := by linarith
    have hd1 : s.yl - s.yh < 1 := by
      have := hF.lt_one s.xl
      have := hF.pos s.xh
      rw [h1, h2]; linarith
    set t := (s.yl - y0) / (s.yl - s.yh) with ht
    have t1 : 1 / 1000 < t := by
      rw [ht, lt_div_iff₀ hd]; nlinarith
    have t2 : t < 999 / 1000 := by
      rw [ht, div_lt_iff₀ hd]; nlinarith
    have hx : s.xl + (s.xh - s.xl) * (y0 - s.yl) / (s.yh - s.yl) = s.xl - (s.xl - s.xh) * t := by
      have : s.yh - s.yl ≠ 0 := by linarith
      rw [ht]
      field_simp
      ring
    have hp : (0 : ℝ) < (999 / 1000) ^ n := by positivity
    have hw : 0 < s.xl - s.xh := by linarith
    rw [pow_succ] at h6
    refine reach_turn s h5 (by linarith) (s.xl - (s.xl - s.xh) * t) hx.symm ?_ ?_
    · intro h
      refine ih _ rfl h2 h h4 ?_ ?_
      · simp only; rw [lt_abs]; left; linarith
      · simp only
        have : s.xl - (s.xl - s.xh) * t - s.xh ≤ (s.xl - s.xh) * (999 / 1000) := by nlinarith
        calc _ ≤ (s.xl - s.xh) * (999 / 1000) * (999 / 1000) ^ n := mul_le_mul_of_nonneg_right this hp.le
          _ ≤ 2 / 1000 := by linarith
    · intro h
      refine ih _ h1 rfl h3 h ?_ ?_
      · simp only; rw [lt_abs]; right; linarith
      · simp only
        have : s.xl - (s.xl - (s.xl - s.xh) * t) ≤ (s.xl - s.xh) * (999 / 1000) := by nlinarith
        calc _ ≤ (s.xl - s.xh) * (999 / 1000) * (999 / 1000) ^ n := mul_le_mul_of_nonneg_right this hp.le
          _ ≤ 2 / 1000 := by linarith

theorem bracket_exists {F : ℝ → ℝ} (hF : DistFun F) (y0 : ℝ) (s : FState) (h1 : s.yl = F s.xl) (h2 : s.yh = F s.xh) (h3 : y0 + 1 / 1000 < s.yl)
    (h4 : s.yh < y0 - 1 / 1000) (h5 : 1 / 1000 < |s.y - y0|) : Reaches F y0 s := by
  have hlt : s.xh < s.xl := hF.mono.lt_iff_lt.1 (by rw [← h1, ← h2]; linarith)
  have hw : 0 < s.xl - s.xh := by linarith
  obtain ⟨n, hn⟩ := exists_pow_lt_of_lt_one (show (0 : ℝ) < 2 / 1000 / (s.xl - s.xh) by positivity) (show (999 / 1000 : ℝ) < 1 by norm_num)
  refine reach_bracket hF y0 n s h1 h2 h3 h4 h5 ?_
  rw [lt_div_iff₀ hw] at hn
  linarith

/-- As long as all points are below, their distance from -3 grows by a constant factor at least. -/
theorem reach_low {F : ℝ → ℝ} (hF : DistFun F) (y0 : ℝ) (hy : y0 ≤ 1) (c : ℝ) (hc : y0 - 1 / 1000 < F c) (n : ℕ) : ∀ s : FState, s.xl = -3 → s.yl = 0 →
    s.yh = F s.xh → s.yh < y0 - 1 / 1000 → 1 / 1000 < |s.y - y0| → -3 < s.xh → c + 3 ≤ (s.xh + 3) * (y0 / (y0 - 1 / 1000)) ^ n →
    Reaches F y0 s := by
  induction n with
  | zero =>
    intro s h1 h2 h3 h4 h5 h6 h7
    have : F c ≤ F s.xh := hF.mono.monotone (by linarith)
    rw [h3] at h4
    linarith
  | succ n ih =>
    intro s h1 h2 h3 h4 h5 h6 h7
    have hpos : 0 < s.yh := h3 ▸ hF.pos _
    have hx : s.xl + (s.xh - s.xl) * (y0 - s.yl) / (s.yh - s.yl) = -3 + (s.xh + 3) * (y0 / s.yh) := by
      rw [h1, h2, sub_zero, sub_zero]
      ring
    have hr : y0 / (y0 - 1 / 1000) ≤ y0 / s.yh := div_le_div_of_nonneg_left (by linarith) hpos h4.le
    have hq : 0 < y0 / (y0 - 1 / 1000) := div_pos (by linarith) (by linarith)
    refine reach_turn s h5 (by rw [h2]; linarith) _ hx.symm ?_ ?_
    · intro h
      exact bracket_exists hF y0 _ rfl h3 h h4 (by simp only; rw [lt_abs]; left; linarith)
    · intro h
      refine ih _ h1 h2 rfl h (by simp only; rw [lt_abs]; right; linarith) ?_ ?_
      · simp only
        have : 0 < (s.xh + 3) * (y0 / s.yh) := mul_pos (by linarith) (lt_of_lt_of_le hq hr)
        linarith
      · simp only
        have hp : 0 < (y0 / (y0 - 1 / 1000)) ^ n := pow_pos hq n
        calc c + 3 ≤ (s.xh + 3) * (y0 / (y0 - 1 / 1000)) ^ (n + 1) := h7
          _ = (s.xh + 3) * (y0 / (y0 - 1 / 1000)) * (y0 / (y0 - 1 / 1000)) ^ n := by rw [pow_succ]; ring
          _ ≤ (s.xh + 3) * (y0 / s.yh) * (y0 / (y0 - 1 / 1000)) ^ n :=
            mul_le_mul_of_nonneg_right (mul_le_mul_of_nonneg_left hr (by linarith)) hp.le
          _ = _ := by ring

/-- As long as all points are above, their distance from 3 grows by a constant factor at least. -/
theorem reach_high {F : ℝ → ℝ} (hF : DistFun F) (y0 : ℝ) (hy : 0 ≤ y0) (c : ℝ) (hc : F c < y0 + 1 / 1000) (n : ℕ) : ∀ s : FState, s.xh = 3 → s.yh = 1 →
    s.yl = F s.xl → y0 + 1 / 1000 < s.yl → 1 / 1000 < |s.y - y0| → s.xl < 3 →
    3 - c ≤ (3 - s.xl) * ((1 - y0) / (1 - y0 - 1 / 1000)) ^ n → Reaches F y0 s := by
  induction n with
  | zero =>
    intro s h1 h2 h3 h4 h5 h6 h7
    have : F s.xl ≤ F c := hF.mono.monotone (by linarith)
    rw [h3] at h4
    linarith
  | succ n ih =>
    intro s h1 h2 h3 h4 h5 h6 h7
    have hlt : s.yl < 1 := h3 ▸ hF.lt_one _
    have hne : 1 - s.yl ≠ 0 := by linarith
    have hx : s.xl + (s.xh - s.xl) * (y0 - s.yl) / (s.yh - s.yl) = 3 - (3 - s.xl) * ((1 - y0) / (1 - s.yl)) := by
      rw [h1, h2]
      field_simp
      ring
    have hr : (1 - y0) / (1 - y0 - 1 / 1000) ≤ (1 - y0) / (1 - s.yl) := div_le_div_of_nonneg_left (by linarith) (by linarith) (by linarith)
    have hq : 0 < (1 - y0) / (1 - y0 - 1 / 1000) := div_pos (by linarith) (by linarith)
    refine reach_turn s h5 (by rw [h2]; linarith) _ hx.symm ?_ ?_
    · intro h
      refine ih _ h1 h2 rfl h (by simp only; rw [lt_abs]; left; linarith) ?_ ?_
      · simp only
        have : 0 < (3 - s.xl) * ((1 - y0) / (1 - s.yl)) := mul_pos (by linarith) (lt_of_lt_of_le hq hr)
        linarith
      · simp only
        have hp : 0 < ((1 - y0) / (1 - y0 - 1 / 1000)) ^ n := pow_pos hq n
        calc 3 - c ≤ (3 - s.xl) * ((1 - y0) / (1 - y0 - 1 / 1000)) ^ (n + 1) := h7
          _ = (3 - s.xl) * ((1 - y0) / (1 - y0 - 1 / 1000)) * ((1 - y0) / (1 - y0 - 1 / 1000)) ^ n := by rw [pow_succ]; ring
          _ ≤ (3 - s.xl) * ((1 - y0) / (1 - s.yl)) * ((1 - y0) / (1 - y0 - 1 / 1000)) ^ n :=
            mul_le_mul_of_nonneg_right (mul_le_mul_of_nonneg_left hr (by linarith)) hp.le
          _ = _ := by ring
    · intro h
      exact bracket_exists hF y0 _ h3 rfl h4 h (by simp only; rw [lt_abs]; right; linarith)

theorem finv_reaches {F : ℝ → ℝ} (hF : DistFun F) (y0 : ℝ) (h0 : 0 ≤ y0) (h1 : y0 ≤ 1) : Reaches F y0 .init := by
  by_cases hc : |(1 / 2 : ℝ) - y0| ≤ 1 / 1000
  · exact reach_done (s := .init) (by simp only [FState.init]; rw [hF.zero]) hc
  · rw [not_le] at hc
    refine reach_turn .init hc (by simp [FState.init]) (-3 + 6 * y0) (by simp only [FState.init]; ring) ?_ ?_
    · intro h
      have hy : y0 < 1 := by have := hF.lt_one (-3 + 6 * y0); linarith
      obtain ⟨c, hcc⟩ := hF.low (y0 + 1 / 1000) (by linarith)
      have hlt := hF.lt_one (-3 + 6 * y0)
      have hr : 1 < (1 - y0) / (1 - y0 - 1 / 1000) := by rw [lt_div_iff₀ (by linarith)]; linarith
      obtain ⟨n, hn⟩ := pow_unbounded_of_one_lt ((3 - c) / (3 - (-3 + 6 * y0))) hr
      rw [div_lt_iff₀ (by linarith)] at hn
      refine reach_high hF y0 h0 c hcc n _ rfl rfl rfl h ?_ ?_ ?_
      · simp only; rw [lt_abs]; left; linarith
      · simp only; linarith
      · simp only; linarith
    · intro h
      have hp := hF.pos (-3 + 6 * y0)
      obtain ⟨c, hcc⟩ := hF.high (y0 - 1 / 1000) (by linarith)
      have hr : 1 < y0 / (y0 - 1 / 1000) := by rw [lt_div_iff₀ (by linarith)]; linarith
      obtain ⟨n, hn⟩ := pow_unbounded_of_one_lt ((c + 3) / (-3 + 6 * y0 + 3)) hr
      rw [div_lt_iff₀ (by linarith)] at hn
      refine reach_low hF y0 h1 c hcc n _ rfl rfl rfl h ?_ ?_ ?_
      · simp only; rw [lt_abs]; right; linarith
      · simp only; linarith
      · simp only; linarith

theorem erf_lip (a b : ℝ) (h : b ≤ a) : erf a - erf b ≤ 2 * (a - b) := by
  have hanti : Antitone fun x => erf x - 2 * x := by
    have hd : ∀ x, HasDerivAt (fun x => erf x - 2 * x) (2 / √Real.pi * Real.exp (-x ^ 2) - 2 * 1) x :=
      fun x => (hasDerivAt_erf x).sub ((hasDerivAt_id x).const_mul 2)
    refine antitone_of_deriv_nonpos (fun x => (hd x).differentiableAt) fun x => ?_
    rw [(hd x).deriv]
    have h1 : Real.exp (-x ^ 2) ≤ 1 := Real.exp_le_one_iff.2 (by nlinarith [sq_nonneg x])
    have h2 : 1 ≤ √Real.pi := Real.one_le_sqrt.2 (by linarith [Real.pi_gt_three])
    have h3 : 2 / √Real.pi ≤ 2 := div_le_self (by norm_num) h2
    have h4 : 0 ≤ Real.exp (-x ^ 2) := (Real.exp_pos _).le
    nlinarith
  have := hanti h
  simp only at this
  linarith

theorem distFun_cdfC : DistFun cdfC where
  pos x := by unfold cdfC; have := neg_one_lt_erf (x / 1.414213562); linarith
  lt_one x := by unfold cdfC; have := erf_lt_one (x / 1.414213562); linarith
  mono a b h := by
    unfold cdfC
    have := erf_strictMono (show a / 1.414213562 < b / 1.414213562 from div_lt_div_of_pos_right h (by norm_num))
    linarith
  lip a b h := by
    unfold cdfC
    have h1 := erf_lip (a / 1.414213562) (b / 1.414213562) (div_le_div_of_nonneg_right h (by norm_num))
    have h2 : a / 1.414213562 - b / 1.414213562 ≤ a - b := by
      rw [← sub_div]
      exact div_le_self (by linarith) (by norm_num)
    linarith
  high u hu := by
    obtain ⟨r, hr⟩ := exists_erf (max (-1 / 2) ((2 * u - 1 + 1) / 2)) (by rw [lt_max_iff]; left; norm_num) (by rw [max_lt_iff]; constructor <;> linarith)
    refine ⟨r * 1.414213562, ?_⟩
    unfold cdfC
    rw [mul_div_assoc, div_self (by norm_num), mul_one, hr]
    have : (2 * u - 1 + 1) / 2 ≤ max (-1 / 2) ((2 * u - 1 + 1) / 2) := le_max_right _ _
    have : (-1 / 2 : ℝ) ≤ max (-1 / 2) ((2 * u - 1 + 1) / 2) := le_max_left _ _
    linarith
  low u hu := by
    obtain ⟨r, hr⟩ := exists_erf (min (1 / 2) ((2 * u - 1 - 1) / 2)) (by rw [lt_min_iff]; constructor <;> linarith) (by simp; left; norm_num)
    refine ⟨r * 1.414213562, ?_⟩
    unfold cdfC
    rw [mul_div_assoc, div_self (by norm_num), mul_one, hr]
    have : min (1 / 2) ((2 * u - 1 - 1) / 2) ≤ (2 * u - 1 - 1) / 2 := min_le_right _ _
    linarith
  zero := by unfold cdfC; rw [zero_div, erf_zero]; norm_num

/-- **C94.** For every probability, 0 and 1 included, the loop ends, without dividing by 0, with a number whose cumulative probability is that one up to 0.001. -/
theorem C94_terminates (y0 : ℝ) (h0 : 0 ≤ y0) (h1 : y0 ≤ 1) :
    ∃ N x, |cdfC x - y0| ≤ 1 / 1000 ∧ ∀ fuel ≥ N, finv fuel y0 = some (.ok x) :=
  finv_reaches distFun_cdfC y0 h0 h1

example : ∃ N x, |cdfC x - 3 / 4| ≤ 1 / 1000 ∧ ∀ fuel ≥ N, finv fuel (3 / 4) = some (.ok x) :=
  C94_terminates _ (by norm_num) (by norm_num)

theorem loop_accuracy {F : ℝ → ℝ} {y0 : ℝ} (fuel : ℕ) : ∀ (s : FState) (x : ℝ), s.y = F s.x → finvLoop F y0 fuel s = some (.ok x) →
    |F x - y0| ≤ 1 / 1000 := by
  induction fuel with
  | zero => intro s x _ h; simp [finvLoop] at h
  | succ k ih =>
    intro s x hs h
    unfold finvLoop at h
    by_cases hc : 1 / 1000 < |s.y - y0|
    · rw [if_pos hc] at h
      cases hst : finvStep F y0 s with
      | error e => rw [hst] at h; simp at h
      | ok s' =>
        rw [hst] at h
        refine ih s' x ?_ h
        unfold finvStep at hst
        split at hst
        · simp at hst
        · simp only at hst
          split at hst
          · rw [← Except.ok.inj hst]
          · rw [← Except.ok.inj hst]
    · rw [if_neg hc] at h
      have : s.x = x := by simpa using h
      rw [← this, ← hs]
      exact not_lt.1 hc

/-- **C94.** Whatever is returned, for any argument, has the cumulative probability asked for up to 0.001. -/
theorem C94_accuracy (fuel : ℕ) (y0 x : ℝ) (h : finv fuel y0 = some (.ok x)) : |cdfC x - y0| ≤ 1 / 1000 :=
  loop_accuracy fuel .init x (by simp only [FState.init]; rw [distFun_cdfC.zero]) h

/-- The number returned, `z`, for probability `y0`. -/
def Returns (y0 z : ℝ) : Prop := ∃ N, ∀ fuel ≥ N, finv fuel y0 = some (.ok z)

/-- **C94.** For a uniform draw `u` of [0, 1] the number returned has the normal distribution up to 0.001: of the draws below `F t - 0.001` all, and of those above `F t + 0.001` none give a number
below `t`.  (For every draw there is exactly one number.) -/
theorem C94_distribution (u : ℝ) (h0 : 0 ≤ u) (h1 : u ≤ 1) :
    ∃ z, Returns u z ∧ (∀ z', Returns u z' → z' = z) ∧ ∀ t, (u < cdfC t - 1 / 1000 → z < t) ∧ (cdfC t + 1 / 1000 < u → t < z) := by
  obtain ⟨N, z, hz, hN⟩ := C94_terminates u h0 h1
  refine ⟨z, ⟨N, hN⟩, ?_, fun t => ⟨fun h => ?_, fun h => ?_⟩⟩
  · rintro z' ⟨N', hN'⟩
    have a := hN (max N N') (le_max_left _ _)
    have b := hN' (max N N') (le_max_right _ _)
    rw [a] at b
    simpa using b.symm
  · have := (abs_le.1 hz).2
    exact distFun_cdfC.mono.lt_iff_lt.1 (by linarith)
  · have := (abs_le.1 hz).1
    exact distFun_cdfC.mono.lt_iff_lt.1 (by linarith)

/-- Three quarters of the draws are below a positive number. -/
example : ∃ z, Returns (3 / 4) z ∧ 0 < z := by
  obtain ⟨z, h1, -, h2⟩ := C94_distribution (3 / 4) (by norm_num) (by norm_num)
  exact ⟨z, h1, (h2 0).2 (by rw [distFun_cdfC.zero]; norm_num)⟩

/-- **C94 (disagreement).** All draws within 0.001 of one half give exactly 0: one perturbation in 500 leaves its bin as it is. -/
theorem C94_centre_fails (u : ℝ) (h : |u - 1 / 2| ≤ 1 / 1000) : Returns u 0 := by
  refine ⟨1, fun fuel hf => ?_⟩
  obtain ⟨k, rfl⟩ : ∃ k, fuel = k + 1 := ⟨fuel - 1, by omega⟩
  unfold finv finvLoop
  rw [if_neg (by simp only [FState.init]; rw [abs_sub_comm]; linarith)]
  rfl

/-- **C94 (disagreement).** An argument above 1.001, which is no probability, is not refused: the loop does not end. -/
theorem C94_loop_fails (y0 : ℝ) (h : 1 + 1 / 1000 < y0) (fuel : ℕ) : finv fuel y0 = none := by
  have key : ∀ (fuel : ℕ) (s : FState), s.yl = 0 → 0 < s.yh → s.y ≤ 1 → finvLoop cdfC y0 fuel s = none := by
    intro fuel
    induction fuel with
    | zero => intros; rfl
    | succ k ih =>
      intro s h1 h2 h3
      unfold finvLoop
      rw [if_pos (by rw [lt_abs]; right; linarith)]
      unfold finvStep
      rw [if_neg (by rw [h1]; linarith)]
      simp only
      have := distFun_cdfC.lt_one (s.xl + (s.xh - s.xl) * (y0 - s.yl) / (s.yh - s.yl))
      rw [if_neg (by linarith)]
      exact ih _ h1 (distFun_cdfC.pos _) this.le
  exact key fuel .init rfl (by simp [FState.init]) (by simp only [FState.init]; norm_num)

end Ompy
