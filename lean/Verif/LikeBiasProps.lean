import Verif.PipelineProps

/-!
# C119: how far the largest likelihood is from the truth

`NormalizerNLD.lnlike` (ompy/normalizer_nld.py:484-522) divides by uncertainties that are transformed with the same parameters as the values, and adds the sum of their logarithms. Here: where the
largest likelihood lies for data that some parameters reproduce exactly.
-/

namespace Ompy

/-- The contribution of one bin to `err + ln_stds`: the transformed value `X` with the relative uncertainty `r`, to be compared with `d`. -/
noncomputable def binLoss (r d X : ℝ) : ℝ := ((X - d) / (r * X)) ^ 2 + Real.log (r * X)

/-- The factor between the truth and the value of the largest likelihood, for a relative uncertainty `r`. -/
noncomputable def biasFactor (r : ℝ) : ℝ := 2 / (1 + Real.sqrt (1 + 2 * r ^ 2))

theorem bias_root (r : ℝ) : ∃ u, 1 ≤ u ∧ biasFactor r = 1 / u ∧ u ^ 2 - u = r ^ 2 / 2 := by
  have h0 : 0 ≤ 1 + 2 * r ^ 2 := by positivity
  have h1 : 1 ≤ Real.sqrt (1 + 2 * r ^ 2) := by
    rw [Real.one_le_sqrt]
    nlinarith [sq_nonneg r]
  refine ⟨(1 + Real.sqrt (1 + 2 * r ^ 2)) / 2, by linarith, ?_, ?_⟩
  · unfold biasFactor
    rw [one_div_div]
  · have := Real.sq_sqrt h0
    nlinarith

theorem biasFactor_pos (r : ℝ) : 0 < biasFactor r := by unfold biasFactor; positivity

/-- **C119.** The factor is less than 1 for every uncertainty. -/
theorem C119_factor (r : ℝ) (hr : r ≠ 0) : 0 < biasFactor r ∧ biasFactor r < 1 := by
  refine ⟨biasFactor_pos r, ?_⟩
  unfold biasFactor
  have h1 : 1 < Real.sqrt (1 + 2 * r ^ 2) := by
    rw [Real.lt_sqrt (by norm_num)]
    have : 0 < r ^ 2 := by positivity
    linarith
  rw [div_lt_one (by linarith)]
  linarith

/-- **C119.** With the made up uncertainties of 30 % (ompy/normalizer_nld.py:200-206) the factor is about 0.959. -/
theorem C119_made_up : 0.9586 < biasFactor (3 / 10) ∧ biasFactor (3 / 10) < 0.9587 := by
  have h : Real.sqrt (1 + 2 * (3 / 10) ^ 2) < 1.08632 := by
    rw [Real.sqrt_lt' (by norm_num)]
    norm_num
  have h' : 1.0862 < Real.sqrt (1 + 2 * (3 / 10) ^ 2) := by
    rw [Real.lt_sqrt (by norm_num)]
    norm_num
  have h0 : 0 < 1 + Real.sqrt (1 + 2 * (3 / 10) ^ 2) := by positivity
  unfold biasFactor
  constructor
  · rw [lt_div_iff₀ h0]; linarith
  · rw [div_lt_iff₀ h0]; linarith

/-- **C119.** One bin: the smallest contribution is at the truth times the factor, and only there. -/
theorem C119_bin (r d X : ℝ) (hr : 0 < r) (hd : 0 < d) (hX : 0 < X) :
    binLoss r d (biasFactor r * d) ≤ binLoss r d X ∧ (binLoss r d X = binLoss r d (biasFactor r * d) → X = biasFactor r * d) := by
  obtain ⟨s, hs1, hs2, hs3⟩ := bias_root r
  have hs : 0 < s := by linarith
  -- in terms of `u = d / X`
  have form : ∀ Y, 0 < Y → binLoss r d Y = (1 - d / Y) ^ 2 / r ^ 2 + Real.log (r * d) - Real.log (d / Y) := by
    intro Y hY
    unfold binLoss
    rw [Real.log_div hd.ne' hY.ne', Real.log_mul hr.ne' hd.ne', Real.log_mul hr.ne' hY.ne']
    have : (Y - d) / (r * Y) = (1 - d / Y) / r := by field_simp
    rw [this, div_pow]
    ring
  have hb : d / (biasFactor r * d) = s := by
    rw [hs2]; field_simp
  have hbp : 0 < biasFactor r * d := mul_pos (biasFactor_pos r) hd
  rw [form X hX, form _ hbp, hb]
  set u := d / X with hu
  have hup : 0 < u := by positivity
  have hlog : Real.log u - Real.log s ≤ u / s - 1 := by
    rw [← Real.log_div hup.ne' hs.ne']
    exact Real.log_le_sub_one_of_pos (by positivity)
  have hr2 : r ^ 2 = 2 * (s ^ 2 - s) := by linarith
  have hr2p : 0 < r ^ 2 := by positivity
  have key : (1 - u) ^ 2 / r ^ 2 - (1 - s) ^ 2 / r ^ 2 - (u / s - 1) = (u - s) ^ 2 / r ^ 2 := by
    have h1 : u / s - 1 = (u - s) * (2 * (s - 1)) / r ^ 2 := by
      have hs1' : s - 1 ≠ 0 := by
        intro h
        rw [hr2] at hr2p
        have : s = 1 := by linarith
        rw [this] at hr2p
        norm_num at hr2p
      rw [hr2]
      have : s ^ 2 - s = s * (s - 1) := by ring
      rw [this]
      field_simp
    rw [h1]
    field_simp
    ring
  have hsq : 0 ≤ (u - s) ^ 2 / r ^ 2 := by positivity
  refine ⟨by linarith, fun h => ?_⟩
  have h0 : (u - s) ^ 2 / r ^ 2 = 0 := le_antisymm (by linarith) hsq
  have h1 : u = s := by
    rcases div_eq_zero_iff.1 h0 with h2 | h2
    · have := pow_eq_zero_iff (n := 2) (by norm_num) |>.1 h2
      linarith
    · exact absurd h2 hr2p.ne'
  rw [hs2, ← h1, hu]
  field_simp

/-- Data with one relative uncertainty and positive values. -/
structure NldData.Relative (D : NldData) (r : ℝ) : Prop where
  hr : 0 < r
  vl : ∀ k < D.n, 0 < D.vl k
  vh : ∀ k < D.m, 0 < D.vh k
  sl : ∀ k < D.n, D.sl k = r * D.vl k
  sh : ∀ k < D.m, D.sh k = r * D.vh k

theorem loss_sum (D : NldData) (r : ℝ) (h : D.Relative r) (m : ℚ → ℝ) (A a : ℝ) :
    D.chi2 m A a + D.lnSigma A a = ∑ k ∈ Finset.range D.n, binLoss r (D.d k) (A * D.vl k * Real.exp (a * D.El k)) +
      ∑ k ∈ Finset.range D.m, binLoss r (m (D.Eh k)) (A * D.vh k * Real.exp (a * D.Eh k)) + ((D.nldSn.1 - m D.Sn) / D.nldSn.2) ^ 2 := by
  have e1 : ∀ k ∈ Finset.range D.n, A * D.sl k * Real.exp (a * D.El k) = r * (A * D.vl k * Real.exp (a * D.El k)) := by
    intro k hk
    rw [h.sl k (Finset.mem_range.1 hk)]
    ring
  have e2 : ∀ k ∈ Finset.range D.m, A * D.sh k * Real.exp (a * D.Eh k) = r * (A * D.vh k * Real.exp (a * D.Eh k)) := by
    intro k hk
    rw [h.sh k (Finset.mem_range.1 hk)]
    ring
  have s1 : ∑ k ∈ Finset.range D.n, binLoss r (D.d k) (A * D.vl k * Real.exp (a * D.El k)) =
      ∑ k ∈ Finset.range D.n, ((A * D.vl k * Real.exp (a * D.El k) - D.d k) / (A * D.sl k * Real.exp (a * D.El k))) ^ 2 +
        ∑ k ∈ Finset.range D.n, Real.log (A * D.sl k * Real.exp (a * D.El k)) := by
    rw [← Finset.sum_add_distrib]
    apply Finset.sum_congr rfl
    intro k hk
    rw [e1 k hk]
    rfl
  have s2 : ∑ k ∈ Finset.range D.m, binLoss r (m (D.Eh k)) (A * D.vh k * Real.exp (a * D.Eh k)) =
      ∑ k ∈ Finset.range D.m, ((A * D.vh k * Real.exp (a * D.Eh k) - m (D.Eh k)) / (A * D.sh k * Real.exp (a * D.Eh k))) ^ 2 +
        ∑ k ∈ Finset.range D.m, Real.log (A * D.sh k * Real.exp (a * D.Eh k)) := by
    rw [← Finset.sum_add_distrib]
    apply Finset.sum_congr rfl
    intro k hk
    rw [e2 k hk]
    rfl
  rw [s1, s2]
  unfold NldData.chi2 NldData.lnSigma
  ring

/-- **C119.** For data that `A`, `a` reproduce exactly, all with the relative uncertainty `r`, the loss is smallest for the slope `a` and the constant `A` times the factor. -/
theorem loss_best (D : NldData) (r : ℝ) (h : D.Relative r) (A a T S : ℝ) (hA : 0 < A) (hT : 0 < T) (hE : D.Exact A a T S) (A' a' : ℝ) (hA' : 0 < A') :
    D.chi2 (ctVal T S) (biasFactor r * A) a + D.lnSigma (biasFactor r * A) a ≤ D.chi2 (ctVal T S) A' a' + D.lnSigma A' a' ∧
    (D.chi2 (ctVal T S) A' a' + D.lnSigma A' a' = D.chi2 (ctVal T S) (biasFactor r * A) a + D.lnSigma (biasFactor r * A) a →
      (∀ k < D.n, A' * D.vl k * Real.exp (a' * D.El k) = biasFactor r * D.d k) ∧
      ∀ k < D.m, A' * D.vh k * Real.exp (a' * D.Eh k) = biasFactor r * ctVal T S (D.Eh k)) := by
  rw [loss_sum D r h, loss_sum D r h]
  obtain ⟨l, u, -⟩ := hE
  have el : ∀ k ∈ Finset.range D.n, biasFactor r * A * D.vl k * Real.exp (a * D.El k) = biasFactor r * D.d k := by
    intro k hk
    rw [← l k (Finset.mem_range.1 hk)]
    ring
  have eh : ∀ k ∈ Finset.range D.m, biasFactor r * A * D.vh k * Real.exp (a * D.Eh k) = biasFactor r * ctVal T S (D.Eh k) := by
    intro k hk
    rw [← u k (Finset.mem_range.1 hk)]
    ring
  have s1 : ∑ k ∈ Finset.range D.n, binLoss r (D.d k) (biasFactor r * A * D.vl k * Real.exp (a * D.El k)) = ∑ k ∈ Finset.range D.n, binLoss r (D.d k) (biasFactor r * D.d k) :=
    Finset.sum_congr rfl fun k hk => by rw [el k hk]
  have s2 : ∑ k ∈ Finset.range D.m, binLoss r (ctVal T S (D.Eh k)) (biasFactor r * A * D.vh k * Real.exp (a * D.Eh k)) =
      ∑ k ∈ Finset.range D.m, binLoss r (ctVal T S (D.Eh k)) (biasFactor r * ctVal T S (D.Eh k)) :=
    Finset.sum_congr rfl fun k hk => by rw [eh k hk]
  rw [s1, s2]
  have bl : ∀ k ∈ Finset.range D.n, binLoss r (D.d k) (biasFactor r * D.d k) ≤ binLoss r (D.d k) (A' * D.vl k * Real.exp (a' * D.El k)) ∧
      (binLoss r (D.d k) (A' * D.vl k * Real.exp (a' * D.El k)) = binLoss r (D.d k) (biasFactor r * D.d k) → A' * D.vl k * Real.exp (a' * D.El k) = biasFactor r * D.d k) := by
    intro k hk
    have hv := h.vl k (Finset.mem_range.1 hk)
    apply C119_bin r _ _ h.hr
    · rw [← l k (Finset.mem_range.1 hk)]; positivity
    · positivity
  have bh : ∀ k ∈ Finset.range D.m, binLoss r (ctVal T S (D.Eh k)) (biasFactor r * ctVal T S (D.Eh k)) ≤ binLoss r (ctVal T S (D.Eh k)) (A' * D.vh k * Real.exp (a' * D.Eh k)) ∧
      (binLoss r (ctVal T S (D.Eh k)) (A' * D.vh k * Real.exp (a' * D.Eh k)) = binLoss r (ctVal T S (D.Eh k)) (biasFactor r * ctVal T S (D.Eh k)) →
        A' * D.vh k * Real.exp (a' * D.Eh k) = biasFactor r * ctVal T S (D.Eh k)) := by
    intro k hk
    have hv := h.vh k (Finset.mem_range.1 hk)
    apply C119_bin r _ _ h.hr
    · unfold ctVal; positivity
    · positivity
  have sl := Finset.sum_le_sum fun k hk => (bl k hk).1
  have sh := Finset.sum_le_sum fun k hk => (bh k hk).1
  refine ⟨by linarith, fun heq => ?_⟩
  have q1 := (Finset.sum_eq_sum_iff_of_le fun k hk => (bl k hk).1).1 (le_antisymm sl (by linarith))
  have q2 := (Finset.sum_eq_sum_iff_of_le fun k hk => (bh k hk).1).1 (le_antisymm sh (by linarith))
  exact ⟨fun k hk => (bl k (Finset.mem_range.2 hk)).2 (q1 k (Finset.mem_range.2 hk)).symm, fun k hk => (bh k (Finset.mem_range.2 hk)).2 (q2 k (Finset.mem_range.2 hk)).symm⟩

/-- **C119.** The likelihood is largest for the true slope and the true constant times the factor. -/
theorem C119_best (close : ℚ → ℚ → Bool) (hrefl : ∀ e, close e e = true) (D : NldData) (hD : D.Usable close) (r : ℝ) (h : D.Relative r) (u1 u2 u3 : String) (A a T S : ℝ) (hA : 0 < A)
    (hT : 0 < T) (hE : D.Exact A a T S) (A' a' : ℝ) (hA' : 0 < A') :
    ∃ x y, nldLnlike close (D.args constTemperature u1 u2 u3) (biasFactor r * A) a T S = .ok x ∧ nldLnlike close (D.args constTemperature u1 u2 u3) A' a' T S = .ok y ∧ y ≤ x ∧
      (y = x → (∀ k < D.n, A' * D.vl k * Real.exp (a' * D.El k) = biasFactor r * D.d k) ∧ ∀ k < D.m, A' * D.vh k * Real.exp (a' * D.Eh k) = biasFactor r * ctVal T S (D.Eh k)) := by
  obtain ⟨h1, h2⟩ := loss_best D r h A a T S hA hT hE A' a' hA'
  refine ⟨_, _, C64_value close hrefl D hD constTemperature (ctVal T S) u1 u2 u3 _ a T S (mul_pos (biasFactor_pos r) hA) (ct_ok T S hT.ne'),
    C64_value close hrefl D hD constTemperature (ctVal T S) u1 u2 u3 A' a' T S hA' (ct_ok T S hT.ne'), by linarith, fun he => h2 (by linarith)⟩

/-- **C119.** With two bins below at different energies the parameters of the largest likelihood are unique: the slope is the true one, the constant and with it the level density is too small by
the factor. -/
theorem C119_unique (close : ℚ → ℚ → Bool) (hrefl : ∀ e, close e e = true) (D : NldData) (hD : D.Usable close) (r : ℝ) (h : D.Relative r) (u1 u2 u3 : String) (A a T S : ℝ) (hA : 0 < A)
    (hT : 0 < T) (hE : D.Exact A a T S) (i j : ℕ) (hi : i < D.n) (hj : j < D.n) (hij : D.El i ≠ D.El j) (A' a' : ℝ) (hA' : 0 < A')
    (hbest : ∀ B b, 0 < B → ∃ x y, nldLnlike close (D.args constTemperature u1 u2 u3) A' a' T S = .ok x ∧ nldLnlike close (D.args constTemperature u1 u2 u3) B b T S = .ok y ∧ y ≤ x) :
    A' = biasFactor r * A ∧ a' = a := by
  have hF := biasFactor_pos r
  obtain ⟨x, y, e1, e2, hyx, heq⟩ := C119_best close hrefl D hD r h u1 u2 u3 A a T S hA hT hE A' a' hA'
  obtain ⟨x', y', f1, f2, hle⟩ := hbest (biasFactor r * A) a (mul_pos hF hA)
  rw [e2] at f1
  rw [e1] at f2
  injection f1 with f1
  injection f2 with f2
  subst f1 f2
  obtain ⟨q, -⟩ := heq (le_antisymm hyx hle)
  -- the two parameters from two bins
  have lg : ∀ k < D.n, Real.log A' + a' * D.El k = Real.log (biasFactor r * A) + a * D.El k := by
    intro k hk
    have hv := h.vl k hk
    have e : A' * Real.exp (a' * D.El k) = biasFactor r * A * Real.exp (a * D.El k) := by
      have h1 := q k hk
      rw [← hE.1 k hk] at h1
      have : D.vl k * (A' * Real.exp (a' * D.El k)) = D.vl k * (biasFactor r * A * Real.exp (a * D.El k)) := by linarith
      exact mul_left_cancel₀ hv.ne' this
    have := congrArg Real.log e
    rwa [Real.log_mul hA'.ne' (Real.exp_pos _).ne', Real.log_mul (mul_pos hF hA).ne' (Real.exp_pos _).ne', Real.log_exp, Real.log_exp] at this
  have hne : ((D.El i : ℚ) : ℝ) - D.El j ≠ 0 := by
    rw [sub_ne_zero]
    exact_mod_cast hij
  have ea : a' = a := by
    have h1 := lg i hi
    have h2 := lg j hj
    have : (a' - a) * (((D.El i : ℚ) : ℝ) - D.El j) = 0 := by linarith
    rcases mul_eq_zero.1 this with h3 | h3
    · linarith
    · exact absurd h3 hne
  refine ⟨?_, ea⟩
  have h1 := lg i hi
  rw [ea] at h1
  have h2 : Real.log A' = Real.log (biasFactor r * A) := by linarith
  exact Real.log_injOn_pos hA' (mul_pos hF hA) h2

/-- **C119 fails** as "the largest likelihood is at the truth", for all data: whatever the uncertainties, parameters that reproduce the data exactly are never those of the largest likelihood; a smaller
constant is more likely. -/
theorem C119_never_fails (close : ℚ → ℚ → Bool) (hrefl : ∀ e, close e e = true) (D : NldData) (hD : D.Usable close) (hn : 0 < D.n + D.m) (u1 u2 u3 : String) (A a T S : ℝ) (hA : 0 < A)
    (hT : 0 < T) (hE : D.Exact A a T S) :
    ∃ A' x y, 0 < A' ∧ A' < A ∧ nldLnlike close (D.args constTemperature u1 u2 u3) A a T S = .ok x ∧ nldLnlike close (D.args constTemperature u1 u2 u3) A' a T S = .ok y ∧ x < y := by
  set N : ℝ := ((D.n + D.m : ℕ) : ℝ) with hN
  have hNp : 0 < N := by rw [hN]; exact_mod_cast hn
  set Q : ℝ := ∑ k ∈ Finset.range D.n, (D.d k / (A * D.sl k * Real.exp (a * D.El k))) ^ 2 + ∑ k ∈ Finset.range D.m, (ctVal T S (D.Eh k) / (A * D.sh k * Real.exp (a * D.Eh k))) ^ 2 with hQ
  have hQ0 : 0 ≤ Q := add_nonneg (Finset.sum_nonneg fun _ _ => sq_nonneg _) (Finset.sum_nonneg fun _ _ => sq_nonneg _)
  -- the constant times `t`
  have loss : ∀ t : ℝ, 0 < t → D.chi2 (ctVal T S) (t * A) a + D.lnSigma (t * A) a = Q * ((1 - t) / t) ^ 2 + (D.lnSigma A a + N * Real.log t) := by
    intro t ht
    obtain ⟨l, u, s⟩ := hE
    have hs : D.lnSigma (t * A) a = D.lnSigma A a + N * Real.log t := by
      have e1 : ∀ k ∈ Finset.range D.n, Real.log (t * A * D.sl k * Real.exp (a * D.El k)) = Real.log (A * D.sl k * Real.exp (a * D.El k)) + Real.log t := by
        intro k hk
        have := hD.sl k (Finset.mem_range.1 hk)
        rw [show t * A * D.sl k * Real.exp (a * D.El k) = (A * D.sl k * Real.exp (a * D.El k)) * t by ring, Real.log_mul (by positivity) ht.ne']
      have e2 : ∀ k ∈ Finset.range D.m, Real.log (t * A * D.sh k * Real.exp (a * D.Eh k)) = Real.log (A * D.sh k * Real.exp (a * D.Eh k)) + Real.log t := by
        intro k hk
        have := hD.sh k (Finset.mem_range.1 hk)
        rw [show t * A * D.sh k * Real.exp (a * D.Eh k) = (A * D.sh k * Real.exp (a * D.Eh k)) * t by ring, Real.log_mul (by positivity) ht.ne']
      unfold NldData.lnSigma
      rw [Finset.sum_congr rfl e1, Finset.sum_congr rfl e2, Finset.sum_add_distrib, Finset.sum_add_distrib, Finset.sum_const, Finset.sum_const, Finset.card_range, Finset.card_range, hN]
      push_cast
      simp only [nsmul_eq_mul]
      ring
    have hc : D.chi2 (ctVal T S) (t * A) a = Q * ((1 - t) / t) ^ 2 := by
      unfold NldData.chi2
      rw [s, sub_self, zero_div, zero_pow two_ne_zero, add_zero, hQ, add_mul, Finset.sum_mul, Finset.sum_mul]
      congr 1
      · apply Finset.sum_congr rfl
        intro k hk
        have hsl := hD.sl k (Finset.mem_range.1 hk)
        rw [← l k (Finset.mem_range.1 hk), ← mul_pow, ← neg_sq]
        congr 1
        field_simp
        ring
      · apply Finset.sum_congr rfl
        intro k hk
        have hsh := hD.sh k (Finset.mem_range.1 hk)
        rw [← u k (Finset.mem_range.1 hk), ← mul_pow, ← neg_sq]
        congr 1
        field_simp
        ring
    rw [hc, hs]
  -- a small step
  set ε : ℝ := min (1 / 2) (N / (8 * (Q + 1))) with hε
  have hε0 : 0 < ε := lt_min (by norm_num) (by positivity)
  have hε1 : ε ≤ 1 / 2 := min_le_left _ _
  have hε2 : ε * (8 * (Q + 1)) ≤ N := by
    rw [← le_div_iff₀ (by positivity)]
    exact min_le_right _ _
  have ht : 0 < 1 - ε := by linarith
  refine ⟨(1 - ε) * A, _, _, by positivity, by nlinarith, C64_value close hrefl D hD constTemperature (ctVal T S) u1 u2 u3 A a T S hA (ct_ok T S hT.ne'),
    C64_value close hrefl D hD constTemperature (ctVal T S) u1 u2 u3 _ a T S (by positivity) (ct_ok T S hT.ne'), ?_⟩
  have l1 := loss 1 one_pos
  rw [one_mul, Real.log_one] at l1
  have l2 := loss (1 - ε) ht
  have hlog : Real.log (1 - ε) ≤ -ε := by
    have := Real.log_le_sub_one_of_pos ht
    linarith
  have hfr : ((1 - (1 - ε)) / (1 - ε)) ^ 2 ≤ 4 * ε ^ 2 := by
    rw [div_pow, div_le_iff₀ (by positivity)]
    have : 1 / 4 ≤ (1 - ε) ^ 2 := by nlinarith
    nlinarith [sq_nonneg ε]
  have h1 : Q * ((1 - (1 - ε)) / (1 - ε)) ^ 2 ≤ Q * (4 * ε ^ 2) := mul_le_mul_of_nonneg_left hfr hQ0
  have h2 : N * Real.log (1 - ε) ≤ -(N * ε) := by nlinarith
  have h3 : Q * (4 * ε ^ 2) < N * ε := by
    have : ε * (ε * (8 * (Q + 1))) ≤ ε * N := mul_le_mul_of_nonneg_left hε2 hε0.le
    nlinarith [mul_pos hε0 hε0]
  rw [l1, l2]
  simp only [sub_self, zero_div]
  nlinarith

/-- **C119.** So a fit of all four parameters never returns the truth: parameters of the largest likelihood do not reproduce the data, if some parameters do. -/
theorem C119_joint_fails (close : ℚ → ℚ → Bool) (hrefl : ∀ e, close e e = true) (D : NldData) (hD : D.Usable close) (hn : 0 < D.n + D.m) (u1 u2 u3 : String) (A a T S : ℝ) (hA : 0 < A) (hT : 0 < T)
    (hbest : ∀ A' a' T' S', 0 < A' → 0 < T' → ∃ x y, nldLnlike close (D.args constTemperature u1 u2 u3) A a T S = .ok x ∧ nldLnlike close (D.args constTemperature u1 u2 u3) A' a' T' S' = .ok y ∧ y ≤ x) :
    ¬ D.Exact A a T S := by
  intro hE
  obtain ⟨A', x, y, hA', -, h1, h2, hlt⟩ := C119_never_fails close hrefl D hD hn u1 u2 u3 A a T S hA hT hE
  obtain ⟨x', y', h3, h4, hle⟩ := hbest A' a T S hA' hT
  rw [h1] at h3
  rw [h2] at h4
  injection h3 with h3
  injection h4 with h4
  subst h3 h4
  exact absurd hlt (not_lt.2 hle)

/-- Non-vacuity of `C119_best`, `C119_unique` and `C119_never_fails`: values and uncertainties 1. -/
example : nldLikeCase2.Relative 1 ∧ nldLikeCase2.Usable eqQ ∧ nldLikeCase2.Exact 1 0 1 2 ∧ nldLikeCase2.El 0 ≠ nldLikeCase2.El 1 ∧
    ∃ A' x y, A' < 1 ∧ nldLnlike eqQ (nldLikeCase2.args constTemperature "MeV" "MeV" "MeV") 1 0 1 2 = .ok x ∧
      nldLnlike eqQ (nldLikeCase2.args constTemperature "MeV" "MeV" "MeV") A' 0 1 2 = .ok y ∧ x < y := by
  have hU : nldLikeCase2.Usable eqQ := ⟨fun _ _ => one_ne_zero, fun _ _ => one_ne_zero, fun _ _ => one_pos, fun _ _ => one_pos, fun _ _ => eqQ_refl _, one_ne_zero⟩
  have hE : nldLikeCase2.Exact 1 0 1 2 := by
    refine ⟨?_, ?_, ?_⟩
    · intro k _; simp [nldLikeCase2]
    · intro k _; norm_num [nldLikeCase2, ctVal]
    · norm_num [nldLikeCase2, ctVal]
  refine ⟨⟨one_pos, fun _ _ => one_pos, fun _ _ => one_pos, fun _ _ => (one_mul _).symm, fun _ _ => (one_mul _).symm⟩, hU, hE, by norm_num [nldLikeCase2], ?_⟩
  obtain ⟨A', x, y, -, h1, h2, h3, h4⟩ := C119_never_fails eqQ eqQ_refl nldLikeCase2 hU (by simp [nldLikeCase2]) "MeV" "MeV" "MeV" 1 0 1 2 one_pos one_pos hE
  exact ⟨A', x, y, h1, h2, h3, h4⟩

/-! ## The whole chain with this fit -/

variable {P B : Type}

/-- A fit of constant and slope that finds the largest likelihood, with temperature and shift given. -/
def MostLikely (close : ℚ → ℚ → Bool) (fit : NldFitIn P B → Except Err (NldPopt (ℝ × ℝ))) (b : FitBins) (T S : ℝ) : Prop :=
  ∀ i, (∃ r A a, (i.data b).Usable close ∧ (i.data b).Relative r ∧ 0 < A ∧ (i.data b).Exact A a T S) → ∃ p, fit i = .ok p ∧ 0 < p.A ∧ p.rest = (T, S) ∧
    ∀ A a, 0 < A → ∃ x y, nldLnlike close ((i.data b).args constTemperature "MeV" "MeV" "MeV") p.A p.alpha T S = .ok x ∧
      nldLnlike close ((i.data b).args constTemperature "MeV" "MeV" "MeV") A a T S = .ok y ∧ y ≤ x

theorem mostLikely_exists (close : ℚ → ℚ → Bool) (hrefl : ∀ e, close e e = true) (b : FitBins) (T S : ℝ) (hT : 0 < T) :
    ∃ fit : NldFitIn P B → Except Err (NldPopt (ℝ × ℝ)), MostLikely close fit b T S := by
  classical
  have key : ∀ i : NldFitIn P B, ∃ q : Except Err (NldPopt (ℝ × ℝ)), (∃ r A a, (i.data b).Usable close ∧ (i.data b).Relative r ∧ 0 < A ∧ (i.data b).Exact A a T S) →
      ∃ p, q = .ok p ∧ 0 < p.A ∧ p.rest = (T, S) ∧
        ∀ A a, 0 < A → ∃ x y, nldLnlike close ((i.data b).args constTemperature "MeV" "MeV" "MeV") p.A p.alpha T S = .ok x ∧
          nldLnlike close ((i.data b).args constTemperature "MeV" "MeV" "MeV") A a T S = .ok y ∧ y ≤ x := by
    intro i
    by_cases h : ∃ r A a, (i.data b).Usable close ∧ (i.data b).Relative r ∧ 0 < A ∧ (i.data b).Exact A a T S
    · obtain ⟨r, A, a, h1, h2, h3, h4⟩ := h
      refine ⟨.ok ⟨biasFactor r * A, a, T, S⟩, fun _ => ⟨_, rfl, mul_pos (biasFactor_pos r) h3, rfl, fun A' a' hA' => ?_⟩⟩
      obtain ⟨x, y, e1, e2, e3, -⟩ := C119_best close hrefl (i.data b) h1 r h2 "MeV" "MeV" "MeV" A a T S h3 hT h4 A' a' hA'
      exact ⟨x, y, e1, e2, e3⟩
    · exact ⟨.error .undefined, fun h' => absurd h' h⟩
  choose fit hfit using key
  exact ⟨fit, hfit⟩

/-- **C119.** What such a fit gives for a level density that is the truth `v` times `A exp(a E)`, with the made up uncertainties: the inverse of the gauge, times the factor. -/
theorem C119_fit (close : ℚ → ℚ → Bool) (hrefl : ∀ e, close e e = true) (fit : NldFitIn P B → Except Err (NldPopt (ℝ × ℝ))) (b : FitBins) (v d : Vec ℝ) (hv : v.consistent)
    (pos : ∀ q ∈ v.values, 0 < q) (T S : ℝ) (hf : MostLikely close fit b T S) (hk : Known v d b T S) (hbins : ∀ k < b.n, close (v.E.getD (b.l k) 0) (d.E.getD (b.l k) 0) = true)
    (A a : ℝ) (hA : 0 < A) (low high : ℚ × ℚ) (bo : B) (pa : P) (num : ℕ) :
    fit ⟨{ oslo v A a with std := some ((oslo v A a).values.map (· * (3 / 10))) }, d, low, high, bo, pa, num⟩ = .ok ⟨biasFactor (3 / 10) * (1 / A), -a, T, S⟩ := by
  set i : NldFitIn P B := ⟨{ oslo v A a with std := some ((oslo v A a).values.map (· * (3 / 10))) }, d, low, high, bo, pa, num⟩ with hi
  have hlen : v.values.length = v.E.length := by
    simp only [Vec.consistent, Bool.and_eq_true, beq_iff_eq] at hv
    exact hv.1.symm
  have hval : ∀ k < v.E.length, i.nld.values.getD k 0 = A * v.values.getD k 0 * Real.exp (a * (v.E.getD k 0 : ℝ)) :=
    fun k hk => oslo_getD v hv A a k hk
  have hpos : ∀ k < v.E.length, 0 < v.values.getD k 0 := by
    intro k hk
    rw [List.getD_eq_getElem v.values 0 (by omega)]
    exact pos _ (List.getElem_mem _)
  have hvp : ∀ k < v.E.length, 0 < i.nld.values.getD k 0 := by
    intro k hk
    rw [hval k hk]
    have := hpos k hk
    positivity
  have hol : (oslo v A a).values.length = v.E.length := by simp [oslo, Vec.transform, hlen]
  have hsd : ∀ k < v.E.length, (i.nld.std.getD []).getD k 0 = 3 / 10 * i.nld.values.getD k 0 := by
    intro k hk
    have h2 : i.nld.std.getD [] = (oslo v A a).values.map (· * (3 / 10)) := rfl
    have h3 : i.nld.values = (oslo v A a).values := rfl
    rw [h2, h3, List.getD_eq_getElem _ 0 (by simpa [hol] using hk), List.getElem_map, List.getD_eq_getElem _ 0 (by omega)]
    ring
  have hR : (i.data b).Relative (3 / 10) := ⟨by norm_num, fun k h => hvp _ (hk.hl k h), fun k h => hvp _ (hk.hh k h), fun k h => hsd _ (hk.hl k h), fun k h => hsd _ (hk.hh k h)⟩
  have hU : (i.data b).Usable close := ⟨fun k h => (hvp _ (hk.hl k h)).ne', fun k h => (hvp _ (hk.hh k h)).ne', fun k h => by
      have := hvp _ (hk.hl k h)
      have h2 := hsd _ (hk.hl k h)
      change 0 < (i.nld.std.getD []).getD (b.l k) 0
      rw [h2]; positivity, fun k h => by
      have := hvp _ (hk.hh k h)
      have h2 := hsd _ (hk.hh k h)
      change 0 < (i.nld.std.getD []).getD (b.h k) 0
      rw [h2]; positivity, hbins, hk.sd⟩
  have back : ∀ k < v.E.length, 1 / A * i.nld.values.getD k 0 * Real.exp (-a * (v.E.getD k 0 : ℝ)) = v.values.getD k 0 := by
    intro k h
    rw [hval k h, neg_mul, Real.exp_neg]
    have := (Real.exp_pos (a * (v.E.getD k 0 : ℝ))).ne'
    have := hA.ne'
    field_simp
  have hex : (i.data b).Exact (1 / A) (-a) T S :=
    ⟨fun k h => (back _ (hk.hl k h)).trans (hk.low k h), fun k h => (back _ (hk.hh k h)).trans (hk.high k h), hk.sn⟩
  have hA' : 0 < 1 / A := by positivity
  obtain ⟨p, p1, p2, p3, p4⟩ := hf i ⟨3 / 10, 1 / A, -a, hU, hR, hA', hex⟩
  obtain ⟨i1, hi1, j1, hj1, hne⟩ := hk.two
  obtain ⟨q1, q2⟩ := C119_unique close hrefl (i.data b) hU (3 / 10) hR "MeV" "MeV" "MeV" (1 / A) (-a) T S hA' hk.hT hex i1 j1 hi1 hj1 hne p.A p.alpha p2 p4
  rw [p1]
  obtain ⟨pA, pa', pT⟩ := p
  dsimp only at q1 q2 p3
  rw [q1, q2, p3]

variable {x y w : ℚ} {nx ny : ℕ} {nld T : List ℝ} {values std : List (List ℝ)}

/-- **C119 fails** end to end: with a perfect matrix, a perfect extraction and known values that agree with the truth, the level density that comes out is, in every bin, about 0.959 times the true one. -/
theorem C119_chain_fails (close : ℚ → ℚ → Bool) (hrefl : ∀ e, close e e = true) (f : FitEnv) (h : FitCase x y w nx ny (f.resolution (grid y w ny) (grid x w nx)) nld T values std)
    (hc : f.close w w = true) (hm : PerfectMinimizer f.minimize)
    (hs : (f.start (nldAxis x y w nx ny) (values.map fun r => r.map (· / r.sum))).length = nx + ny - 1 + ny) (hE : ∀ j < ny, (grid y w ny).getD j 0 ≠ 0) (c : ℝ) (hc0 : 0 < c)
    (e : EnsEnv P B (ℝ × ℝ)) (s : EnsState P B (ℝ × ℝ)) (d : Vec ℝ) (hp : Prepared e s d) (b : FitBins) (T0 S0 : ℝ) (hf : MostLikely close e.fitNld b T0 S0)
    (hk : Known (trueNld (f.resolution (grid y w ny) (grid x w nx)) x y w nx ny nld) d b T0 S0)
    (hbins : ∀ k < b.n, close ((trueNld (f.resolution (grid y w ny) (grid x w nx)) x y w nx ny nld).E.getD (b.l k) 0) (d.E.getD (b.l k) 0) = true) (hg : ScaledFit e.fitGsf) (r : GsfResult)
    (hr : gsfNormalize s.gsf.pars s.gsf.low s.gsf.high e.fitGsf 0 (oslo (trueNld (f.resolution (grid y w ny) (grid x w nx)) x y w nx ny nld) (biasFactor (3 / 10)) 0).curve
      (fun q => constTemperature q T0 S0) (e.spin s.gsf.pars) (trueGsf y w ny T c) = .ok r) (num : ℕ) :
    ∃ out n, osloMethod f e s num values (some std) (grid y w ny) (grid x w nx) = .ok out ∧ out.ofNld = some n ∧
      n.nld.E = (trueNld (f.resolution (grid y w ny) (grid x w nx)) x y w nx ny nld).E ∧
      n.nld.values = (trueNld (f.resolution (grid y w ny) (grid x w nx)) x y w nx ny nld).values.map (biasFactor (3 / 10) * ·) := by
  obtain ⟨out, n, o1, o2, o3, -⟩ := chain_core f h hc hm hs hE c hc0 e s d hp T0 S0 (biasFactor (3 / 10)) num (fun pn A a hA low high bo pa =>
    C119_fit close hrefl e.fitNld b _ d (by simp [trueNld, Vec.consistent]) pn T0 S0 hf hk hbins A a hA low high bo pa num) hg r hr
  refine ⟨out, n, o1, o2, by rw [o3]; rfl, ?_⟩
  rw [o3]
  unfold trueNld
  rw [oslo_maps]
  simp only [List.map_map]
  apply List.map_congr_left
  intro k _
  simp

/-- Non-vacuity of `C119_chain_fails`: the small case. -/
example : ∃ (f : FitEnv) (e : EnsEnv Unit Unit (ℝ × ℝ)) (out : GsfOut (NldPopt (ℝ × ℝ))) (n : NldOut (NldPopt (ℝ × ℝ))),
    osloMethod f e (smallState ⟨1 / 1000, 3 / 1000, 5, (1, 0), 1⟩) 0 [[2, 1, 0], [2, 2, 1]] (some [[1, 1, 1], [1, 1, 1]]) (grid 1 1 3) (grid 2 1 2) = .ok out ∧ out.ofNld = some n ∧
      n.nld.values = [biasFactor (3 / 10), biasFactor (3 / 10) * 2, biasFactor (3 / 10) * 2] := by
  obtain ⟨m, hm⟩ := perfectMinimizer_exists
  obtain ⟨fit, hfit⟩ := mostLikely_exists (P := Unit) (B := Unit) eqQ eqQ_refl smallBins (1 / 2) (2 / 1000) (by norm_num)
  set f : FitEnv := ⟨fun _ _ => true, fun _ _ => [0, 0], fun _ _ => List.replicate 7 1, m⟩ with hf
  have hp : Prepared (smallEnv fit) (smallState ⟨1 / 1000, 3 / 1000, 5, (1, 0), 1⟩) ⟨[0, 1 / 1000], [1, 2], none, "MeV"⟩ :=
    ⟨⟨_, rfl⟩, ⟨_, rfl⟩, ⟨_, rfl⟩, ⟨_, rfl, rfl⟩, ⟨0, rfl, by simp [smallState], rfl⟩, rfl, rfl, rfl, fun _ _ => rfl⟩
  have hF := biasFactor_pos (3 / 10)
  have hk := small_known
  have hbins : ∀ k < smallBins.n, eqQ (([0, 1 / 1000, 2 / 1000] : List ℚ).getD (smallBins.l k) 0) (([0, 1 / 1000] : List ℚ).getD (smallBins.l k) 0) = true := by
    intro k hk
    have : k < 2 := hk
    simp only [smallBins, id]
    interval_cases k <;> simp [eqQ]
  obtain ⟨r, hr⟩ := small_gsf fit (biasFactor (3 / 10)) hF
  have hE : (trueNld [0, 0] 2 1 1 2 3 [1, 1, 2, 2]).E = [0, 1 / 1000, 2 / 1000] := by rw [small_trueNld]
  rw [← small_trueNld] at hk
  rw [← hE] at hbins
  obtain ⟨out, n, o1, o2, -, o3⟩ := C119_chain_fails eqQ eqQ_refl f smallCase rfl hm (by simp [hf]) (by intro j hj; interval_cases j <;> norm_num [grid, List.range_succ]) 1 one_pos (smallEnv fit) _ _ hp smallBins
    (1 / 2) (2 / 1000) hfit hk hbins headFit_scaled r hr 0
  refine ⟨f, smallEnv fit, out, n, o1, o2, ?_⟩
  rw [o3]
  have : f.resolution (grid 1 1 3) (grid 2 1 2) = [0, 0] := rfl
  rw [this, small_trueNld]
  simp

end Ompy
