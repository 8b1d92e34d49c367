import Verif.UnfoldNoiseProps
import Verif.Extractor
import Verif.FirstGenProps

/-!
# Shares and averages of counts

C133: normalised rows, average gamma energies and multiplicities of counts that follow Poisson's law.
-/

namespace Ompy

set_option linter.unusedSectionVars false

open MeasureTheory ProbabilityTheory Filter Topology

/-! ## What is meant -/

/-- Independent counts with the averages `t`. -/
structure Counts {ι Ω : Type*} [MeasurableSpace Ω] (μ : Measure Ω) (X : ι → Ω → ℕ) (t : ι → ℝ) : Prop where
  meas : ∀ k, Measurable (X k)
  law : ∀ k, HasLaw (X k) (countLaw (t k)) μ
  indep : iIndepFun X μ
  pos : ∀ k, 0 ≤ t k

/-- The sum of some counts. -/
def totalOf {ι Ω : Type*} (X : ι → Ω → ℕ) (s : Finset ι) (ω : Ω) : ℕ := ∑ k ∈ s, X k ω

/-! ## One count -/

lemma stein_one {v : ℝ} (hv : 0 ≤ v) (f : ℕ → ℝ) (hf : Integrable (fun n : ℕ => (n : ℝ) * f n) (countLaw v)) :
    ∫ n : ℕ, (n : ℝ) * f n ∂(countLaw v) = v * ∫ n : ℕ, f (n + 1) ∂(countLaw v) := by
  have hr : ((countMean v : NNReal) : ℝ) = v := max_eq_right hv
  have h := hasSum_integral_poissonMeasure (r := countMean v) (f := fun n : ℕ => (n : ℝ) * f n) hf
  have h1 := (hasSum_nat_add_iff' 1).2 h
  simp only [Finset.range_one, Finset.sum_singleton, Nat.cast_zero, zero_mul, smul_zero, sub_zero] at h1
  change _ = v * ∫ n : ℕ, f (n + 1) ∂(poissonMeasure (countMean v))
  rw [integral_poissonMeasure (countMean v) fun n : ℕ => f (n + 1), ← tsum_mul_left]
  change ∫ n : ℕ, (n : ℝ) * f n ∂(poissonMeasure (countMean v)) = _
  rw [← h1.tsum_eq]
  refine tsum_congr fun n => ?_
  rw [hr, smul_eq_mul, smul_eq_mul, Nat.factorial_succ, pow_succ]
  push_cast
  have : ((n.factorial : ℕ) : ℝ) ≠ 0 := by positivity
  have : (n : ℝ) + 1 ≠ 0 := by positivity
  field_simp

section
variable {Ω : Type*} [MeasurableSpace Ω] {μ : Measure Ω} [IsProbabilityMeasure μ]

lemma stein_two {v : ℝ} (hv : 0 ≤ v) {P R : Ω → ℕ} (hP : HasLaw P (countLaw v) μ) (hR : AEMeasurable R μ) (ind : IndepFun P R μ)
    (g : ℕ → ℕ → ℝ) (c : ℝ) (hg : ∀ a b, |g a b| ≤ c * (a + 1)) :
    Integrable (fun ω => (P ω : ℝ) * g (P ω) (R ω)) μ ∧
    ∫ ω, (P ω : ℝ) * g (P ω) (R ω) ∂μ = v * ∫ ω, g (P ω + 1) (R ω) ∂μ := by
  obtain ⟨m, -, -⟩ := countLaw_moments hv
  have I1 : Integrable (fun n : ℕ => (n : ℝ)) (countLaw v) := m.integrable one_le_two
  have I2 : Integrable (fun n : ℕ => (n : ℝ) * (c * ((n : ℝ) + 1))) (countLaw v) := by
    have := (m.integrable_sq.add I1).const_mul c
    refine this.congr (Eventually.of_forall fun n => ?_)
    simp only [Pi.add_apply]
    ring
  have : IsProbabilityMeasure (μ.map R) := Measure.isProbabilityMeasure_map hR
  have J : μ.map (fun ω => (P ω, R ω)) = (countLaw v).prod (μ.map R) := by
    rw [(indepFun_iff_map_prod_eq_prod_map_map hP.aemeasurable hR).1 ind, hP.map_eq]
  have me : AEMeasurable (fun ω => (P ω, R ω)) μ := hP.aemeasurable.prodMk hR
  have bound : ∀ a b : ℕ, ‖(a : ℝ) * g a b‖ ≤ (a : ℝ) * (c * ((a : ℝ) + 1)) := by
    intro a b
    rw [norm_mul, Real.norm_eq_abs, Real.norm_eq_abs, Nat.abs_cast]
    exact mul_le_mul_of_nonneg_left (hg a b) (Nat.cast_nonneg a)
  have Ip : Integrable (fun q : ℕ × ℕ => (q.1 : ℝ) * g q.1 q.2) ((countLaw v).prod (μ.map R)) := by
    refine Integrable.mono' (g := fun q : ℕ × ℕ => (q.1 : ℝ) * (c * ((q.1 : ℝ) + 1))) ?_
      (measurable_of_countable _).aestronglyMeasurable (Eventually.of_forall fun q => bound q.1 q.2)
    exact I2.comp_fst _
  have Ip' : Integrable (fun q : ℕ × ℕ => g (q.1 + 1) q.2) ((countLaw v).prod (μ.map R)) := by
    refine Integrable.mono' (g := fun q : ℕ × ℕ => c * ((q.1 : ℝ) + 1 + 1)) ?_
      (measurable_of_countable _).aestronglyMeasurable (Eventually.of_forall fun q => ?_)
    · exact ((I1.add (integrable_const (1 : ℝ))).add (integrable_const (1 : ℝ))).const_mul c |>.comp_fst (μ.map R)
    · have := hg (q.1 + 1) q.2
      push_cast at this
      exact this
  refine ⟨?_, ?_⟩
  · rw [← J] at Ip
    exact Ip.comp_aemeasurable me
  · have e1 : ∫ ω, (P ω : ℝ) * g (P ω) (R ω) ∂μ = ∫ q, (q.1 : ℝ) * g q.1 q.2 ∂((countLaw v).prod (μ.map R)) := by
      rw [← J, integral_map me (measurable_of_countable _).aestronglyMeasurable]
    have e2 : ∫ ω, g (P ω + 1) (R ω) ∂μ = ∫ q, g (q.1 + 1) q.2 ∂((countLaw v).prod (μ.map R)) := by
      rw [← J, integral_map me (measurable_of_countable _).aestronglyMeasurable]
    rw [e1, e2, integral_prod_symm _ Ip, integral_prod_symm _ Ip', ← integral_const_mul]
    refine integral_congr_ae (Eventually.of_forall fun b => ?_)
    refine stein_one hv (fun a => g a b) ?_
    exact Integrable.mono' I2 (measurable_of_countable _).aestronglyMeasurable (Eventually.of_forall fun a => bound a b)

/-! ## Several counts -/

variable {ι : Type*} [DecidableEq ι] {X : ι → Ω → ℕ} {t : ι → ℝ}

lemma Counts.total_meas (h : Counts μ X t) (s : Finset ι) : Measurable (totalOf X s) :=
  Finset.measurable_fun_sum s fun k _ => h.meas k

lemma Counts.rest (h : Counts μ X t) {s : Finset ι} {j : ι} (hj : j ∈ s) :
    IndepFun (X j) (totalOf X (s.erase j)) μ ∧ ∀ ω, totalOf X s ω = X j ω + totalOf X (s.erase j) ω := by
  refine ⟨?_, fun ω => (Finset.add_sum_erase s (fun k => X k ω) hj).symm⟩
  have := (h.indep.indepFun_finsetSum_of_notMem h.meas (Finset.notMem_erase j s)).symm
  convert this using 1
  funext ω
  simp [totalOf]

lemma Counts.stein (h : Counts μ X t) {s : Finset ι} {j : ι} (hj : j ∈ s) (g : ℕ → ℝ) (c : ℝ) (hg : ∀ n, |g n| ≤ c) :
    Integrable (fun ω => (X j ω : ℝ) * g (totalOf X s ω)) μ ∧
    ∫ ω, (X j ω : ℝ) * g (totalOf X s ω) ∂μ = t j * ∫ ω, g (totalOf X s ω + 1) ∂μ := by
  obtain ⟨ind, e⟩ := h.rest hj
  have c0 : 0 ≤ c := (abs_nonneg _).trans (hg 0)
  have := stein_two (h.pos j) (h.law j) (h.total_meas (s.erase j)).aemeasurable ind (fun a b => g (a + b)) c fun a b => by
    refine (hg _).trans ?_
    have : (0 : ℝ) ≤ a := Nat.cast_nonneg a
    nlinarith
  simp only [e]
  refine ⟨this.1, this.2.trans ?_⟩
  congr 1
  refine integral_congr_ae (Eventually.of_forall fun ω => ?_)
  show g _ = g _
  congr 1
  omega

lemma Counts.stein' (h : Counts μ X t) {s : Finset ι} {j : ι} (hj : j ∈ s) (g : ℕ → ℝ) (c : ℝ) (hg : ∀ n, |g n| ≤ c) :
    Integrable (fun ω => (X j ω : ℝ) * (((X j ω : ℝ) - 1) * g (totalOf X s ω))) μ ∧
    ∫ ω, (X j ω : ℝ) * (((X j ω : ℝ) - 1) * g (totalOf X s ω)) ∂μ = t j ^ 2 * ∫ ω, g (totalOf X s ω + 2) ∂μ := by
  obtain ⟨ind, e⟩ := h.rest hj
  have c0 : 0 ≤ c := (abs_nonneg _).trans (hg 0)
  have R := (h.total_meas (s.erase j)).aemeasurable (μ := μ)
  have s1 := stein_two (h.pos j) (h.law j) R ind (fun a b => ((a : ℝ) - 1) * g (a + b)) c fun a b => by
    have ha : (0 : ℝ) ≤ a := Nat.cast_nonneg a
    rw [abs_mul, mul_comm c]
    exact mul_le_mul (abs_le.2 ⟨by linarith, by linarith⟩) (hg _) (abs_nonneg _) (by linarith)
  have s2 := stein_two (h.pos j) (h.law j) R ind (fun a b => g (a + b + 1)) c fun a b => by
    refine (hg _).trans ?_
    have : (0 : ℝ) ≤ a := Nat.cast_nonneg a
    nlinarith
  simp only [e]
  refine ⟨s1.1, s1.2.trans ?_⟩
  have q : ∀ ω, ((X j ω + 1 : ℕ) : ℝ) - 1 = X j ω := fun ω => by push_cast; ring
  simp only [q]
  have q2 : ∀ ω, X j ω + 1 + totalOf X (s.erase j) ω = X j ω + totalOf X (s.erase j) ω + 1 := fun ω => by omega
  simp only [q2]
  rw [s2.2, ← mul_assoc, ← pow_two]
  congr 1
  refine integral_congr_ae (Eventually.of_forall fun ω => ?_)
  show g _ = g _
  congr 1
  omega

lemma Counts.stein_total (h : Counts μ X t) (s : Finset ι) (g : ℕ → ℝ) (c : ℝ) (hg : ∀ n, |g n| ≤ c) :
    Integrable (fun ω => (totalOf X s ω : ℝ) * g (totalOf X s ω)) μ ∧
    ∫ ω, (totalOf X s ω : ℝ) * g (totalOf X s ω) ∂μ = (∑ k ∈ s, t k) * ∫ ω, g (totalOf X s ω + 1) ∂μ := by
  have e : ∀ ω, (totalOf X s ω : ℝ) * g (totalOf X s ω) = ∑ k ∈ s, (X k ω : ℝ) * g (totalOf X s ω) := by
    intro ω
    rw [← Finset.sum_mul]
    unfold totalOf
    push_cast
    rfl
  simp only [e]
  refine ⟨integrable_finsetSum _ fun k hk => (h.stein hk g c hg).1, ?_⟩
  rw [integral_finsetSum _ fun k hk => (h.stein hk g c hg).1, Finset.sum_mul]
  exact Finset.sum_congr rfl fun k hk => (h.stein hk g c hg).2

lemma countLaw_zero {v : ℝ} (hv : 0 ≤ v) : countLaw v {0} = ENNReal.ofReal (Real.exp (-v)) := by
  have hr : ((countMean v : NNReal) : ℝ) = v := max_eq_right hv
  unfold countLaw
  rw [poissonMeasure_singleton, hr]
  simp

lemma Counts.empty (h : Counts μ X t) (s : Finset ι) : μ {ω | totalOf X s ω = 0} = ENNReal.ofReal (Real.exp (-∑ k ∈ s, t k)) := by
  have e : {ω | totalOf X s ω = 0} = ⋂ k ∈ s, X k ⁻¹' {0} := by
    ext ω
    simp [totalOf]
  rw [e, h.indep.meas_biInter fun k _ => ⟨{0}, measurableSet_singleton 0, rfl⟩, ← Finset.sum_neg_distrib, Real.exp_sum,
    ENNReal.ofReal_prod_of_nonneg fun k _ => (Real.exp_pos _).le]
  refine Finset.prod_congr rfl fun k _ => ?_
  rw [← Measure.map_apply (h.meas k) (measurableSet_singleton 0), (h.law k).map_eq, countLaw_zero (h.pos k)]

lemma Counts.nonempty (h : Counts μ X t) (s : Finset ι) :
    ∫ ω, (if totalOf X s ω = 0 then (0 : ℝ) else 1) ∂μ = 1 - Real.exp (-∑ k ∈ s, t k) := by
  have me : MeasurableSet {ω | totalOf X s ω = 0} := h.total_meas s (measurableSet_singleton 0)
  have e : (fun ω => if totalOf X s ω = 0 then (0 : ℝ) else 1) = fun ω => 1 - Set.indicator {ω | totalOf X s ω = 0} (fun _ => (1 : ℝ)) ω := by
    funext ω
    by_cases hz : totalOf X s ω = 0
    · simp [hz]
    · simp [hz]
  rw [e, integral_sub (integrable_const _) ((integrable_const _).indicator me), integral_indicator me]
  simp [measureReal_def, h.empty s, ENNReal.toReal_ofReal (Real.exp_pos _).le]

/-! ## Shares -/

/-- The share of a count in a sum of counts, 0 if there are none. -/
noncomputable def shareOf {ι Ω : Type*} (X : ι → Ω → ℕ) (s : Finset ι) (j : ι) (ω : Ω) : ℝ :=
  if totalOf X s ω = 0 then 0 else (X j ω : ℝ) / totalOf X s ω

lemma inv_bound (n : ℕ) : |(1 : ℝ) / n| ≤ 1 := by
  rcases Nat.eq_zero_or_pos n with rfl | h
  · simp
  · have : (1 : ℝ) ≤ n := by exact_mod_cast h
    rw [abs_of_nonneg (by positivity), div_le_one (by linarith)]
    exact this

lemma Counts.plus_one (h : Counts μ X t) (s : Finset ι) :
    (∑ k ∈ s, t k) * ∫ ω, 1 / ((totalOf X s ω : ℝ) + 1) ∂μ = 1 - Real.exp (-∑ k ∈ s, t k) := by
  have := (h.stein_total s (fun n => 1 / (n : ℝ)) 1 inv_bound).2
  simp only [Nat.cast_add, Nat.cast_one] at this
  rw [← this, ← h.nonempty s]
  refine integral_congr_ae (Eventually.of_forall fun ω => ?_)
  show (totalOf X s ω : ℝ) * (1 / totalOf X s ω) = if totalOf X s ω = 0 then (0 : ℝ) else 1
  split_ifs with h0
  · rw [h0]
    simp
  · have : (totalOf X s ω : ℝ) ≠ 0 := by exact_mod_cast h0
    field_simp

lemma Counts.share (h : Counts μ X t) {s : Finset ι} {j : ι} (hj : j ∈ s) :
    Integrable (shareOf X s j) μ ∧ ∫ ω, shareOf X s j ω ∂μ = t j / (∑ k ∈ s, t k) * (1 - Real.exp (-∑ k ∈ s, t k)) := by
  have e : shareOf X s j = fun ω => (X j ω : ℝ) * (1 / (totalOf X s ω : ℝ)) := by
    funext ω
    unfold shareOf
    split_ifs with h0
    · rw [h0]
      simp
    · ring
  obtain ⟨I, E⟩ := h.stein hj (fun n => 1 / (n : ℝ)) 1 inv_bound
  rw [e]
  refine ⟨I, E.trans ?_⟩
  rw [← h.plus_one s]
  by_cases hT : ∑ k ∈ s, t k = 0
  · have : t j = 0 := (Finset.sum_eq_zero_iff_of_nonneg fun k _ => h.pos k).1 hT j hj
    rw [this]
    simp
  · simp only [Nat.cast_add, Nat.cast_one]
    field_simp

/-- The average of one over the total. -/
noncomputable def meanInverse {ι Ω : Type*} [MeasurableSpace Ω] (μ : Measure Ω) (X : ι → Ω → ℕ) (s : Finset ι) : ℝ :=
  ∫ ω, (if totalOf X s ω = 0 then 0 else 1 / (totalOf X s ω : ℝ)) ∂μ

lemma Counts.nat_int (h : Counts μ X t) (s : Finset ι) (g : ℕ → ℝ) (c : ℝ) (hg : ∀ n, |g n| ≤ c) :
    Integrable (fun ω => g (totalOf X s ω)) μ :=
  Integrable.mono' (integrable_const c) ((measurable_of_countable g).comp (h.total_meas s)).aestronglyMeasurable
    (Eventually.of_forall fun _ => hg _)

lemma Counts.spread (h : Counts μ X t) {s : Finset ι} {j : ι} (hj : j ∈ s) (hT : 0 < ∑ k ∈ s, t k) :
    ∫ ω, (if totalOf X s ω = 0 then 0 else (shareOf X s j ω - t j / ∑ k ∈ s, t k) ^ 2) ∂μ =
      t j / (∑ k ∈ s, t k) * (1 - t j / ∑ k ∈ s, t k) * meanInverse μ X s := by
  set T := ∑ k ∈ s, t k with hTd
  set p := t j / T with hp
  have b2 : ∀ n : ℕ, |(1 : ℝ) / n * (1 / n)| ≤ 1 := fun n => by
    rw [abs_mul]
    exact mul_le_one₀ (inv_bound n) (abs_nonneg _) (inv_bound n)
  have b3 : ∀ n : ℕ, |((n : ℝ) - 1) * (1 / n * (1 / n))| ≤ 2 := fun n => by
    rcases Nat.eq_zero_or_pos n with rfl | hn
    · norm_num
    · have hn' : (1 : ℝ) ≤ n := by exact_mod_cast hn
      rw [abs_of_nonneg (mul_nonneg (by linarith) (by positivity)), div_mul_div_comm, one_mul, mul_one_div, div_le_iff₀ (by positivity)]
      nlinarith
  obtain ⟨A1, A2⟩ := h.stein' hj (fun n => 1 / (n : ℝ) * (1 / n)) 1 b2
  obtain ⟨B1, B2⟩ := h.stein hj (fun n => 1 / (n : ℝ) * (1 / n)) 1 b2
  obtain ⟨C1, C2⟩ := h.stein hj (fun n => 1 / (n : ℝ)) 1 inv_bound
  have D2 := (h.stein_total s (fun n => 1 / (n : ℝ) * (1 / n)) 1 b2).2
  have E2 := (h.stein_total s (fun n => ((n : ℝ) - 1) * (1 / n * (1 / n))) 2 b3).2
  have F2 := (h.stein_total s (fun n => 1 / ((n : ℝ) + 1) * (1 / ((n : ℝ) + 1))) 1 fun n => by simpa using b2 (n + 1)).2
  have G2 := h.plus_one s
  have N2 := h.nonempty s
  rw [← hTd] at D2 E2 F2 G2 N2
  -- the averages that occur
  have dq : ∫ ω, (totalOf X s ω : ℝ) * (1 / (totalOf X s ω : ℝ) * (1 / totalOf X s ω)) ∂μ = meanInverse μ X s := by
    refine integral_congr_ae (Eventually.of_forall fun ω => ?_)
    show (totalOf X s ω : ℝ) * (1 / (totalOf X s ω : ℝ) * (1 / totalOf X s ω)) = if totalOf X s ω = 0 then 0 else 1 / (totalOf X s ω : ℝ)
    split_ifs with h0
    · rw [h0]
      simp
    · have : (totalOf X s ω : ℝ) ≠ 0 := by exact_mod_cast h0
      field_simp
  have Iq : Integrable (fun ω => if totalOf X s ω = 0 then 0 else 1 / (totalOf X s ω : ℝ)) μ :=
    h.nat_int s (fun n => if n = 0 then 0 else 1 / (n : ℝ)) 1 fun n => by
      split_ifs
      · simp
      · exact inv_bound n
  have In : Integrable (fun ω => if totalOf X s ω = 0 then (0 : ℝ) else 1) μ :=
    h.nat_int s (fun n => if n = 0 then 0 else 1) 1 fun n => by split_ifs <;> simp
  have eq2 : ∫ ω, (totalOf X s ω : ℝ) * (((totalOf X s ω : ℝ) - 1) * (1 / (totalOf X s ω : ℝ) * (1 / totalOf X s ω))) ∂μ =
      (1 - Real.exp (-T)) - meanInverse μ X s := by
    rw [← N2]
    unfold meanInverse
    rw [← integral_sub In Iq]
    refine integral_congr_ae (Eventually.of_forall fun ω => ?_)
    show (totalOf X s ω : ℝ) * (((totalOf X s ω : ℝ) - 1) * (1 / (totalOf X s ω : ℝ) * (1 / totalOf X s ω))) =
      (if totalOf X s ω = 0 then (0 : ℝ) else 1) - if totalOf X s ω = 0 then 0 else 1 / (totalOf X s ω : ℝ)
    split_ifs with h0
    · rw [h0]
      simp
    · have : (totalOf X s ω : ℝ) ≠ 0 := by exact_mod_cast h0
      field_simp
  rw [dq] at D2
  rw [eq2] at E2
  simp only [Nat.cast_add, Nat.cast_one, Nat.cast_ofNat] at A2 B2 C2 D2 E2
  -- from `tot + 1` to `tot + 2`
  have st : ∫ ω, ((totalOf X s ω : ℝ) + 1 - 1) * (1 / ((totalOf X s ω : ℝ) + 1) * (1 / ((totalOf X s ω : ℝ) + 1))) ∂μ =
      T * ∫ ω, 1 / ((totalOf X s ω : ℝ) + 2) * (1 / ((totalOf X s ω : ℝ) + 2)) ∂μ := by
    have : ∀ ω, ((totalOf X s ω : ℝ) + 1 - 1) * (1 / ((totalOf X s ω : ℝ) + 1) * (1 / ((totalOf X s ω : ℝ) + 1))) =
        (totalOf X s ω : ℝ) * (1 / ((totalOf X s ω : ℝ) + 1) * (1 / ((totalOf X s ω : ℝ) + 1))) := fun ω => by ring
    simp only [this]
    rw [F2]
    congr 1
    refine integral_congr_ae (Eventually.of_forall fun ω => ?_)
    show _ = _
    push_cast
    congr 2 <;> ring
  rw [st] at E2
  have split : ∀ ω, (if totalOf X s ω = 0 then 0 else (shareOf X s j ω - p) ^ 2) =
      (X j ω : ℝ) * (((X j ω : ℝ) - 1) * (1 / (totalOf X s ω : ℝ) * (1 / totalOf X s ω))) +
      (X j ω : ℝ) * (1 / (totalOf X s ω : ℝ) * (1 / totalOf X s ω)) - 2 * p * ((X j ω : ℝ) * (1 / (totalOf X s ω : ℝ))) +
      p ^ 2 * (if totalOf X s ω = 0 then (0 : ℝ) else 1) := by
    intro ω
    unfold shareOf
    split_ifs with h0
    · rw [h0]
      simp
    · have : (totalOf X s ω : ℝ) ≠ 0 := by exact_mod_cast h0
      field_simp
      ring
  simp only [split]
  have a1 := integral_add ((A1.add B1).sub (C1.const_mul (2 * p))) (In.const_mul (p ^ 2))
  have a2 := integral_sub (A1.add B1) (C1.const_mul (2 * p))
  have a3 := integral_add A1 B1
  simp only [Pi.add_apply, Pi.sub_apply] at a1 a2 a3
  rw [a1, a2, a3, A2, B2, integral_const_mul, C2, integral_const_mul, N2]
  have hT0 : T ≠ 0 := hT.ne'
  have tj : t j = p * T := by rw [hp]; field_simp
  rw [tj]
  set u := ∫ ω, 1 / ((totalOf X s ω : ℝ) + 2) * (1 / ((totalOf X s ω : ℝ) + 2)) ∂μ
  set w := ∫ ω, 1 / ((totalOf X s ω : ℝ) + 1) * (1 / ((totalOf X s ω : ℝ) + 1)) ∂μ
  set z := ∫ ω, 1 / ((totalOf X s ω : ℝ) + 1) ∂μ
  linear_combination (-(p ^ 2)) * E2 - p * D2 - 2 * p ^ 2 * G2

/-- One over the total is on average close to one over the average total. -/
lemma Counts.inverse (h : Counts μ X t) (s : Finset ι) (hT : 0 < ∑ k ∈ s, t k) :
    (1 - Real.exp (-∑ k ∈ s, t k)) ^ 2 / (∑ k ∈ s, t k) ≤ meanInverse μ X s ∧
    meanInverse μ X s ≤ (1 + 3 / ∑ k ∈ s, t k) / ∑ k ∈ s, t k := by
  set T := ∑ k ∈ s, t k with hTd
  have G2 := h.plus_one s
  have N2 := h.nonempty s
  have M2 := h.stein_total s (fun _ => 1) 1 fun _ => by simp
  have H2 := (h.stein_total s (fun n => 1 / ((n : ℝ) * (n + 1))) 1 fun n => by
    rcases Nat.eq_zero_or_pos n with rfl | hn
    · simp
    · have hn' : (1 : ℝ) ≤ n := by exact_mod_cast hn
      rw [abs_of_nonneg (by positivity), div_le_one (by positivity)]
      nlinarith).2
  rw [← hTd] at G2 N2 M2 H2
  simp only [mul_one, integral_const, smul_eq_mul, measureReal_def, measure_univ, ENNReal.toReal_one] at M2
  have Iq : Integrable (fun ω => if totalOf X s ω = 0 then 0 else 1 / (totalOf X s ω : ℝ)) μ :=
    h.nat_int s (fun n => if n = 0 then 0 else 1 / (n : ℝ)) 1 fun n => by
      split_ifs
      · simp
      · exact inv_bound n
  have In : Integrable (fun ω => if totalOf X s ω = 0 then (0 : ℝ) else 1) μ :=
    h.nat_int s (fun n => if n = 0 then 0 else 1) 1 fun n => by split_ifs <;> simp
  have I1 : Integrable (fun ω => 1 / ((totalOf X s ω : ℝ) + 1)) μ :=
    h.nat_int s (fun n => 1 / ((n : ℝ) + 1)) 1 fun n => by simpa using inv_bound (n + 1)
  have I2 : Integrable (fun ω => 1 / (((totalOf X s ω : ℝ) + 1) * ((totalOf X s ω : ℝ) + 2))) μ :=
    h.nat_int s (fun n => 1 / (((n : ℝ) + 1) * ((n : ℝ) + 2))) 1 fun n => by
      have hn' : (0 : ℝ) ≤ n := Nat.cast_nonneg n
      rw [abs_of_nonneg (by positivity), div_le_one (by positivity)]
      nlinarith
  constructor
  · -- `1/n ≥ 2 c - c² n`
    set P := 1 - Real.exp (-T) with hP
    have lower : ∫ ω, (2 * (P / T) * (if totalOf X s ω = 0 then (0 : ℝ) else 1) - (P / T) ^ 2 * totalOf X s ω) ∂μ ≤ meanInverse μ X s := by
      refine integral_mono ((In.const_mul _).sub (M2.1.const_mul _)) Iq fun ω => ?_
      show 2 * (P / T) * (if totalOf X s ω = 0 then (0 : ℝ) else 1) - (P / T) ^ 2 * totalOf X s ω ≤ _
      split_ifs with h0
      · rw [h0]
        simp
      · have hn : (0 : ℝ) < totalOf X s ω := by
          have := Nat.pos_of_ne_zero h0
          exact_mod_cast this
        rw [le_div_iff₀ hn]
        nlinarith [sq_nonneg (P / T * totalOf X s ω - 1)]
    rw [integral_sub (In.const_mul _) (M2.1.const_mul _), integral_const_mul, integral_const_mul, N2, M2.2] at lower
    refine le_trans (le_of_eq ?_) lower
    field_simp
    ring
  · have upper : meanInverse μ X s ≤ ∫ ω, (1 / ((totalOf X s ω : ℝ) + 1) + 3 * (1 / (((totalOf X s ω : ℝ) + 1) * ((totalOf X s ω : ℝ) + 2)))) ∂μ := by
      refine integral_mono Iq (I1.add (I2.const_mul 3)) fun ω => ?_
      show _ ≤ 1 / ((totalOf X s ω : ℝ) + 1) + 3 * (1 / (((totalOf X s ω : ℝ) + 1) * ((totalOf X s ω : ℝ) + 2)))
      split_ifs with h0
      · positivity
      · have hn : (1 : ℝ) ≤ totalOf X s ω := by
          have := Nat.pos_of_ne_zero h0
          exact_mod_cast this
        have : 1 / ((totalOf X s ω : ℝ) + 1) + 3 * (1 / (((totalOf X s ω : ℝ) + 1) * ((totalOf X s ω : ℝ) + 2))) - 1 / (totalOf X s ω : ℝ) =
            (2 * (totalOf X s ω : ℝ) - 2) / ((totalOf X s ω : ℝ) * ((totalOf X s ω : ℝ) + 1) * ((totalOf X s ω : ℝ) + 2)) := by
          field_simp
          ring
        have : 0 ≤ (2 * (totalOf X s ω : ℝ) - 2) / ((totalOf X s ω : ℝ) * ((totalOf X s ω : ℝ) + 1) * ((totalOf X s ω : ℝ) + 2)) :=
          div_nonneg (by linarith) (by positivity)
        linarith
    rw [integral_add I1 (I2.const_mul 3), integral_const_mul] at upper
    have z : ∫ ω, 1 / ((totalOf X s ω : ℝ) + 1) ∂μ ≤ 1 / T := by
      rw [le_div_iff₀ hT, mul_comm, G2]
      linarith [Real.exp_pos (-T)]
    have y : ∫ ω, 1 / (((totalOf X s ω : ℝ) + 1) * ((totalOf X s ω : ℝ) + 2)) ∂μ ≤ 1 / T / T := by
      have e : ∫ ω, 1 / (((totalOf X s ω : ℝ) + 1) * ((totalOf X s ω : ℝ) + 2)) ∂μ =
          ∫ ω, 1 / (((totalOf X s ω + 1 : ℕ) : ℝ) * (((totalOf X s ω + 1 : ℕ) : ℝ) + 1)) ∂μ := by
        refine integral_congr_ae (Eventually.of_forall fun ω => ?_)
        show _ = _
        push_cast
        congr 2
        ring
      rw [e, le_div_iff₀ hT, mul_comm, ← H2]
      refine le_trans (integral_mono_of_nonneg (Eventually.of_forall fun ω => by positivity) I1 (Eventually.of_forall fun ω => ?_)) z
      show (totalOf X s ω : ℝ) * (1 / ((totalOf X s ω : ℝ) * (totalOf X s ω + 1))) ≤ 1 / ((totalOf X s ω : ℝ) + 1)
      rcases Nat.eq_zero_or_pos (totalOf X s ω) with h0 | h0
      · rw [h0]
        simp
      · have : (0 : ℝ) < totalOf X s ω := by exact_mod_cast h0
        refine le_of_eq ?_
        field_simp
    refine upper.trans ?_
    have : (1 + 3 / T) / T = 1 / T + 3 * (1 / T / T) := by
      field_simp
    rw [this]
    linarith

/-! ## Average energies and multiplicities -/

/-- The average energy of some counts, 0 if there are none. -/
noncomputable def energyOf {ι Ω : Type*} (X : ι → Ω → ℕ) (e : ι → ℝ) (s : Finset ι) (ω : Ω) : ℝ :=
  if totalOf X s ω = 0 then 0 else (∑ k ∈ s, e k * X k ω) / totalOf X s ω

lemma Counts.energy (h : Counts μ X t) (e : ι → ℝ) (s : Finset ι) :
    Integrable (energyOf X e s) μ ∧
    ∫ ω, energyOf X e s ω ∂μ = (∑ k ∈ s, e k * t k) / (∑ k ∈ s, t k) * (1 - Real.exp (-∑ k ∈ s, t k)) := by
  have q : energyOf X e s = fun ω => ∑ k ∈ s, e k * shareOf X s k ω := by
    funext ω
    unfold energyOf shareOf
    split_ifs
    · simp
    · rw [Finset.sum_div]
      exact Finset.sum_congr rfl fun k _ => by ring
  rw [q]
  refine ⟨integrable_finsetSum _ fun k hk => (h.share hk).1.const_mul _, ?_⟩
  rw [integral_finsetSum _ fun k hk => (h.share hk).1.const_mul _, Finset.sum_div, Finset.sum_mul]
  refine Finset.sum_congr rfl fun k hk => ?_
  rw [integral_const_mul, (h.share hk).2]
  ring

/-- An energy divided by the average energy, 0 without counts. -/
noncomputable def ratioOf {ι Ω : Type*} (X : ι → Ω → ℕ) (e : ι → ℝ) (s : Finset ι) (a : ℝ) (ω : Ω) : ℝ :=
  if totalOf X s ω = 0 then 0 else a / energyOf X e s ω

lemma energy_bound (X : ι → Ω → ℕ) (e : ι → ℝ) (s : Finset ι) (δ : ℝ) (hδ : ∀ k ∈ s, δ ≤ e k) (ω : Ω) (h0 : totalOf X s ω ≠ 0) :
    δ ≤ energyOf X e s ω := by
  unfold energyOf
  rw [if_neg h0]
  have hn : (0 : ℝ) < totalOf X s ω := by exact_mod_cast Nat.pos_of_ne_zero h0
  rw [le_div_iff₀ hn]
  have : (totalOf X s ω : ℝ) = ∑ k ∈ s, (X k ω : ℝ) := by
    unfold totalOf
    push_cast
    rfl
  rw [this, Finset.mul_sum]
  exact Finset.sum_le_sum fun k hk => mul_le_mul_of_nonneg_right (hδ k hk) (Nat.cast_nonneg _)

/-- The ratio is on average at least the ratio of the averages (times the probability to have counts), and larger if there
are energies other than the average one. -/
lemma Counts.ratio (h : Counts μ X t) (e : ι → ℝ) (s : Finset ι) (he : ∀ k ∈ s, 0 < e k) {a : ℝ} (ha : 0 ≤ a)
    (hT : 0 < ∑ k ∈ s, t k) :
    Integrable (ratioOf X e s a) μ ∧
    a / ((∑ k ∈ s, e k * t k) / ∑ k ∈ s, t k) * (1 - Real.exp (-∑ k ∈ s, t k)) ≤ ∫ ω, ratioOf X e s a ω ∂μ ∧
    (0 < a → (∃ j ∈ s, 0 < t j ∧ e j ≠ (∑ k ∈ s, e k * t k) / ∑ k ∈ s, t k) →
      a / ((∑ k ∈ s, e k * t k) / ∑ k ∈ s, t k) * (1 - Real.exp (-∑ k ∈ s, t k)) < ∫ ω, ratioOf X e s a ω ∂μ) := by
  obtain ⟨IE, EE⟩ := h.energy e s
  set T := ∑ k ∈ s, t k with hTd
  set c := (∑ k ∈ s, e k * t k) / T with hc
  have hs : s.Nonempty := by
    rw [Finset.nonempty_iff_ne_empty]
    rintro rfl
    simp at hTd
    exact hT.ne' hTd
  obtain ⟨k0, hk0, hmin⟩ := Finset.exists_min_image s e hs
  have hδ := he k0 hk0
  have lowE := energy_bound X e s (e k0) hmin
  have c0 : 0 < c := by
    rw [hc]
    refine div_pos ?_ hT
    have : e k0 * T ≤ ∑ k ∈ s, e k * t k := by
      rw [hTd, Finset.mul_sum]
      exact Finset.sum_le_sum fun k hk => mul_le_mul_of_nonneg_right (hmin k hk) (h.pos k)
    exact lt_of_lt_of_le (mul_pos hδ hT) this
  have mS : MeasurableSet {ω | totalOf X s ω = 0} := h.total_meas s (measurableSet_singleton 0)
  have mE : Measurable (energyOf X e s) := by
    unfold energyOf
    refine Measurable.ite mS measurable_const (Measurable.div ?_ ?_)
    · exact Finset.measurable_fun_sum s fun k _ => ((measurable_of_countable (fun n : ℕ => (n : ℝ))).comp (h.meas k)).const_mul _
    · exact (measurable_of_countable (fun n : ℕ => (n : ℝ))).comp (h.total_meas s)
  have mR : Measurable (ratioOf X e s a) := by
    unfold ratioOf
    exact Measurable.ite mS measurable_const (measurable_const.div mE)
  have IR : Integrable (ratioOf X e s a) μ := by
    refine Integrable.mono' (integrable_const (a / e k0)) mR.aestronglyMeasurable (Eventually.of_forall fun ω => ?_)
    unfold ratioOf
    split_ifs with h0
    · simpa using div_nonneg ha hδ.le
    · have := lowE ω h0
      rw [Real.norm_eq_abs, abs_of_nonneg (div_nonneg ha (hδ.le.trans this))]
      exact div_le_div_of_nonneg_left ha hδ this
  have In : Integrable (fun ω => if totalOf X s ω = 0 then (0 : ℝ) else 1) μ :=
    h.nat_int s (fun n => if n = 0 then 0 else 1) 1 fun n => by split_ifs <;> simp
  set G : Ω → ℝ := fun ω => 2 * a / c * (if totalOf X s ω = 0 then (0 : ℝ) else 1) - a / c ^ 2 * energyOf X e s ω with hG
  have IG : Integrable G μ := (In.const_mul _).sub (IE.const_mul _)
  have EG : ∫ ω, G ω ∂μ = a / c * (1 - Real.exp (-T)) := by
    rw [hG, integral_sub (In.const_mul _) (IE.const_mul _), integral_const_mul, integral_const_mul, h.nonempty s, EE, ← hTd]
    field_simp
    ring
  have diff : ∀ ω, ratioOf X e s a ω - G ω = if totalOf X s ω = 0 then 0 else a * (energyOf X e s ω - c) ^ 2 / (energyOf X e s ω * c ^ 2) := by
    intro ω
    simp only [hG]
    unfold ratioOf
    split_ifs with h0
    · unfold energyOf
      rw [if_pos h0]
      ring
    · have := hδ.trans_le (lowE ω h0)
      field_simp
      ring
  have nn : ∀ ω, 0 ≤ ratioOf X e s a ω - G ω := by
    intro ω
    rw [diff]
    split_ifs with h0
    · exact le_rfl
    · have := hδ.trans_le (lowE ω h0)
      positivity
  refine ⟨IR, ?_, ?_⟩
  · rw [← EG]
    exact integral_mono IG IR fun ω => by linarith [nn ω]
  · rintro ha' ⟨j, hj, tj, ne⟩
    rw [← EG, ← sub_pos, ← integral_sub IR IG]
    rw [integral_pos_iff_support_of_nonneg nn (IR.sub IG)]
    set A : Set Ω := ⋂ k ∈ s, X k ⁻¹' {if k = j then 1 else 0} with hA
    have pos : 0 < μ A := by
      rw [hA, h.indep.meas_biInter fun k _ => ⟨_, measurableSet_singleton _, rfl⟩, pos_iff_ne_zero, Finset.prod_ne_zero_iff]
      intro k _
      rw [← Measure.map_apply (h.meas k) (measurableSet_singleton _), (h.law k).map_eq]
      by_cases hkj : k = j
      · subst hkj
        rw [if_pos rfl]
        unfold countLaw
        rw [poissonMeasure_singleton]
        have hr : ((countMean (t k) : NNReal) : ℝ) = t k := max_eq_right (h.pos k)
        rw [hr]
        have : 0 < Real.exp (-t k) * t k ^ 1 / (Nat.factorial 1 : ℕ) := by
          have := Real.exp_pos (-t k)
          simp only [Nat.factorial_one, Nat.cast_one]
          positivity
        simpa using this
      · rw [if_neg hkj, countLaw_zero (h.pos k)]
        simpa using Real.exp_pos _
    refine lt_of_lt_of_le pos (measure_mono fun ω hω => ?_)
    have val : ∀ k ∈ s, X k ω = if k = j then 1 else 0 := by
      intro k hk
      have := Set.mem_iInter₂.1 hω k hk
      simpa using this
    have tot : totalOf X s ω = 1 := by
      unfold totalOf
      rw [Finset.sum_congr rfl val]
      simp [hj]
    have en : energyOf X e s ω = e j := by
      unfold energyOf
      rw [tot, if_neg one_ne_zero, Finset.sum_congr rfl fun k hk => by rw [val k hk]]
      simp [hj]
    show ratioOf X e s a ω - G ω ≠ 0
    rw [diff, tot, if_neg one_ne_zero, en]
    have := he j hj
    have := sub_ne_zero.2 ne
    positivity

end

/-! ## The code -/

section
variable {Ω : Type*} [MeasurableSpace Ω] {μ : Measure Ω} [IsProbabilityMeasure μ]

/-- The bins of a row. -/
def rowBins (i m : ℕ) : Finset (ℕ × ℕ) := {i} ×ˢ Finset.range m

lemma sum_rowBins {M : Type*} [AddCommMonoid M] (i m : ℕ) (f : ℕ × ℕ → M) : ∑ p ∈ rowBins i m, f p = ∑ j ∈ Finset.range m, f (i, j) := by
  unfold rowBins
  rw [Finset.sum_product]
  simp

/-- The mean of a row. -/
def rowSum (t : ℕ × ℕ → ℝ) (i m : ℕ) : ℝ := ∑ j ∈ Finset.range m, t (i, j)

lemma list_sum_range {M : Type*} [AddCommMonoid M] (m : ℕ) (f : ℕ → M) : ((List.range m).map f).sum = ∑ j ∈ Finset.range m, f j := by
  induction m with
  | zero => simp
  | succ m ih => rw [List.range_succ, List.map_append, List.sum_append, ih, Finset.sum_range_succ]; simp

lemma drawn_row (d : ℕ × ℕ → ℕ) {n i : ℕ} (hi : i < n) (m : ℕ) :
    (drawnRaw d n m).getD i [] = (List.range m).map fun j => (d (i, j) : ℚ) := by
  unfold drawnRaw tabulate
  simp [hi]

lemma normalised_share (D : Ω → ℕ × ℕ → ℕ) {n m i j : ℕ} (hi : i < n) (hj : j < m) (ω : Ω) :
    ((at2 (normalizeRows (drawnRaw (D ω) n m)) i j : ℚ) : ℝ) = shareOf (fun p ω => D ω p) (rowBins i m) (i, j) ω := by
  have e : at2 (normalizeRows (drawnRaw (D ω) n m)) i j = div0 (D ω (i, j) : ℚ) (∑ k ∈ Finset.range m, (D ω (i, k) : ℚ)) := by
    unfold at2 normalizeRows drawnRaw tabulate
    simp [hi, hj, list_sum_range]
  rw [e]
  unfold div0 shareOf totalOf
  rw [sum_rowBins]
  have z : (∑ k ∈ Finset.range m, (D ω (i, k) : ℚ) = 0) ↔ (∑ k ∈ Finset.range m, D ω (i, k) = 0) := by
    rw [← Nat.cast_sum]
    exact Nat.cast_eq_zero
  by_cases h : ∑ k ∈ Finset.range m, D ω (i, k) = 0
  · rw [if_pos (z.2 h), if_pos h]
    simp
  · rw [if_neg (fun q => h (z.1 q)), if_neg h]
    push_cast
    rfl

/-- **C133.** For Poisson counts the normalised bin is on average the true share times the probability that the row has
counts at all. -/
theorem C133_normalised {D : Ω → ℕ × ℕ → ℕ} {t : ℕ × ℕ → ℝ} (h : Counts μ (fun p ω => D ω p) t) {n m i j : ℕ} (hi : i < n) (hj : j < m) :
    ∫ ω, ((at2 (normalizeRows (drawnRaw (D ω) n m)) i j : ℚ) : ℝ) ∂μ =
      t (i, j) / rowSum t i m * (1 - Real.exp (-rowSum t i m)) := by
  simp only [normalised_share D hi hj]
  have := (h.share (s := rowBins i m) (j := (i, j)) (by simp [rowBins, hj])).2
  rw [sum_rowBins] at this
  exact this

/-- **C133.** The mean square deviation of a normalised bin from the true share (over rows with counts) lies between the
variance of `normalize` for counting statistics times the squared probability to have counts and times `1 + 3 / T`. -/
theorem C133_spread {D : Ω → ℕ × ℕ → ℕ} {t : ℕ × ℕ → ℝ} (h : Counts μ (fun p ω => D ω p) t) {n m i : ℕ} (hi : i < n)
    (hT : 0 < rowSum t i m) :
    ∃ v var, normUncRow ((List.range m).map fun j => t (i, j)) ((List.range m).map fun j => Real.sqrt (t (i, j))) = .ok (v, var) ∧
      ∀ j < m, v.getD j 0 = t (i, j) / rowSum t i m ∧
        (1 - Real.exp (-rowSum t i m)) ^ 2 * var.getD j 0 ≤
          ∫ ω, (if ∑ k ∈ Finset.range m, D ω (i, k) = 0 then 0
            else (((at2 (normalizeRows (drawnRaw (D ω) n m)) i j : ℚ) : ℝ) - v.getD j 0) ^ 2) ∂μ ∧
        ∫ ω, (if ∑ k ∈ Finset.range m, D ω (i, k) = 0 then 0
            else (((at2 (normalizeRows (drawnRaw (D ω) n m)) i j : ℚ) : ℝ) - v.getD j 0) ^ 2) ∂μ ≤
          (1 + 3 / rowSum t i m) * var.getD j 0 := by
  have S : ∀ f : ℕ → ℝ, ((List.range m).map f).sum = ∑ j ∈ Finset.range m, f j := list_sum_range m
  set T := rowSum t i m with hTd
  refine ⟨(List.range m).map fun j => t (i, j) / T, (List.range m).map fun j => t (i, j) / T * (1 - t (i, j) / T) / T, ?_, ?_⟩
  · unfold normUncRow
    simp only [S, List.map_map, Function.comp_def, Real.sq_sqrt (h.pos _)]
    have e : ∑ j ∈ Finset.range m, t (i, j) = T := rfl
    rw [e, if_neg (fun q => hT.ne' q.1), if_neg (fun q => hT.ne' q.1)]
    congr 2
    rw [List.zipWith_map, List.zipWith_self]
    refine List.map_congr_left fun j _ => ?_
    rw [Real.sq_sqrt (h.pos _)]
    field_simp
    ring
  · intro j hj
    have g1 : ((List.range m).map fun j => t (i, j) / T).getD j 0 = t (i, j) / T := by simp [hj]
    have g2 : ((List.range m).map fun j => t (i, j) / T * (1 - t (i, j) / T) / T).getD j 0 = t (i, j) / T * (1 - t (i, j) / T) / T := by simp [hj]
    rw [g1, g2]
    have hm : (i, j) ∈ rowBins i m := by simp [rowBins, hj]
    have sp := h.spread hm (by rw [sum_rowBins]; exact hT)
    obtain ⟨lo, up⟩ := h.inverse (rowBins i m) (by rw [sum_rowBins]; exact hT)
    rw [sum_rowBins] at sp lo up
    have e : ∑ j ∈ Finset.range m, t (i, j) = T := rfl
    rw [e] at sp lo up
    have tot : ∀ ω, totalOf (fun p ω => D ω p) (rowBins i m) ω = ∑ k ∈ Finset.range m, D ω (i, k) := fun ω => sum_rowBins i m _
    simp only [tot, ← normalised_share D hi hj] at sp
    rw [sp]
    have p0 : 0 ≤ t (i, j) / T := div_nonneg (h.pos _) hT.le
    have p1 : t (i, j) / T ≤ 1 := by
      rw [div_le_one hT]
      exact Finset.single_le_sum (f := fun j => t (i, j)) (fun k _ => h.pos _) (Finset.mem_range.2 hj)
    have pp : 0 ≤ t (i, j) / T * (1 - t (i, j) / T) := mul_nonneg p0 (by linarith)
    refine ⟨rfl, ?_, ?_⟩
    · refine le_trans (le_of_eq ?_) (mul_le_mul_of_nonneg_left lo pp)
      ring
    · refine le_trans (mul_le_mul_of_nonneg_left up pp) (le_of_eq ?_)
      ring

/-! ### Multiplicities -/

lemma mean_kept (D : Ω → ℕ × ℕ → ℕ) (Eg : List ℚ) {m : ℕ} (hm : Eg.length = m) (i : ℕ) (keep : ℕ → Prop) [DecidablePred keep] (ω : Ω) :
    ((meanEg Eg ((List.range m).map fun j => if keep j then (D ω (i, j) : ℚ) else 0) : ℚ) : ℝ) =
      energyOf (fun p ω => D ω p) (fun p => ((Eg.getD p.2 0 : ℚ) : ℝ)) ((rowBins i m).filter fun p => keep p.2) ω ∧
    (meanEg Eg ((List.range m).map fun j => if keep j then (D ω (i, j) : ℚ) else 0) = 0 ↔
      energyOf (fun p ω => D ω p) (fun p => ((Eg.getD p.2 0 : ℚ) : ℝ)) ((rowBins i m).filter fun p => keep p.2) ω = 0) := by
  have main : ((meanEg Eg ((List.range m).map fun j => if keep j then (D ω (i, j) : ℚ) else 0) : ℚ) : ℝ) =
      energyOf (fun p ω => D ω p) (fun p => ((Eg.getD p.2 0 : ℚ) : ℝ)) ((rowBins i m).filter fun p => keep p.2) ω := by
    have eg : Eg = (List.range m).map fun j => Eg.getD j 0 := by
      apply List.ext_getElem
      · simp [hm]
      · intro k h1 h2
        simp [List.getElem?_eq_getElem h1]
    unfold meanEg
    conv_lhs => rw [eg]
    rw [List.zipWith_map, List.zipWith_self, list_sum_range, list_sum_range]
    unfold div0 energyOf totalOf
    rw [Finset.sum_filter, Finset.sum_filter, sum_rowBins, sum_rowBins]
    have z : (∑ j ∈ Finset.range m, (if keep j then (D ω (i, j) : ℚ) else 0)) = ((∑ j ∈ Finset.range m, (if keep j then D ω (i, j) else 0) : ℕ) : ℚ) := by
      push_cast
      refine Finset.sum_congr rfl fun j _ => ?_
      split_ifs <;> simp
    rw [z]
    by_cases h : ∑ j ∈ Finset.range m, (if keep j then D ω (i, j) else 0) = 0
    · simp only [h]
      simp
    · have h' : ((∑ j ∈ Finset.range m, (if keep j then D ω (i, j) else 0) : ℕ) : ℚ) ≠ 0 := by exact_mod_cast h
      rw [if_neg h', if_neg h]
      rw [Rat.cast_div, Rat.cast_natCast, Rat.cast_sum]
      congr 1
      refine Finset.sum_congr rfl fun j _ => ?_
      split_ifs <;> simp
  refine ⟨main, ?_⟩
  rw [← main]
  exact Rat.cast_eq_zero.symm

lemma kept_all (d : ℕ × ℕ → ℕ) (i m : ℕ) : ((List.range m).map fun j => (d (i, j) : ℚ)) =
    (List.range m).map fun j => if True then (d (i, j) : ℚ) else 0 := by simp

lemma kept_masked (d : ℕ × ℕ → ℕ) (i m : ℕ) (Eg : List ℚ) (hm : Eg.length = m) (q : ℚ) :
    maskRow q Eg ((List.range m).map fun j => (d (i, j) : ℚ)) =
      (List.range m).map fun j => if q ≤ Eg.getD j 0 then (d (i, j) : ℚ) else 0 := by
  have eg : Eg = (List.range m).map fun j => Eg.getD j 0 := by
    apply List.ext_getElem
    · simp [hm]
    · intro k h1 h2
      simp [List.getElem?_eq_getElem h1]
  unfold maskRow
  conv_lhs => rw [eg]
  rw [List.zipWith_map, List.zipWith_self]
  refine List.map_congr_left fun j _ => ?_
  by_cases h : q ≤ Eg.getD j 0
  · rw [if_neg (not_lt.2 h), if_pos h]
  · rw [if_pos (not_le.1 h), if_neg h]

lemma ratio_kept (D : Ω → ℕ × ℕ → ℕ) (Eg : List ℚ) {m : ℕ} (hm : Eg.length = m) (hE : ∀ j < m, 0 < Eg.getD j 0) (i : ℕ)
    (keep : ℕ → Prop) [DecidablePred keep] (a : ℚ) (ω : Ω) :
    ((div0 a (meanEg Eg ((List.range m).map fun j => if keep j then (D ω (i, j) : ℚ) else 0)) : ℚ) : ℝ) =
      ratioOf (fun p ω => D ω p) (fun p => ((Eg.getD p.2 0 : ℚ) : ℝ)) ((rowBins i m).filter fun p => keep p.2) a ω := by
  obtain ⟨k1, k2⟩ := mean_kept D Eg hm i keep ω
  unfold div0 ratioOf
  by_cases h0 : totalOf (fun p ω => D ω p) ((rowBins i m).filter fun p => keep p.2) ω = 0
  · rw [if_pos h0, if_pos (k2.2 ?_)]
    · simp
    · unfold energyOf
      rw [if_pos h0]
  · have hne : energyOf (fun p ω => D ω p) (fun p => ((Eg.getD p.2 0 : ℚ) : ℝ)) ((rowBins i m).filter fun p => keep p.2) ω ≠ 0 := by
      have hs : ((rowBins i m).filter fun p => keep p.2).Nonempty := by
        rw [Finset.nonempty_iff_ne_empty]
        intro he
        apply h0
        rw [he]
        simp [totalOf]
      obtain ⟨k0, hk0, hmin⟩ := Finset.exists_min_image _ (fun p : ℕ × ℕ => ((Eg.getD p.2 0 : ℚ) : ℝ)) hs
      have := energy_bound (fun p ω => D ω p) _ _ _ hmin ω h0
      have hp : (0 : ℝ) < ((Eg.getD k0.2 0 : ℚ) : ℝ) := by
        have h1 := (Finset.mem_filter.1 hk0).1
        unfold rowBins at h1
        rw [Finset.mem_product] at h1
        exact_mod_cast hE _ (Finset.mem_range.1 h1.2)
      exact (hp.trans_le this).ne'
    rw [if_neg h0, if_neg (fun q => hne (k2.1 q)), Rat.cast_div, k1]

/-- The true average energy of the bins of a row that are kept, and their true sum. -/
noncomputable def keptSum (t : ℕ × ℕ → ℝ) (i m : ℕ) (keep : ℕ → Prop) [DecidablePred keep] : ℝ :=
  ∑ j ∈ (Finset.range m).filter keep, t (i, j)

/-- See `keptSum`. -/
noncomputable def keptEnergy (t : ℕ × ℕ → ℝ) (Eg : List ℚ) (i m : ℕ) (keep : ℕ → Prop) [DecidablePred keep] : ℝ :=
  (∑ j ∈ (Finset.range m).filter keep, ((Eg.getD j 0 : ℚ) : ℝ) * t (i, j)) / keptSum t i m keep

lemma sum_kept (i m : ℕ) (keep : ℕ → Prop) [DecidablePred keep] (f : ℕ × ℕ → ℝ) :
    ∑ p ∈ (rowBins i m).filter (fun p => keep p.2), f p = ∑ j ∈ (Finset.range m).filter keep, f (i, j) := by
  rw [Finset.sum_filter, Finset.sum_filter, sum_rowBins]

lemma kept_ratio {D : Ω → ℕ × ℕ → ℕ} {t : ℕ × ℕ → ℝ} (h : Counts μ (fun p ω => D ω p) t) (Eg : List ℚ) {m : ℕ} (hm : Eg.length = m)
    (hE : ∀ j < m, 0 < Eg.getD j 0) (i : ℕ) (keep : ℕ → Prop) [DecidablePred keep] (a : ℚ) (ha : 0 ≤ a) (hT : 0 < keptSum t i m keep) :
    (a : ℝ) / keptEnergy t Eg i m keep * (1 - Real.exp (-keptSum t i m keep)) ≤
      ∫ ω, ((div0 a (meanEg Eg ((List.range m).map fun j => if keep j then (D ω (i, j) : ℚ) else 0)) : ℚ) : ℝ) ∂μ ∧
    (0 < a → (∃ j < m, keep j ∧ 0 < t (i, j) ∧ ((Eg.getD j 0 : ℚ) : ℝ) ≠ keptEnergy t Eg i m keep) →
      (a : ℝ) / keptEnergy t Eg i m keep * (1 - Real.exp (-keptSum t i m keep)) <
        ∫ ω, ((div0 a (meanEg Eg ((List.range m).map fun j => if keep j then (D ω (i, j) : ℚ) else 0)) : ℚ) : ℝ) ∂μ) := by
  simp only [ratio_kept D Eg hm hE]
  have e1 := sum_kept i m keep t
  have e2 := sum_kept i m keep fun p => ((Eg.getD p.2 0 : ℚ) : ℝ) * t p
  obtain ⟨-, r1, r2⟩ := h.ratio (fun p => ((Eg.getD p.2 0 : ℚ) : ℝ)) ((rowBins i m).filter fun p => keep p.2) (a := a)
    (fun k hk => by
      have h1 := (Finset.mem_filter.1 hk).1
      unfold rowBins at h1
      rw [Finset.mem_product] at h1
      exact_mod_cast hE _ (Finset.mem_range.1 h1.2)) (by exact_mod_cast ha) (by rw [e1]; exact hT)
  rw [e1, e2] at r1 r2
  refine ⟨r1, fun ha' hex => r2 (by exact_mod_cast ha') ?_⟩
  obtain ⟨j, hj, hk, ht, hne⟩ := hex
  exact ⟨(i, j), by simp [rowBins, hj, hk], ht, hne⟩

/-- **C133.** The average gamma energy of a row of Poisson counts is on average the true one times the probability that
the row has counts. -/
theorem C133_energy {D : Ω → ℕ × ℕ → ℕ} {t : ℕ × ℕ → ℝ} (h : Counts μ (fun p ω => D ω p) t) (Eg : List ℚ) {m n i : ℕ}
    (hm : Eg.length = m) (hi : i < n) :
    ∫ ω, ((meanEg Eg ((drawnRaw (D ω) n m).getD i []) : ℚ) : ℝ) ∂μ =
      (∑ j ∈ Finset.range m, ((Eg.getD j 0 : ℚ) : ℝ) * t (i, j)) / rowSum t i m * (1 - Real.exp (-rowSum t i m)) := by
  simp only [drawn_row _ hi, kept_all, (mean_kept D Eg hm i (fun _ => True) _).1]
  rw [(h.energy _ _).2, Finset.filter_true, sum_rowBins, sum_rowBins]
  rfl

/-- **C133.** The multiplicities of `multiplicity_total` are too large on average: at least the true ones times the
probability that the row has counts, and larger as soon as a bin with counts is not at the average energy. -/
theorem C133_multiplicity {D : Ω → ℕ × ℕ → ℕ} {t : ℕ × ℕ → ℝ} (h : Counts μ (fun p ω => D ω p) t) (Eg : List ℚ) {m n i : ℕ}
    (hm : Eg.length = m) (hi : i < n) (hE : ∀ j < m, 0 < Eg.getD j 0) (ex : ℚ) (hex : 0 ≤ ex) (hT : 0 < rowSum t i m) :
    let true := (ex : ℝ) / ((∑ j ∈ Finset.range m, ((Eg.getD j 0 : ℚ) : ℝ) * t (i, j)) / rowSum t i m)
    true * (1 - Real.exp (-rowSum t i m)) ≤ ∫ ω, ((multTotal Eg ex ((drawnRaw (D ω) n m).getD i []) : ℚ) : ℝ) ∂μ ∧
    (0 < ex → (∃ j < m, 0 < t (i, j) ∧ ((Eg.getD j 0 : ℚ) : ℝ) ≠ (∑ j ∈ Finset.range m, ((Eg.getD j 0 : ℚ) : ℝ) * t (i, j)) / rowSum t i m) →
      true * (1 - Real.exp (-rowSum t i m)) < ∫ ω, ((multTotal Eg ex ((drawnRaw (D ω) n m).getD i []) : ℚ) : ℝ) ∂μ) := by
  intro tr
  have e1 : keptSum t i m (fun _ => True) = rowSum t i m := by
    unfold keptSum
    rw [Finset.filter_true]
    rfl
  have e2 : keptEnergy t Eg i m (fun _ => True) = (∑ j ∈ Finset.range m, ((Eg.getD j 0 : ℚ) : ℝ) * t (i, j)) / rowSum t i m := by
    unfold keptEnergy
    rw [Finset.filter_true, e1]
  have mt : ∀ ω, multTotal Eg ex ((drawnRaw (D ω) n m).getD i []) =
      div0 ex (meanEg Eg ((List.range m).map fun j => if True then (D ω (i, j) : ℚ) else 0)) := by
    intro ω
    rw [drawn_row _ hi, kept_all]
    unfold multTotal
    dsimp only
    rw [if_neg]
    rw [not_lt]
    have nn : 0 ≤ meanEg Eg ((List.range m).map fun j => if True then (D ω (i, j) : ℚ) else 0) := by
      have : (0 : ℝ) ≤ ((meanEg Eg ((List.range m).map fun j => if True then (D ω (i, j) : ℚ) else 0) : ℚ) : ℝ) := by
        rw [(mean_kept D Eg hm i (fun _ => True) ω).1]
        by_cases h0 : totalOf (fun p ω => D ω p) ((rowBins i m).filter fun p => True) ω = 0
        · unfold energyOf
          rw [if_pos h0]
        · refine energy_bound _ _ _ 0 (fun k hk => ?_) ω h0
          have h1 := (Finset.mem_filter.1 hk).1
          unfold rowBins at h1
          rw [Finset.mem_product] at h1
          exact_mod_cast (hE _ (Finset.mem_range.1 h1.2)).le
      exact_mod_cast this
    generalize meanEg Eg ((List.range m).map fun j => if True then (D ω (i, j) : ℚ) else 0) = y at nn ⊢
    unfold div0
    split_ifs
    · exact le_rfl
    · exact div_nonneg hex nn
  obtain ⟨r1, r2⟩ := kept_ratio h Eg hm hE i (fun _ => True) ex hex (by rw [e1]; exact hT)
  rw [e1, e2] at r1 r2
  simp only [mt]
  refine ⟨r1, fun a b => r2 a ?_⟩
  obtain ⟨j, hj, b1, b2⟩ := b
  exact ⟨j, hj, trivial, b1, b2⟩

/-- **C133.** The same for `multiplicity_statistical`: with `T` the true counts above the threshold and `c` their true
average energy the multiplicity is on average at least `(Ex - entry) / c` times the probability to have counts above the
threshold, and larger as soon as such a bin is not at the average energy. -/
theorem C133_statistical {D : Ω → ℕ × ℕ → ℕ} {t : ℕ × ℕ → ℝ} (h : Counts μ (fun p ω => D ω p) t) (p : FGParams) (Eg : List ℚ) {m n i : ℕ}
    (hm : Eg.length = m) (hi : i < n) (hE : ∀ j < m, 0 < Eg.getD j 0) (ex : ℚ) (hex : max (min (ex - p.shift) p.entryStat) 0 ≤ ex)
    (hT : 0 < keptSum t i m fun j => slideOf p ex ≤ Eg.getD j 0) :
    let T := keptSum t i m fun j => slideOf p ex ≤ Eg.getD j 0
    let c := keptEnergy t Eg i m fun j => slideOf p ex ≤ Eg.getD j 0
    let a : ℝ := ((ex - max (min (ex - p.shift) p.entryStat) 0 : ℚ) : ℝ)
    a / c * (1 - Real.exp (-T)) ≤ ∫ ω, ((multStatistical p Eg ex ((drawnRaw (D ω) n m).getD i []) : ℚ) : ℝ) ∂μ ∧
    (0 < a → (∃ j < m, slideOf p ex ≤ Eg.getD j 0 ∧ 0 < t (i, j) ∧ ((Eg.getD j 0 : ℚ) : ℝ) ≠ c) →
      a / c * (1 - Real.exp (-T)) < ∫ ω, ((multStatistical p Eg ex ((drawnRaw (D ω) n m).getD i []) : ℚ) : ℝ) ∂μ) := by
  intro T c a
  have mt : ∀ ω, multStatistical p Eg ex ((drawnRaw (D ω) n m).getD i []) =
      div0 (ex - max (min (ex - p.shift) p.entryStat) 0)
        (meanEg Eg ((List.range m).map fun j => if slideOf p ex ≤ Eg.getD j 0 then (D ω (i, j) : ℚ) else 0)) := by
    intro ω
    rw [drawn_row _ hi]
    unfold multStatistical
    dsimp only
    rw [kept_masked _ _ _ _ hm]
  simp only [mt]
  obtain ⟨r1, r2⟩ := kept_ratio h Eg hm hE i (fun j => slideOf p ex ≤ Eg.getD j 0) (ex - max (min (ex - p.shift) p.entryStat) 0) (by linarith) hT
  exact ⟨r1, fun a' b => r2 (Rat.cast_pos.1 a') b⟩

/-! ### Members of an ensemble -/

lemma draw_counts (raw : List (List ℚ)) (h0 : ∀ i j, 0 ≤ at2 raw i j) :
    Counts (drawLaw raw) (fun (p : ℕ × ℕ) (d : ℕ × ℕ → ℕ) => d p) fun p => ((at2 raw p.1 p.2 : ℚ) : ℝ) :=
  ⟨fun p => measurable_pi_apply p, fun p => draw_law raw p, draw_indep raw, fun p => by exact_mod_cast h0 p.1 p.2⟩

/-- Raw matrix with the rows 3, 1 and 2, 2. -/
example : ∫ d, ((at2 (normalizeRows (drawnRaw d 2 2)) 0 0 : ℚ) : ℝ) ∂(drawLaw [[3, 1], [2, 2]]) = 3 / 4 * (1 - Real.exp (-4)) := by
  have h0 : ∀ i j, 0 ≤ at2 [[3, 1], [2, 2]] i j := by
    intro i j
    unfold at2
    rcases i with _ | _ | i <;> rcases j with _ | _ | j <;> simp
  have := C133_normalised (draw_counts _ h0) (D := fun d => d) (n := 2) (m := 2) (i := 0) (j := 0) (by norm_num) (by norm_num)
  rw [this]
  norm_num [rowSum, at2, Finset.sum_range_succ]

/-- Gamma energies 1 and 2: the true multiplicity of `Ex = 5` is 4, the average over the members is larger than 4 times the
probability to have counts. -/
example : 4 * (1 - Real.exp (-4)) < ∫ d, ((multTotal [1, 2] 5 ((drawnRaw d 2 2).getD 0 []) : ℚ) : ℝ) ∂(drawLaw [[3, 1], [2, 2]]) := by
  have h0 : ∀ i j, 0 ≤ at2 [[3, 1], [2, 2]] i j := by
    intro i j
    unfold at2
    rcases i with _ | _ | i <;> rcases j with _ | _ | j <;> simp
  have := (C133_multiplicity (draw_counts _ h0) (D := fun d => d) [1, 2] (m := 2) (n := 2) (i := 0) rfl (by norm_num)
    (by intro j hj; rcases (show j = 0 ∨ j = 1 by omega) with rfl | rfl <;> norm_num) 5 (by norm_num)
    (by norm_num [rowSum, at2, Finset.sum_range_succ])).2 (by norm_num)
    ⟨0, by norm_num, by norm_num [at2], by norm_num [rowSum, at2, Finset.sum_range_succ]⟩
  norm_num [rowSum, at2, Finset.sum_range_succ] at this
  exact this

lemma example_nonneg : ∀ i j, 0 ≤ at2 [[3, 1, 4], [2, 2, 0]] i j := by
  intro i j
  unfold at2
  rcases i with _ | _ | i <;> rcases j with _ | _ | _ | j <;> simp

/-- Gamma energies 1, 2 and 3 with 3, 1 and 4 counts: 17/8 on average. -/
example : ∫ d, ((meanEg [1, 2, 3] ((drawnRaw d 2 3).getD 0 []) : ℚ) : ℝ) ∂(drawLaw [[3, 1, 4], [2, 2, 0]]) = 17 / 8 * (1 - Real.exp (-8)) := by
  have := C133_energy (draw_counts _ example_nonneg) (D := fun d => d) [1, 2, 3] (m := 3) (n := 2) (i := 0) rfl (by norm_num)
  rw [this]
  norm_num [rowSum, at2, Finset.sum_range_succ]

/-- The threshold 2 leaves out the first bin: average energy 14/5, excitation energy above the entry 10 - 3. -/
example : 7 / (14 / 5) * (1 - Real.exp (-5)) <
    ∫ d, ((multStatistical ⟨1, false, 2, 0, 0, 0, 3, false⟩ [1, 2, 3] 10 ((drawnRaw d 2 3).getD 0 []) : ℚ) : ℝ) ∂(drawLaw [[3, 1, 4], [2, 2, 0]]) := by
  have hf : (Finset.range 3).filter (fun j => (slideOf ⟨1, false, 2, 0, 0, 0, 3, false⟩ 10 : ℚ) ≤ ([1, 2, 3] : List ℚ).getD j 0) = {1, 2} := by
    decide +kernel
  have hS : (keptSum (fun p => ((at2 [[3, 1, 4], [2, 2, 0]] p.1 p.2 : ℚ) : ℝ)) 0 3
      fun j => (slideOf ⟨1, false, 2, 0, 0, 0, 3, false⟩ 10 : ℚ) ≤ ([1, 2, 3] : List ℚ).getD j 0) = 5 := by
    unfold keptSum
    rw [hf]
    norm_num [at2]
  have hC : (keptEnergy (fun p => ((at2 [[3, 1, 4], [2, 2, 0]] p.1 p.2 : ℚ) : ℝ)) [1, 2, 3] 0 3
      fun j => (slideOf ⟨1, false, 2, 0, 0, 0, 3, false⟩ 10 : ℚ) ≤ ([1, 2, 3] : List ℚ).getD j 0) = 14 / 5 := by
    unfold keptEnergy
    rw [hS, hf]
    norm_num [at2]
  have := (C133_statistical (draw_counts _ example_nonneg) (D := fun d => d) ⟨1, false, 2, 0, 0, 0, 3, false⟩ [1, 2, 3] (m := 3) (n := 2) (i := 0)
    rfl (by norm_num) (by intro j hj; rcases (show j = 0 ∨ j = 1 ∨ j = 2 by omega) with rfl | rfl | rfl <;> norm_num) 10 (by norm_num)
    (by rw [hS]; norm_num)).2
  rw [hS, hC] at this
  have h2 := this (by norm_num) ⟨1, by norm_num, by norm_num [slideOf], by norm_num [at2], by norm_num⟩
  norm_num at h2 ⊢
  exact h2

/-- Spread of the first normalised bin: `normalize` gives the variance 3/8 * 5/8 / 8. -/
example : (1 - Real.exp (-8)) ^ 2 * (3 / 8 * (5 / 8) / 8) ≤
    ∫ d, (if ∑ k ∈ Finset.range 3, d (0, k) = 0 then 0
      else (((at2 (normalizeRows (drawnRaw d 2 3)) 0 0 : ℚ) : ℝ) - 3 / 8) ^ 2) ∂(drawLaw [[3, 1, 4], [2, 2, 0]]) ∧
    ∫ d, (if ∑ k ∈ Finset.range 3, d (0, k) = 0 then 0
      else (((at2 (normalizeRows (drawnRaw d 2 3)) 0 0 : ℚ) : ℝ) - 3 / 8) ^ 2) ∂(drawLaw [[3, 1, 4], [2, 2, 0]]) ≤ 11 / 8 * (3 / 8 * (5 / 8) / 8) := by
  have hS : rowSum (fun p => ((at2 [[3, 1, 4], [2, 2, 0]] p.1 p.2 : ℚ) : ℝ)) 0 3 = 8 := by
    norm_num [rowSum, at2, Finset.sum_range_succ]
  obtain ⟨v, var, e, H⟩ := C133_spread (draw_counts _ example_nonneg) (D := fun d => d) (n := 2) (m := 3) (i := 0) (by norm_num) (by rw [hS]; norm_num)
  have hv : var.getD 0 0 = 3 / 8 * (5 / 8) / 8 := by
    have q : normUncRow ((List.range 3).map fun j => ((at2 [[3, 1, 4], [2, 2, 0]] 0 j : ℚ) : ℝ))
        ((List.range 3).map fun j => Real.sqrt ((at2 [[3, 1, 4], [2, 2, 0]] 0 j : ℚ) : ℝ)) =
        .ok ([3 / 8, 1 / 8, 4 / 8], [3 / 8 * (5 / 8) / 8, 1 / 8 * (7 / 8) / 8, 4 / 8 * (4 / 8) / 8]) := by
      have s4 : Real.sqrt 4 ^ 2 = 4 := Real.sq_sqrt (by norm_num)
      have s3 : Real.sqrt 3 ^ 2 = 3 := Real.sq_sqrt (by norm_num)
      unfold normUncRow
      norm_num [List.range_succ, at2, s3, s4]
    rw [q] at e
    injection e with e
    injection e with _ e
    rw [← e]
    simp
  obtain ⟨a, b, c⟩ := H 0 (by norm_num)
  rw [hS] at a b c
  have a' : v.getD 0 0 = 3 / 8 := by
    rw [a]
    norm_num [at2]
  rw [a', hv] at b c
  refine ⟨b, c.trans (le_of_eq ?_)⟩
  norm_num

end

end Ompy
