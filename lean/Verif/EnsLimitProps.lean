import Verif.EnsLimit
import Verif.EnsPerturbProps
import Mathlib.Probability.StrongLaw
import Mathlib.Probability.IdentDistrib
import Mathlib.Probability.Independence.InfinitePi

/-!
# What many members say about a bin

C130: averages and standard deviations over the members of an ensemble, and the background.
-/

namespace Ompy

open MeasureTheory ProbabilityTheory Filter Topology

/-! ## What is meant -/

/-- The counts of the members in a bin: independent draws from one distribution with a variance. -/
structure Draws {Ω : Type*} [MeasurableSpace Ω] (μ : Measure Ω) (X : ℕ → Ω → ℝ) : Prop where
  sq : MemLp (X 0) 2 μ
  indep : Pairwise fun i j => IndepFun (X i) (X j) μ
  ident : ∀ i, IdentDistrib (X i) (X 0) μ μ

section
variable {Ω : Type*} [MeasurableSpace Ω] {μ : Measure Ω} [IsProbabilityMeasure μ] {X : ℕ → Ω → ℝ}

lemma real_map_range_sum (x : ℕ → ℝ) (n : ℕ) : ((List.range n).map x).sum = ∑ i ∈ Finset.range n, x i := by
  induction n with
  | zero => rfl
  | succ n ih => rw [List.range_succ, List.map_append, List.sum_append, ih, Finset.sum_range_succ]; simp

lemma binMean_eq (x : ℕ → ℝ) (n : ℕ) : binMean x n = (∑ i ∈ Finset.range n, x i) / n := by
  unfold binMean meanOf
  rw [List.length_map, List.length_range, real_map_range_sum]

lemma binStd_sq (x : ℕ → ℝ) {n : ℕ} (hn : 0 < n) :
    binStd x n ^ 2 = (∑ i ∈ Finset.range n, x i ^ 2) / n - ((∑ i ∈ Finset.range n, x i) / n) ^ 2 := by
  have n0 : (n : ℝ) ≠ 0 := by positivity
  have e : binStd x n = Real.sqrt ((∑ i ∈ Finset.range n, (x i - binMean x n) ^ 2) / n) := by
    unfold binStd ensSd
    rw [List.map_map]
    show Real.sqrt (meanOf ((List.range n).map ((fun y => (y - binMean x n) ^ 2) ∘ x))) = _
    unfold meanOf
    rw [List.length_map, List.length_range, real_map_range_sum]
    rfl
  rw [e, Real.sq_sqrt (div_nonneg (Finset.sum_nonneg fun i _ => sq_nonneg _) (Nat.cast_nonneg n)), binMean_eq]
  set S := ∑ i ∈ Finset.range n, x i with hS
  have : ∑ i ∈ Finset.range n, (x i - S / n) ^ 2 = ∑ i ∈ Finset.range n, x i ^ 2 - 2 * (S / n) * S + n * (S / n) ^ 2 := by
    have h : ∀ i, (x i - S / n) ^ 2 = x i ^ 2 - 2 * (S / n) * x i + (S / n) ^ 2 := fun i => by ring
    simp only [h]
    rw [Finset.sum_add_distrib, Finset.sum_sub_distrib, ← Finset.mul_sum, ← hS]
    simp
  rw [this]
  field_simp
  ring

lemma binStd_nonneg (x : ℕ → ℝ) (n : ℕ) : 0 ≤ binStd x n := Real.sqrt_nonneg _

omit [IsProbabilityMeasure μ] in
lemma Draws.memLp (h : Draws μ X) (i : ℕ) : MemLp (X i) 2 μ := (h.ident i).symm.memLp_snd h.sq

/-- **C130.** With more and more members the average over the members tends to the expected counts of a member, and the
standard deviation over the members to the standard deviation of a member, almost surely. -/
theorem C130_limit (h : Draws μ X) : ∀ᵐ ω ∂μ,
    Tendsto (binMean fun i => X i ω) atTop (𝓝 (∫ ω, X 0 ω ∂μ)) ∧
    Tendsto (binStd fun i => X i ω) atTop (𝓝 (Real.sqrt (Var[X 0; μ]))) := by
  have l1 := strong_law_ae_real X (h.sq.integrable one_le_two) (fun i j hij => h.indep hij) h.ident
  have l2 := strong_law_ae_real (fun i ω => X i ω ^ 2) h.sq.integrable_sq
    (fun i j hij => (h.indep hij).comp (measurable_id.pow_const 2) (measurable_id.pow_const 2)) (fun i => (h.ident i).sq)
  filter_upwards [l1, l2] with ω h1 h2
  refine ⟨?_, ?_⟩
  · rw [show (binMean fun i => X i ω) = fun n : ℕ => (∑ i ∈ Finset.range n, X i ω) / n from funext fun n => binMean_eq _ n]
    exact h1
  · have v : Var[X 0; μ] = (∫ ω, X 0 ω ^ 2 ∂μ) - (∫ ω, X 0 ω ∂μ) ^ 2 := variance_eq_sub h.sq
    have t := (Real.continuous_sqrt.tendsto _).comp (h2.sub (h1.pow 2))
    rw [v]
    refine t.congr' ?_
    filter_upwards [eventually_gt_atTop 0] with n hn
    show Real.sqrt ((∑ i ∈ Finset.range n, X i ω ^ 2) / n - ((∑ i ∈ Finset.range n, X i ω) / n) ^ 2) = _
    rw [← binStd_sq _ hn, Real.sqrt_sq (binStd_nonneg _ _)]

/-- **C130.** The average over any number of members is right on average; the squared standard deviation is too small by
the factor `1 - 1/n`. -/
theorem C130_expected (h : Draws μ X) {n : ℕ} (hn : 0 < n) :
    ∫ ω, binMean (fun i => X i ω) n ∂μ = ∫ ω, X 0 ω ∂μ ∧
    Integrable (fun ω => binStd (fun i => X i ω) n ^ 2) μ ∧
    ∫ ω, binStd (fun i => X i ω) n ^ 2 ∂μ = (1 - 1 / n) * Var[X 0; μ] := by
  have n0 : (n : ℝ) ≠ 0 := by positivity
  have i1 : ∀ i, Integrable (X i) μ := fun i => (h.memLp i).integrable one_le_two
  have i2 : ∀ i, Integrable (fun ω => X i ω ^ 2) μ := fun i => (h.memLp i).integrable_sq
  have m1 : ∀ i, ∫ ω, X i ω ∂μ = ∫ ω, X 0 ω ∂μ := fun i => (h.ident i).integral_eq
  have m2 : ∀ i, ∫ ω, X i ω ^ 2 ∂μ = ∫ ω, X 0 ω ^ 2 ∂μ := fun i => (h.ident i).sq.integral_eq
  have sL : MemLp (fun ω => ∑ i ∈ Finset.range n, X i ω) 2 μ := memLp_finsetSum _ fun i _ => h.memLp i
  have sInt : Integrable (fun ω => (∑ i ∈ Finset.range n, X i ω) ^ 2) μ := sL.integrable_sq
  have sMean : ∫ ω, ∑ i ∈ Finset.range n, X i ω ∂μ = n * ∫ ω, X 0 ω ∂μ := by
    rw [integral_finsetSum _ fun i _ => i1 i]
    simp [m1]
  have sVar : Var[fun ω => ∑ i ∈ Finset.range n, X i ω; μ] = n * Var[X 0; μ] := by
    have := IndepFun.variance_sum (μ := μ) (X := X) (s := Finset.range n) (fun i _ => h.memLp i)
      (fun i _ j _ hij => h.indep hij)
    rw [show (fun ω => ∑ i ∈ Finset.range n, X i ω) = ∑ i ∈ Finset.range n, X i by ext ω; simp, this]
    simp [(h.ident _).variance_eq]
  have sSq : ∫ ω, (∑ i ∈ Finset.range n, X i ω) ^ 2 ∂μ = n * Var[X 0; μ] + (n * ∫ ω, X 0 ω ∂μ) ^ 2 := by
    have := variance_eq_sub sL
    rw [sVar] at this
    have e : ∫ ω, (∑ i ∈ Finset.range n, X i ω) ^ 2 ∂μ = μ[(fun ω => ∑ i ∈ Finset.range n, X i ω) ^ 2] := rfl
    rw [e]
    have e2 : μ[fun ω => ∑ i ∈ Finset.range n, X i ω] = n * ∫ ω, X 0 ω ∂μ := sMean
    rw [e2] at this
    linarith
  have qInt : Integrable (fun ω => ∑ i ∈ Finset.range n, X i ω ^ 2) μ := integrable_finsetSum _ fun i _ => i2 i
  have qMean : ∫ ω, ∑ i ∈ Finset.range n, X i ω ^ 2 ∂μ = n * ∫ ω, X 0 ω ^ 2 ∂μ := by
    rw [integral_finsetSum _ fun i _ => i2 i]
    simp [m2]
  have v : Var[X 0; μ] = (∫ ω, X 0 ω ^ 2 ∂μ) - (∫ ω, X 0 ω ∂μ) ^ 2 := variance_eq_sub h.sq
  have e : (fun ω => binStd (fun i => X i ω) n ^ 2) = fun ω =>
      (∑ i ∈ Finset.range n, X i ω ^ 2) / n - (∑ i ∈ Finset.range n, X i ω) ^ 2 / n ^ 2 := by
    funext ω
    rw [binStd_sq _ hn, div_pow]
  refine ⟨?_, ?_, ?_⟩
  · simp only [binMean_eq]
    rw [integral_div, sMean]
    field_simp
  · rw [e]
    exact (qInt.div_const _).sub (sInt.div_const _)
  · rw [e, integral_sub (qInt.div_const _) (sInt.div_const _), integral_div, integral_div, qMean, sSq, v]
    field_simp
    ring

/-- **C130 (disagreement).** On average the squared standard deviation over the members is smaller than that of a member,
for any finite number of them; with one member it is always zero. -/
theorem C130_std_fails (h : Draws μ X) (hv : 0 < Var[X 0; μ]) {n : ℕ} (hn : 0 < n) :
    ∫ ω, binStd (fun i => X i ω) n ^ 2 ∂μ < Var[X 0; μ] ∧ ∀ x : ℕ → ℝ, binStd x 1 = 0 := by
  refine ⟨?_, fun x => ?_⟩
  · rw [(C130_expected h hn).2.2]
    have : (0 : ℝ) < 1 / n := by positivity
    nlinarith
  · have := binStd_sq x (n := 1) one_pos
    simpa using this

omit [IsProbabilityMeasure μ] in
/-- Members whose random numbers follow the law `ν` and whose counts are a function of these. -/
lemma draws_of_law {α : Type*} [MeasurableSpace α] {ν : Measure α} {f : α → ℝ} (hf : Measurable f) (hm : MemLp f 2 ν)
    {P : ℕ → Ω → α} (law : ∀ i, HasLaw (P i) ν μ) (ind : Pairwise fun i j => IndepFun (P i) (P j) μ) :
    Draws μ (fun i ω => f (P i ω)) ∧ ∫ ω, f (P 0 ω) ∂μ = ∫ a, f a ∂ν ∧ Var[fun ω => f (P 0 ω); μ] = Var[f; ν] := by
  have id0 : IdentDistrib (fun ω => f (P 0 ω)) f μ ν := ((law 0).identDistrib (HasLaw.id (μ := ν))).comp hf
  refine ⟨⟨id0.symm.memLp_snd hm, fun i j hij => (ind hij).comp hf hf, fun i => ((law i).identDistrib (law 0)).comp hf⟩,
    id0.integral_eq, id0.variance_eq⟩

end

/-- The expectation handed to the Poisson generator. -/
noncomputable def countMean (v : ℝ) : NNReal := ⟨max 0 v, le_max_left _ _⟩

/-- The law of the random number of the Poisson generator for a bin with `v` counts. -/
noncomputable def countLaw (v : ℝ) : Measure ℕ := poissonMeasure (countMean v)

instance (v : ℝ) : IsProbabilityMeasure (countLaw v) := by
  unfold countLaw
  infer_instance

lemma countLaw_moments {v : ℝ} (hv : 0 ≤ v) :
    MemLp (fun n : ℕ => (n : ℝ)) 2 (countLaw v) ∧ ∫ n : ℕ, (n : ℝ) ∂(countLaw v) = v ∧
      Var[fun n : ℕ => (n : ℝ); countLaw v] = v := by
  obtain ⟨h1, h2, h3, h4⟩ := C84_poisson_moments v hv
  change ∫ n : ℕ, (n : ℝ) ∂(countLaw v) = v at h2
  have m : AEStronglyMeasurable (fun n : ℕ => (n : ℝ)) (countLaw v) := (measurable_of_countable _).aestronglyMeasurable
  refine ⟨?_, h2, ?_⟩
  · have : MemLp (fun n : ℕ => (n : ℝ) - v) 2 (countLaw v) := (memLp_two_iff_integrable_sq (m.sub aestronglyMeasurable_const)).2 h3
    have := this.add (memLp_const v)
    refine this.ae_eq (Eventually.of_forall fun n => ?_)
    simp
  · rw [variance_eq_integral m.aemeasurable, h2]
    exact h4

section
variable {Ω : Type*} [MeasurableSpace Ω] {μ : Measure Ω} [IsProbabilityMeasure μ]

/-- **C130.** With Poisson perturbations the average over the members tends to the counts `v` of the bin and the standard
deviation to `sqrt v`. -/
theorem C130_poisson {v : ℝ} (hv : 0 ≤ v) {P : ℕ → Ω → ℕ} (law : ∀ i, HasLaw (P i) (countLaw v) μ)
    (ind : Pairwise fun i j => IndepFun (P i) (P j) μ) : ∀ᵐ ω ∂μ,
    Tendsto (binMean fun i => (P i ω : ℝ)) atTop (𝓝 v) ∧ Tendsto (binStd fun i => (P i ω : ℝ)) atTop (𝓝 (Real.sqrt v)) := by
  obtain ⟨m, e, w⟩ := countLaw_moments hv
  obtain ⟨d, e', w'⟩ := draws_of_law (f := fun n : ℕ => (n : ℝ)) (measurable_of_countable _) m law ind
  have := C130_limit d
  rw [e', e, w', w] at this
  exact this

lemma gaussBin_measurable (v : ℝ) : Measurable (gaussBin v) := by
  unfold gaussBin
  exact Measurable.ite (measurableSet_lt (by fun_prop) measurable_const) measurable_const (by fun_prop)

/-- **C130 (disagreement).** With Gaussian perturbations, which are cut off at zero, the average over the members tends to a number
above the counts `v` of the bin, by up to a quarter of a count, and the standard deviation to a number below `sqrt v`. -/
theorem C130_gauss_fails {v : ℝ} (hv : 0 < v) {Z : ℕ → Ω → ℝ} (law : ∀ i, HasLaw (Z i) stdNormal μ)
    (ind : Pairwise fun i j => IndepFun (Z i) (Z j) μ) : ∃ m s : ℝ, v < m ∧ m ≤ v + 1 / 4 ∧ s < Real.sqrt v ∧ ∀ᵐ ω ∂μ,
    Tendsto (binMean fun i => gaussBin v (Z i ω)) atTop (𝓝 m) ∧ Tendsto (binStd fun i => gaussBin v (Z i ω)) atTop (𝓝 s) := by
  obtain ⟨h1, h2, h3, h4, h5⟩ := C84_bias_fails v hv
  have meas := gaussBin_measurable v
  have L : MemLp (gaussBin v) 2 stdNormal := by
    have : MemLp (fun z => gaussBin v z - v) 2 stdNormal :=
      (memLp_two_iff_integrable_sq (meas.sub_const v).aestronglyMeasurable).2 h4
    have := this.add (memLp_const v)
    refine this.ae_eq (Eventually.of_forall fun n => ?_)
    simp
  obtain ⟨d, e', w'⟩ := draws_of_law meas L law ind
  refine ⟨_, Real.sqrt (Var[gaussBin v; stdNormal]), h2, h3, ?_, ?_⟩
  · refine Real.sqrt_lt_sqrt (variance_nonneg _ _) (lt_of_le_of_lt ?_ h5)
    have e1 : ∫ z, (gaussBin v z - v) ^ 2 ∂stdNormal =
        Var[gaussBin v; stdNormal] + ((∫ z, gaussBin v z ∂stdNormal) - v) ^ 2 := by
      have q : ∀ z, (gaussBin v z - v) ^ 2 = gaussBin v z ^ 2 - 2 * v * gaussBin v z + v ^ 2 := fun z => by ring
      have v1 : Var[gaussBin v; stdNormal] = (∫ z, gaussBin v z ^ 2 ∂stdNormal) - (∫ z, gaussBin v z ∂stdNormal) ^ 2 :=
        variance_eq_sub L
      simp only [q]
      have a1 := integral_add (L.integrable_sq.sub (h1.const_mul (2 * v))) (integrable_const (μ := stdNormal) (v ^ 2))
      simp only [Pi.sub_apply] at a1
      rw [a1]
      rw [integral_sub L.integrable_sq (h1.const_mul _), integral_const_mul, v1]
      simp
      ring
    rw [e1]
    linarith [sq_nonneg ((∫ z, gaussBin v z ∂stdNormal) - v)]
  · have := C130_limit d
    rw [e', w'] at this
    exact this

/-! ## Background -/

lemma subtractBin_eq (r p b : ℝ) : subtractBin r p b = max 0 (p - r * b) := by
  unfold subtractBin
  split_ifs with h
  · exact (max_eq_right h.le).symm
  · exact (max_eq_left (not_lt.1 h)).symm

/-- The law of the counts of a member with and of its background. -/
noncomputable abbrev pairLaw (p b : ℝ) : Measure (ℕ × ℕ) := (countLaw p).prod (countLaw b)

lemma difference_moments {p b : ℝ} (hp : 0 ≤ p) (hb : 0 ≤ b) (r : ℝ) :
    MemLp (fun n : ℕ × ℕ => (n.1 : ℝ) - r * n.2) 2 (pairLaw p b) ∧
    ∫ n, ((n.1 : ℝ) - r * n.2) ∂(pairLaw p b) = p - r * b ∧
    Var[fun n : ℕ × ℕ => (n.1 : ℝ) - r * n.2; pairLaw p b] = p + r ^ 2 * b := by
  obtain ⟨m1, e1, w1⟩ := countLaw_moments hp
  obtain ⟨m2, e2, w2⟩ := countLaw_moments hb
  have l1 : HasLaw (Prod.fst : ℕ × ℕ → ℕ) (countLaw p) (pairLaw p b) := ⟨by fun_prop, by simp [Measure.map_fst_prod]⟩
  have l2 : HasLaw (Prod.snd : ℕ × ℕ → ℕ) (countLaw b) (pairLaw p b) := ⟨by fun_prop, by simp [Measure.map_snd_prod]⟩
  have i1 : IdentDistrib (fun n : ℕ × ℕ => (n.1 : ℝ)) (fun n : ℕ => (n : ℝ)) (pairLaw p b) (countLaw p) :=
    (l1.identDistrib (HasLaw.id (μ := countLaw p))).comp (u := fun n : ℕ => (n : ℝ)) (measurable_of_countable _)
  have i2 : IdentDistrib (fun n : ℕ × ℕ => r * (n.2 : ℝ)) (fun n : ℕ => r * (n : ℝ)) (pairLaw p b) (countLaw b) :=
    (l2.identDistrib (HasLaw.id (μ := countLaw b))).comp (u := fun n : ℕ => r * (n : ℝ)) (measurable_of_countable _)
  have k1 := i1.symm.memLp_snd m1
  have k2 := i2.symm.memLp_snd (m2.const_mul r)
  have ind : IndepFun (fun n : ℕ × ℕ => (n.1 : ℝ)) (fun n : ℕ × ℕ => r * (n.2 : ℝ)) (pairLaw p b) :=
    indepFun_prod (X := fun n : ℕ => (n : ℝ)) (Y := fun n : ℕ => r * (n : ℝ)) (measurable_of_countable _) (measurable_of_countable _)
  refine ⟨k1.sub k2, ?_, ?_⟩
  · rw [integral_sub (k1.integrable one_le_two) (k2.integrable one_le_two), i1.integral_eq, i2.integral_eq, e1,
      integral_const_mul, e2]
  · rw [variance_fun_sub k1 k2, ind.covariance_eq_zero k1 k2, i1.variance_eq, i2.variance_eq, w1, variance_const_mul, w2]
    ring

/-- **C130.** Before negative counts are removed, subtracting the background gives the difference of the counts on average,
with the variance `p + ratio² b` of counting statistics.  Removing them never moves a member further away from the
difference of the counts, if this is not negative. -/
theorem C130_background {p b : ℝ} (hp : 0 ≤ p) (hb : 0 ≤ b) (r : ℝ) :
    ∫ n, ((n.1 : ℝ) - r * n.2) ∂(pairLaw p b) = p - r * b ∧
    Var[fun n : ℕ × ℕ => (n.1 : ℝ) - r * n.2; pairLaw p b] = p + r ^ 2 * b ∧
    (0 ≤ p - r * b → ∫ n, (subtractBin r n.1 n.2 - (p - r * b)) ^ 2 ∂(pairLaw p b) ≤ p + r ^ 2 * b) := by
  obtain ⟨m, e, w⟩ := difference_moments hp hb r
  refine ⟨e, w, fun h => ?_⟩
  rw [← w, variance_eq_integral (measurable_of_countable _).aemeasurable, e]
  have big : Integrable (fun n : ℕ × ℕ => ((n.1 : ℝ) - r * n.2 - (p - r * b)) ^ 2) (pairLaw p b) :=
    (m.sub (memLp_const (p - r * b))).integrable_sq
  have le : ∀ n : ℕ × ℕ, (subtractBin r n.1 n.2 - (p - r * b)) ^ 2 ≤ ((n.1 : ℝ) - r * n.2 - (p - r * b)) ^ 2 := by
    intro n
    rw [subtractBin_eq]
    rcases le_total 0 ((n.1 : ℝ) - r * n.2) with h' | h'
    · rw [max_eq_right h']
    · rw [max_eq_left h']
      nlinarith
  exact integral_mono_of_nonneg (Eventually.of_forall fun n => sq_nonneg _) big (Eventually.of_forall le)

/-- **C130 (disagreement).** After the negative counts are removed the members have too many counts on average: the average over
the members tends to a number above the difference `p - ratio * b` that is the raw matrix, and above zero. -/
theorem C130_background_fails {p b r : ℝ} (hp : 0 < p) (hb : 0 < b) (hr : 0 < r) {N : ℕ → Ω → ℕ × ℕ}
    (law : ∀ i, HasLaw (N i) (pairLaw p b) μ) (ind : Pairwise fun i j => IndepFun (N i) (N j) μ) :
    ∃ m : ℝ, p - r * b < m ∧ 0 < m ∧ ∀ᵐ ω ∂μ, Tendsto (binMean fun i => subtractBin r (N i ω).1 (N i ω).2) atTop (𝓝 m) := by
  obtain ⟨m, e, w⟩ := difference_moments hp.le hb.le r
  have fe : (fun n : ℕ × ℕ => subtractBin r n.1 n.2) = fun n : ℕ × ℕ => max 0 ((n.1 : ℝ) - r * n.2) :=
    funext fun n => subtractBin_eq _ _ _
  have L : MemLp (fun n : ℕ × ℕ => subtractBin r n.1 n.2) 2 (pairLaw p b) := by
    rw [fe]
    exact (memLp_const 0).sup m
  have I : Integrable (fun n : ℕ × ℕ => subtractBin r n.1 n.2) (pairLaw p b) := L.integrable one_le_two
  have J : Integrable (fun n : ℕ × ℕ => (n.1 : ℝ) - r * n.2) (pairLaw p b) := m.integrable one_le_two
  have atom : ∀ {v : ℝ}, 0 < v → ∀ n : ℕ, 0 < countLaw v {n} := by
    intro v hv n
    unfold countLaw
    rw [poissonMeasure_singleton, ENNReal.ofReal_pos]
    have : (0 : ℝ) < max 0 v := lt_max_of_lt_right hv
    show 0 < Real.exp (-(max 0 v)) * (max 0 v) ^ n / (n.factorial : ℝ)
    positivity
  have pt : ∀ n : ℕ × ℕ, 0 < pairLaw p b {n} := by
    intro n
    rw [show ({n} : Set (ℕ × ℕ)) = {n.1} ×ˢ {n.2} by ext; simp [Prod.ext_iff], Measure.prod_prod]
    exact ENNReal.mul_pos (atom hp _).ne' (atom hb _).ne'
  refine ⟨∫ n, subtractBin r n.1 n.2 ∂(pairLaw p b), ?_, ?_, ?_⟩
  · have D0 : ∀ n : ℕ × ℕ, 0 ≤ subtractBin r n.1 n.2 - ((n.1 : ℝ) - r * n.2) := by
      intro n
      rw [subtractBin_eq]
      exact sub_nonneg.2 (le_max_right _ _)
    have pos : 0 < ∫ n, (subtractBin r n.1 n.2 - ((n.1 : ℝ) - r * n.2)) ∂(pairLaw p b) := by
      rw [integral_pos_iff_support_of_nonneg D0 (I.sub J)]
      refine (pt (0, 1)).trans_le (measure_mono ?_)
      rw [Set.singleton_subset_iff, Function.mem_support, subtractBin_eq]
      have : ((0 : ℕ) : ℝ) - r * ((1 : ℕ) : ℝ) < 0 := by simpa using hr
      rw [max_eq_left this.le]
      linarith
    rw [integral_sub I J, e] at pos
    linarith
  · have D0 : ∀ n : ℕ × ℕ, 0 ≤ subtractBin r n.1 n.2 := by
      intro n
      rw [subtractBin_eq]
      exact le_max_left _ _
    rw [integral_pos_iff_support_of_nonneg D0 I]
    refine (pt (1, 0)).trans_le (measure_mono ?_)
    rw [Set.singleton_subset_iff, Function.mem_support, subtractBin_eq]
    norm_num
  · obtain ⟨d, e', -⟩ := draws_of_law (f := fun n : ℕ × ℕ => subtractBin r n.1 n.2) (measurable_of_countable _) L law ind
    have := C130_limit d
    rw [e'] at this
    filter_upwards [this] with ω h
    exact h.1

end

/-- Members as assumed exist: independent draws in an infinite product space. -/
example : ∀ᵐ ω ∂(Measure.infinitePi fun _ : ℕ => countLaw 9),
    Tendsto (binMean fun i => (ω i : ℝ)) atTop (𝓝 9) ∧ Tendsto (binStd fun i => (ω i : ℝ)) atTop (𝓝 3) := by
  have ind : iIndepFun (fun i (ω : ℕ → ℕ) => ω i) (Measure.infinitePi fun _ : ℕ => countLaw 9) :=
    iIndepFun_infinitePi (P := fun _ : ℕ => countLaw 9) (X := fun _ n => n) (fun _ => measurable_id)
  have := C130_poisson (μ := Measure.infinitePi fun _ : ℕ => countLaw 9) (v := 9) (by norm_num) (P := fun i ω => ω i)
    (fun i => ⟨(measurable_pi_apply i).aemeasurable, Measure.infinitePi_map_eval _ i⟩) (fun i j hij => ind.indepFun hij)
  rwa [show Real.sqrt 9 = 3 by rw [show (9 : ℝ) = 3 ^ 2 by norm_num]; exact Real.sqrt_sq (by norm_num)] at this

/-- Likewise the Gaussian draws and the pairs of counts exist. -/
example : ∃ m s : ℝ, 4 < m ∧ m ≤ 4 + 1 / 4 ∧ s < Real.sqrt 4 ∧ ∀ᵐ ω ∂(Measure.infinitePi fun _ : ℕ => stdNormal),
    Tendsto (binMean fun i => gaussBin 4 (ω i)) atTop (𝓝 m) ∧ Tendsto (binStd fun i => gaussBin 4 (ω i)) atTop (𝓝 s) := by
  have ind : iIndepFun (fun i (ω : ℕ → ℝ) => ω i) (Measure.infinitePi fun _ : ℕ => stdNormal) :=
    iIndepFun_infinitePi (P := fun _ : ℕ => stdNormal) (X := fun _ n => n) (fun _ => measurable_id)
  exact C130_gauss_fails (μ := Measure.infinitePi fun _ : ℕ => stdNormal) (v := 4) (by norm_num) (Z := fun i ω => ω i)
    (fun i => ⟨(measurable_pi_apply i).aemeasurable, Measure.infinitePi_map_eval _ i⟩) (fun i j hij => ind.indepFun hij)

example : ∃ m : ℝ, (5 : ℝ) - 2 * 3 < m ∧ 0 < m ∧ ∀ᵐ ω ∂(Measure.infinitePi fun _ : ℕ => pairLaw 5 3),
    Tendsto (binMean fun i => subtractBin 2 (ω i).1 (ω i).2) atTop (𝓝 m) := by
  have ind : iIndepFun (fun i (ω : ℕ → ℕ × ℕ) => ω i) (Measure.infinitePi fun _ : ℕ => pairLaw 5 3) :=
    iIndepFun_infinitePi (P := fun _ : ℕ => pairLaw 5 3) (X := fun _ n => n) (fun _ => measurable_id)
  exact C130_background_fails (μ := Measure.infinitePi fun _ : ℕ => pairLaw 5 3) (p := 5) (b := 3) (r := 2) (by norm_num)
    (by norm_num) (by norm_num) (N := fun i ω => ω i)
    (fun i => ⟨(measurable_pi_apply i).aemeasurable, Measure.infinitePi_map_eval _ i⟩) (fun i j hij => ind.indepFun hij)

end Ompy
