import Verif.UnfoldNoise
import Verif.UnfolderProps
import Verif.EnsLimitProps
import Mathlib.LinearAlgebra.Matrix.NonsingularInverse

/-!
# The noise of the unfolding

C131: the iterations of the unfolding are partial sums of a geometric series of matrices; averages, variances and
correlations of the unfolded spectra of members with Poisson perturbation.
-/

namespace Ompy

open MeasureTheory ProbabilityTheory Filter Topology

/-! ## What is meant -/

/-- The response as a matrix. -/
def respMatrix (R : List (List ℚ)) (m : ℕ) : Matrix (Fin m) (Fin m) ℚ := Matrix.of fun q j => at2 R q j

/-- The sum of the powers of `1 - R` up to the power `k`. -/
def neumann (R : List (List ℚ)) (m k : ℕ) : Matrix (Fin m) (Fin m) ℚ := ∑ l ∈ Finset.range (k + 1), (1 - respMatrix R m) ^ l

/-- The law of all random numbers drawn for a member: independent Poisson numbers. -/
noncomputable def drawLaw (raw : List (List ℚ)) : Measure (ℕ × ℕ → ℕ) :=
  Measure.infinitePi fun p : ℕ × ℕ => countLaw ((at2 raw p.1 p.2 : ℚ) : ℝ)

instance (raw : List (List ℚ)) : IsProbabilityMeasure (drawLaw raw) := by
  unfold drawLaw
  infer_instance

/-! ## The iterations -/

/-- **C131.** Iteration `k` multiplies the raw spectrum with the sum of the powers of `1 - R` up to the power `k`. -/
theorem C131_series (r R : List (List ℚ)) (n m k : ℕ) {i : ℕ} (hi : i < n) (j : Fin m) :
    at2 (unfoldIter r R n m k).1 i j = ∑ q : Fin m, at2 r i q * neumann R m k q j := by
  have key : ∀ k, (fun j : Fin m => unfAt r R n m k i j) = Matrix.vecMul (fun q : Fin m => at2 r i q) (neumann R m k) := by
    intro k
    induction k with
    | zero =>
      funext j
      simp [unf_zero, neumann]
    | succ k ih =>
      have e : neumann R m (k + 1) = 1 + neumann R m k * (1 - respMatrix R m) := by
        unfold neumann
        rw [Finset.sum_range_succ', pow_zero, add_comm, Finset.sum_mul]
        simp only [pow_succ]
      rw [e, Matrix.vecMul_add, ← Matrix.vecMul_vecMul, ← ih, Matrix.vecMul_one]
      funext j
      rw [unf_succ r R n m k hi j.2, fld_eq r R n m k hi j.2, Finset.sum_range]
      simp only [Pi.add_apply, Matrix.vecMul_sub, Matrix.vecMul_one, Pi.sub_apply]
      have : Matrix.vecMul (fun j : Fin m => unfAt r R n m k i j) (respMatrix R m) j =
          ∑ q : Fin m, unfAt r R n m k i q * at2 R q j := rfl
      rw [this]
      ring
  exact congrFun (key k) j

/-- **C131.** If the response has an inverse, iteration `k` differs from the exact unfolding by the power `k + 1` of `1 - R`. -/
theorem C131_inverse (R : List (List ℚ)) (m k : ℕ) (S : Matrix (Fin m) (Fin m) ℚ) (hS : respMatrix R m * S = 1) :
    neumann R m k = S - (1 - respMatrix R m) ^ (k + 1) * S := by
  have h := geom_sum_mul_neg (1 - respMatrix R m) (k + 1)
  rw [sub_sub_cancel] at h
  have h2 := congrArg (· * S) h
  simp only [Matrix.mul_assoc, hS, Matrix.mul_one, sub_mul, Matrix.one_mul] at h2
  exact h2

/-- For responses without counts above the full energy the diagonal of the powers is that of the diagonal. -/
lemma tri_pow {m : ℕ} (X : Matrix (Fin m) (Fin m) ℚ) (h : ∀ q j, q < j → X q j = 0) (l : ℕ) :
    (∀ q j, q < j → (X ^ l) q j = 0) ∧ ∀ j, (X ^ l) j j = X j j ^ l := by
  induction l with
  | zero =>
    refine ⟨fun q j hq => ?_, fun j => by simp⟩
    rw [pow_zero, Matrix.one_apply_ne hq.ne]
  | succ l ih =>
    obtain ⟨h1, h2⟩ := ih
    refine ⟨fun q j hq => ?_, fun j => ?_⟩
    · rw [pow_succ, Matrix.mul_apply]
      refine Finset.sum_eq_zero fun p _ => ?_
      rcases lt_or_ge q p with hp | hp
      · rw [h1 q p hp, zero_mul]
      · rw [h p j (lt_of_le_of_lt hp hq), mul_zero]
    · rw [pow_succ, Matrix.mul_apply, Finset.sum_eq_single j]
      · rw [h2, pow_succ]
      · intro p _ hp
        rcases lt_or_gt_of_ne hp with hp | hp
        · rw [h p j hp, mul_zero]
        · rw [h1 j p hp, zero_mul]
      · simp

/-! ## Averages and variances -/

lemma draw_law (raw : List (List ℚ)) (p : ℕ × ℕ) :
    HasLaw (fun d : ℕ × ℕ → ℕ => d p) (countLaw ((at2 raw p.1 p.2 : ℚ) : ℝ)) (drawLaw raw) :=
  ⟨(measurable_pi_apply p).aemeasurable, Measure.infinitePi_map_eval _ p⟩

lemma draw_indep (raw : List (List ℚ)) : iIndepFun (fun p (d : ℕ × ℕ → ℕ) => d p) (drawLaw raw) :=
  iIndepFun_infinitePi (P := fun p : ℕ × ℕ => countLaw ((at2 raw p.1 p.2 : ℚ) : ℝ)) (X := fun _ n => n) (fun _ => measurable_id)

/-- Average and covariance of sums of the numbers drawn. -/
lemma draw_moments (raw : List (List ℚ)) (h0 : ∀ i j, 0 ≤ at2 raw i j) :
    (∀ p, MemLp (fun d : ℕ × ℕ → ℕ => (d p : ℝ)) 2 (drawLaw raw)) ∧
    (∀ p, ∫ d, (d p : ℝ) ∂(drawLaw raw) = ((at2 raw p.1 p.2 : ℚ) : ℝ)) ∧
    ∀ p q, cov[fun d : ℕ × ℕ → ℕ => (d p : ℝ), fun d : ℕ × ℕ → ℕ => (d q : ℝ); drawLaw raw] =
      if p = q then ((at2 raw p.1 p.2 : ℚ) : ℝ) else 0 := by
  have c0 : ∀ p : ℕ × ℕ, (0 : ℝ) ≤ ((at2 raw p.1 p.2 : ℚ) : ℝ) := fun p => by exact_mod_cast h0 p.1 p.2
  have idd : ∀ p, IdentDistrib (fun d : ℕ × ℕ → ℕ => (d p : ℝ)) (fun n : ℕ => (n : ℝ)) (drawLaw raw)
      (countLaw ((at2 raw p.1 p.2 : ℚ) : ℝ)) := fun p =>
    ((draw_law raw p).identDistrib (HasLaw.id (μ := countLaw ((at2 raw p.1 p.2 : ℚ) : ℝ)))).comp
      (u := fun n : ℕ => (n : ℝ)) (measurable_of_countable _)
  have L : ∀ p, MemLp (fun d : ℕ × ℕ → ℕ => (d p : ℝ)) 2 (drawLaw raw) := fun p =>
    (idd p).symm.memLp_snd (countLaw_moments (c0 p)).1
  refine ⟨L, fun p => (idd p).integral_eq.trans (countLaw_moments (c0 p)).2.1, fun p q => ?_⟩
  split_ifs with hpq
  · subst hpq
    rw [covariance_self (L p).aestronglyMeasurable.aemeasurable, (idd p).variance_eq]
    exact (countLaw_moments (c0 p)).2.2
  · have ind : IndepFun (fun d : ℕ × ℕ → ℕ => (d p : ℝ)) (fun d : ℕ × ℕ → ℕ => (d q : ℝ)) (drawLaw raw) :=
      ((draw_indep raw).indepFun hpq).comp (φ := fun n : ℕ => (n : ℝ)) (ψ := fun n : ℕ => (n : ℝ))
        (measurable_of_countable _) (measurable_of_countable _)
    exact ind.covariance_eq_zero (L p) (L q)

lemma drawnUnfolded_eq (R : List (List ℚ)) (n m k : ℕ) {i : ℕ} (hi : i < n) (j : Fin m) :
    drawnUnfolded R n m k i j = fun d : ℕ × ℕ → ℕ => ∑ q : Fin m, ((neumann R m k q j : ℚ) : ℝ) * (d (i, (q : ℕ)) : ℝ) := by
  funext d
  unfold drawnUnfolded
  rw [C131_series _ _ _ _ _ hi]
  push_cast
  refine Finset.sum_congr rfl fun q _ => ?_
  unfold drawnRaw
  rw [at2_tabulate _ _ _ hi q.2, mul_comm]
  push_cast
  rfl

/-- **C131.** On average the unfolded members are the unfolded raw matrix.  The counts of two bins of the same row vary
together, with the covariance of the geometric series applied to counting statistics, those of different rows do not. -/
theorem C131_moments (raw R : List (List ℚ)) (n m k : ℕ) (h0 : ∀ i j, 0 ≤ at2 raw i j) {i i' : ℕ} (hi : i < n) (hi' : i' < n)
    (j j' : Fin m) :
    MemLp (drawnUnfolded R n m k i j) 2 (drawLaw raw) ∧
    ∫ d, drawnUnfolded R n m k i j d ∂(drawLaw raw) = ((at2 (unfoldIter raw R n m k).1 i j : ℚ) : ℝ) ∧
    cov[drawnUnfolded R n m k i j, drawnUnfolded R n m k i' j'; drawLaw raw] =
      if i = i' then (((∑ q : Fin m, neumann R m k q j * neumann R m k q j' * at2 raw i q) : ℚ) : ℝ) else 0 := by
  obtain ⟨L, E, C⟩ := draw_moments raw h0
  have L' : ∀ (i : ℕ) (j q : Fin m), MemLp (fun d : ℕ × ℕ → ℕ => ((neumann R m k q j : ℚ) : ℝ) * (d (i, (q : ℕ)) : ℝ)) 2 (drawLaw raw) :=
    fun i j q => (L _).const_mul _
  refine ⟨?_, ?_, ?_⟩
  · rw [drawnUnfolded_eq R n m k hi]
    exact memLp_finsetSum _ fun q _ => L' i j q
  · rw [drawnUnfolded_eq R n m k hi, C131_series _ _ _ _ _ hi, integral_finsetSum _ fun q _ => (L' i j q).integrable one_le_two]
    push_cast
    refine Finset.sum_congr rfl fun q _ => ?_
    rw [integral_const_mul, E, mul_comm]
  · rw [drawnUnfolded_eq R n m k hi, drawnUnfolded_eq R n m k hi', covariance_fun_sum_fun_sum (L' i j) (L' i' j')]
    simp only [covariance_const_mul_left, covariance_const_mul_right, C, Prod.mk.injEq, Fin.val_inj]
    split_ifs with h
    · subst h
      push_cast
      refine Finset.sum_congr rfl fun q _ => ?_
      simp
      ring
    · simp [h]

/-- **C131.** The variance of an unfolded bin is at least that of the raw counts times the square of the geometric series
of `1 - p`, where `p` is the probability of full-energy detection.  This series is at least 1: unfolding never makes a bin
more precise. -/
theorem C131_amplified (raw R : List (List ℚ)) (n m k : ℕ) (h0 : ∀ i j, 0 ≤ at2 raw i j) {i : ℕ} (hi : i < n) (j : Fin m)
    (tri : ∀ q < m, ∀ j < m, q < j → at2 R q j = 0) (p : ℚ) (hp : at2 R j j = p) (hp1 : p ≤ 1) :
    (((∑ l ∈ Finset.range (k + 1), (1 - p) ^ l) ^ 2 * at2 raw i j : ℚ) : ℝ) ≤ Var[drawnUnfolded R n m k i j; drawLaw raw] ∧
    ((at2 raw i j : ℚ) : ℝ) ≤ Var[drawnUnfolded R n m k i j; drawLaw raw] := by
  obtain ⟨L, -, C⟩ := C131_moments raw R n m k h0 hi hi j j
  have v : Var[drawnUnfolded R n m k i j; drawLaw raw] = (((∑ q : Fin m, neumann R m k q j * neumann R m k q j * at2 raw i q) : ℚ) : ℝ) := by
    rw [← covariance_self L.aestronglyMeasurable.aemeasurable, C, if_pos rfl]
  have T := tri_pow (1 - respMatrix R m) (fun q j h => by
    show (1 : Matrix (Fin m) (Fin m) ℚ) q j - at2 R q j = 0
    rw [Matrix.one_apply_ne h.ne, tri q q.2 j j.2 h, sub_zero])
  have g : neumann R m k j j = ∑ l ∈ Finset.range (k + 1), (1 - p) ^ l := by
    unfold neumann
    rw [Matrix.sum_apply]
    refine Finset.sum_congr rfl fun l _ => ?_
    rw [(T l).2]
    show ((1 : Matrix (Fin m) (Fin m) ℚ) j j - at2 R j j) ^ l = _
    rw [Matrix.one_apply_eq, hp]
  have one : 1 ≤ ∑ l ∈ Finset.range (k + 1), (1 - p) ^ l := by
    rw [Finset.sum_range_succ', pow_zero]
    have : 0 ≤ ∑ l ∈ Finset.range k, (1 - p) ^ (l + 1) := Finset.sum_nonneg fun l _ => pow_nonneg (by linarith) _
    linarith
  have b1 : (∑ l ∈ Finset.range (k + 1), (1 - p) ^ l) ^ 2 * at2 raw i j ≤
      ∑ q : Fin m, neumann R m k q j * neumann R m k q j * at2 raw i q := by
    rw [← g, sq]
    exact Finset.single_le_sum (f := fun q : Fin m => neumann R m k q j * neumann R m k q j * at2 raw i q)
      (fun q _ => mul_nonneg (mul_self_nonneg _) (h0 _ _)) (Finset.mem_univ j)
  rw [v]
  refine ⟨by exact_mod_cast b1, ?_⟩
  have : at2 raw i j ≤ (∑ l ∈ Finset.range (k + 1), (1 - p) ^ l) ^ 2 * at2 raw i j :=
    le_mul_of_one_le_left (h0 _ _) (one_le_pow₀ one)
  exact_mod_cast this.trans b1

/-- **C131.** If the rows of the response sum to 1, the total counts of a row keep the variance of counting statistics. -/
theorem C131_total (raw R : List (List ℚ)) (n m k : ℕ) (h0 : ∀ i j, 0 ≤ at2 raw i j) {i : ℕ} (hi : i < n)
    (hR : ∀ q < m, ∑ j ∈ Finset.range m, at2 R q j = 1) :
    Var[fun d => ∑ j ∈ Finset.range m, drawnUnfolded R n m k i j d; drawLaw raw] =
      ((∑ j ∈ Finset.range m, at2 raw i j : ℚ) : ℝ) := by
  obtain ⟨L, E, C⟩ := draw_moments raw h0
  have e : (fun d => ∑ j ∈ Finset.range m, drawnUnfolded R n m k i j d) =
      fun d : ℕ × ℕ → ℕ => ∑ j ∈ Finset.range m, (d (i, j) : ℝ) := by
    funext d
    have := (C29_counts_conserved (drawnRaw d n m) R n m hR k hi).1
    have h2 := congrArg (fun q : ℚ => (q : ℝ)) this
    simp only [Rat.cast_sum] at h2
    refine h2.trans (Finset.sum_congr rfl fun j hj => ?_)
    unfold drawnRaw
    rw [at2_tabulate _ _ _ hi (Finset.mem_range.1 hj)]
    push_cast
    rfl
  rw [e, ← covariance_self (memLp_finsetSum _ fun j _ => L (i, j)).aestronglyMeasurable.aemeasurable,
    covariance_fun_sum_fun_sum' (fun j _ => L (i, j)) (fun j _ => L (i, j))]
  simp only [C, Prod.mk.injEq, true_and]
  push_cast
  refine Finset.sum_congr rfl fun j hj => ?_
  rw [Finset.sum_ite_eq, if_pos hj]

section
variable {Ω : Type*} [MeasurableSpace Ω] {μ : Measure Ω} [IsProbabilityMeasure μ]

/-- **C131.** With more and more members the average of an unfolded bin tends to the unfolded raw matrix and the standard
deviation to that of the geometric series applied to counting statistics, almost surely. -/
theorem C131_members (raw R : List (List ℚ)) (n m k : ℕ) (h0 : ∀ i j, 0 ≤ at2 raw i j) {i : ℕ} (hi : i < n) (j : Fin m)
    {P : ℕ → Ω → ℕ × ℕ → ℕ} (law : ∀ a, HasLaw (P a) (drawLaw raw) μ) (ind : Pairwise fun a b => IndepFun (P a) (P b) μ) :
    ∀ᵐ ω ∂μ, Tendsto (binMean fun a => drawnUnfolded R n m k i j (P a ω)) atTop (𝓝 ((at2 (unfoldIter raw R n m k).1 i j : ℚ) : ℝ)) ∧
      Tendsto (binStd fun a => drawnUnfolded R n m k i j (P a ω)) atTop
        (𝓝 (Real.sqrt (((∑ q : Fin m, neumann R m k q j ^ 2 * at2 raw i q) : ℚ) : ℝ))) := by
  obtain ⟨L, E, C⟩ := C131_moments raw R n m k h0 hi hi j j
  have meas : Measurable (drawnUnfolded R n m k i j) := by
    rw [drawnUnfolded_eq R n m k hi]
    refine Finset.measurable_sum _ fun q _ => Measurable.const_mul ?_ _
    exact (measurable_of_countable (fun n : ℕ => (n : ℝ))).comp (measurable_pi_apply _)
  obtain ⟨D, e', w'⟩ := draws_of_law meas L law ind
  have := C130_limit D
  rw [e', w', E, ← covariance_self L.aestronglyMeasurable.aemeasurable, C, if_pos rfl] at this
  simp only [sq]
  exact this

/-- **C131 (disagreement).** What the unfolding returns is not right on average, because negative counts are removed: if
a count in some bin lowers the unfolded counts of bin `j`, the returned members have on average more counts there than
iteration `k` of the raw matrix, even with infinitely many members. -/
theorem C131_returned_fails (raw R : List (List ℚ)) (n m k : ℕ) (h0 : ∀ i j, 0 ≤ at2 raw i j) {i : ℕ} (hi : i < n) (j q : Fin m)
    (hq : neumann R m k q j < 0) (hv : 0 < at2 raw i q)
    {P : ℕ → Ω → ℕ × ℕ → ℕ} (law : ∀ a, HasLaw (P a) (drawLaw raw) μ) (ind : Pairwise fun a b => IndepFun (P a) (P b) μ) :
    ∃ c : ℝ, ((at2 (unfoldIter raw R n m k).1 i j : ℚ) : ℝ) < c ∧
      ∀ᵐ ω ∂μ, Tendsto (binMean fun a => drawnReturned R n m k i j (P a ω)) atTop (𝓝 c) := by
  obtain ⟨L, E, C⟩ := C131_moments raw R n m k h0 hi hi j j
  have meas : Measurable (drawnUnfolded R n m k i j) := by
    rw [drawnUnfolded_eq R n m k hi]
    refine Finset.measurable_sum _ fun q _ => Measurable.const_mul ?_ _
    exact (measurable_of_countable (fun n : ℕ => (n : ℝ))).comp (measurable_pi_apply _)
  have re : drawnReturned R n m k i j = fun d => max 0 (drawnUnfolded R n m k i j d) := by
    funext d
    unfold drawnReturned drawnUnfolded
    have key : ∀ x : ℚ, (if 0 < x then x else 0) = max 0 x := by
      intro x
      split_ifs with hx
      · exact (max_eq_right hx.le).symm
      · exact (max_eq_left (not_lt.1 hx)).symm
    have : ∀ A : List (List ℚ), at2 (removeNegativeQ A) i j = max 0 (at2 A i j) := by
      intro A
      unfold at2 removeNegativeQ
      rw [List.getD_eq_getElem?_getD, List.getD_eq_getElem?_getD, List.getElem?_map, List.getD_eq_getElem?_getD,
        List.getD_eq_getElem?_getD]
      cases A[i]? with
      | none => simp
      | some r =>
        simp only [Option.map_some, Option.getD_some, List.getElem?_map]
        cases r[(j : ℕ)]? with
        | none => simp
        | some x => simp [key]
    rw [this]
    push_cast
    rfl
  have meas' : Measurable (drawnReturned R n m k i j) := by
    rw [re]
    exact measurable_const.max meas
  have L' : MemLp (drawnReturned R n m k i j) 2 (drawLaw raw) := by
    rw [re]
    exact (memLp_const 0).sup L
  obtain ⟨D, e', -⟩ := draws_of_law meas' L' law ind
  refine ⟨∫ d, drawnReturned R n m k i j d ∂(drawLaw raw), ?_, ?_⟩
  · have D0 : ∀ d, 0 ≤ drawnReturned R n m k i j d - drawnUnfolded R n m k i j d := by
      intro d
      rw [re]
      exact sub_nonneg.2 (le_max_right _ _)
    have I := (L'.integrable one_le_two)
    have J := (L.integrable one_le_two)
    have pos : 0 < ∫ d, (drawnReturned R n m k i j d - drawnUnfolded R n m k i j d) ∂(drawLaw raw) := by
      rw [integral_pos_iff_support_of_nonneg D0 (I.sub J)]
      set s : Finset (ℕ × ℕ) := (Finset.range m).image fun p => (i, p) with hs
      have p0 : 0 < drawLaw raw (Set.pi s fun p => {if p = (i, (q : ℕ)) then 1 else 0}) := by
        unfold drawLaw
        rw [Measure.infinitePi_pi _ (fun _ _ => measurableSet_singleton _)]
        rw [pos_iff_ne_zero, Finset.prod_ne_zero_iff]
        intro p hp
        unfold countLaw
        rw [poissonMeasure_singleton, ← pos_iff_ne_zero, ENNReal.ofReal_pos]
        obtain ⟨t, -, rfl⟩ := Finset.mem_image.1 hp
        show 0 < Real.exp (-(max 0 ((at2 raw i t : ℚ) : ℝ))) * (max 0 ((at2 raw i t : ℚ) : ℝ)) ^
          (if (i, t) = (i, (q : ℕ)) then 1 else 0) / (((if (i, t) = (i, (q : ℕ)) then 1 else 0 : ℕ).factorial : ℕ) : ℝ)
        split_ifs with ht
        · have : (0 : ℝ) < max 0 ((at2 raw i t : ℚ) : ℝ) := by
            rw [(Prod.mk.inj ht).2]
            exact lt_max_of_lt_right (by exact_mod_cast hv)
          positivity
        · rw [pow_zero, mul_one]
          positivity
      refine p0.trans_le (measure_mono fun d hd => ?_)
      have hd' : ∀ p : Fin m, d (i, (p : ℕ)) = if p = q then 1 else 0 := by
        intro p
        have := hd (i, (p : ℕ)) (by simp [hs, p.2])
        simpa [Fin.val_inj] using this
      have neg : drawnUnfolded R n m k i j d < 0 := by
        rw [drawnUnfolded_eq R n m k hi]
        simp only [hd']
        simp
        exact_mod_cast hq
      rw [Function.mem_support, re]
      simp only [max_eq_left neg.le]
      linarith
    rw [integral_sub I J, E] at pos
    linarith
  · have := C130_limit D
    rw [e'] at this
    filter_upwards [this] with ω h
    exact h.1

end

/-! ## An example -/

/-- A response with a full-energy probability of 4/5 in the second bin. -/
def noiseResp : List (List ℚ) := [[1, 0], [1 / 5, 4 / 5]]

/-- One row of raw counts. -/
def noiseRaw : List (List ℚ) := [[4, 50]]

lemma noiseRaw_nonneg : ∀ i j, 0 ≤ at2 noiseRaw i j := by
  intro i j
  match i, j with
  | 0, 0 => decide +kernel
  | 0, 1 => decide +kernel
  | 0, j + 2 => exact le_refl _
  | i + 1, j => exact le_refl _

lemma noise_neumann (k : ℕ) : neumann noiseResp 2 (k + 1) 1 0 = -(1 / 5 : ℚ) * ∑ l ∈ Finset.range (k + 1), (1 / 5 : ℚ) ^ l := by
  have key : ∀ l, ((1 - respMatrix noiseResp 2) ^ (l + 1)) 1 0 = -(1 / 5 : ℚ) * (1 / 5 : ℚ) ^ l := by
    have e : (1 - respMatrix noiseResp 2) = !![0, 0; -(1 / 5), 1 / 5] := by
      ext q j
      fin_cases q <;> fin_cases j <;> simp [respMatrix, noiseResp, at2] <;> norm_num
    have : ∀ l, (1 - respMatrix noiseResp 2) ^ (l + 1) = !![0, 0; -(1 / 5) * (1 / 5) ^ l, (1 / 5) ^ (l + 1)] := by
      intro l
      induction l with
      | zero => rw [zero_add, pow_one, e]; simp
      | succ l ih =>
        rw [pow_succ', ih, e]
        ext q j
        fin_cases q <;> fin_cases j <;> simp [Matrix.mul_apply, Fin.sum_univ_two] <;> ring
    intro l
    rw [this]
    rfl
  unfold neumann
  rw [Finset.sum_range_succ', Matrix.add_apply, Matrix.sum_apply]
  simp only [key]
  rw [← Finset.mul_sum]
  simp

/-- The hypotheses hold for this response after any number of iterations, and members as assumed exist. -/
example (k : ℕ) : ∃ c : ℝ, ((at2 (unfoldIter noiseRaw noiseResp 1 2 (k + 1)).1 0 0 : ℚ) : ℝ) < c ∧
    ∀ᵐ ω ∂(Measure.infinitePi fun _ : ℕ => drawLaw noiseRaw),
      Tendsto (binMean fun a => drawnReturned noiseResp 1 2 (k + 1) 0 0 (ω a)) atTop (𝓝 c) := by
  have ind : iIndepFun (fun a (ω : ℕ → ℕ × ℕ → ℕ) => ω a) (Measure.infinitePi fun _ : ℕ => drawLaw noiseRaw) :=
    iIndepFun_infinitePi (P := fun _ : ℕ => drawLaw noiseRaw) (X := fun _ n => n) (fun _ => measurable_id)
  have neg : neumann noiseResp 2 (k + 1) 1 0 < 0 := by
    rw [noise_neumann]
    have : (0 : ℚ) < ∑ l ∈ Finset.range (k + 1), (1 / 5) ^ l :=
      Finset.sum_pos (fun l _ => by positivity) (Finset.nonempty_range_iff.2 (by omega))
    linarith
  exact C131_returned_fails (μ := Measure.infinitePi fun _ : ℕ => drawLaw noiseRaw) noiseRaw noiseResp 1 2 (k + 1) noiseRaw_nonneg
    (i := 0) one_pos 0 1 neg (by decide +kernel) (P := fun a ω => ω a)
    (fun a => ⟨(measurable_pi_apply a).aemeasurable, Measure.infinitePi_map_eval _ a⟩) (fun a b hab => ind.indepFun hab)

/-- After one more pass the first bin varies as 4 + 50 / 25 counts do, and has 4 - 50 / 5 counts on average. -/
example : Var[drawnUnfolded noiseResp 1 2 1 0 0; drawLaw noiseRaw] = 6 ∧
    ∫ d, drawnUnfolded noiseResp 1 2 1 0 0 d ∂(drawLaw noiseRaw) = -6 := by
  obtain ⟨L, E, C⟩ := C131_moments noiseRaw noiseResp 1 2 1 noiseRaw_nonneg (i := 0) (i' := 0) one_pos one_pos 0 0
  refine ⟨?_, ?_⟩
  · have := covariance_self L.aestronglyMeasurable.aemeasurable
    rw [C, if_pos rfl] at this
    refine this.symm.trans ?_
    have e : ∑ q : Fin 2, neumann noiseResp 2 1 q 0 * neumann noiseResp 2 1 q 0 * at2 noiseRaw 0 q = 6 := by
      rw [Fin.sum_univ_two]
      have a : neumann noiseResp 2 1 0 0 = 1 := by
        simp [neumann, Finset.sum_range_succ, respMatrix, noiseResp, at2]
      have b : neumann noiseResp 2 1 1 0 = -(1 / 5) := by
        rw [noise_neumann]
        simp
      rw [a, b]
      simp [noiseRaw, at2]
      norm_num
    rw [e]
    norm_num
  · refine E.trans ?_
    have : at2 (unfoldIter noiseRaw noiseResp 1 2 1).1 0 0 = -6 := by decide +kernel
    simp [this]

end Ompy
