import Verif.EnsPerturb
import Mathlib.Probability.Distributions.Gaussian.Real
import Mathlib.Probability.Distributions.Poisson.Basic
import Mathlib.Probability.Moments.Variance

/-!
# C84: the perturbation of the matrices
-/

namespace Ompy

open MeasureTheory ProbabilityTheory

theorem mapIdx_getD2 (f : ℕ → ℕ → ℚ → ℝ) (values : List (List ℚ)) (i j : ℕ) (hi : i < values.length)
    (hj : j < (values.getD i []).length) :
    ((values.mapIdx fun i row => row.mapIdx fun j v => f i j v).getD i []).getD j 0 =
      f i j ((values.getD i []).getD j 0) := by
  rw [List.getD_eq_getElem values [] hi] at hj ⊢
  rw [List.getD_eq_getElem _ [] (by simpa using hi)]
  simp only [List.getElem_mapIdx]
  rw [List.getD_eq_getElem _ 0 (by simpa using hj), List.getD_eq_getElem _ 0 hj]
  simp

theorem mapIdx_shape (f : ℕ → ℕ → ℚ → ℝ) (values : List (List ℚ)) :
    (values.mapIdx fun i row => row.mapIdx fun j v => f i j v).map List.length = values.map List.length := by
  apply List.ext_getElem
  · simp
  · intro i h1 h2
    simp

theorem gaussBin_eq (v z : ℝ) (h : 0 < v) : gaussBin v z = max 0 (v + Real.sqrt v * z) := by
  unfold gaussBin posPart
  rw [if_pos h]
  split_ifs with h1
  · rw [max_eq_left h1.le]
  · rw [max_eq_right (not_lt.1 h1)]

theorem gaussBin_nonpos (v z : ℝ) (h : v ≤ 0) : gaussBin v z = 0 := by
  unfold gaussBin posPart
  rw [if_neg (not_lt.2 h), Real.sqrt_zero, zero_mul, add_zero]
  split_ifs with h1
  · rfl
  · linarith

theorem gaussBin_nonneg (v z : ℝ) : 0 ≤ gaussBin v z := by
  unfold gaussBin
  split_ifs with h
  · exact le_rfl
  · exact not_lt.1 h

/-- **C84.** The Gaussian perturbation keeps the shape and gives no negative bin; a bin without counts stays empty, a negative one is set
to zero, and a bin with `v` counts becomes `v + √v z`, cut off at zero. -/
theorem C84_gaussian (z : ℕ → ℕ → ℝ) (values : List (List ℚ)) :
    (perturbGauss z values).map List.length = values.map List.length ∧
    ∀ i < values.length, ∀ j < (values.getD i []).length,
      let v : ℝ := (((values.getD i []).getD j 0 : ℚ) : ℝ)
      let p := ((perturbGauss z values).getD i []).getD j 0
      0 ≤ p ∧ (v ≤ 0 → p = 0) ∧ (0 < v → p = max 0 (v + Real.sqrt v * z i j)) := by
  refine ⟨by unfold perturbGauss; exact mapIdx_shape _ values, ?_⟩
  intro i hi j hj
  have h : ((perturbGauss z values).getD i []).getD j 0 = gaussBin (((values.getD i []).getD j 0 : ℚ) : ℝ) (z i j)  := by
    unfold perturbGauss
    exact mapIdx_getD2 (fun i j v => gaussBin (v : ℝ) (z i j)) values i j hi hj
  simp only [h]
  exact ⟨gaussBin_nonneg _ _, gaussBin_nonpos _ _, gaussBin_eq _ _⟩

/-- **C84.** The Poisson perturbation keeps the shape, and a bin with `v` counts becomes a number drawn with the rate `v`, one with a
negative number of counts is drawn with rate 0. -/
theorem C84_poisson (draw : ℕ → ℕ → ℝ → ℕ) (values : List (List ℚ)) :
    (perturbPoisson draw values).map List.length = values.map List.length ∧
    ∀ i < values.length, ∀ j < (values.getD i []).length,
      ((perturbPoisson draw values).getD i []).getD j 0 =
        (draw i j (max 0 (((values.getD i []).getD j 0 : ℚ) : ℝ)) : ℝ) := by
  refine ⟨by unfold perturbPoisson; exact mapIdx_shape _ values, ?_⟩
  intro i hi j hj
  have h : ((perturbPoisson draw values).getD i []).getD j 0 =
      (draw i j (posPart (((values.getD i []).getD j 0 : ℚ) : ℝ)) : ℝ)  := by
    unfold perturbPoisson
    exact mapIdx_getD2 (fun i j v => (draw i j (posPart (v : ℝ)) : ℝ)) values i j hi hj
  rw [h]
  congr 2
  unfold posPart
  split_ifs with h1
  · rw [max_eq_right h1.le]
  · rw [max_eq_left (not_lt.1 h1)]

theorem poisson_hasSum (r : NNReal) : HasSum (fun n : ℕ => Real.exp (-r) * (r : ℝ) ^ n / n.factorial) 1 :=
  hasSum_one_poissonMeasure r

theorem poisson_first (r : NNReal) :
    HasSum (fun n : ℕ => Real.exp (-r) * (r : ℝ) ^ n / n.factorial * n) r := by
  have h := (poisson_hasSum r).mul_left (r : ℝ)
  rw [mul_one] at h
  rw [← hasSum_nat_add_iff' 1]
  simp only [Finset.range_one, Finset.sum_singleton, Nat.cast_zero, mul_zero, sub_zero]
  have e : (fun n : ℕ => Real.exp (-r) * (r : ℝ) ^ (n + 1) / (n + 1).factorial * ((n + 1 : ℕ) : ℝ)) =
      fun n : ℕ => (r : ℝ) * (Real.exp (-r) * (r : ℝ) ^ n / n.factorial) := by
    funext n
    rw [Nat.factorial_succ]
    have : ((n.factorial : ℕ) : ℝ) ≠ 0 := by positivity
    have : ((n + 1 : ℕ) : ℝ) ≠ 0 := by positivity
    push_cast at *
    field_simp
    ring
  rw [e]
  exact h

theorem poisson_second (r : NNReal) :
    HasSum (fun n : ℕ => Real.exp (-r) * (r : ℝ) ^ n / n.factorial * (n * (n - 1))) ((r : ℝ) ^ 2) := by
  have h := (poisson_first r).mul_left (r : ℝ)
  rw [← hasSum_nat_add_iff' 1]
  simp only [Finset.range_one, Finset.sum_singleton, Nat.cast_zero, zero_mul, mul_zero, sub_zero]
  have e : (fun n : ℕ => Real.exp (-r) * (r : ℝ) ^ (n + 1) / (n + 1).factorial *
      (((n + 1 : ℕ) : ℝ) * (((n + 1 : ℕ) : ℝ) - 1))) =
      fun n : ℕ => (r : ℝ) * (Real.exp (-r) * (r : ℝ) ^ n / n.factorial * n) := by
    funext n
    rw [Nat.factorial_succ]
    have : ((n.factorial : ℕ) : ℝ) ≠ 0 := by positivity
    have : ((n + 1 : ℕ) : ℝ) ≠ 0 := by positivity
    push_cast at *
    field_simp
    ring
  rw [e, sq]
  exact h

/-- **C84.** The numbers drawn for a bin with `v ≥ 0` counts have mean `v` and variance `v`: the Poisson perturbation neither adds
counts on average nor changes the size of the statistical fluctuations. -/
theorem C84_poisson_moments (v : ℝ) (hv : 0 ≤ v) :
    let μ := poissonMeasure ⟨max 0 v, le_max_left _ _⟩
    Integrable (fun n : ℕ => (n : ℝ)) μ ∧ ∫ n : ℕ, (n : ℝ) ∂μ = v ∧
    Integrable (fun n : ℕ => ((n : ℝ) - v) ^ 2) μ ∧ ∫ n : ℕ, ((n : ℝ) - v) ^ 2 ∂μ = v := by
  intro μ
  set r : NNReal := ⟨max 0 v, le_max_left _ _⟩ with hr
  have hrv : (r : ℝ) = v := by rw [hr]; exact max_eq_right hv
  have h1 := poisson_first r
  have h2 : HasSum (fun n : ℕ => Real.exp (-r) * (r : ℝ) ^ n / n.factorial * ((n : ℝ) - v) ^ 2) v := by
    have := ((poisson_second r).add (h1.mul_left (1 - 2 * v))).add ((poisson_hasSum r).mul_left (v ^ 2))
    rw [hrv] at this ⊢
    convert this using 1
    · funext n; ring
    · ring
  have hint : ∀ (f : ℕ → ℝ) (s : ℝ), (∀ n, 0 ≤ f n) →
      HasSum (fun n : ℕ => Real.exp (-r) * (r : ℝ) ^ n / n.factorial * f n) s →
      Integrable f (poissonMeasure r) ∧ ∫ n, f n ∂(poissonMeasure r) = s := by
    intro f s hf h
    have hi : Integrable f (poissonMeasure r) := by
      rw [integrable_poissonMeasure_iff]
      refine h.summable.congr fun n => ?_
      rw [Real.norm_of_nonneg (hf n)]
    refine ⟨hi, ?_⟩
    rw [integral_poissonMeasure]
    simpa using h.tsum_eq
  have k1 := hint _ _ (fun n => Nat.cast_nonneg n) h1
  have k2 := hint _ _ (fun n => sq_nonneg _) h2
  exact ⟨k1.1, k1.2.trans hrv, k2.1, k2.2⟩

/-- The law of the numbers `z`. -/
noncomputable abbrev stdNormal : Measure ℝ := gaussianReal 0 1

theorem normal_id : Integrable (fun z : ℝ => z) stdNormal ∧ ∫ z, z ∂stdNormal = 0 :=
  ⟨(memLp_id_gaussianReal 1).integrable le_rfl, integral_id_gaussianReal⟩

theorem normal_sq : Integrable (fun z : ℝ => z ^ 2) stdNormal ∧ ∫ z, z ^ 2 ∂stdNormal = 1 := by
  have hi : Integrable (fun z : ℝ => z ^ 2) stdNormal := (memLp_id_gaussianReal 2).integrable_sq
  refine ⟨hi, ?_⟩
  have h := variance_id_gaussianReal (μ := 0) (v := 1)
  rw [variance_eq_integral (by fun_prop)] at h
  simpa [integral_id_gaussianReal] using h

theorem normal_tail (c : ℝ) : 0 < stdNormal (Set.Iio c) := by
  rw [pos_iff_ne_zero]
  intro h
  have := (gaussianReal_absolutelyContinuous' 0 (one_ne_zero)) h
  simp at this

/-- **C84 (disagreement).** Cutting off the negative numbers shifts the Gaussian perturbation: the mean of a bin with `v > 0` counts is
larger than `v`, by at most a quarter of a count, and its mean squared deviation from `v` is smaller than the `v` of
counting statistics. -/
theorem C84_bias_fails (v : ℝ) (hv : 0 < v) :
    Integrable (gaussBin v) stdNormal ∧ v < ∫ z, gaussBin v z ∂stdNormal ∧
    ∫ z, gaussBin v z ∂stdNormal ≤ v + 1 / 4 ∧
    Integrable (fun z => (gaussBin v z - v) ^ 2) stdNormal ∧ ∫ z, (gaussBin v z - v) ^ 2 ∂stdNormal < v := by
  have hs : 0 < Real.sqrt v := Real.sqrt_pos.2 hv
  have hss : Real.sqrt v * Real.sqrt v = v := Real.mul_self_sqrt hv.le
  obtain ⟨i1, m1⟩ := normal_id
  obtain ⟨i2, m2⟩ := normal_sq
  have hX : Integrable (fun z => v + Real.sqrt v * z) stdNormal := (integrable_const v).add (i1.const_mul _)
  have mX : ∫ z, (v + Real.sqrt v * z) ∂stdNormal = v := by
    rw [integral_add (integrable_const v) (i1.const_mul _), integral_const_mul, m1]
    simp
  have hfun : gaussBin v = fun z => max 0 (v + Real.sqrt v * z) := funext fun z => gaussBin_eq v z hv
  have hY : Integrable (fun z => max 0 (v + Real.sqrt v * z)) stdNormal := (integrable_const 0).sup hX
  -- the part cut off
  have hD : Integrable (fun z => max 0 (v + Real.sqrt v * z) - (v + Real.sqrt v * z)) stdNormal := hY.sub hX
  have hD0 : ∀ z, 0 ≤ max 0 (v + Real.sqrt v * z) - (v + Real.sqrt v * z) := fun z => sub_nonneg.2 (le_max_right _ _)
  have hDpos : 0 < ∫ z, (max 0 (v + Real.sqrt v * z) - (v + Real.sqrt v * z)) ∂stdNormal := by
    rw [integral_pos_iff_support_of_nonneg hD0 hD]
    refine (normal_tail (-Real.sqrt v)).trans_le (measure_mono ?_)
    intro z hz
    rw [Set.mem_Iio] at hz
    have : v + Real.sqrt v * z < 0 := by nlinarith
    rw [Function.mem_support, max_eq_left this.le]
    linarith
  have hDle : ∫ z, (max 0 (v + Real.sqrt v * z) - (v + Real.sqrt v * z)) ∂stdNormal ≤ 1 / 4 := by
    have hle : ∫ z, (max 0 (v + Real.sqrt v * z) - (v + Real.sqrt v * z)) ∂stdNormal ≤
        ∫ z, 1 / 4 * z ^ 2 ∂stdNormal := by
      apply integral_mono hD (i2.const_mul _)
      intro z
      simp only
      rcases le_or_gt 0 (v + Real.sqrt v * z) with h | h
      · rw [max_eq_right h]; nlinarith [sq_nonneg z]
      · rw [max_eq_left h.le]
        nlinarith [sq_nonneg (2 * Real.sqrt v + z)]
    rw [integral_const_mul, m2] at hle
    linarith
  rw [integral_sub hY hX, mX] at hDpos hDle
  -- the squared deviation
  have hQ : Integrable (fun z => v * z ^ 2) stdNormal := i2.const_mul _
  have mQ : ∫ z, v * z ^ 2 ∂stdNormal = v := by rw [integral_const_mul, m2, mul_one]
  have hcmp : ∀ z, (max 0 (v + Real.sqrt v * z) - v) ^ 2 ≤ v * z ^ 2 := by
    intro z
    have e : v * z ^ 2 = (Real.sqrt v * z) ^ 2 := by rw [mul_pow, sq (Real.sqrt v), hss]
    rcases le_or_gt 0 (v + Real.sqrt v * z) with h | h
    · rw [max_eq_right h, e]; nlinarith
    · rw [max_eq_left h.le, e]; nlinarith
  have hZ : Integrable (fun z => (max 0 (v + Real.sqrt v * z) - v) ^ 2) stdNormal := by
    refine hQ.mono' (by fun_prop) (Filter.Eventually.of_forall fun z => ?_)
    rw [Real.norm_of_nonneg (sq_nonneg _)]
    exact hcmp z
  have hR : Integrable (fun z => v * z ^ 2 - (max 0 (v + Real.sqrt v * z) - v) ^ 2) stdNormal := hQ.sub hZ
  have hRpos : 0 < ∫ z, (v * z ^ 2 - (max 0 (v + Real.sqrt v * z) - v) ^ 2) ∂stdNormal := by
    rw [integral_pos_iff_support_of_nonneg (fun z => sub_nonneg.2 (hcmp z)) hR]
    refine (normal_tail (-Real.sqrt v)).trans_le (measure_mono ?_)
    intro z hz
    rw [Set.mem_Iio] at hz
    have h : v + Real.sqrt v * z < 0 := by nlinarith
    have e : v * z ^ 2 = (Real.sqrt v * z) ^ 2 := by rw [mul_pow, sq (Real.sqrt v), hss]
    rw [Function.mem_support, max_eq_left h.le, e]
    nlinarith
  rw [integral_sub hQ hZ, mQ] at hRpos
  simp only [hfun]
  exact ⟨hY, by linarith, by linarith, hZ, by linarith⟩

/-- **C84.** States: `raw`, `prompt+bg` and `bg` have a matrix and an action each; `unfolded` and `firstgen` have an action only; no
other state has either.  A matrix that is not set is reported by an AttributeError. -/
theorem C84_states {A : Type} (b : EnsBase) (a : EnsActions A) :
    (matrixFromState b "raw" = .ok b.raw ∧ matrixFromState b "prompt+bg" = .ok b.promptWbg ∧
      matrixFromState b "bg" = .ok b.bg ∧
      ∀ s, s ≠ "raw" → s ≠ "prompt+bg" → s ≠ "bg" → matrixFromState b s = .error .notImplemented) ∧
    (actionFromState a "raw" = .ok a.raw ∧ actionFromState a "prompt+bg" = .ok a.promptWbg ∧
      actionFromState a "bg" = .ok a.bg ∧ actionFromState a "unfolded" = .ok a.unfolded ∧
      actionFromState a "firstgen" = .ok a.firstgen ∧
      ∀ s, s ≠ "raw" → s ≠ "prompt+bg" → s ≠ "bg" → s ≠ "unfolded" → s ≠ "firstgen" →
        actionFromState a s = .error .notImplemented) ∧
    (b.bg = none → baseMatrix b "bg" = .error .attributeError) := by
  refine ⟨⟨rfl, rfl, rfl, ?_⟩, ⟨rfl, rfl, rfl, rfl, rfl, ?_⟩, ?_⟩
  · intro s h1 h2 h3
    simp [matrixFromState, h1, h2, h3]
  · intro s h1 h2 h3 h4 h5
    simp [actionFromState, h1, h2, h3, h4, h5]
  · intro h
    simp [baseMatrix, matrixFromState, h]

/-- **C84.** `generate_perturbed`: a state without matrix is refused first; an existing file is loaded unless everything is regenerated;
otherwise the matrix of the state is perturbed by the method asked for, keeping its axes, and another method is refused. -/
theorem C84_generate (b : EnsBase) (file : Option (List (List ℝ) × List ℚ × List ℚ)) (regenerate : Bool)
    (method state : String) (z : ℕ → ℕ → ℝ) (draw : ℕ → ℕ → ℝ → ℕ) :
    (¬ (state = "raw" ∨ state = "prompt+bg" ∨ state = "bg") →
      perturbed b file regenerate method state z draw = .error .notImplemented) ∧
    (state = "raw" ∨ state = "prompt+bg" ∨ state = "bg" →
      (∀ f, file = some f → perturbed b file false method state z draw = .ok f) ∧
      (file = none ∨ regenerate = true →
        (∀ m, baseMatrix b state = .ok m →
          perturbed b file regenerate "gaussian" state z draw = .ok (perturbGauss z m.values, m.Eg, m.Ex) ∧
          perturbed b file regenerate "poisson" state z draw = .ok (perturbPoisson draw m.values, m.Eg, m.Ex)) ∧
        (method ≠ "gaussian" → method ≠ "poisson" →
          perturbed b file regenerate method state z draw = .error .valueError))) := by
  constructor
  · intro h
    unfold perturbed
    rw [if_pos h]
  · intro h
    have h' := not_not.2 h
    refine ⟨?_, ?_⟩
    · rintro f rfl
      unfold perturbed
      rw [if_neg h']
      rfl
    · intro hf
      have hn : (if regenerate = true then none else file) = none := by
        rcases hf with rfl | rfl
        · simp
        · rfl
      refine ⟨?_, ?_⟩
      · intro m hm
        unfold perturbed
        rw [if_neg h', if_neg h', hn]
        simp [hm, Except.map]
      · intro h1 h2
        unfold perturbed
        rw [if_neg h', hn]
        simp [h1, h2]

/-- **C84 (disagreement).** The method is only looked at when a matrix is made: with a file present any name of a method is accepted
and has no effect, and a member made by one method is used for an ensemble of the other. -/
theorem C84_method_fails (b : EnsBase) (z : ℕ → ℕ → ℝ) (draw : ℕ → ℕ → ℝ → ℕ) (f : List (List ℝ) × List ℚ × List ℚ) :
    perturbed b (some f) false "no such method" "raw" z draw = .ok f ∧
    perturbed b (some f) false "gaussian" "raw" z draw = perturbed b (some f) false "poisson" "raw" z draw := by
  constructor <;> simp [perturbed]

/-- Non-vacuity: one row with a negative, an empty and a filled bin; the filled bin is cut off at zero. -/
example : perturbGauss (fun _ _ => -3) [[-2, 0, 4, 100]] = [[0, 0, 0, 70]] := by
  have h4 : Real.sqrt 4 = 2 := by rw [show (4 : ℝ) = 2 ^ 2 by norm_num]; exact Real.sqrt_sq (by norm_num)
  have h100 : Real.sqrt 100 = 10 := by rw [show (100 : ℝ) = 10 ^ 2 by norm_num]; exact Real.sqrt_sq (by norm_num)
  simp [perturbGauss, gaussBin, posPart, h4, h100]
  norm_num

end Ompy
