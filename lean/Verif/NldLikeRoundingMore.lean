import Verif.NldLikeRoundingProps
import Mathlib.Analysis.InnerProductSpace.PiL2

/-!
# C155: the chi-square of the upper part against the exact model
-/

namespace Ompy

/-- The level density of the constant temperature model. -/
noncomputable def ctExact (T Eshift e : ℚ) : ℝ := Real.exp (((e : ℝ) - Eshift) / T) / T

theorem sqrt_sum_triangle (n : ℕ) (f g : ℕ → ℝ) :
    |√(∑ k ∈ Finset.range n, f k ^ 2) - √(∑ k ∈ Finset.range n, g k ^ 2)| ≤ √(∑ k ∈ Finset.range n, (f k - g k) ^ 2) := by
  have key : ∀ h : ℕ → ℝ, ‖(WithLp.toLp 2 fun k : Fin n => h k : EuclideanSpace ℝ (Fin n))‖ = √(∑ k ∈ Finset.range n, h k ^ 2) := by
    intro h
    rw [EuclideanSpace.norm_eq, ← Fin.sum_univ_eq_sum_range (fun k => h k ^ 2)]
    simp
  have := abs_norm_sub_norm_le (WithLp.toLp 2 fun k : Fin n => f k : EuclideanSpace ℝ (Fin n)) (WithLp.toLp 2 fun k : Fin n => g k)
  rw [key, key, ← WithLp.toLp_sub] at this
  have e := key (fun k => f k - g k)
  exact this.trans (le_of_eq e)

theorem chi_sum_real (v w s : List ℚ) (n : ℕ) :
    ((((List.range n).map (chiEntry v w (some s) none)).sum : ℚ) : ℝ) =
      ∑ k ∈ Finset.range n, (((v.getD k 0 : ℚ) - (w.getD k 0 : ℚ) : ℝ) / (s.getD k 0 : ℚ)) ^ 2 := by
  induction n with
  | zero => simp
  | succ n ih =>
    rw [List.range_succ, List.map_append, List.sum_append, Rat.cast_add, ih, Finset.sum_range_succ]
    congr 1
    simp only [List.map_cons, List.map_nil, List.sum_cons, List.sum_nil, add_zero]
    unfold chiEntry sigmaSq
    simp [div_pow]

/-- **C155.** The root of the χ² of the upper part, computed with the rounded model values, differs from the one with the exact model by at most the
relative error of the model times the root of the sum of the squares `(model/σ)²`. -/
theorem C155_upper {fl ex : ℚ → ℚ} {u : ℚ} {b D : ℝ} (hfl : Rounding fl u) (hu : 0 ≤ u) (hu1 : u < 1) (hex : ExpFun ex b) {T Eshift : ℚ} (hT : 0 < T)
    (e v s expected : List ℚ) (he : e.mapM (constTemperatureF fl ex T Eshift) = .ok expected)
    (hD : ∀ x ∈ e, ((1 / (1 - u) ^ 2 - 1 : ℚ) : ℝ) * |((x : ℝ) - Eshift) / T| + b + lamU u ≤ D) :
    |√((((List.range e.length).map (chiEntry v expected (some s) none)).sum : ℚ) : ℝ) -
        √(∑ k ∈ Finset.range e.length, (((v.getD k 0 : ℚ) - ctExact T Eshift (e.getD k 0) : ℝ) / (s.getD k 0 : ℚ)) ^ 2)| ≤
      (Real.exp D - 1) * √(∑ k ∈ Finset.range e.length, (ctExact T Eshift (e.getD k 0) / (s.getD k 0 : ℚ)) ^ 2) := by
  rw [constTemperatureF_mapM hT.ne'] at he
  cases he
  have hT' : (0 : ℝ) < T := by exact_mod_cast hT
  rw [chi_sum_real]
  refine (sqrt_sum_triangle _ _ _).trans ?_
  rcases Nat.eq_zero_or_pos e.length with h0 | h0
  · simp [h0]
  have near : ∀ k < e.length, |((((e.map fun e => fl (ex (fl (fl (e - Eshift) / T)) / T)).getD k 0 : ℚ)) : ℝ) - ctExact T Eshift (e.getD k 0)| ≤
      (Real.exp D - 1) * ctExact T Eshift (e.getD k 0) := by
    intro k hk
    have hm : e.getD k 0 ∈ e := by rw [List.getD_eq_getElem _ _ hk]; exact List.getElem_mem _
    obtain ⟨r, hr, rp, n⟩ := (C155_model hfl hu hu1 hex T Eshift (e.getD k 0)).2 hT
    have hr' : r = (e.map fun e => fl (ex (fl (fl (e - Eshift) / T)) / T)).getD k 0 := by
      rw [constTemperatureF, if_neg hT.ne'] at hr
      cases hr
      rw [List.getD_eq_getElem (e.map _) _ (by simpa using hk), List.getElem_map, List.getD_eq_getElem _ _ hk]
    rw [← hr']
    have p : 0 ≤ ctExact T Eshift (e.getD k 0) := (div_pos (Real.exp_pos _) hT').le
    have rp' : (0 : ℝ) ≤ r := by exact_mod_cast rp.le
    exact (n.mono p rp' (hD _ hm)).rel p
  have c0 : 0 ≤ Real.exp D - 1 := by
    have p : 0 < ctExact T Eshift (e.getD 0 0) := div_pos (Real.exp_pos _) hT'
    have := (abs_nonneg _).trans (near 0 h0)
    by_contra hn
    exact absurd this (not_le.2 (mul_neg_of_neg_of_pos (not_le.1 hn) p))
  rw [← Real.sqrt_sq c0, ← Real.sqrt_mul (sq_nonneg _), Finset.mul_sum]
  refine Real.sqrt_le_sqrt (Finset.sum_le_sum fun k hk => ?_)
  have hk' := near k (Finset.mem_range.1 hk)
  rw [← sub_div, ← mul_pow, sub_sub_sub_cancel_left, mul_div_assoc', div_pow, div_pow]
  refine div_le_div_of_nonneg_right ?_ (sq_nonneg _)
  rw [← sq_abs (ctExact T Eshift (e.getD k 0) - _), abs_sub_comm]
  exact pow_le_pow_left₀ (abs_nonneg _) hk' 2

example : ∃ ex, ExpFun ex (2 / 2 ^ 53) ∧ ∃ expected, ([1, 4] : List ℚ).mapM (constTemperatureF dbl ex 2 1) = .ok expected :=
  ⟨_, (expFun_exists _ (by norm_num)).choose_spec, _, constTemperatureF_mapM (by norm_num) _ _⟩

end Ompy
