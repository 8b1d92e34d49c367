import Verif.UnfoldSettleProps
import Mathlib.Analysis.Matrix.PosDef
import Mathlib.Analysis.Matrix.Spectrum

/-!
# Unfolding a resolution

C137: symmetric responses.  A resolution that is the same for neighbouring bins gives such a response.
-/

namespace Ompy

open Filter Topology

/-- The response as a matrix of real numbers. -/
noncomputable def respReal (R : List (List ℚ)) (m : ℕ) : Matrix (Fin m) (Fin m) ℝ := (respMatrix R m).map (fun x : ℚ => (x : ℝ))

lemma respReal_pow (R : List (List ℚ)) (m k : ℕ) (q j : Fin m) :
    ((((1 - respMatrix R m) ^ k) q j : ℚ) : ℝ) = ((1 - respReal R m) ^ k) q j := by
  have h1 : (1 - respReal R m) = (Rat.castHom ℝ).mapMatrix (1 - respMatrix R m) := by
    rw [map_sub, map_one]
    rfl
  rw [h1, ← map_pow]
  rfl

/-- **C137.** A symmetric response with probabilities in its rows settles exactly if `∑ x q R q j x j` is positive for
all spectra `x` other than zero. -/
theorem C137_symmetric_iff (R : List (List ℚ)) (m : ℕ) (hs : ∀ q < m, ∀ j < m, at2 R q j = at2 R j q)
    (h0 : ∀ q < m, ∀ j < m, 0 ≤ at2 R q j) (h1 : ∀ q < m, ∑ j ∈ Finset.range m, at2 R q j ≤ 1) :
    Settles R m ↔ ∀ x : ℕ → ℝ, (∃ q < m, x q ≠ 0) →
      0 < ∑ q ∈ Finset.range m, ∑ j ∈ Finset.range m, x q * ((at2 R q j : ℚ) : ℝ) * x j := by
  have hA : (respReal R m).IsHermitian := by
    ext q j
    rw [Matrix.conjTranspose_apply, star_trivial]
    have := hs j j.2 q q.2
    change ((at2 R j q : ℚ) : ℝ) = ((at2 R q j : ℚ) : ℝ)
    rw [this]
  have quad : ∀ x : Fin m → ℝ, star x ⬝ᵥ (Matrix.mulVec (respReal R m) x) =
      ∑ q : Fin m, ∑ j : Fin m, x q * ((at2 R q j : ℚ) : ℝ) * x j := by
    intro x
    simp only [dotProduct, Matrix.mulVec, star_trivial, Finset.mul_sum]
    refine Finset.sum_congr rfl fun q _ => Finset.sum_congr rfl fun j _ => ?_
    change x q * (((at2 R q j : ℚ) : ℝ) * x j) = _
    ring
  have pos : (∀ x : ℕ → ℝ, (∃ q < m, x q ≠ 0) →
      0 < ∑ q ∈ Finset.range m, ∑ j ∈ Finset.range m, x q * ((at2 R q j : ℚ) : ℝ) * x j) ↔ (respReal R m).PosDef := by
    constructor
    · intro h
      refine Matrix.PosDef.of_dotProduct_mulVec_pos hA fun x hx => ?_
      obtain ⟨q, hq⟩ := Function.ne_iff.1 hx
      have := h (fun p => if hp : p < m then x ⟨p, hp⟩ else 0) ⟨q, q.2, by simpa using hq⟩
      rw [quad]
      rw [Finset.sum_range] at this
      simp only [Finset.sum_range, Fin.is_lt, dif_pos, Fin.eta] at this
      exact this
    · intro h x hx
      obtain ⟨q, hq, hq0⟩ := hx
      have := h.dotProduct_mulVec_pos (x := fun p : Fin m => x p) (by
        intro h
        exact hq0 (congrFun h ⟨q, hq⟩))
      rw [quad] at this
      rw [Finset.sum_range]
      simp only [Finset.sum_range]
      exact this
  rw [pos, C137_settles_iff, hA.posDef_iff_eigenvalues_pos]
  have up : ∀ p, hA.eigenvalues p ≤ 1 := by
    intro p
    rw [hA.eigenvalues_eq]
    set x : Fin m → ℝ := ⇑(hA.eigenvectorBasis p) with hx
    have n1 : ∑ q : Fin m, x q ^ 2 = 1 := by
      have := hA.eigenvectorBasis.orthonormal.1 p
      rw [EuclideanSpace.norm_eq] at this
      have h2 := congrArg (· ^ 2) this
      simp only [one_pow] at h2
      rw [Real.sq_sqrt (Finset.sum_nonneg fun _ _ => by positivity)] at h2
      simpa [hx] using h2
    rw [quad]
    simp only [RCLike.re_to_real]
    have b : ∀ q j : Fin m, x q * ((at2 R q j : ℚ) : ℝ) * x j ≤ ((at2 R q j : ℚ) : ℝ) * (x q ^ 2 / 2) + ((at2 R q j : ℚ) : ℝ) * (x j ^ 2 / 2) := by
      intro q j
      have : (0 : ℝ) ≤ ((at2 R q j : ℚ) : ℝ) := by exact_mod_cast h0 q q.2 j j.2
      nlinarith [mul_nonneg this (sq_nonneg (x q - x j))]
    have rs : ∀ q : Fin m, ∑ j : Fin m, ((at2 R q j : ℚ) : ℝ) ≤ 1 := by
      intro q
      have := h1 q q.2
      rw [Finset.sum_range] at this
      exact_mod_cast this
    calc ∑ q : Fin m, ∑ j : Fin m, x q * ((at2 R q j : ℚ) : ℝ) * x j
        ≤ ∑ q : Fin m, ∑ j : Fin m, (((at2 R q j : ℚ) : ℝ) * (x q ^ 2 / 2) + ((at2 R q j : ℚ) : ℝ) * (x j ^ 2 / 2)) :=
          Finset.sum_le_sum fun q _ => Finset.sum_le_sum fun j _ => b q j
      _ = ∑ q : Fin m, (∑ j : Fin m, ((at2 R q j : ℚ) : ℝ)) * (x q ^ 2 / 2) +
          ∑ j : Fin m, (∑ q : Fin m, ((at2 R j q : ℚ) : ℝ)) * (x j ^ 2 / 2) := by
          simp only [Finset.sum_add_distrib, Finset.sum_mul]
          congr 1
          rw [Finset.sum_comm]
          refine Finset.sum_congr rfl fun j _ => Finset.sum_congr rfl fun q _ => ?_
          rw [hs j j.2 q q.2]
      _ ≤ ∑ q : Fin m, 1 * (x q ^ 2 / 2) + ∑ j : Fin m, 1 * (x j ^ 2 / 2) := by
          refine add_le_add ?_ ?_ <;>
            exact Finset.sum_le_sum fun q _ => mul_le_mul_of_nonneg_right (rs q) (by positivity)
      _ = 1 := by
          simp only [one_mul, ← Finset.sum_div, n1]
          norm_num
  constructor
  · intro h p
    set x : Fin m → ℝ := ⇑(hA.eigenvectorBasis p) with hx
    have x0 : ∃ q, x q ≠ 0 := by
      by_contra hn
      push Not at hn
      have := hA.eigenvectorBasis.orthonormal.1 p
      rw [EuclideanSpace.norm_eq] at this
      have hz : ∀ q, (hA.eigenvectorBasis p) q = 0 := hn
      simp [hz] at this
    obtain ⟨q, hq⟩ := x0
    have ev : ∀ k : ℕ, Matrix.mulVec ((1 - respReal R m) ^ k) x = (1 - hA.eigenvalues p) ^ k • x := by
      intro k
      induction k with
      | zero => simp
      | succ k ih =>
        rw [pow_succ, ← Matrix.mulVec_mulVec, Matrix.sub_mulVec, Matrix.one_mulVec, hA.mulVec_eigenvectorBasis, ← hx]
        have : x - hA.eigenvalues p • x = (1 - hA.eigenvalues p) • x := by rw [sub_smul, one_smul]
        rw [this, Matrix.mulVec_smul, ih, smul_smul, pow_succ, mul_comm]
    have t1 : Tendsto (fun k : ℕ => ∑ j : Fin m, ((1 - respReal R m) ^ k) q j * x j) atTop (𝓝 (∑ j : Fin m, 0 * x j)) := by
      refine tendsto_finsetSum _ fun j _ => Tendsto.mul ?_ tendsto_const_nhds
      exact (h q j).congr fun k => respReal_pow R m k q j
    have t2 : Tendsto (fun k : ℕ => (1 - hA.eigenvalues p) ^ k * x q) atTop (𝓝 0) := by
      simp only [zero_mul, Finset.sum_const_zero] at t1
      refine t1.congr fun k => ?_
      exact congrFun (ev k) q
    have t3 : Tendsto (fun k : ℕ => (1 - hA.eigenvalues p) ^ k) atTop (𝓝 0) := by
      have := t2.mul_const (x q)⁻¹
      rw [zero_mul] at this
      refine this.congr fun k => ?_
      field_simp
    have := tendsto_pow_atTop_nhds_zero_iff.1 t3
    rw [abs_lt] at this
    linarith [this.2]
  · intro h q j
    have sp := hA.spectral_theorem
    set U : Matrix (Fin m) (Fin m) ℝ := (hA.eigenvectorUnitary : Matrix (Fin m) (Fin m) ℝ) with hU
    have pw : ∀ k : ℕ, (1 - respReal R m) ^ k = U * Matrix.diagonal (fun p => (1 - hA.eigenvalues p) ^ k) * star U := by
      intro k
      have e : (1 - respReal R m) = Unitary.conjStarAlgAut ℝ _ hA.eigenvectorUnitary (Matrix.diagonal fun p => 1 - hA.eigenvalues p) := by
        have : (Matrix.diagonal fun p => 1 - hA.eigenvalues p) = 1 - Matrix.diagonal (RCLike.ofReal ∘ hA.eigenvalues) := by
          rw [← Matrix.diagonal_one, Matrix.diagonal_sub]
          rfl
        rw [this, map_sub, map_one, ← sp]
      rw [e, ← map_pow, Matrix.diagonal_pow, Unitary.conjStarAlgAut_apply]
      rfl
    have t : Tendsto (fun k : ℕ => ∑ p : Fin m, U q p * (1 - hA.eigenvalues p) ^ k * (star U) p j) atTop
        (𝓝 (∑ p : Fin m, U q p * 0 * (star U) p j)) := by
      refine tendsto_finsetSum _ fun p _ => (Tendsto.mul tendsto_const_nhds ?_).mul tendsto_const_nhds
      refine tendsto_pow_atTop_nhds_zero_iff.2 ?_
      rw [abs_lt]
      have := h p
      have := up p
      constructor <;> linarith
    simp only [mul_zero, zero_mul, Finset.sum_const_zero] at t
    refine t.congr fun k => ?_
    rw [respReal_pow, pw, Matrix.mul_apply]
    refine Finset.sum_congr rfl fun p _ => ?_
    rw [Matrix.mul_diagonal]

/-- Non-vacuity, and both cases: counts kept to one half with one quarter to each side settle; counts spread evenly over
three bins do not. -/
example : Settles [[1/2, 1/4, 0], [1/4, 1/2, 1/4], [0, 1/4, 1/2]] 3 ∧ ¬ Settles [[1/3, 1/3, 0], [1/3, 1/3, 1/3], [0, 1/3, 1/3]] 3 := by
  constructor
  · rw [C137_symmetric_iff _ _ (by decide +kernel) (by decide +kernel) (by decide +kernel)]
    intro x hx
    simp only [Finset.sum_range_succ, Finset.sum_range_zero, at2, List.getD_cons_zero, List.getD_cons_succ]
    push_cast
    have : x 0 ≠ 0 ∨ x 1 ≠ 0 ∨ x 2 ≠ 0 := by
      obtain ⟨q, hq, h⟩ := hx
      interval_cases q
      · exact Or.inl h
      · exact Or.inr (Or.inl h)
      · exact Or.inr (Or.inr h)
    have key : 0 < x 0 ^ 2 + x 2 ^ 2 + (x 0 + x 1) ^ 2 + (x 1 + x 2) ^ 2 := by
      by_contra hn
      have a : x 0 = 0 := by nlinarith [sq_nonneg (x 0), sq_nonneg (x 2), sq_nonneg (x 0 + x 1), sq_nonneg (x 1 + x 2)]
      have b : x 2 = 0 := by nlinarith [sq_nonneg (x 0), sq_nonneg (x 2), sq_nonneg (x 0 + x 1), sq_nonneg (x 1 + x 2)]
      have c : x 1 = 0 := by nlinarith [sq_nonneg (x 0), sq_nonneg (x 2), sq_nonneg (x 0 + x 1), sq_nonneg (x 1 + x 2)]
      rcases this with h | h | h
      · exact h a
      · exact h c
      · exact h b
    nlinarith
  · rw [C137_symmetric_iff _ _ (by decide +kernel) (by decide +kernel) (by decide +kernel)]
    intro h
    have := h (fun q => if q = 1 then -1 else 1) ⟨0, by norm_num, by norm_num⟩
    simp only [Finset.sum_range_succ, Finset.sum_range_zero, at2, List.getD_cons_zero, List.getD_cons_succ] at this
    norm_num at this

end Ompy
