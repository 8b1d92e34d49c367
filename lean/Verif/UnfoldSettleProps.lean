import Verif.UnfoldNoiseProps
import Verif.UnfoldRoundingProps
import Mathlib.LinearAlgebra.Matrix.ToLinearEquiv
import Mathlib.Analysis.SpecificLimits.Basic

/-!
# Whether the iteration of the unfolding settles

C137: for which responses the unfolded spectra of more and more iterations approach a spectrum, for every raw spectrum.
-/

namespace Ompy

open Filter Topology

/-! ## What is meant -/

/-- Bin `j` of row `i` approaches `u` with more and more iterations. -/
def Approaches (r R : List (List ℚ)) (n m i j : ℕ) (u : ℝ) : Prop :=
  Tendsto (fun k : ℕ => ((at2 (unfoldIter r R n m k).1 i j : ℚ) : ℝ)) atTop (𝓝 u)

/-- Whatever the raw matrix, each bin approaches some number. -/
def Settles (R : List (List ℚ)) (m : ℕ) : Prop :=
  ∀ (r : List (List ℚ)) (n i : ℕ), i < n → ∀ j < m, ∃ u : ℝ, Approaches r R n m i j u

/-- The spectrum `t` folds to row `i` of the raw matrix. -/
def FoldsTo (R r : List (List ℚ)) (m i : ℕ) (t : ℕ → ℝ) : Prop :=
  ∀ j < m, ∑ q ∈ Finset.range m, t q * ((at2 R q j : ℚ) : ℝ) = ((at2 r i j : ℚ) : ℝ)

/-! ## Limits -/

/-- **C137.** If the iterations of a row approach a spectrum, this spectrum folds to the raw spectrum. -/
theorem C137_limit (r R : List (List ℚ)) (n m : ℕ) {i : ℕ} (hi : i < n) (u : ℕ → ℝ)
    (h : ∀ j < m, Approaches r R n m i j (u j)) : FoldsTo R r m i u := by
  intro j hj
  have h1 : Tendsto (fun k : ℕ => ((unfAt r R n m k i j : ℚ) : ℝ) +
      (((at2 r i j : ℚ) : ℝ) - ∑ q ∈ Finset.range m, ((unfAt r R n m k i q : ℚ) : ℝ) * ((at2 R q j : ℚ) : ℝ))) atTop
      (𝓝 (u j + (((at2 r i j : ℚ) : ℝ) - ∑ q ∈ Finset.range m, u q * ((at2 R q j : ℚ) : ℝ)))) := by
    refine (h j hj).add (tendsto_const_nhds.sub (tendsto_finsetSum _ fun q hq => ?_))
    exact (h q (Finset.mem_range.1 hq)).mul tendsto_const_nhds
  have h2 : Tendsto (fun k : ℕ => ((unfAt r R n m (k + 1) i j : ℚ) : ℝ)) atTop (𝓝 (u j)) :=
    (tendsto_add_atTop_iff_nat (f := fun k : ℕ => ((unfAt r R n m k i j : ℚ) : ℝ)) 1).2 (h j hj)
  have e : (fun k : ℕ => ((unfAt r R n m (k + 1) i j : ℚ) : ℝ)) = fun k : ℕ => ((unfAt r R n m k i j : ℚ) : ℝ) +
      (((at2 r i j : ℚ) : ℝ) - ∑ q ∈ Finset.range m, ((unfAt r R n m k i q : ℚ) : ℝ) * ((at2 R q j : ℚ) : ℝ)) := by
    funext k
    rw [unf_succ r R n m k hi hj, fld_eq r R n m k hi hj]
    push_cast
    rfl
  rw [e] at h2
  have := tendsto_nhds_unique h1 h2
  linarith

/-- A raw matrix with a single count, in bin `q` of row 0. -/
def unitRow (q m : ℕ) : List (List ℚ) := tabulate 1 m fun _ j => if j = q then 1 else 0

lemma unitRow_iter (R : List (List ℚ)) (m k : ℕ) (q j : Fin m) :
    at2 (unfoldIter (unitRow q m) R 1 m k).1 0 j = neumann R m k q j := by
  rw [C131_series _ _ _ _ _ Nat.one_pos, Finset.sum_eq_single q]
  · rw [unitRow, at2_tabulate _ _ _ Nat.one_pos q.2, if_pos rfl, one_mul]
  · intro p _ hp
    rw [unitRow, at2_tabulate _ _ _ Nat.one_pos p.2, if_neg (fun h => hp (Fin.ext h)), zero_mul]
  · simp

/-- If the powers of `1 - R` vanish, `R` has an inverse. -/
lemma inverse_of_vanish (R : List (List ℚ)) (m : ℕ)
    (h : ∀ q j : Fin m, Tendsto (fun k : ℕ => ((((1 - respMatrix R m) ^ k) q j : ℚ) : ℝ)) atTop (𝓝 0)) :
    ∃ S : Matrix (Fin m) (Fin m) ℚ, respMatrix R m * S = 1 ∧ S * respMatrix R m = 1 := by
  have hdet : (respMatrix R m).det ≠ 0 := by
    intro h0
    obtain ⟨v, v0, hv⟩ := Matrix.exists_vecMul_eq_zero_iff.2 h0
    apply v0
    have hk : ∀ k : ℕ, Matrix.vecMul v ((1 - respMatrix R m) ^ k) = v := by
      intro k
      induction k with
      | zero => simp
      | succ k ih => rw [pow_succ, ← Matrix.vecMul_vecMul, ih, Matrix.vecMul_sub, hv, Matrix.vecMul_one, sub_zero]
    funext j
    have h1 : Tendsto (fun k : ℕ => ∑ q : Fin m, ((v q : ℚ) : ℝ) * ((((1 - respMatrix R m) ^ k) q j : ℚ) : ℝ)) atTop
        (𝓝 (∑ q : Fin m, ((v q : ℚ) : ℝ) * 0)) :=
      tendsto_finsetSum _ fun q _ => tendsto_const_nhds.mul (h q j)
    have e : (fun k : ℕ => ∑ q : Fin m, ((v q : ℚ) : ℝ) * ((((1 - respMatrix R m) ^ k) q j : ℚ) : ℝ)) =
        fun _ => ((v j : ℚ) : ℝ) := by
      funext k
      have := congrFun (hk k) j
      rw [← this]
      simp only [Matrix.vecMul, dotProduct]
      push_cast
      rfl
    rw [e] at h1
    have := tendsto_nhds_unique h1 tendsto_const_nhds
    simp at this
    simpa using this.symm
  refine ⟨(respMatrix R m)⁻¹, Matrix.mul_nonsing_inv _ (isUnit_iff_ne_zero.2 hdet), Matrix.nonsing_inv_mul _ (isUnit_iff_ne_zero.2 hdet)⟩

lemma neumann_tends (R : List (List ℚ)) (m : ℕ)
    (h : ∀ q j : Fin m, Tendsto (fun k : ℕ => ((((1 - respMatrix R m) ^ k) q j : ℚ) : ℝ)) atTop (𝓝 0))
    (S : Matrix (Fin m) (Fin m) ℚ) (hS : respMatrix R m * S = 1) (q j : Fin m) :
    Tendsto (fun k : ℕ => ((neumann R m k q j : ℚ) : ℝ)) atTop (𝓝 ((S q j : ℚ) : ℝ)) := by
  have h1 : Tendsto (fun k : ℕ => ((S q j : ℚ) : ℝ) - ∑ p : Fin m, ((((1 - respMatrix R m) ^ (k + 1)) q p : ℚ) : ℝ) * ((S p j : ℚ) : ℝ))
      atTop (𝓝 (((S q j : ℚ) : ℝ) - ∑ p : Fin m, 0 * ((S p j : ℚ) : ℝ))) := by
    refine tendsto_const_nhds.sub (tendsto_finsetSum _ fun p _ => ?_)
    exact ((tendsto_add_atTop_iff_nat (f := fun k : ℕ => ((((1 - respMatrix R m) ^ k) q p : ℚ) : ℝ)) 1).2 (h q p)).mul
      tendsto_const_nhds
  simp only [zero_mul, Finset.sum_const_zero, sub_zero] at h1
  refine h1.congr fun k => ?_
  rw [C131_inverse R m k S hS, Matrix.sub_apply, Matrix.mul_apply]
  push_cast
  rfl

/-- **C137.** The iteration settles for all raw matrices exactly if the powers of `1 - R` vanish. -/
theorem C137_settles_iff (R : List (List ℚ)) (m : ℕ) : Settles R m ↔
    ∀ q j : Fin m, Tendsto (fun k : ℕ => ((((1 - respMatrix R m) ^ k) q j : ℚ) : ℝ)) atTop (𝓝 0) := by
  constructor
  · intro h q j
    obtain ⟨u, hu⟩ := h (unitRow q m) 1 0 Nat.one_pos j j.2
    unfold Approaches at hu
    have e : (fun k : ℕ => ((at2 (unfoldIter (unitRow q m) R 1 m k).1 0 j : ℚ) : ℝ)) = fun k : ℕ => ((neumann R m k q j : ℚ) : ℝ) := by
      funext k
      rw [unitRow_iter]
    rw [e] at hu
    have h2 := (tendsto_add_atTop_iff_nat (f := fun k : ℕ => ((neumann R m k q j : ℚ) : ℝ)) 1).2 hu
    have h3 := h2.sub hu
    rw [sub_self] at h3
    refine (tendsto_add_atTop_iff_nat (f := fun k : ℕ => ((((1 - respMatrix R m) ^ k) q j : ℚ) : ℝ)) 1).1 (h3.congr fun k => ?_)
    have : neumann R m (k + 1) q j = neumann R m k q j + ((1 - respMatrix R m) ^ (k + 1)) q j := by
      unfold neumann
      rw [Finset.sum_range_succ, Matrix.add_apply]
    rw [this]
    push_cast
    ring
  · intro h r n i hi j hj
    obtain ⟨S, hS, _⟩ := inverse_of_vanish R m h
    refine ⟨∑ q : Fin m, ((at2 r i q : ℚ) : ℝ) * ((S q ⟨j, hj⟩ : ℚ) : ℝ), ?_⟩
    unfold Approaches
    have : Tendsto (fun k : ℕ => ∑ q : Fin m, ((at2 r i q : ℚ) : ℝ) * ((neumann R m k q ⟨j, hj⟩ : ℚ) : ℝ)) atTop
        (𝓝 (∑ q : Fin m, ((at2 r i q : ℚ) : ℝ) * ((S q ⟨j, hj⟩ : ℚ) : ℝ))) :=
      tendsto_finsetSum _ fun q _ => tendsto_const_nhds.mul (neumann_tends R m h S hS q ⟨j, hj⟩)
    refine this.congr fun k => ?_
    have := C131_series r R n m k hi ⟨j, hj⟩
    simp only at this
    rw [this]
    push_cast
    rfl

/-- **C137.** If it settles, there is exactly one spectrum that folds to the raw spectrum, and the iterations approach it. -/
theorem C137_solution (R : List (List ℚ)) (m : ℕ) (h : Settles R m) (r : List (List ℚ)) (n : ℕ) {i : ℕ} (hi : i < n) :
    ∃ t : ℕ → ℝ, FoldsTo R r m i t ∧ (∀ j < m, Approaches r R n m i j (t j)) ∧
      ∀ t', FoldsTo R r m i t' → ∀ j < m, t' j = t j := by
  have hex : ∀ j, ∃ u : ℝ, j < m → Approaches r R n m i j u := by
    intro j
    by_cases hj : j < m
    · obtain ⟨u, hu⟩ := h r n i hi j hj
      exact ⟨u, fun _ => hu⟩
    · exact ⟨0, fun h => absurd h hj⟩
  choose t ht using hex
  have hf := C137_limit r R n m hi t ht
  refine ⟨t, hf, ht, fun t' ht' j hj => ?_⟩
  obtain ⟨S, hS, _⟩ := inverse_of_vanish R m ((C137_settles_iff R m).1 h)
  have key : ∀ s : ℕ → ℝ, FoldsTo R r m i s → s j = ∑ p : Fin m, ((at2 r i p : ℚ) : ℝ) * ((S p ⟨j, hj⟩ : ℚ) : ℝ) := by
    intro s hs
    have h1 : ∀ p : Fin m, ((at2 r i p : ℚ) : ℝ) = ∑ q : Fin m, s q * ((respMatrix R m q p : ℚ) : ℝ) := by
      intro p
      rw [← hs p p.2, Finset.sum_range]
      rfl
    simp only [h1, Finset.sum_mul]
    rw [Finset.sum_comm]
    have h2 : ∀ q : Fin m, ∑ p : Fin m, s q * ((respMatrix R m q p : ℚ) : ℝ) * ((S p ⟨j, hj⟩ : ℚ) : ℝ) =
        s q * (((1 : Matrix (Fin m) (Fin m) ℚ) q ⟨j, hj⟩ : ℚ) : ℝ) := by
      intro q
      rw [← hS, Matrix.mul_apply]
      push_cast
      rw [Finset.mul_sum]
      exact Finset.sum_congr rfl fun p _ => by ring
    simp only [h2, Matrix.one_apply]
    rw [Finset.sum_eq_single (⟨j, hj⟩ : Fin m)]
    · simp
    · intro q _ hq
      simp [hq]
    · simp
  rw [key t' ht', key t hf]

/-! ## Responses that see at most the full energy -/

/-- **C137.** A response without counts above the full energy settles exactly if all its full-energy probabilities are
between 0 and 2. -/
theorem C137_below_iff (R : List (List ℚ)) (m : ℕ) (htri : ∀ q < m, ∀ j < m, q < j → at2 R q j = 0) :
    Settles R m ↔ ∀ j < m, 0 < at2 R j j ∧ at2 R j j < 2 := by
  rw [C137_settles_iff]
  have T : ∀ q j : Fin m, q < j → (1 - respMatrix R m) q j = 0 := by
    intro q j hq
    rw [Matrix.sub_apply, Matrix.one_apply_ne hq.ne]
    have : respMatrix R m q j = at2 R q j := rfl
    rw [this, htri q q.2 j j.2 hq, sub_zero]
  have dg : ∀ j : Fin m, (1 - respMatrix R m) j j = 1 - at2 R j j := by
    intro j
    rw [Matrix.sub_apply, Matrix.one_apply_eq]
    rfl
  constructor
  · intro h j hj
    have h1 := h ⟨j, hj⟩ ⟨j, hj⟩
    have e : ∀ k : ℕ, ((((1 - respMatrix R m) ^ k) ⟨j, hj⟩ ⟨j, hj⟩ : ℚ) : ℝ) = (((1 - at2 R j j : ℚ)) : ℝ) ^ k := by
      intro k
      rw [(tri_pow _ T k).2 ⟨j, hj⟩, dg]
      push_cast
      rfl
    simp only [e] at h1
    have h2 := tendsto_pow_atTop_nhds_zero_iff.1 h1
    rw [abs_lt] at h2
    have a : ((-1 : ℚ) : ℝ) < ((1 - at2 R j j : ℚ) : ℝ) := by exact_mod_cast h2.1
    have b : ((1 - at2 R j j : ℚ) : ℝ) < ((1 : ℚ) : ℝ) := by exact_mod_cast h2.2
    rw [Rat.cast_lt] at a b
    constructor <;> linarith
  · intro h q j
    -- the powers of `1 - R` solve the error recursion; use convergence to the zero spectrum for raw spectrum `q` folded
    set t : ℕ → ℚ := fun p => if p = q then 1 else 0 with ht
    have f : ∀ p < m, ∑ s ∈ Finset.range m, t s * at2 R s p = at2 (tabulate 1 m fun _ p => at2 R q p) 0 p := by
      intro p hp
      rw [at2_tabulate _ _ _ Nat.one_pos hp, Finset.sum_eq_single (q : ℕ)]
      · simp [ht]
      · intro s _ hs
        simp [ht, hs]
      · intro hq
        exact absurd (Finset.mem_range.2 q.2) hq
    have C := C29_converges (tabulate 1 m fun _ p => at2 R q p) R 1 m t Nat.one_pos f htri h j j.2
    have e : ∀ k : ℕ, unfAt (tabulate 1 m fun _ p => at2 R q p) R 1 m k 0 j - t j = -((1 - respMatrix R m) ^ (k + 1)) q j := by
      intro k
      unfold unfAt
      rw [C131_series _ _ _ _ _ Nat.one_pos]
      have h1 : ∑ p : Fin m, at2 (tabulate 1 m fun _ p => at2 R q p) 0 p * neumann R m k p j =
          (respMatrix R m * neumann R m k) q j := by
        rw [Matrix.mul_apply]
        refine Finset.sum_congr rfl fun p _ => ?_
        rw [at2_tabulate _ _ _ Nat.one_pos p.2]
        rfl
      rw [h1]
      have g := mul_neg_geom_sum (1 - respMatrix R m) (k + 1)
      rw [sub_sub_cancel] at g
      unfold neumann
      rw [g, Matrix.sub_apply, Matrix.one_apply, ht]
      simp only [Fin.ext_iff, eq_comm]
      ring
    rw [← tendsto_add_atTop_iff_nat 1, Metric.tendsto_atTop]
    intro ε hε
    obtain ⟨δ, d0, dε⟩ := exists_rat_btwn hε
    obtain ⟨K, hK⟩ := C δ (by exact_mod_cast d0)
    refine ⟨K, fun k hk => ?_⟩
    have := hK k hk
    rw [e, abs_neg] at this
    rw [Real.dist_eq, sub_zero]
    refine lt_trans ?_ dε
    exact_mod_cast this

/-- **C137.** For a detector in the sense of probabilities: it settles exactly if no full-energy probability is zero. -/
theorem C137_detector_iff (R : List (List ℚ)) (m : ℕ) (htri : ∀ q < m, ∀ j < m, q < j → at2 R q j = 0)
    (h0 : ∀ q < m, ∀ j < m, 0 ≤ at2 R q j) (h1 : ∀ q < m, ∑ j ∈ Finset.range m, at2 R q j ≤ 1) :
    Settles R m ↔ ∀ j < m, at2 R j j ≠ 0 := by
  rw [C137_below_iff R m htri]
  refine forall₂_congr fun j hj => ?_
  have a := h0 j hj j hj
  have b : at2 R j j ≤ 1 := (Finset.single_le_sum (f := fun p => at2 R j p) (fun p hp => h0 j hj p (Finset.mem_range.1 hp))
    (Finset.mem_range.2 hj)).trans (h1 j hj)
  constructor
  · exact fun h => h.1.ne'
  · exact fun h => ⟨lt_of_le_of_ne a (Ne.symm h), by linarith⟩

/-! ## Responses with a resolution -/

/-- **C137.** A response that puts at least `p > 1/2` of each row into its own bin: the distance to the spectrum that
folds to the raw spectrum, added up over the bins, shrinks at least by `2 (1 - p)` per iteration. -/
theorem C137_resolution (r R : List (List ℚ)) (n m : ℕ) (p : ℚ) (hp : p ≤ 1)
    (h0 : ∀ q < m, ∀ j < m, 0 ≤ at2 R q j) (h1 : ∀ q < m, ∑ j ∈ Finset.range m, at2 R q j ≤ 1)
    (hq : ∀ q < m, p ≤ at2 R q q) (t : ℕ → ℚ) {i : ℕ} (hi : i < n)
    (ht : ∀ j < m, ∑ q ∈ Finset.range m, t q * at2 R q j = at2 r i j) (k : ℕ) :
    ∑ j ∈ Finset.range m, |at2 (unfoldIter r R n m k).1 i j - t j| ≤
      (2 * (1 - p)) ^ k * ∑ j ∈ Finset.range m, |at2 r i j - t j| := by
  have c0 : 0 ≤ 2 * (1 - p) := by linarith
  have row : ∀ q < m, ∑ j ∈ Finset.range m, |(if q = j then 1 else 0) - at2 R q j| ≤ 2 * (1 - p) := by
    intro q hm
    have t1 := h1 q hm
    rw [← Finset.add_sum_erase _ _ (Finset.mem_range.2 hm)] at t1 ⊢
    have e : ∑ j ∈ (Finset.range m).erase q, |(if q = j then (1 : ℚ) else 0) - at2 R q j| =
        ∑ j ∈ (Finset.range m).erase q, at2 R q j := by
      refine Finset.sum_congr rfl fun j hj => ?_
      rw [Finset.mem_erase, Finset.mem_range] at hj
      rw [if_neg (fun h => hj.1 h.symm), zero_sub, abs_neg, abs_of_nonneg (h0 q hm j hj.2)]
    have s0 : 0 ≤ ∑ j ∈ (Finset.range m).erase q, at2 R q j := Finset.sum_nonneg fun j hj => by
      rw [Finset.mem_erase, Finset.mem_range] at hj
      exact h0 q hm j hj.2
    rw [e, if_pos rfl, abs_of_nonneg (by linarith)]
    have := hq q hm
    linarith
  induction k with
  | zero =>
    have : ∀ j, at2 (unfoldIter r R n m 0).1 i j = at2 r i j := fun j => unf_zero r R n m i j
    simp [this]
  | succ k ih =>
    have st : ∀ j ∈ Finset.range m, |at2 (unfoldIter r R n m (k + 1)).1 i j - t j| ≤
        ∑ q ∈ Finset.range m, |unfAt r R n m k i q - t q| * |(if q = j then 1 else 0) - at2 R q j| := by
      intro j hj
      have hj' := Finset.mem_range.1 hj
      have e1 := C29_error_recursion r R n m t hi ht k hj'
      have e2 : unfAt r R n m (k + 1) i j - t j =
          ∑ q ∈ Finset.range m, (unfAt r R n m k i q - t q) * ((if q = j then 1 else 0) - at2 R q j) := by
        rw [e1]
        simp only [mul_sub, Finset.sum_sub_distrib, mul_ite, mul_one, mul_zero]
        rw [Finset.sum_ite_eq' (Finset.range m) j, if_pos hj]
      change |unfAt r R n m (k + 1) i j - t j| ≤ _
      rw [e2]
      refine (Finset.abs_sum_le_sum_abs _ _).trans (le_of_eq ?_)
      exact Finset.sum_congr rfl fun q _ => abs_mul _ _
    refine (Finset.sum_le_sum st).trans ?_
    rw [Finset.sum_comm]
    have : ∀ q ∈ Finset.range m, ∑ j ∈ Finset.range m, |unfAt r R n m k i q - t q| * |(if q = j then 1 else 0) - at2 R q j| ≤
        |unfAt r R n m k i q - t q| * (2 * (1 - p)) := by
      intro q hm
      rw [← Finset.mul_sum]
      exact mul_le_mul_of_nonneg_left (row q (Finset.mem_range.1 hm)) (abs_nonneg _)
    refine (Finset.sum_le_sum this).trans ?_
    rw [← Finset.sum_mul, pow_succ]
    have := mul_le_mul_of_nonneg_right ih c0
    unfold unfAt
    linarith

/-- **C137.** One shape of spectrum at a time: if folding multiplies the content `∑ v j` weighted with `v` by `a`, the
iterations multiply it by the sum of the powers of `1 - a`. -/
theorem C137_mode (r R : List (List ℚ)) (n m : ℕ) (v : ℕ → ℚ) (a : ℚ)
    (hv : ∀ q < m, ∑ j ∈ Finset.range m, at2 R q j * v j = a * v q) {i : ℕ} (hi : i < n) (k : ℕ) :
    ∑ j ∈ Finset.range m, at2 (unfoldIter r R n m k).1 i j * v j =
      (∑ l ∈ Finset.range (k + 1), (1 - a) ^ l) * ∑ j ∈ Finset.range m, at2 r i j * v j := by
  induction k with
  | zero =>
    have : ∀ j, at2 (unfoldIter r R n m 0).1 i j = at2 r i j := fun j => unf_zero r R n m i j
    simp [this]
  | succ k ih =>
    have f : ∑ j ∈ Finset.range m, fldAt r R n m k i j * v j = a * ∑ j ∈ Finset.range m, unfAt r R n m k i j * v j := by
      have : ∀ j ∈ Finset.range m, fldAt r R n m k i j * v j =
          ∑ q ∈ Finset.range m, unfAt r R n m k i q * (at2 R q j * v j) := by
        intro j hj
        rw [fld_eq r R n m k hi (Finset.mem_range.1 hj), Finset.sum_mul]
        exact Finset.sum_congr rfl fun q _ => by ring
      rw [Finset.sum_congr rfl this, Finset.sum_comm, Finset.mul_sum]
      refine Finset.sum_congr rfl fun q hq => ?_
      rw [← Finset.mul_sum, hv q (Finset.mem_range.1 hq)]
      ring
    have s : ∑ j ∈ Finset.range m, at2 (unfoldIter r R n m (k + 1)).1 i j * v j =
        ∑ j ∈ Finset.range m, unfAt r R n m k i j * v j +
          (∑ j ∈ Finset.range m, at2 r i j * v j - ∑ j ∈ Finset.range m, fldAt r R n m k i j * v j) := by
      rw [← Finset.sum_sub_distrib, ← Finset.sum_add_distrib]
      refine Finset.sum_congr rfl fun j hj => ?_
      change unfAt r R n m (k + 1) i j * v j = _
      rw [unf_succ r R n m k hi (Finset.mem_range.1 hj)]
      ring
    rw [s, f]
    change (∑ j ∈ Finset.range m, unfAt r R n m k i j * v j) = _ at ih
    rw [ih, Finset.sum_range_succ' (fun l => (1 - a) ^ l) (k + 1)]
    simp only [pow_succ, ← Finset.sum_mul]
    ring

/-- **C137.** A bin that no photon reaches: its unfolded counts grow with each iteration by the raw counts. -/
theorem C137_dead (r R : List (List ℚ)) (n m : ℕ) {i j : ℕ} (hi : i < n) (hj : j < m)
    (h : ∀ q < m, at2 R q j = 0) (k : ℕ) :
    at2 (unfoldIter r R n m k).1 i j = (k + 1) * at2 r i j := by
  have := C137_mode r R n m (fun p => if p = j then 1 else 0) 0 (fun q hq => by simp [hj, h q hq]) hi k
  simpa [hj] using this

/-- The response of two bins that keeps `p` of the counts in their bin and puts the others into the other bin. -/
def swapping (p : ℚ) : List (List ℚ) := [[p, 1 - p], [1 - p, p]]

/-- **C137, fails in general.** A response may have probabilities in its rows, of sum one, positive full-energy
probabilities, and exactly one spectrum for each raw spectrum, and the iterations still do not settle: with less than
one half of the counts in their own bin the difference of the two bins grows like `(2 - 2p)^(k+1)`. -/
theorem C137_settles_fails (p : ℚ) (hp : 0 < p) (hp2 : p < 1 / 2) :
    (∀ q < 2, ∀ j < 2, 0 < at2 (swapping p) q j) ∧
    (∀ q < 2, ∑ j ∈ Finset.range 2, at2 (swapping p) q j = 1) ∧
    (∀ r i, ∃! t : ℚ × ℚ, t.1 * at2 (swapping p) 0 0 + t.2 * at2 (swapping p) 1 0 = at2 r i 0 ∧
      t.1 * at2 (swapping p) 0 1 + t.2 * at2 (swapping p) 1 1 = at2 r i 1) ∧
    (∀ r n i k, i < n → at2 (unfoldIter r (swapping p) n 2 k).1 i 0 - at2 (unfoldIter r (swapping p) n 2 k).1 i 1 =
      ((2 - 2 * p) ^ (k + 1) - 1) / (1 - 2 * p) * (at2 r i 0 - at2 r i 1)) ∧
    ¬ Settles (swapping p) 2 := by
  have e00 : at2 (swapping p) 0 0 = p := rfl
  have e01 : at2 (swapping p) 0 1 = 1 - p := rfl
  have e10 : at2 (swapping p) 1 0 = 1 - p := rfl
  have e11 : at2 (swapping p) 1 1 = p := rfl
  have nz : 1 - 2 * p ≠ 0 := by linarith
  have diff : ∀ r n i k, i < n → at2 (unfoldIter r (swapping p) n 2 k).1 i 0 - at2 (unfoldIter r (swapping p) n 2 k).1 i 1 =
      ((2 - 2 * p) ^ (k + 1) - 1) / (1 - 2 * p) * (at2 r i 0 - at2 r i 1) := by
    intro r n i k hi
    have := C137_mode r (swapping p) n 2 (fun j => if j = 0 then 1 else -1) (2 * p - 1)
      (fun q hq => by
        interval_cases q
        · simp [Finset.sum_range_succ, e00, e01]; ring
        · simp [Finset.sum_range_succ, e10, e11]; ring) hi k
    rw [geom_sum_eq (by intro h; apply nz; linarith)] at this
    simp only [Finset.sum_range_succ, Finset.sum_range_zero, if_pos, one_ne_zero, if_false] at this
    have e : (1 - (2 * p - 1)) = 2 - 2 * p := by ring
    have e' : (2 - 2 * p - 1) = 1 - 2 * p := by ring
    rw [e, e'] at this
    linarith
  refine ⟨?_, ?_, ?_, diff, ?_⟩
  · intro q hq j hj
    interval_cases q <;> interval_cases j <;> simp only [e00, e01, e10, e11] <;> linarith
  · intro q hq
    interval_cases q <;> simp [Finset.sum_range_succ, e00, e01, e10, e11]
  · intro r i
    rw [e00, e01, e10, e11]
    refine ⟨((p * at2 r i 0 - (1 - p) * at2 r i 1) / (2 * p - 1), (p * at2 r i 1 - (1 - p) * at2 r i 0) / (2 * p - 1)), ?_, ?_⟩
    · have : (2 * p - 1) ≠ 0 := by linarith
      constructor <;> (simp only; rw [div_mul_eq_mul_div, div_mul_eq_mul_div, ← add_div, div_eq_iff this]; ring)
    · rintro ⟨a, b⟩ ⟨h1, h2⟩
      have : (2 * p - 1) ≠ 0 := by linarith
      simp only at h1 h2
      rw [← h1, ← h2]
      ext <;> (simp only; rw [eq_div_iff this]; ring)
  · intro h
    obtain ⟨u, hu⟩ := h [[1, 0]] 1 0 Nat.one_pos 0 (by norm_num)
    obtain ⟨w, hw⟩ := h [[1, 0]] 1 0 Nat.one_pos 1 (by norm_num)
    have hd := hu.sub hw
    have e : (fun k : ℕ => ((at2 (unfoldIter [[1, 0]] (swapping p) 1 2 k).1 0 0 : ℚ) : ℝ) -
        ((at2 (unfoldIter [[1, 0]] (swapping p) 1 2 k).1 0 1 : ℚ) : ℝ)) =
        fun k : ℕ => ((2 - 2 * (p : ℝ)) ^ (k + 1) - 1) / (1 - 2 * (p : ℝ)) := by
      funext k
      have := diff [[1, 0]] 1 0 k Nat.one_pos
      have e1 : at2 ([[1, 0]] : List (List ℚ)) 0 0 - at2 ([[1, 0]] : List (List ℚ)) 0 1 = 1 := by decide +kernel
      rw [e1, mul_one] at this
      rw [← Rat.cast_sub, this]
      push_cast
      rfl
    rw [e] at hd
    have pr : ((p : ℚ) : ℝ) < 1 / 2 := by
      have : ((p : ℚ) : ℝ) < ((1 / 2 : ℚ) : ℝ) := by exact_mod_cast hp2
      simpa using this
    have up : Tendsto (fun k : ℕ => ((2 - 2 * (p : ℝ)) ^ (k + 1) - 1) / (1 - 2 * (p : ℝ))) atTop atTop := by
      refine Tendsto.atTop_div_const (by linarith) ?_
      refine tendsto_atTop_add_const_right _ (-1) ?_
      exact (tendsto_pow_atTop_atTop_of_one_lt (by linarith)).comp (tendsto_add_atTop_nat 1)
    exact not_tendsto_nhds_of_tendsto_atTop up _ hd

/-- Non-vacuity: a detector with a Compton part, a response with a resolution, a dead bin and a swapping response. -/
example :
    Settles [[1, 0], [1/4, 3/4]] 2 ∧ ¬ Settles [[1, 0], [1, 0]] 2 ∧
    at2 (unfoldIter [[1, 3]] [[1, 0], [1, 0]] 1 2 4).1 0 1 = 15 ∧
    (∀ q < 3, (2 / 3 : ℚ) ≤ at2 [[2/3, 1/3, 0], [1/6, 2/3, 1/6], [0, 1/3, 2/3]] q q) ∧
    (unfoldIter [[6, 4]] (swapping (1/4)) 1 2 3).1 = [[105/8, -25/8]] := by
  refine ⟨?_, ?_, by decide +kernel, by decide +kernel, by decide +kernel⟩
  · rw [C137_detector_iff _ _ (by decide +kernel) (by decide +kernel) (by decide +kernel)]
    decide +kernel
  · rw [C137_detector_iff _ _ (by decide +kernel) (by decide +kernel) (by decide +kernel)]
    decide +kernel

end Ompy
