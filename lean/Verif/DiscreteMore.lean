import Verif.DiscreteProps

/-!
# C74, continued: the smoothing is a gaussian of the given width
-/

namespace Ompy

theorem reflectIdx_inside {n : ℕ} {i : ℤ} (h0 : 0 ≤ i) (h1 : i < n) : reflectIdx n i = i.toNat := by
  unfold reflectIdx
  have : i % ((2 * n : ℕ) : ℤ) = i := Int.emod_eq_of_lt h0 (by push_cast; omega)
  simp only [this]
  rw [if_pos (by omega)]

/-- **C74.** Away from the ends a single entry 1 at `p` is smeared to a gaussian of standard deviation `sigma`,
cut at `⌊4 sigma + 1/2⌋` bins and scaled to the sum 1. -/
theorem C74_kernel (n p i : ℕ) (sigma : ℚ) (hs : 0 < sigma) (hp : p < n)
    (h0 : ⌊4 * sigma + 1 / 2⌋ ≤ (i : ℤ)) (h1 : (i : ℤ) + ⌊4 * sigma + 1 / 2⌋ < n) :
    (gaussFilter ((List.range n).map fun q => if q = p then (1 : ℝ) else 0) sigma).getD i 0 =
      if |(p : ℤ) - i| ≤ ⌊4 * sigma + 1 / 2⌋ then
        Real.exp (-(((p : ℝ) - i) ^ 2 / (2 * (sigma : ℝ) ^ 2))) /
          ∑ k ∈ Finset.Icc (-⌊4 * sigma + 1 / 2⌋) ⌊4 * sigma + 1 / 2⌋, Real.exp (-((k : ℝ) ^ 2 / (2 * (sigma : ℝ) ^ 2)))
      else 0 := by
  have ht : truncZ (4 * sigma + 1 / 2) = ⌊4 * sigma + 1 / 2⌋ := by
    unfold truncZ
    rw [if_pos (by positivity)]
  have hr : 0 ≤ ⌊4 * sigma + 1 / 2⌋ := Int.floor_nonneg.2 (by positivity)
  set r := ⌊4 * sigma + 1 / 2⌋ with hr'
  have hs' : (sigma : ℝ) ≠ 0 := by exact_mod_cast hs.ne'
  have wt : ∀ k : ℤ, gaussWeight sigma k = Real.exp (-((k : ℝ) ^ 2 / (2 * (sigma : ℝ) ^ 2))) := by
    intro k
    unfold gaussWeight
    congr 1
    field_simp
  have hi : i < n := by omega
  unfold gaussFilter
  rw [ht]
  simp only [List.length_map, List.length_range]
  rw [List.getD_eq_getElem _ _ (by simpa using hi)]
  simp only [List.getElem_map, List.getElem_range]
  have val : ∀ k ∈ Finset.Icc (-r) r,
      ((List.range n).map fun q => if q = p then (1 : ℝ) else 0).getD (reflectIdx n ((i : ℤ) + k)) 0 =
        if k = (p : ℤ) - i then 1 else 0 := by
    intro k hk
    rw [Finset.mem_Icc] at hk
    rw [reflectIdx_inside (by omega) (by omega), List.getD_eq_getElem _ _ (by simp; omega)]
    simp only [List.getElem_map, List.getElem_range]
    by_cases hkp : k = (p : ℤ) - i
    · rw [if_pos (by omega), if_pos hkp]
    · rw [if_neg (by omega), if_neg hkp]
  rw [Finset.sum_congr rfl fun k hk => by rw [val k hk]]
  split_ifs with hc
  · rw [Finset.sum_eq_single ((p : ℤ) - i)]
    · rw [if_pos rfl, mul_one, wt, Finset.sum_congr rfl fun k _ => wt k]
      push_cast
      rfl
    · intro k _ hne
      rw [if_neg hne, mul_zero]
    · intro hn
      exact absurd (Finset.mem_Icc.2 (abs_le.1 hc)) hn
  · apply Finset.sum_eq_zero
    intro k hk
    rw [if_neg, mul_zero]
    rintro rfl
    exact hc (abs_le.2 (Finset.mem_Icc.1 hk))

/-- Non-vacuity: width of half a bin, radius 2. -/
example : (2 : ℤ) = ⌊4 * (1 / 2 : ℚ) + 1 / 2⌋ ∧ ⌊4 * (1 / 2 : ℚ) + 1 / 2⌋ ≤ ((3 : ℕ) : ℤ) ∧
    ((3 : ℕ) : ℤ) + ⌊4 * (1 / 2 : ℚ) + 1 / 2⌋ < (7 : ℕ) := by
  have : ⌊4 * (1 / 2 : ℚ) + 1 / 2⌋ = 2 := by rw [Int.floor_eq_iff]; norm_num
  rw [this]
  norm_num

/-- The histogram does not depend on the resolution. -/
theorem loadDiscrete_first (rows : List (List ℚ)) (energy : List ℚ) (res res' : ℚ) :
    (loadDiscrete rows energy res).map (·.1) = (loadDiscrete rows energy res').map (·.1) := by
  unfold loadDiscrete
  simp only [bind, Except.bind, pure, Except.pure]
  cases loadLevels rows with
  | error e => simp only [Except.map]
  | ok f =>
    dsimp only
    cases f.2 with
    | none => simp only [Except.map]
    | some len =>
      dsimp only
      by_cases hm : 1 < len ∧ ¬ (f.1.map fun x : ℚ => x / 1000).sum /
          ((f.1.map fun x : ℚ => x / 1000).length : ℚ) < 20
      · simp only [if_pos hm, Except.map]
      · rw [if_neg hm, if_neg hm]
        split
        · cases npHistogram (f.1.map fun x => x / 1000) (binEdges _ _) with
          | error e => simp only [Except.map]
          | ok hist =>
            dsimp only
            split_ifs <;> simp only [Except.map]
        · simp only [Except.map]

/-- **C74.** With a resolution the smooth levels are the discrete ones, smeared with the resolution as full width
at half maximum, converted to a standard deviation in bins. -/
theorem C74_smoothed (rows : List (List ℚ)) (e0 e1 : ℚ) (es : List ℚ) (res : ℚ) (h : 0 < res) (d : List ℝ)
    (hd : levelsDiscrete rows (e0 :: e1 :: es) = .ok d) :
    levelsSmooth rows (e0 :: e1 :: es) res = .ok (gaussFilter d (res / (23548 / 10000) / (e1 - e0))) := by
  have same := loadDiscrete_first rows (e0 :: e1 :: es) res (1 / 10)
  unfold levelsDiscrete at hd
  unfold levelsSmooth
  cases h2 : loadDiscrete rows (e0 :: e1 :: es) (1 / 10) with
  | error e => rw [h2] at hd; simp [bind, Except.bind] at hd
  | ok r' =>
    rw [h2] at hd same
    simp only [bind, Except.bind, pure, Except.pure, Except.ok.injEq] at hd
    cases h1 : loadDiscrete rows (e0 :: e1 :: es) res with
    | error e => rw [h1] at same; simp [Except.map] at same
    | ok r =>
      rw [h1] at same
      simp only [Except.map, Except.ok.injEq] at same
      obtain ⟨a, b, c, _, he, _, _, _, hr⟩ := loadDiscrete_ok h1
      simp only [List.cons.injEq] at he
      obtain ⟨rfl, rfl, rfl⟩ := he
      simp only [bind, Except.bind]
      rw [hr, if_pos h, same, hd]
      rfl

end Ompy
