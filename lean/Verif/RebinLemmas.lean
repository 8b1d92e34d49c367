import Verif.Rebin
import Mathlib.MeasureTheory.Measure.Lebesgue.Basic

/-!
# Helper lemmas about the rebinning model
-/

namespace Ompy

theorem mapM_ok {α β ε : Type} (f : α → Except ε β) (g : α → β) (l : List α)
    (h : ∀ x ∈ l, f x = .ok (g x)) : l.mapM f = .ok (l.map g) := by
  induction l with
  | nil => rfl
  | cons x xs ih =>
    rw [List.mapM_cons, h x (by simp), ih (fun y hy => h y (by simp [hy]))]
    rfl

theorem overlap_nonneg (a b c d : ℚ) : 0 ≤ overlap a b c d := le_max_left _ _

theorem overlap_eq_zero_of_le_left {a b c d : ℚ} (h : b ≤ c) : overlap a b c d = 0 := by
  unfold overlap
  apply max_eq_left
  have h1 := min_le_right d b
  have h2 := le_max_left c a
  linarith

theorem overlap_eq_zero_of_le_right {a b c d : ℚ} (h : d ≤ a) : overlap a b c d = 0 := by
  unfold overlap
  apply max_eq_left
  have h1 := min_le_left d b
  have h2 := le_max_right c a
  linarith

theorem overlap_self_cover {a b c d : ℚ} (hab : a ≤ b) (h1 : c ≤ a) (h2 : b ≤ d) :
    overlap a b c d = b - a := by
  unfold overlap
  rw [min_eq_right h2, max_eq_right h1, max_eq_right (by linarith)]

/-- Adjacent output intervals: the overlaps add up. -/
theorem overlap_add {a b c d e : ℚ} (hab : a ≤ b) (hcd : c ≤ d) (hde : d ≤ e) :
    overlap a b c d + overlap a b d e = overlap a b c e := by
  unfold overlap
  rcases le_total a c with h1 | h1 <;> rcases le_total a d with h2 | h2 <;>
  rcases le_total b d with h3 | h3 <;> rcases le_total b e with h4 | h4 <;>
  simp only [max_eq_left h1, max_eq_right h1, max_eq_left h2, max_eq_right h2,
    min_eq_left h3, min_eq_right h3, min_eq_left h4, min_eq_right h4] <;>
  (simp only [max_def]; split_ifs <;> linarith)

theorem rebinTerm_low (c : ℕ → ℚ) {a0 a1 b0 b1 : ℚ} (ha : 0 < a1) (hb : 0 < b1) (i j : ℕ)
    (h : (j : ℤ) < jminOf a0 a1 b0 b1 i) : rebinTerm c a0 a1 b0 b1 i j = 0 := by
  unfold jminOf at h
  have hpos : (j : ℤ) < truncZ ((b0 + b1 * ((i : ℚ) - 1) - a0) / a1) := by
    rcases lt_max_iff.1 h with h | h
    · omega
    · exact h
  have h0 : 0 < truncZ ((b0 + b1 * ((i : ℚ) - 1) - a0) / a1) := by omega
  have h1 := truncZ_pos_le h0
  have h2 : ((j : ℤ) : ℚ) + 1 ≤ (truncZ ((b0 + b1 * ((i : ℚ) - 1) - a0) / a1) : ℚ) := by
    exact_mod_cast hpos
  have h3 : ((j : ℚ) + 1) ≤ (b0 + b1 * ((i : ℚ) - 1) - a0) / a1 := by
    push_cast at h2; linarith
  rw [le_div_iff₀ ha] at h3
  unfold rebinTerm
  simp only
  rw [overlap_eq_zero_of_le_left]
  · simp
  · nlinarith

theorem rebinTerm_high (c : ℕ → ℚ) {a0 a1 b0 b1 : ℚ} (ha : 0 < a1) (n i j : ℕ) (hj : j < n)
    (h : jmaxOf n a0 a1 b0 b1 i < (j : ℤ)) : rebinTerm c a0 a1 b0 b1 i j = 0 := by
  unfold jmaxOf at h
  have hlt : truncZ ((b0 + b1 * ((i : ℚ) + 1) - a0) / a1) < (j : ℤ) := by
    rcases min_lt_iff.1 h with h | h
    · omega
    · exact h
  have h1 := lt_truncZ_add_one ((b0 + b1 * ((i : ℚ) + 1) - a0) / a1)
  have h2 : (truncZ ((b0 + b1 * ((i : ℚ) + 1) - a0) / a1) : ℚ) + 1 ≤ (j : ℚ) := by
    exact_mod_cast hlt
  have h3 : (b0 + b1 * ((i : ℚ) + 1) - a0) / a1 < (j : ℚ) := by linarith
  rw [div_lt_iff₀ ha] at h3
  unfold rebinTerm
  simp only
  rw [overlap_eq_zero_of_le_right]
  · simp
  · nlinarith

theorem rebinBin_eq (c : ℕ → ℚ) (n : ℕ) {a0 a1 b0 b1 : ℚ} (ha : 0 < a1) (hb : 0 < b1) (i : ℕ) :
    rebinBin c n a0 a1 b0 b1 i = ∑ j ∈ Finset.range n, rebinTerm c a0 a1 b0 b1 i j := by
  unfold rebinBin
  simp only [list_map_range_sum]
  apply windowSum
  · exact le_max_left _ _
  · exact min_le_left _ _
  · intro j _ h
    exact rebinTerm_low c ha hb i j h
  · intro j hj h
    exact rebinTerm_high c ha n i j hj h

/-- Share of the input bin `j` of the axis `(a, w)` that lies in the output bin `i` of the axis
`(b, v)`; both axes given by their first mid-point and bin width. -/
def share (a w b v : ℚ) (i j : ℕ) : ℚ :=
  overlap (a + w * j - w / 2) (a + w * j + w / 2) (b + v * i - v / 2) (b + v * i + v / 2) / w

theorem rebinTerm_share (c : ℕ → ℚ) (a w b v : ℚ) (i j : ℕ) :
    rebinTerm c (a - w / 2) w (b - v / 2) v i j = c j * share a w b v i j := by
  unfold rebinTerm share
  simp only
  rw [mul_div_assoc]
  congr 3 <;> ring

theorem grid_cons_cons (a w : ℚ) (n : ℕ) :
    grid a w (n + 2) = a :: (a + w) ::
      (List.range n).map (fun k : ℕ => a + w * ((k + 2 : ℕ) : ℚ)) := by
  unfold grid
  rw [List.range_succ_eq_map, List.range_succ_eq_map]
  simp [List.map_map, Function.comp_def]
  intro k _
  left
  ring

/-- Closed form of `rebin_1D` on equidistant axes. -/
theorem rebin1D_grid (counts : List ℚ) (a w b v : ℚ) (n m : ℕ) (hn : 2 ≤ n) (hm : 2 ≤ m)
    (hw : 0 < w) (hv : 0 < v) (hc : n ≤ counts.length) :
    rebin1D counts (grid a w n) (grid b v m) =
      .ok ((List.range m).map fun i : ℕ =>
        ∑ j ∈ Finset.range n, counts.getD j 0 * share a w b v i j) := by
  obtain ⟨n, rfl⟩ : ∃ k, n = k + 2 := ⟨n - 2, by omega⟩
  obtain ⟨m, rfl⟩ : ∃ k, m = k + 2 := ⟨m - 2, by omega⟩
  rw [grid_cons_cons, grid_cons_cons]
  unfold rebin1D
  have e1 : a + w - a = w := by ring
  have e2 : b + v - b = v := by ring
  simp only [e1, e2]
  rw [if_neg hw.ne', if_neg (by simp; omega)]
  congr 1
  simp only [List.length_cons, List.length_map, List.length_range]
  apply List.map_congr_left
  intro i _
  rw [rebinBin_eq _ _ hw hv]
  apply Finset.sum_congr rfl
  intro j _
  rw [rebinTerm_share]

theorem share_nonneg (a w b v : ℚ) (hw : 0 < w) (i j : ℕ) : 0 ≤ share a w b v i j :=
  div_nonneg (overlap_nonneg _ _ _ _) hw.le

/-- Adding the overlaps with the first `m` output bins gives the overlap with their union. -/
theorem overlap_sum (x y b v : ℚ) (hxy : x ≤ y) (hv : 0 < v) (m : ℕ) :
    ∑ i ∈ Finset.range m, overlap x y (b + v * i - v / 2) (b + v * i + v / 2)
      = overlap x y (b - v / 2) (b + v * m - v / 2) := by
  induction m with
  | zero =>
    simp only [Finset.range_zero, Finset.sum_empty, Nat.cast_zero, mul_zero, add_zero]
    symm
    unfold overlap
    apply max_eq_left
    have h1 := min_le_left (b - v / 2) y
    have h2 := le_max_left (b - v / 2) x
    linarith
  | succ m ih =>
    rw [Finset.sum_range_succ, ih]
    have : b + v * ((m + 1 : ℕ) : ℚ) - v / 2 = b + v * m + v / 2 := by push_cast; ring
    rw [this]
    apply overlap_add hxy
    · have : (0 : ℚ) ≤ v * m := by positivity
      linarith
    · linarith

theorem overlap_volume (a b c d : ℚ) :
    ((overlap a b c d : ℚ) : ℝ) =
      (MeasureTheory.volume (Set.Icc (a : ℝ) b ∩ Set.Icc (c : ℝ) d)).toReal := by
  rw [Set.Icc_inter_Icc, Real.volume_Icc, ENNReal.toReal_ofReal']
  unfold overlap
  push_cast
  rw [max_comm, min_comm (d : ℝ), max_comm (c : ℝ)]

theorem share_self (a w : ℚ) (hw : 0 < w) (i j : ℕ) :
    share a w a w i j = if j = i then 1 else 0 := by
  unfold share
  split_ifs with h
  · subst h
    rw [overlap_self_cover (by linarith) le_rfl le_rfl]
    field_simp
    ring
  · rcases lt_or_gt_of_ne h with h | h
    · have : (j : ℚ) + 1 ≤ i := by exact_mod_cast h
      rw [overlap_eq_zero_of_le_left (by nlinarith)]
      simp
    · have : (i : ℚ) + 1 ≤ j := by exact_mod_cast h
      rw [overlap_eq_zero_of_le_right (by nlinarith)]
      simp

end Ompy
