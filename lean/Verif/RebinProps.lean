import Verif.RebinLemmas

/-!
# Properties C01–C04: rebinning

Specification: bin `k` of the equidistant axis with first mid-point `a` and width `w` is the
real interval `binSet a w k`.  "Share" is measured with Lebesgue measure, not with the model's
`overlap`.
-/

namespace Ompy

open MeasureTheory

/-- Specification: the interval covered by bin `k` of the axis `a, a+w, a+2w, …` of mid-points. -/
def binSet (a w : ℚ) (k : ℕ) : Set ℝ :=
  Set.Icc ((a : ℝ) + w * k - w / 2) ((a : ℝ) + w * k + w / 2)

/-- Specification: the interval covered by a whole axis of `n` bins. -/
def axisSet (a w : ℚ) (n : ℕ) : Set ℝ :=
  Set.Icc ((a : ℝ) - w / 2) ((a : ℝ) + w * n - w / 2)

theorem share_volume (a w b v : ℚ) (i j : ℕ) :
    ((share a w b v i j : ℚ) : ℝ) = (volume (binSet a w j ∩ binSet b v i)).toReal / w := by
  unfold share binSet
  push_cast
  rw [overlap_volume]
  push_cast
  rfl

/-- **C01.** Every output bin holds exactly the sum over *all* input bins of content times
the fraction of the input bin inside the output bin. -/
theorem C01_rebin_exact_share (counts : List ℚ) (a w b v : ℚ) (n m : ℕ) (hn : 2 ≤ n)
    (hm : 2 ≤ m) (hw : 0 < w) (hv : 0 < v) (hc : counts.length = n) :
    ∃ out, rebin1D counts (grid a w n) (grid b v m) = .ok out ∧ out.length = m ∧
      ∀ i < m, ((out.getD i 0 : ℚ) : ℝ) = ∑ j ∈ Finset.range n,
        ((counts.getD j 0 : ℚ) : ℝ) * ((volume (binSet a w j ∩ binSet b v i)).toReal / w) := by
  refine ⟨_, rebin1D_grid counts a w b v n m hn hm hw hv hc.ge, by simp, ?_⟩
  intro i hi
  rw [getD_map_range _ hi]
  push_cast
  apply Finset.sum_congr rfl
  intro j _
  rw [share_volume]

/-- Non-vacuity of C01: three bins of width 2 into four bins of width 1, shifted. -/
example : rebin1D [4, 6, 8] (grid 1 2 3) (grid 0 1 4) = .ok [1, 2, 5/2, 3] := by decide +kernel

/-- C01, error branch: an axis with fewer than two mid-points is an IndexError. -/
theorem C01_rebin_short_axis (counts midsIn midsOut : List ℚ)
    (h : midsIn.length < 2 ∨ midsOut.length < 2) :
    rebin1D counts midsIn midsOut = .error .indexError := by
  match midsIn, midsOut with
  | [], _ => rfl
  | [_], _ => rfl
  | _ :: _ :: _, [] => rfl
  | _ :: _ :: _, [_] => rfl
  | _ :: _ :: _, _ :: _ :: _ =>
    simp only [List.length_cons] at h
    omega

example : ([1] : List ℚ).length < 2 ∨ ([1, 2] : List ℚ).length < 2 := by decide

/-- **C02 (general form).** The sum of the rebinned contents is the sum of the contents weighted
with the fraction of each input bin inside the output range. -/
theorem C02_rebin_total (counts : List ℚ) (a w b v : ℚ) (n m : ℕ) (hn : 2 ≤ n)
    (hm : 2 ≤ m) (hw : 0 < w) (hv : 0 < v) (hc : counts.length = n) :
    ∃ out, rebin1D counts (grid a w n) (grid b v m) = .ok out ∧
      ((out.sum : ℚ) : ℝ) = ∑ j ∈ Finset.range n,
        ((counts.getD j 0 : ℚ) : ℝ) * ((volume (binSet a w j ∩ axisSet b v m)).toReal / w) := by
  refine ⟨_, rebin1D_grid counts a w b v n m hn hm hw hv hc.ge, ?_⟩
  rw [list_map_range_sum, Finset.sum_comm]
  push_cast
  apply Finset.sum_congr rfl
  intro j _
  have : ∑ i ∈ Finset.range m, share a w b v i j =
      overlap (a + w * j - w / 2) (a + w * j + w / 2) (b - v / 2) (b + v * m - v / 2) / w := by
    unfold share
    rw [← Finset.sum_div, overlap_sum _ _ _ _ (by linarith) hv]
  have h2 := congrArg (fun q : ℚ => (q : ℝ)) this
  push_cast at h2
  rw [← Finset.mul_sum, h2, overlap_volume]
  unfold binSet axisSet
  push_cast
  rfl

/-- **C02.** If the output range covers the input range, rebinning conserves the counts. -/
theorem C02_rebin_conserves (counts : List ℚ) (a w b v : ℚ) (n m : ℕ) (hn : 2 ≤ n)
    (hm : 2 ≤ m) (hw : 0 < w) (hv : 0 < v) (hc : counts.length = n)
    (hcover : axisSet a w n ⊆ axisSet b v m) :
    ∃ out, rebin1D counts (grid a w n) (grid b v m) = .ok out ∧ out.sum = counts.sum := by
  refine ⟨_, rebin1D_grid counts a w b v n m hn hm hw hv hc.ge, ?_⟩
  have hnn : (a : ℝ) - w / 2 ≤ (a : ℝ) + w * n - w / 2 := by
    have : (0 : ℝ) ≤ (w : ℝ) * n := by
      have : (0 : ℝ) < w := by exact_mod_cast hw
      positivity
    linarith
  unfold axisSet at hcover
  rw [Set.Icc_subset_Icc_iff hnn] at hcover
  have h1 : b - v / 2 ≤ a - w / 2 := by exact_mod_cast hcover.1
  have h2 : a + w * n - w / 2 ≤ b + v * m - v / 2 := by exact_mod_cast hcover.2
  rw [list_map_range_sum, Finset.sum_comm, list_sum_eq_range, hc]
  apply Finset.sum_congr rfl
  intro j hj
  rw [Finset.mem_range] at hj
  have hj' : (j : ℚ) + 1 ≤ n := by exact_mod_cast hj
  have hj0 : (0 : ℚ) ≤ w * j := by positivity
  rw [← Finset.mul_sum]
  unfold share
  rw [← Finset.sum_div, overlap_sum _ _ _ _ (by linarith) hv,
    overlap_self_cover (by linarith) (by linarith) (by nlinarith)]
  have : (a + w * j + w / 2 - (a + w * j - w / 2)) / w = 1 := by
    field_simp; ring
  rw [this, mul_one]

/-- Non-vacuity of C02: an output axis that covers the input axis. -/
example : axisSet 1 2 3 ⊆ axisSet 0 3 4 := by
  unfold axisSet
  apply Set.Icc_subset_Icc <;> norm_num

/-- **C02.** For non-negative contents the sum never grows. -/
theorem C02_rebin_never_grows (counts : List ℚ) (a w b v : ℚ) (n m : ℕ) (hn : 2 ≤ n)
    (hm : 2 ≤ m) (hw : 0 < w) (hv : 0 < v) (hc : counts.length = n)
    (hpos : ∀ x ∈ counts, 0 ≤ x) :
    ∃ out, rebin1D counts (grid a w n) (grid b v m) = .ok out ∧ out.sum ≤ counts.sum := by
  refine ⟨_, rebin1D_grid counts a w b v n m hn hm hw hv hc.ge, ?_⟩
  rw [list_map_range_sum, Finset.sum_comm, list_sum_eq_range, hc]
  apply Finset.sum_le_sum
  intro j hj
  rw [Finset.mem_range] at hj
  rw [← Finset.mul_sum]
  unfold share
  rw [← Finset.sum_div, overlap_sum _ _ _ _ (by linarith) hv]
  have h0 : 0 ≤ counts.getD j 0 := by
    rw [List.getD_eq_getElem _ _ (by omega)]
    exact hpos _ (List.getElem_mem _)
  have h1 : overlap (a + w * j - w / 2) (a + w * j + w / 2) (b - v / 2) (b + v * m - v / 2) / w
      ≤ 1 := by
    rw [div_le_one hw]
    unfold overlap
    apply max_le hw.le
    have := min_le_right (b + v * m - v / 2) (a + w * j + w / 2)
    have := le_max_right (b - v / 2) (a + w * j - w / 2)
    linarith
  nlinarith

example : ∀ x ∈ ([4, 6, 8] : List ℚ), 0 ≤ x := by decide +kernel

/-- **C03.** Linearity. -/
theorem C03_rebin_linear (x y : List ℚ) (s t a w b v : ℚ) (n m : ℕ) (hn : 2 ≤ n)
    (hm : 2 ≤ m) (hw : 0 < w) (hv : 0 < v) (hx : x.length = n) (hy : y.length = n) :
    ∃ ox oy, rebin1D x (grid a w n) (grid b v m) = .ok ox ∧
      rebin1D y (grid a w n) (grid b v m) = .ok oy ∧
      rebin1D (List.zipWith (fun p q => s * p + t * q) x y) (grid a w n) (grid b v m)
        = .ok (List.zipWith (fun p q => s * p + t * q) ox oy) := by
  refine ⟨_, _, rebin1D_grid x a w b v n m hn hm hw hv hx.ge,
    rebin1D_grid y a w b v n m hn hm hw hv hy.ge, ?_⟩
  rw [rebin1D_grid _ a w b v n m hn hm hw hv (by simp [hx, hy])]
  congr 1
  rw [List.zipWith_map, List.zipWith_self]
  apply List.map_congr_left
  intro i _
  rw [Finset.mul_sum, Finset.mul_sum, ← Finset.sum_add_distrib]
  apply Finset.sum_congr rfl
  intro j hj
  rw [Finset.mem_range] at hj
  have : (List.zipWith (fun p q => s * p + t * q) x y).getD j 0
      = s * x.getD j 0 + t * y.getD j 0 := by
    simp [List.getD_eq_getElem?_getD, hx, hy, hj]
  rw [this]
  ring

example : ([1, 2, 3] : List ℚ).length = 3 ∧ ([0, -1, 5] : List ℚ).length = 3 := by decide

/-- **C03.** Non-negative contents stay non-negative. -/
theorem C03_rebin_nonneg (x : List ℚ) (a w b v : ℚ) (n m : ℕ) (hn : 2 ≤ n)
    (hm : 2 ≤ m) (hw : 0 < w) (hv : 0 < v) (hx : x.length = n) (hpos : ∀ c ∈ x, 0 ≤ c) :
    ∃ out, rebin1D x (grid a w n) (grid b v m) = .ok out ∧ ∀ c ∈ out, 0 ≤ c := by
  refine ⟨_, rebin1D_grid x a w b v n m hn hm hw hv hx.ge, ?_⟩
  intro c hc
  rw [List.mem_map] at hc
  obtain ⟨i, _, rfl⟩ := hc
  apply Finset.sum_nonneg
  intro j hj
  rw [Finset.mem_range] at hj
  apply mul_nonneg _ (share_nonneg _ _ _ _ hw _ _)
  rw [List.getD_eq_getElem _ _ (by omega)]
  exact hpos _ (List.getElem_mem _)

/-- **C03.** Rebinning onto the same axis is the identity. -/
theorem C03_rebin_same_axis (x : List ℚ) (a w : ℚ) (n : ℕ) (hn : 2 ≤ n) (hw : 0 < w)
    (hx : x.length = n) : rebin1D x (grid a w n) (grid a w n) = .ok x := by
  rw [rebin1D_grid x a w a w n n hn hn hw hw hx.ge]
  congr 1
  apply List.ext_getElem
  · simp [hx]
  · intro i h1 h2
    simp only [List.getElem_map, List.getElem_range]
    rw [Finset.sum_eq_single i]
    · rw [share_self a w hw, if_pos rfl, mul_one, List.getD_eq_getElem _ _ h2]
    · intro j _ hne
      rw [share_self a w hw, if_neg hne, mul_zero]
    · intro h
      rw [Finset.mem_range] at h
      omega

/-- Non-vacuity of C03: a width and axis for which the hypotheses hold. -/
example : rebin1D [5, -7, 1/3] (grid (1/2) 3 3) (grid (1/2) 3 3) = .ok [5, -7, 1/3] :=
  C03_rebin_same_axis _ _ _ 3 (by norm_num) (by norm_num) rfl

/-! ### Two dimensions -/

theorem rebin2D_rows (M : List (List ℚ)) (a w b v : ℚ) (n m : ℕ) (hn : 2 ≤ n)
    (hm : 2 ≤ m) (hw : 0 < w) (hv : 0 < v) (hM : ∀ r ∈ M, r.length = n) (q : ℕ) :
    rebin2D M q (grid a w n) (grid b v m) 1 =
      .ok (M.map fun row => (List.range m).map fun i : ℕ =>
        ∑ j ∈ Finset.range n, row.getD j 0 * share a w b v i j) := by
  unfold rebin2D
  simp only [ne_eq, one_ne_zero, not_false_eq_true, not_true_eq_false, and_false, if_false]
  apply mapM_ok
  intro r hr
  exact rebin1D_grid r a w b v n m hn hm hw hv (hM r hr).ge

theorem colOf_getD (M : List (List ℚ)) (q j : ℕ) :
    (colOf M q).getD j 0 = (M.getD j []).getD q 0 := by
  unfold colOf
  simp only [List.getD_eq_getElem?_getD, List.getElem?_map]
  cases M[j]? <;> simp

theorem rebin2D_cols (M : List (List ℚ)) (a w b v : ℚ) (n m : ℕ) (hn : 2 ≤ n)
    (hm : 2 ≤ m) (hw : 0 < w) (hv : 0 < v) (hM : M.length = n) (q : ℕ) :
    rebin2D M q (grid a w n) (grid b v m) 0 =
      .ok ((List.range m).map fun i : ℕ => (List.range q).map fun c : ℕ =>
        ∑ j ∈ Finset.range n, (M.getD j []).getD c 0 * share a w b v i j) := by
  unfold rebin2D
  simp only [ne_eq, not_true_eq_false, false_and, if_false, if_true]
  rw [mapM_ok _ (fun c : ℕ => (List.range m).map fun i : ℕ =>
        ∑ j ∈ Finset.range n, (M.getD j []).getD c 0 * share a w b v i j)]
  · simp only [bind, Except.bind, pure, Except.pure]
    congr 1
    unfold fromCols
    rw [grid_length]
    apply List.map_congr_left
    intro i hi
    rw [List.mem_range] at hi
    rw [List.map_map]
    apply List.map_congr_left
    intro c _
    simp only [Function.comp]
    rw [getD_map_range _ hi]
  · intro c _
    rw [rebin1D_grid _ a w b v n m hn hm hw hv (by simp [colOf, hM])]
    simp only [colOf_getD]

/-- **C04.** `axis=1` rebins every row on its own. -/
theorem C04_rows_independent (M : List (List ℚ)) (a w b v : ℚ) (n m : ℕ) (hn : 2 ≤ n)
    (hm : 2 ≤ m) (hw : 0 < w) (hv : 0 < v) (hM : ∀ r ∈ M, r.length = n) :
    ∃ out, rebin2D M n (grid a w n) (grid b v m) 1 = .ok out ∧ out.length = M.length ∧
      ∀ k < M.length, rebin1D (M.getD k []) (grid a w n) (grid b v m) = .ok (out.getD k []) := by
  refine ⟨_, rebin2D_rows M a w b v n m hn hm hw hv hM n, by simp, ?_⟩
  intro k hk
  rw [List.getD_eq_getElem _ _ hk, List.getD_eq_getElem _ _ (by simpa using hk),
    rebin1D_grid _ a w b v n m hn hm hw hv (hM _ (List.getElem_mem _)).ge]
  simp

/-- **C04.** `axis=0` rebins every column on its own. -/
theorem C04_cols_independent (M : List (List ℚ)) (a w b v : ℚ) (n m q : ℕ) (hn : 2 ≤ n)
    (hm : 2 ≤ m) (hw : 0 < w) (hv : 0 < v) (hM : M.length = n) :
    ∃ out, rebin2D M q (grid a w n) (grid b v m) 0 = .ok out ∧ out.length = m ∧
      (∀ r ∈ out, r.length = q) ∧
      ∀ k < q, rebin1D (colOf M k) (grid a w n) (grid b v m) = .ok (colOf out k) := by
  refine ⟨_, rebin2D_cols M a w b v n m hn hm hw hv hM q, by simp, ?_, ?_⟩
  · intro r hr
    rw [List.mem_map] at hr
    obtain ⟨i, _, rfl⟩ := hr
    simp
  · intro k hk
    rw [rebin1D_grid _ a w b v n m hn hm hw hv (by simp [colOf, hM])]
    congr 1
    unfold colOf
    rw [List.map_map]
    apply List.map_congr_left
    intro i _
    simp only [Function.comp]
    rw [getD_map_range _ hk]
    apply Finset.sum_congr rfl
    intro j _
    have := colOf_getD M k j
    unfold colOf at this
    rw [this]

/-- **C04.** Any other axis is a ValueError. -/
theorem C04_bad_axis (M : List (List ℚ)) (q : ℕ) (i o : List ℚ) (axis : ℤ)
    (h : axis ≠ 0 ∧ axis ≠ 1) : rebin2D M q i o axis = .error .valueError := by
  unfold rebin2D
  rw [if_pos h]

example : (2 : ℤ) ≠ 0 ∧ (2 : ℤ) ≠ 1 := by decide

/-- Total of a matrix stored as a list of rows. -/
def matSum (M : List (List ℚ)) : ℚ := (M.map List.sum).sum

/-- **C04.** The total is conserved along rows when the output range covers the input. -/
theorem C04_rows_conserve (M : List (List ℚ)) (a w b v : ℚ) (n m : ℕ) (hn : 2 ≤ n)
    (hm : 2 ≤ m) (hw : 0 < w) (hv : 0 < v) (hM : ∀ r ∈ M, r.length = n)
    (hcover : axisSet a w n ⊆ axisSet b v m) :
    ∃ out, rebin2D M n (grid a w n) (grid b v m) 1 = .ok out ∧ matSum out = matSum M := by
  refine ⟨_, rebin2D_rows M a w b v n m hn hm hw hv hM n, ?_⟩
  unfold matSum
  rw [List.map_map]
  congr 1
  apply List.map_congr_left
  intro r hr
  obtain ⟨o, ho, hs⟩ := C02_rebin_conserves r a w b v n m hn hm hw hv (hM r hr) hcover
  rw [rebin1D_grid r a w b v n m hn hm hw hv (hM r hr).ge] at ho
  injection ho with ho
  simp only [Function.comp]
  rw [ho, hs]

theorem matSum_eq (M : List (List ℚ)) (n q : ℕ) (h1 : M.length = n) (h2 : ∀ r ∈ M, r.length = q) :
    matSum M = ∑ j ∈ Finset.range n, ∑ c ∈ Finset.range q, (M.getD j []).getD c 0 := by
  unfold matSum
  rw [list_sum_eq_range, List.length_map, h1]
  apply Finset.sum_congr rfl
  intro j hj
  rw [Finset.mem_range] at hj
  have hj' : j < M.length := by omega
  rw [List.getD_eq_getElem _ _ (by simpa using hj'), List.getElem_map,
    list_sum_eq_range, h2 _ (List.getElem_mem _), List.getD_eq_getElem _ _ hj']

/-- **C04.** The total is conserved along columns when the output range covers the input. -/
theorem C04_cols_conserve (M : List (List ℚ)) (a w b v : ℚ) (n m q : ℕ) (hn : 2 ≤ n)
    (hm : 2 ≤ m) (hw : 0 < w) (hv : 0 < v) (hM : M.length = n) (hr : ∀ r ∈ M, r.length = q)
    (hcover : axisSet a w n ⊆ axisSet b v m) :
    ∃ out, rebin2D M q (grid a w n) (grid b v m) 0 = .ok out ∧ matSum out = matSum M := by
  obtain ⟨out, ho, hl, hrow, hcol⟩ := C04_cols_independent M a w b v n m q hn hm hw hv hM
  refine ⟨out, ho, ?_⟩
  rw [matSum_eq out m q hl hrow, matSum_eq M n q hM hr, Finset.sum_comm,
    Finset.sum_comm (s := Finset.range n)]
  apply Finset.sum_congr rfl
  intro c hc
  rw [Finset.mem_range] at hc
  obtain ⟨o, ho2, hs⟩ := C02_rebin_conserves (colOf M c) a w b v n m hn hm hw hv
    (by simp [colOf, hM]) hcover
  rw [hcol c hc] at ho2
  injection ho2 with ho2
  rw [← ho2, list_sum_eq_range, list_sum_eq_range] at hs
  simp only [colOf_getD] at hs
  simpa [colOf, hl, hM] using hs

theorem getD_map_of_lt (f : List ℚ → List ℚ) (M : List (List ℚ)) {j : ℕ} (h : j < M.length) :
    (M.map f).getD j [] = f (M.getD j []) := by
  simp [List.getD_eq_getElem?_getD, h]

/-- **C04.** Rebinning `Eg` and then `Ex` gives the same matrix as `Ex` and then `Eg`. -/
theorem C04_axes_commute (M : List (List ℚ)) (a w b v a' w' b' v' : ℚ) (nx mx ny my : ℕ)
    (hnx : 2 ≤ nx) (hmx : 2 ≤ mx) (hny : 2 ≤ ny) (hmy : 2 ≤ my)
    (hw : 0 < w) (hv : 0 < v) (hw' : 0 < w') (hv' : 0 < v')
    (hM : M.length = nx) (hr : ∀ r ∈ M, r.length = ny) :
    (rebin2D M ny (grid a' w' ny) (grid b' v' my) 1 >>= fun M1 =>
        rebin2D M1 my (grid a w nx) (grid b v mx) 0)
    = (rebin2D M ny (grid a w nx) (grid b v mx) 0 >>= fun M2 =>
        rebin2D M2 ny (grid a' w' ny) (grid b' v' my) 1) := by
  rw [rebin2D_rows M a' w' b' v' ny my hny hmy hw' hv' hr,
    rebin2D_cols M a w b v nx mx hnx hmx hw hv hM]
  simp only [bind, Except.bind]
  rw [rebin2D_cols _ a w b v nx mx hnx hmx hw hv (by simpa using hM),
    rebin2D_rows _ a' w' b' v' ny my hny hmy hw' hv' (by
      intro r hr
      rw [List.mem_map] at hr
      obtain ⟨i, _, rfl⟩ := hr
      simp)]
  congr 1
  rw [List.map_map]
  apply List.map_congr_left
  intro i _
  simp only [Function.comp]
  apply List.map_congr_left
  intro c hc
  rw [List.mem_range] at hc
  have e1 : ∀ j ∈ Finset.range nx,
      ((M.map fun row => (List.range my).map fun i : ℕ =>
        ∑ j ∈ Finset.range ny, row.getD j 0 * share a' w' b' v' i j).getD j []).getD c 0
      = ∑ k ∈ Finset.range ny, (M.getD j []).getD k 0 * share a' w' b' v' c k := by
    intro j hj
    rw [Finset.mem_range] at hj
    have hj' : j < M.length := by omega
    rw [getD_map_of_lt _ _ hj', getD_map_range _ hc]
  rw [Finset.sum_congr rfl (fun j hj => by rw [e1 j hj])]
  have e2 : ∀ k ∈ Finset.range ny,
      ((List.range ny).map fun c : ℕ =>
        ∑ j ∈ Finset.range nx, (M.getD j []).getD c 0 * share a w b v i j).getD k 0
      = ∑ j ∈ Finset.range nx, (M.getD j []).getD k 0 * share a w b v i j := by
    intro k hk
    rw [Finset.mem_range] at hk
    rw [getD_map_range _ hk]
  refine Eq.trans ?_ (Finset.sum_congr rfl (fun k hk => by rw [e2 k hk])).symm
  simp only [Finset.sum_mul]
  rw [Finset.sum_comm]
  apply Finset.sum_congr rfl
  intro k _
  apply Finset.sum_congr rfl
  intro j _
  ring

/-- Non-vacuity of C04: a 2×3 matrix satisfying the shape hypotheses. -/
example : (([[1, 2, 3], [4, 5, 6]] : List (List ℚ)).length = 2) ∧
    (∀ r ∈ ([[1, 2, 3], [4, 5, 6]] : List (List ℚ)), r.length = 3) := by decide

end Ompy
