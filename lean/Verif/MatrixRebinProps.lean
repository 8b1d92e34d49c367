import Verif.MatrixRebin
import Verif.RebinProps
import Verif.MatrixProps
import Verif.LibraryProps

/-!
# Properties of `Matrix.rebin` (C54)
-/

namespace Ompy

/-- The share an output bin takes of the contents, written for a whole matrix: element `(i, c)` of
the matrix rebinned along both axes. -/
def rebinnedEntry (M : List (List ℚ)) (a w b v a' w' b' v' : ℚ) (nx ny i c : ℕ) : ℚ :=
  ∑ j ∈ Finset.range nx, (∑ k ∈ Finset.range ny, (M.getD j []).getD k 0 * share a' w' b' v' c k) *
    share a w b v i j

theorem hasShape_map_range {nr nc : ℕ} (f : ℕ → ℕ → ℚ) :
    hasShape ((List.range nr).map fun i : ℕ => (List.range nc).map fun c : ℕ => f i c) nr nc =
      true := by
  simp [hasShape]

/-- The state of a matrix after `rebinOne` along `Eg`, on equidistant axes. -/
theorem rebinOne_Eg (m : Mat) (a' w' b' v' : ℚ) (ny my : ℕ) (hny : 2 ≤ ny) (hmy : 2 ≤ my)
    (hw' : 0 < w') (hv' : 0 < v') (hEg : m.Eg = grid a' w' ny) (hc : m.consistent = true)
    (hs : m.std = none) :
    m.rebinOne false (some (grid b' v' my)) none =
      ({ m with
          values := m.values.map fun row => (List.range my).map fun i : ℕ =>
            ∑ j ∈ Finset.range ny, row.getD j 0 * share a' w' b' v' i j
          Eg := grid b' v' my }, .ok ()) := by
  obtain ⟨h1, h2⟩ := consistent_shape m hc
  unfold Mat.rebinOne
  simp only [rebinMids, Bool.false_eq_true, if_false]
  rw [hEg, rebin2D_rows m.values a' w' b' v' ny my hny hmy hw' hv'
    (by intro r hr; rw [h2 r hr, hEg, grid_length])]
  simp only [Mat.verify, Prod.mk.injEq, true_and]
  rw [if_pos]
  simp [Mat.consistent, hs, hasShape, h1]

/-- The state of a matrix after `rebinOne` along `Ex`, on equidistant axes. -/
theorem rebinOne_Ex (m : Mat) (a w b v : ℚ) (nx mx : ℕ) (hnx : 2 ≤ nx) (hmx : 2 ≤ mx)
    (hw : 0 < w) (hv : 0 < v) (hEx : m.Ex = grid a w nx) (hc : m.consistent = true)
    (hs : m.std = none) :
    m.rebinOne true (some (grid b v mx)) none =
      ({ m with
          values := (List.range mx).map fun i : ℕ => (List.range m.Eg.length).map fun c : ℕ =>
            ∑ j ∈ Finset.range nx, (m.values.getD j []).getD c 0 * share a w b v i j
          Ex := grid b v mx }, .ok ()) := by
  obtain ⟨h1, h2⟩ := consistent_shape m hc
  unfold Mat.rebinOne
  simp only [rebinMids, if_true]
  rw [hEx, rebin2D_cols m.values a w b v nx mx hnx hmx hw hv (by rw [h1, hEx, grid_length])]
  simp only [Mat.verify, Prod.mk.injEq, true_and]
  rw [if_pos]
  simp only [Mat.consistent, hs, Bool.and_true]
  rw [grid_length]
  exact hasShape_map_range _

/-- C54: on a matrix without `std`, `rebin(axis='both', mids=…)` replaces both axes by the new ones,
gives every new bin the shares of the old ones along both axes, keeps the state and leaves a
consistent object. -/
theorem C54_both_partial (m : Mat) (a w b v a' w' b' v' : ℚ) (nx ny mx : ℕ) (hnx : 2 ≤ nx)
    (hny : 2 ≤ ny) (hmx : 2 ≤ mx) (hw : 0 < w) (hv : 0 < v) (hw' : 0 < w')
    (hEx : m.Ex = grid a w nx) (hEg : m.Eg = grid a' w' ny) (hc : m.consistent = true)
    (hs : m.std = none) (hb : b' = b) (hv' : v' = v) :
    ∃ m', m.rebinInplace 2 (some (grid b v mx)) none = (m', .ok ()) ∧
      m'.Ex = grid b v mx ∧ m'.Eg = grid b v mx ∧ m'.std = none ∧ m'.state = m.state ∧
      m'.consistent = true ∧
      ∀ i < mx, ∀ c < mx, (m'.values.getD i []).getD c 0 =
        rebinnedEntry m.values a w b v a' w' b' v' nx ny i c := by
  subst hb hv'
  obtain ⟨h1, h2⟩ := consistent_shape m hc
  unfold Mat.rebinInplace
  rw [if_pos rfl, rebinOne_Eg m a' w' b' v' ny mx hny hmx hw' hv hEg hc hs]
  simp only
  set m1 : Mat := { m with
      values := m.values.map fun row => (List.range mx).map fun i : ℕ =>
        ∑ j ∈ Finset.range ny, row.getD j 0 * share a' w' b' v' i j
      Eg := grid b' v' mx } with hm1
  have hc1 : m1.consistent = true := by
    simp [hm1, Mat.consistent, hs, hasShape, h1]
  rw [rebinOne_Ex m1 a w b' v' nx mx hnx hmx hw hv hEx hc1 hs]
  refine ⟨_, rfl, rfl, rfl, hs, rfl, ?_, ?_⟩
  · have hs1 : m1.std = none := hs
    have hl : m1.Eg.length = mx := grid_length _ _ _
    simp only [Mat.consistent, hs1, Bool.and_true, hl]
    rw [grid_length]
    exact hasShape_map_range _
  · intro i hi c hcc
    unfold rebinnedEntry
    have hl : m1.Eg.length = mx := grid_length _ _ _
    have e : ∀ (f : ℕ → List ℚ), ((List.range mx).map f).getD i [] = f i := by
      intro f
      simp [List.getD_eq_getElem?_getD, hi]
    simp only
    rw [e, hl, getD_map_range _ hcc]
    apply Finset.sum_congr rfl
    intro j hj
    rw [Finset.mem_range] at hj
    have hj' : j < m.values.length := by rw [h1, hEx, grid_length]; exact hj
    rw [getD_map_of_lt _ _ hj', getD_map_range _ hcc]

/-- Non-vacuity: a 2×3 matrix on its axes. -/
example : (⟨[[1, 2, 3], [4, 5, 6]], grid 0 1 3, grid 0 1 2, none, none⟩ : Mat).consistent = true := by
  decide +kernel

/-- C54: `rebin(inplace=False)` along one axis gives the same values and axes as in place, if the
matrix has no `std`. -/
theorem C54_copy_values_partial (m : Mat) (isEx : Bool) (mids : Option (List ℚ))
    (factor : Option ℚ) (hs : m.std = none) :
    ((m.rebinOne isEx mids factor).2 = .ok () ∧
      m.rebinOneCopy isEx mids factor = .ok { (m.rebinOne isEx mids factor).1 with state := none }) ∨
    ∃ e, (m.rebinOne isEx mids factor).2 = .error e ∧ m.rebinOneCopy isEx mids factor = .error e := by
  unfold Mat.rebinOne Mat.rebinOneCopy
  cases hm : rebinMids (if isEx then m.Ex else m.Eg) mids factor with
  | error e => exact Or.inr ⟨e, rfl, rfl⟩
  | ok new =>
    simp only [bind, Except.bind]
    cases hr : rebin2D m.values m.Eg.length (if isEx then m.Ex else m.Eg) new
        (if isEx then 0 else 1) with
    | error e => exact Or.inr ⟨e, rfl, rfl⟩
    | ok v =>
      simp only
      cases isEx
      · simp only [Bool.false_eq_true, if_false, Mat.verify, Mat.consistent, hs]
        split_ifs with h
        · left; exact ⟨rfl, rfl⟩
        · right; exact ⟨_, rfl, rfl⟩
      · simp only [if_true, Mat.verify, Mat.consistent, hs]
        split_ifs with h
        · left; exact ⟨rfl, rfl⟩
        · right; exact ⟨_, rfl, rfl⟩

/-- C54: `rebin(inplace=False)` drops `std` and `state`. -/
theorem C54_copy_drops_fails :
    let m : Mat := ⟨[[1, 2], [3, 4]], [0, 1], [0, 1], some [[1, 1], [1, 1]], some .raw⟩
    (m.rebinCopy 0 (some [0, 1]) none).map (fun r => decide (r.std = none ∧ r.state = none)) =
      .ok true := by
  decide +kernel

/-- C54: with `std`, an in-place rebin to another number of bins raises, after having changed values
and axis: the object is left inconsistent. -/
theorem C54_std_fails :
    let m : Mat := ⟨[[1, 2, 3, 4], [3, 4, 5, 6]], [0, 1, 2, 3], [0, 1],
      some [[1, 1, 1, 1], [1, 1, 1, 1]], some .raw⟩
    m.consistent = true ∧
    (m.rebinInplace 0 (some [0, 2]) none).2 = .error .valueError ∧
    (m.rebinInplace 0 (some [0, 2]) none).1.consistent = false ∧
    (m.rebinInplace 0 (some [0, 2]) none).1.Eg = [0, 2] := by
  decide +kernel

/-- C54: with `std` and as many bins as before, the rebin succeeds and the uncertainties of the old
bins are kept for the new ones. -/
theorem C54_std_stale_fails :
    let m : Mat := ⟨[[1, 2], [3, 4]], [0, 1], [0, 1], some [[7, 8], [9, 10]], none⟩
    (m.rebinInplace 0 (some [0, 2]) none).2 = .ok () ∧
    (m.rebinInplace 0 (some [0, 2]) none).1.std = some [[7, 8], [9, 10]] ∧
    (m.rebinInplace 0 (some [0, 2]) none).1.values ≠ m.values := by
  decide +kernel

/-- C54: `mids` and `factor` exclude each other, and one of them is needed; the matrix is unchanged
when the call is refused. -/
theorem C54_refuses (m : Mat) (axis : ℕ) (mids : Option (List ℚ)) (factor : Option ℚ)
    (h : mids.isSome = factor.isSome) :
    m.rebinInplace axis mids factor = (m, .error .valueError) ∧
      m.rebinCopy axis mids factor = .error .valueError := by
  have key : ∀ isEx : Bool, rebinMids (if isEx then m.Ex else m.Eg) mids factor = .error .valueError := by
    intro isEx
    cases mids <;> cases factor <;> simp_all [rebinMids]
  have one : ∀ isEx, m.rebinOne isEx mids factor = (m, .error .valueError) := by
    intro isEx
    unfold Mat.rebinOne
    rw [key isEx]
  have two : ∀ isEx, m.rebinOneCopy isEx mids factor = .error .valueError := by
    intro isEx
    unfold Mat.rebinOneCopy
    rw [key isEx]
    rfl
  unfold Mat.rebinInplace Mat.rebinCopy
  by_cases ha : axis = 2
  · rw [if_pos ha, if_pos ha, one false, two false]
    exact ⟨rfl, rfl⟩
  · rw [if_neg ha, if_neg ha, one, two]
    exact ⟨rfl, rfl⟩

theorem grid_head (a w : ℚ) {n : ℕ} (hn : 1 ≤ n) : (grid a w n).head? = some a := by
  obtain ⟨k, rfl⟩ : ∃ k, n = k + 1 := ⟨n - 1, by omega⟩
  simp [grid, List.range_succ_eq_map]

theorem grid_getLast (a w : ℚ) {n : ℕ} (hn : 1 ≤ n) :
    (grid a w n).getLast? = some (a + w * ((n : ℚ) - 1)) := by
  obtain ⟨k, rfl⟩ : ∃ k, n = k + 1 := ⟨n - 1, by omega⟩
  simp [grid, List.range_succ]

/-- C54: with `factor` the new axis has `int(n / factor)` bins from the first to the last old
mid-point; its step is `(n - 1)/(m - 1)` times the old one. -/
theorem C54_factor_axis (a w f : ℚ) (n m : ℕ) (hf : 0 < f) (hn : 1 ≤ n)
    (hm : truncZ ((n : ℚ) / f) = m) (hm2 : 2 ≤ m) :
    rebinMids (grid a w n) none (some f) = .ok (grid a (w * (((n : ℚ) - 1) / ((m : ℚ) - 1))) m) := by
  unfold rebinMids
  simp only
  rw [if_neg (not_le.2 hf), grid_head a w hn, grid_getLast a w hn, grid_length, hm]
  simp only [Int.toNat_natCast]
  have hm' : (m : ℚ) - 1 ≠ 0 := by
    have : (2 : ℚ) ≤ m := by exact_mod_cast hm2
    linarith
  rw [← linspace_eq_grid]
  congr 2
  field_simp

/-- C54: a factor of at least one conserves the counts, for every matrix without `std` and along
either axis. -/
theorem C54_factor_conserves (x : List ℚ) (a w f : ℚ) (n m : ℕ) (hw : 0 < w) (hf : 1 ≤ f)
    (hm : truncZ ((n : ℚ) / f) = m) (hm2 : 2 ≤ m) (hx : x.length = n) :
    ∃ mids out, rebinMids (grid a w n) none (some f) = .ok mids ∧
      rebin1D x (grid a w n) mids = .ok out ∧ out.sum = x.sum := by
  have hmn : m ≤ n := by
    have h0 : (0 : ℚ) ≤ (n : ℚ) / f := by positivity
    rw [truncZ_of_nonneg h0] at hm
    have h1 := Int.floor_le ((n : ℚ) / f)
    rw [hm] at h1
    have h2 : (n : ℚ) / f ≤ n := div_le_self (by positivity) hf
    have h3 : ((m : ℤ) : ℚ) ≤ n := le_trans h1 h2
    exact_mod_cast h3
  have hn : 2 ≤ n := le_trans hm2 hmn
  have q1 : (2 : ℚ) ≤ m := by exact_mod_cast hm2
  have q2 : (m : ℚ) ≤ n := by exact_mod_cast hmn
  have hr : 1 ≤ ((n : ℚ) - 1) / ((m : ℚ) - 1) := by
    rw [le_div_iff₀ (by linarith)]; linarith
  set v := w * (((n : ℚ) - 1) / ((m : ℚ) - 1)) with hvdef
  have hvw : w ≤ v := by
    rw [hvdef]
    nlinarith
  have hvm : v * ((m : ℚ) - 1) = w * ((n : ℚ) - 1) := by
    rw [hvdef]
    have : (m : ℚ) - 1 ≠ 0 := by linarith
    field_simp
  obtain ⟨out, ho, hs⟩ := C02_rebin_conserves x a w a v n m hn hm2 hw (by linarith) hx (by
    unfold axisSet
    have hvw' : (w : ℝ) ≤ v := by exact_mod_cast hvw
    have hvm' : (v : ℝ) * ((m : ℝ) - 1) = w * ((n : ℝ) - 1) := by exact_mod_cast hvm
    apply Set.Icc_subset_Icc
    · linarith
    · linarith)
  exact ⟨_, out, C54_factor_axis a w f n m (by linarith) (by omega) hm hm2, ho, hs⟩

/-- C54: the step is not changed by the factor asked for: ten bins with factor 2 become five bins of
width 9/4. -/
theorem C54_factor_step_fails :
    rebinMids (grid 0 1 10) none (some 2) = .ok (grid 0 (9/4) 5) := by
  decide +kernel

/-- C54: a factor below one loses counts at both ends of the axis. -/
theorem C54_factor_small_fails :
    (do
      let m ← rebinMids (grid 0 1 4) none (some (1/2))
      let r ← rebin1D [1, 1, 1, 1] (grid 0 1 4) m
      pure (decide (r.sum < 4)) : Except Err Bool) = .ok true := by
  decide +kernel

/-- Non-vacuity of the factor theorems: nine bins, factor 2. -/
example : truncZ ((9 : ℕ) / 2 : ℚ) = (4 : ℕ) := by decide +kernel

end Ompy
