import Verif.DecomposeFit
import Verif.ExtractorProps

/-!
# C76: `decompose` finds the level density and the strength function up to the Oslo transformation
-/

namespace Ompy

section Fit

/-- The expected counts: `nld(Ex_i - Eg_j) · T(Eg_j)` up to half a bin beyond the resolution, nothing beyond. -/
noncomputable def expectedCount (nld T : List ℝ) (res Eg Ex : List ℚ) (i j : ℕ) : ℝ :=
  haveI := Classical.propDecidable (usedEntry res Eg Ex i j)
  if usedEntry res Eg Ex i j then nld.getD (i + (Eg.length - 1) - j) 0 * T.getD j 0 else 0

/-- `x` is a minimum of `f`: a number, and no other number that `f` takes on vectors of the same length is
smaller. -/
def IsMinimum (f : List ℝ → Option ℝ) (x : List ℝ) : Prop :=
  ∃ c, f x = some c ∧ ∀ z c', z.length = x.length → f z = some c' → c ≤ c'

theorem sum_range_list {α : Type} [Field α] (l : List α) :
    l.sum = ∑ i ∈ Finset.range l.length, l.getD i 0 := by
  induction l with
  | nil => simp
  | cons x xs ih =>
    rw [List.sum_cons, List.length_cons, Finset.sum_range_succ', ih, add_comm]
    simp

/-- The variances of a normalised row. -/
noncomputable def rowVar (row std : List ℝ) : List ℝ :=
  List.zipWith (fun x s => (1 / row.sum - x / row.sum ^ 2) ^ 2 * s ^ 2
      + (x / row.sum ^ 2) ^ 2 * ((std.map fun s => s ^ 2).sum - s ^ 2)) row std

theorem normalizeUnc_real (values std : List (List ℝ)) (hl : values.length = std.length)
    (h : ∀ r ∈ values, r.sum ≠ 0) :
    normalizeUnc values (some std) =
      .ok (values.map fun r => r.map (· / r.sum), List.zipWith rowVar values std) := by
  have key : ∀ (values std : List (List ℝ)), values.length = std.length → (∀ r ∈ values, r.sum ≠ 0) →
      (List.zip values std).mapM (fun p => normUncRow p.1 p.2) =
        .ok (List.zipWith (fun r s => (r.map (· / r.sum), rowVar r s)) values std) := by
    intro values
    induction values with
    | nil => intro std _ _; simp [pure, Except.pure]
    | cons r rs ih =>
      intro std hl h
      cases std with
      | nil => simp at hl
      | cons t ts =>
        have e1 := ih ts (by simpa using hl) fun q hq => h q (by simp [hq])
        have h0 := h r (by simp)
        have e2 : normUncRow r t = .ok (r.map (· / r.sum), rowVar r t) := by
          unfold normUncRow rowVar
          dsimp only
          rw [if_neg (by tauto), if_neg (by tauto)]
        rw [List.zip_cons_cons, List.mapM_cons]
        simp only [e1, e2, bind, Except.bind, pure, Except.pure, List.zipWith_cons_cons]
  unfold normalizeUnc
  simp only [bind, Except.bind, pure, Except.pure, key values std hl h]
  congr 2
  · rw [List.map_zipWith]
    apply List.ext_getElem (by simp [hl])
    intro i h1 h2
    simp
  · rw [List.map_zipWith]

theorem getD_zipWith' {α β γ : Type} (f : α → β → γ) (l : List α) (m : List β) (a : α) (b : β) (c : γ) {i : ℕ}
    (h1 : i < l.length) (h2 : i < m.length) : (List.zipWith f l m).getD i c = f (l.getD i a) (m.getD i b) := by
  rw [List.getD_eq_getElem _ _ (by simp; omega), List.getD_eq_getElem _ _ h1, List.getD_eq_getElem _ _ h2]
  simp

theorem getD_map' {α γ : Type} (f : α → γ) (l : List α) (a : α) (c : γ) {i : ℕ}
    (h1 : i < l.length) : (l.map f).getD i c = f (l.getD i a) := by
  rw [List.getD_eq_getElem _ _ (by simpa using h1), List.getD_eq_getElem _ _ h1]
  simp

/-- The variance of a normalised entry is positive if the entry is and another entry of the row has an
uncertainty. -/
theorem rowVar_pos (row std : List ℝ) (hl : row.length = std.length) (ht : row.sum ≠ 0) {j k : ℕ}
    (hj : j < row.length) (hk : k < row.length) (hjk : j ≠ k) (hx : row.getD j 0 ≠ 0)
    (hs : std.getD k 0 ≠ 0) : 0 < (rowVar row std).getD j 0 := by
  unfold rowVar
  rw [getD_zipWith' _ _ _ 0 0 0 hj (by omega)]
  have hsum : (std.map fun s => s ^ 2).sum - std.getD j 0 ^ 2 =
      ∑ q ∈ (Finset.range std.length).erase j, std.getD q 0 ^ 2 := by
    rw [sum_range_list, List.length_map,
      ← Finset.add_sum_erase _ _ (Finset.mem_range.2 (show j < std.length by omega)),
      getD_map' _ _ 0 0 (by omega)]
    rw [add_sub_cancel_left]
    apply Finset.sum_congr rfl
    intro q hq
    rw [getD_map' _ _ 0 0 (by simpa using (Finset.mem_erase.1 hq).2)]
  rw [hsum]
  have hpos : 0 < ∑ q ∈ (Finset.range std.length).erase j, std.getD q 0 ^ 2 := by
    apply Finset.sum_pos' (fun q _ => sq_nonneg _)
    exact ⟨k, Finset.mem_erase.2 ⟨hjk.symm, Finset.mem_range.2 (by omega)⟩, by positivity⟩
  have h2 : 0 < (row.getD j 0 / row.sum ^ 2) ^ 2 := by positivity
  have h3 : 0 ≤ (1 / row.sum - row.getD j 0 / row.sum ^ 2) ^ 2 * std.getD j 0 ^ 2 := by positivity
  have := mul_pos h2 hpos
  linarith

/-- The situation of C76: a matrix of counts that is exactly proportional, row by row, to the product of a
positive level density and a positive transmission coefficient, on axes with a common bin width; uncertainties
that are positive wherever the product is; and the rows use the bins named in `C33_unique`. -/
structure FitCase (x y w : ℚ) (nx ny : ℕ) (res : List ℚ) (nld T : List ℝ) (values std : List (List ℝ)) :
    Prop where
  hw : 0 < w
  hx : 2 ≤ nx
  hy : 2 ≤ ny
  lres : nx ≤ res.length
  ln : nld.length = nx + ny - 1
  lT : T.length = ny
  pn : ∀ v ∈ nld, 0 < v
  pT : ∀ v ∈ T, 0 < v
  lv : values.length = nx
  lrow : ∀ r ∈ values, r.length = ny
  ls : std.length = nx
  lsrow : ∀ r ∈ std, r.length = ny
  counts : ∀ i < nx, ∃ c > 0, ∀ j < ny, (values.getD i []).getD j 0 =
    c * expectedCount nld T res (grid y w ny) (grid x w nx) i j
  snn : ∀ r ∈ std, ∀ q ∈ r, 0 ≤ q
  spos : ∀ i < nx, ∀ j < ny, usedEntry res (grid y w ny) (grid x w nx) i j → 0 < (std.getD i []).getD j 0
  u1 : ∀ i < nx, usedEntry res (grid y w ny) (grid x w nx) i 1
  u2 : usedEntry res (grid y w ny) (grid x w nx) (nx - 1) (ny - 1)
  u3 : usedEntry res (grid y w ny) (grid x w nx) (nx - 2) (ny - 2)

/-- The axis of the level density. -/
abbrev nldAxis (x y w : ℚ) (nx ny : ℕ) : List ℚ := grid (x - (y + w * ((ny : ℚ) - 1))) w (nx + ny - 1)

variable {x y w : ℚ} {nx ny : ℕ} {res : List ℚ} {nld T : List ℝ} {values std : List (List ℝ)}

theorem getD_mem' {α : Type} (l : List α) (d : α) {i : ℕ} (h : i < l.length) : l.getD i d ∈ l := by
  rw [List.getD_eq_getElem _ _ h]
  exact List.getElem_mem h

theorem FitCase.rowLen (h : FitCase x y w nx ny res nld T values std) {i : ℕ} (hi : i < nx) :
    (values.getD i []).length = ny ∧ (std.getD i []).length = ny :=
  ⟨h.lrow _ (getD_mem' _ _ (by rw [h.lv]; exact hi)), h.lsrow _ (getD_mem' _ _ (by rw [h.ls]; exact hi))⟩

theorem FitCase.u0 (h : FitCase x y w nx ny res nld T values std) {i : ℕ} (hi : i < nx) :
    usedEntry res (grid y w ny) (grid x w nx) i 0 :=
  usedEntry_down (grid_pairwise y w ny h.hw) (Nat.zero_le 1) (by rw [grid_length]; have := h.hy; omega) (h.u1 i hi)

/-- `nldTProduct` succeeds for arrays of the right lengths. -/
theorem product_ok (hw : 0 < w) (hy : 2 ≤ ny) (hx : 2 ≤ nx) (hr : nx ≤ res.length) (n t : List ℝ)
    (hn : n.length = nx + ny - 1) (ht : t.length = ny) :
    ∃ P, nldTProduct n t res (nldAxis x y w nx ny) (grid y w ny) (grid x w nx) = .ok P := by
  unfold nldTProduct
  rw [if_neg]
  · exact ⟨_, rfl⟩
  · simp only [grid_length]
    rintro (h | h | h | h | h)
    · omega
    · have := congrArg List.length h
      simp at this
      omega
    · omega
    · omega
    · omega

/-- Rows of the product in terms of the expected counts. -/
theorem product_rows (hw : 0 < w) (n t : List ℝ) (P : List (Option (List ℝ)))
    (h : nldTProduct n t res (nldAxis x y w nx ny) (grid y w ny) (grid x w nx) = .ok P) :
    P.length = nx ∧ ∀ i < nx,
      let S := ∑ k ∈ Finset.range ny, expectedCount n t res (grid y w ny) (grid x w nx) i k
      (S = 0 → P.getD i none = none) ∧
      (S ≠ 0 → ∃ row, P.getD i none = some row ∧ row.length = ny ∧ row.sum = 1 ∧
        ∀ k < ny, row.getD k 0 = expectedCount n t res (grid y w ny) (grid x w nx) i k / S) := by
  obtain ⟨h1, h2⟩ := C32_rows n t res _ _ _ (grid_pairwise y w ny hw) P h
  rw [grid_length] at h1 h2
  refine ⟨h1, fun i hi => ?_⟩
  have h3 := h2 i hi
  simp only [grid_length] at h3
  have e : ∀ k < ny, (if (grid y w ny).getD k 0 ≤ (grid x w nx).getD i 0 + res.getD i 0 +
        ((grid y w ny).getD 1 0 - (grid y w ny).getD 0 0) / 2
      then n.getD (indexD (nldAxis x y w nx ny) ((grid x w nx).getD i 0 - (grid y w ny).getD k 0)) 0 * t.getD k 0
      else 0) = expectedCount n t res (grid y w ny) (grid x w nx) i k := by
    intro k hk
    have := (C34_index x y w nx ny hw hi hk).2.2.2
    unfold expectedCount usedEntry
    rw [this, grid_length]
    by_cases hu : (grid y w ny).getD k 0 ≤ (grid x w nx).getD i 0 + res.getD i 0 +
        ((grid y w ny).getD 1 0 - (grid y w ny).getD 0 0) / 2
    · rw [if_pos hu, if_pos hu]
    · rw [if_neg hu, if_neg hu]
  rw [Finset.sum_congr rfl fun k hk => e k (Finset.mem_range.1 hk)] at h3
  refine ⟨h3.1, fun hS => ?_⟩
  obtain ⟨row, r1, r2, r3, r4⟩ := h3.2 hS
  refine ⟨row, r1, r2, r3, fun k hk => ?_⟩
  rw [(r4 k hk).1, e k hk]

theorem expectedCount_pos (n t : List ℝ) (hn : n.length = nx + ny - 1) (ht : t.length = ny)
    (pn : ∀ v ∈ n, 0 < v) (pt : ∀ v ∈ t, 0 < v) {i j : ℕ} (hi : i < nx) (hj : j < ny)
    (hu : usedEntry res (grid y w ny) (grid x w nx) i j) :
    0 < expectedCount n t res (grid y w ny) (grid x w nx) i j := by
  unfold expectedCount
  rw [if_pos hu, grid_length]
  exact mul_pos (pn _ (getD_mem' _ _ (by omega))) (pt _ (getD_mem' _ _ (by omega)))

theorem expectedCount_nonneg (n t : List ℝ) (pn : ∀ v ∈ n, 0 ≤ v) (pt : ∀ v ∈ t, 0 ≤ v) (Eg Ex : List ℚ) (i j : ℕ) :
    0 ≤ expectedCount n t res Eg Ex i j := by
  have g : ∀ (l : List ℝ) (k : ℕ), (∀ v ∈ l, 0 ≤ v) → 0 ≤ l.getD k 0 := by
    intro l k hl
    by_cases hk : k < l.length
    · exact hl _ (getD_mem' _ _ hk)
    · rw [List.getD_eq_default _ _ (by omega)]
  unfold expectedCount
  split_ifs
  · exact mul_nonneg (g _ _ pn) (g _ _ pt)
  · exact le_refl _

theorem FitCase.total_pos (h : FitCase x y w nx ny res nld T values std) {i : ℕ} (hi : i < nx) :
    0 < ∑ k ∈ Finset.range ny, expectedCount nld T res (grid y w ny) (grid x w nx) i k := by
  have hy := h.hy
  apply Finset.sum_pos' fun k _ => expectedCount_nonneg _ _ (fun v hv => (h.pn v hv).le) (fun v hv => (h.pT v hv).le) _ _ _ _
  exact ⟨0, Finset.mem_range.2 (by omega), expectedCount_pos _ _ h.ln h.lT h.pn h.pT hi (by omega) (h.u0 hi)⟩

/-- The normalised matrix is the product of the true functions. -/
theorem FitCase.truth (h : FitCase x y w nx ny res nld T values std) :
    ∃ P, nldTProduct nld T res (nldAxis x y w nx ny) (grid y w ny) (grid x w nx) = .ok P ∧
      (∀ i < nx, 0 < (values.getD i []).sum ∧
        P.getD i none = some ((values.map fun r => r.map (· / r.sum)).getD i [])) := by
  obtain ⟨P, hP⟩ := product_ok (x := x) (y := y) h.hw h.hy h.hx h.lres nld T h.ln h.lT
  refine ⟨P, hP, fun i hi => ?_⟩
  obtain ⟨c, hc, hv⟩ := h.counts i hi
  have hS := h.total_pos hi
  have hsum : (values.getD i []).sum =
      c * ∑ k ∈ Finset.range ny, expectedCount nld T res (grid y w ny) (grid x w nx) i k := by
    rw [sum_range_list, (h.rowLen hi).1, Finset.mul_sum]
    exact Finset.sum_congr rfl fun k hk => hv k (Finset.mem_range.1 hk)
  refine ⟨by rw [hsum]; exact mul_pos hc hS, ?_⟩
  obtain ⟨row, r1, r2, _, r4⟩ := ((product_rows h.hw nld T P hP).2 i hi).2 hS.ne'
  rw [r1, getD_map' _ _ [] [] (by rw [h.lv]; exact hi)]
  congr 1
  rw [hsum]
  apply List.ext_getElem
  · rw [r2, List.length_map, (h.rowLen hi).1]
  · intro k h1 h2
    have hk : k < ny := by omega
    have e1 := r4 k hk
    rw [List.getD_eq_getElem _ _ h1] at e1
    rw [e1, List.getElem_map]
    have e2 := hv k hk
    rw [List.getD_eq_getElem _ _ (by rw [(h.rowLen hi).1]; exact hk)] at e2
    rw [e2, mul_div_mul_left _ _ hc.ne']

/-- The normalised uncertainties. -/
noncomputable abbrev sdOf (values std : List (List ℝ)) : List (List ℝ) :=
  (List.zipWith rowVar values std).map fun r => r.map Real.sqrt

theorem FitCase.sd_ne (h : FitCase x y w nx ny res nld T values std) {i j : ℕ} (hi : i < nx) (hj : j < ny)
    (hu : usedEntry res (grid y w ny) (grid x w nx) i j) :
    binOf (sdOf values std) i j ≠ 0 := by
  have hy := h.hy
  obtain ⟨P, _, hP⟩ := h.truth
  obtain ⟨l1, l2⟩ := h.rowLen hi
  have hx : (values.getD i []).getD j 0 ≠ 0 := by
    obtain ⟨c, hc, hv⟩ := h.counts i hi
    rw [hv j hj]
    exact (mul_pos hc (expectedCount_pos _ _ h.ln h.lT h.pn h.pT hi hj hu)).ne'
  have lr : (rowVar (values.getD i []) (std.getD i [])).length = ny := by
    unfold rowVar
    rw [List.length_zipWith, l1, l2, Nat.min_self]
  have key : 0 < (rowVar (values.getD i []) (std.getD i [])).getD j 0 := by
    by_cases h0 : j = 0
    · subst h0
      exact rowVar_pos _ _ (by rw [l1, l2]) (hP i hi).1.ne' (by omega) (k := 1) (by omega) (by omega) hx
        (h.spos i hi 1 (by omega) (h.u1 i hi)).ne'
    · exact rowVar_pos _ _ (by rw [l1, l2]) (hP i hi).1.ne' (by omega) (k := 0) (by omega) (by omega) hx
        (h.spos i hi 0 (by omega) (h.u0 hi)).ne'
  unfold binOf sdOf
  rw [getD_map' _ _ [] [] (by rw [List.length_zipWith, h.lv, h.ls]; omega),
    getD_zipWith' _ _ _ [] [] [] (by rw [h.lv]; exact hi) (by rw [h.ls]; exact hi),
    getD_map' _ _ 0 0 (by rw [lr]; exact hj)]
  exact (Real.sqrt_pos.2 key).ne'

/-- A candidate whose chi-square vanishes has the normalised matrix as its product. -/
theorem FitCase.exact_fit (h : FitCase x y w nx ny res nld T values std) (n t : List ℝ)
    (F : List (Option (List ℝ)))
    (hF : nldTProduct n t res (nldAxis x y w nx ny) (grid y w ny) (grid x w nx) = .ok F)
    (h0 : chiNaN (values.map fun r => r.map (· / r.sum)) F (sdOf values std) res (grid y w ny) (grid x w nx) =
      some 0) :
    nldTProduct nld T res (nldAxis x y w nx ny) (grid y w ny) (grid x w nx) = .ok F := by
  have hy := h.hy
  have hw := h.hw
  obtain ⟨P, hP, hPr⟩ := h.truth
  rw [hP]
  congr 1
  obtain ⟨lP, rP⟩ := product_rows h.hw nld T P hP
  obtain ⟨lF, rF⟩ := product_rows h.hw n t F hF
  unfold chiNaN at h0
  split_ifs at h0 with hnan
  rw [Option.some.injEq] at h0
  push Not at hnan
  have hz := (C35_nonneg_zero (values.map fun r => r.map (· / r.sum)) (F.map fun r => r.getD []) (sdOf values std) res
    (grid y w ny) (grid x w nx) 0 0 (grid_pairwise y w ny h.hw)).2.2.2.1 h0
  simp only [grid_length] at hz hnan
  have chi0 : ∀ i < nx, (grid y w ny).getD 0 0 ≤ (grid x w nx).getD i 0 + res.getD i 0 := by
    intro i hi
    have := h.u1 i hi
    unfold usedEntry at this
    rw [grid_getD _ _ (show 1 < ny by omega), grid_getD _ _ (show 0 < ny by omega)] at this
    rw [grid_getD _ _ (show 0 < ny by omega)]
    push_cast at this ⊢
    linarith
  apply List.ext_getElem (by rw [lP, lF])
  intro i h1 h2
  have hi : i < nx := by omega
  have e1 : P[i] = P.getD i none := (List.getD_eq_getElem _ _ h1).symm
  have e2 : F[i] = F.getD i none := (List.getD_eq_getElem _ _ h2).symm
  rw [e1, e2]
  obtain ⟨p, p1, p2, p3, p4⟩ := (rP i hi).2 (h.total_pos hi).ne'
  have hFne : F.getD i none ≠ none := fun hc =>
    h.sd_ne hi (show 0 < ny by omega) (h.u0 hi) (hnan i hi hc 0 (by omega) (chi0 i hi))
  have hS : (∑ k ∈ Finset.range ny, expectedCount n t res (grid y w ny) (grid x w nx) i k) ≠ 0 :=
    fun hc => hFne ((rF i hi).1 hc)
  obtain ⟨f, f1, f2, f3, f4⟩ := (rF i hi).2 hS
  rw [p1, f1]
  congr 1
  have pv : (values.map fun r => r.map (· / r.sum)).getD i [] = p := by
    have := (hPr i hi).2
    rw [p1, Option.some.injEq] at this
    exact this.symm
  have zero : ∀ j < ny, ¬ usedEntry res (grid y w ny) (grid x w nx) i j → p.getD j 0 = 0 ∧ f.getD j 0 = 0 := by
    intro j hj hu
    rw [p4 j hj, f4 j hj]
    simp [expectedCount, hu]
  have agree : ∀ j < ny, (grid y w ny).getD j 0 ≤ (grid x w nx).getD i 0 + res.getD i 0 →
      p.getD j 0 = f.getD j 0 := by
    intro j hj hle
    have hu : usedEntry res (grid y w ny) (grid x w nx) i j := by
      unfold usedEntry
      rw [grid_getD _ _ (show 1 < ny by omega), grid_getD _ _ (show 0 < ny by omega)]
      push_cast
      linarith
    have := hz i hi j hj hle (h.sd_ne hi hj hu)
    unfold binOf at this
    rw [pv, getD_map' _ _ none [] (by rw [lF]; exact hi), f1] at this
    exact this
  have ext : ∀ j < ny, p.getD j 0 = f.getD j 0 := by
    intro j hj
    by_cases hle : (grid y w ny).getD j 0 ≤ (grid x w nx).getD i 0 + res.getD i 0
    · exact agree j hj hle
    by_cases hu : usedEntry res (grid y w ny) (grid x w nx) i j
    · -- the only entry between the two limits
      have others : ∀ k ∈ (Finset.range ny).erase j, p.getD k 0 = f.getD k 0 := by
        intro k hk
        obtain ⟨hkj, hk⟩ := Finset.mem_erase.1 hk
        rw [Finset.mem_range] at hk
        by_cases hlt : k < j
        · apply agree k hk
          unfold usedEntry at hu
          rw [grid_getD _ _ (show 1 < ny by omega), grid_getD _ _ (show 0 < ny by omega), grid_getD _ _ hj] at hu
          rw [grid_getD _ _ hk]
          have : (k : ℚ) + 1 ≤ j := by exact_mod_cast hlt
          push_cast at hu
          nlinarith
        · have hk2 : ¬ usedEntry res (grid y w ny) (grid x w nx) i k := by
            unfold usedEntry
            rw [grid_getD _ _ (show 1 < ny by omega), grid_getD _ _ (show 0 < ny by omega), grid_getD _ _ hk]
            rw [grid_getD _ _ hj] at hle
            have : (j : ℚ) + 1 ≤ k := by exact_mod_cast (show j + 1 ≤ k by omega)
            push_cast
            push Not at hle ⊢
            nlinarith
          rw [(zero k hk hk2).1, (zero k hk hk2).2]
      have s1 : p.sum = f.sum := by rw [p3, f3]
      rw [sum_range_list, sum_range_list, p2, f2, ← Finset.add_sum_erase _ _ (Finset.mem_range.2 hj),
        ← Finset.add_sum_erase _ (fun k => f.getD k 0) (Finset.mem_range.2 hj), Finset.sum_congr rfl others] at s1
      exact add_right_cancel s1
    · rw [(zero j hj hu).1, (zero j hj hu).2]
  apply List.ext_getElem (by rw [p2, f2])
  intro k k1 k2
  have := ext k (by omega)
  rwa [List.getD_eq_getElem _ _ k1, List.getD_eq_getElem _ _ k2] at this

/-- The true functions have error 0. -/
theorem FitCase.truth_zero (h : FitCase x y w nx ny res nld T values std) :
    errfun (values.map fun r => r.map (· / r.sum)) (sdOf values std) res (nldAxis x y w nx ny) (grid y w ny)
      (grid x w nx) (T ++ nld) = some 0 := by
  unfold errfun
  rw [if_neg]
  swap
  · rintro ⟨v, hv, hneg⟩
    rcases List.mem_append.1 hv with hv | hv
    · exact absurd (h.pT v hv) (by linarith)
    · exact absurd (h.pn v hv) (by linarith)
  have e1 : (T ++ nld).drop (grid y w ny).length = nld := by rw [grid_length, ← h.lT]; simp
  have e2 : (T ++ nld).take (grid y w ny).length = T := by rw [grid_length, ← h.lT]; simp
  obtain ⟨P, hP, hPr⟩ := h.truth
  rw [e1, e2, hP]
  simp only
  obtain ⟨lP, _⟩ := product_rows h.hw nld T P hP
  unfold chiNaN
  rw [if_neg]
  · congr 1
    refine (C35_nonneg_zero _ _ _ _ _ _ 0 0 (grid_pairwise y w ny h.hw)).2.2.2.2 ?_
    intro i hi j hj _ _
    rw [grid_length] at hi
    unfold binOf
    rw [getD_map' _ P none [] (by rw [lP]; exact hi), (hPr i hi).2]
    rfl
  · rintro ⟨i, hi, hn, _⟩
    rw [grid_length] at hi
    rw [(hPr i hi).2] at hn
    simp at hn

/-- No error is negative. -/
theorem errfun_nonneg (v s : List (List ℝ)) (res E Eg Ex : List ℚ) (hs : Eg.Pairwise (· < ·)) (z : List ℝ) (c : ℝ)
    (h : errfun v s res E Eg Ex z = some c) : 0 ≤ c := by
  unfold errfun at h
  split_ifs at h
  · rw [Option.some.injEq] at h
    rw [← h]
    positivity
  · cases hp : nldTProduct (z.drop Eg.length) (z.take Eg.length) res E Eg Ex with
    | error e => rw [hp] at h; simp at h
    | ok F =>
      rw [hp] at h
      simp only [chiNaN] at h
      split_ifs at h
      rw [Option.some.injEq] at h
      rw [← h]
      exact (C35_nonneg_zero _ _ _ _ _ _ 0 0 hs).2.1

/-- The product depends only on the bins that are used. -/
theorem product_congr (hw : 0 < w) (n t n' t' : List ℝ) (ln : n'.length = n.length) (lt : t'.length = t.length)
    (h : ∀ i < nx, ∀ j < ny, usedEntry res (grid y w ny) (grid x w nx) i j →
      n'.getD (i + (ny - 1) - j) 0 * t'.getD j 0 = n.getD (i + (ny - 1) - j) 0 * t.getD j 0) :
    nldTProduct n' t' res (nldAxis x y w nx ny) (grid y w ny) (grid x w nx) =
      nldTProduct n t res (nldAxis x y w nx ny) (grid y w ny) (grid x w nx) := by
  unfold nldTProduct
  rw [ln, lt]
  split_ifs
  · rfl
  congr 2
  apply List.ext_getElem (by simp [rawProduct])
  intro i h1 h2
  have hi : i < (grid x w nx).length := by simpa [rawProduct] using h1
  have hi' : i < nx := by simpa using hi
  have row : ∀ (a b : List ℝ) (hlt : i < (rawProduct a b res (nldAxis x y w nx ny) (grid y w ny) (grid x w nx)).length),
      (rawProduct a b res (nldAxis x y w nx ny) (grid y w ny) (grid x w nx))[i] =
      (rawProduct a b res (nldAxis x y w nx ny) (grid y w ny) (grid x w nx)).getD i [] :=
    fun a b hlt => (List.getD_eq_getElem _ _ _).symm
  rw [row, row]
  have len : ∀ a b : List ℝ,
      ((rawProduct a b res (nldAxis x y w nx ny) (grid y w ny) (grid x w nx)).getD i []).length = ny := by
    intro a b
    rw [rawProduct_row _ _ _ _ _ _ hi, rowLoop_length, grid_length]
  apply List.ext_getElem (by rw [len, len])
  intro k k1 k2
  have hk : k < ny := by rw [len] at k1; exact k1
  have ps := grid_pairwise y w ny hw
  have q1 := rawProduct_entry n' t' res (nldAxis x y w nx ny) (grid y w ny) (grid x w nx) ps hi
    (k := k) (by rw [grid_length]; exact hk)
  have q2 := rawProduct_entry n t res (nldAxis x y w nx ny) (grid y w ny) (grid x w nx) ps hi
    (k := k) (by rw [grid_length]; exact hk)
  rw [List.getD_eq_getElem _ _ k1] at q1
  rw [List.getD_eq_getElem _ _ k2] at q2
  rw [q1, q2, (C34_index x y w nx ny hw hi' hk).2.2.2]
  by_cases hu : usedEntry res (grid y w ny) (grid x w nx) i k
  · have := h i hi' k hk hu
    unfold usedEntry at hu
    rw [if_pos hu, if_pos hu, this]
  · unfold usedEntry at hu
    rw [if_neg hu, if_neg hu]

/-- A minimiser that finds a minimum whenever there is one, and keeps the number of parameters. -/
def PerfectMinimizer (m : (List ℝ → Option ℝ) → List ℝ → List ℝ) : Prop :=
  ∀ f z, (m f z).length = z.length ∧
    ((∃ b, b.length = z.length ∧ IsMinimum f b) → IsMinimum f (m f z))

theorem FitCase.shape (h : FitCase x y w nx ny res nld T values std) :
    hasShape std (grid x w nx).length (grid y w ny).length = true := by
  unfold hasShape
  rw [grid_length, grid_length, Bool.and_eq_true, List.all_eq_true]
  refine ⟨by simpa using h.ls, fun r hr => by simpa using h.lsrow r hr⟩

/-- The entries of the normalised matrix: positive where the product is used, 0 elsewhere. -/
theorem FitCase.entries (h : FitCase x y w nx ny res nld T values std) {i j : ℕ} (hi : i < nx) (hj : j < ny) :
    (usedEntry res (grid y w ny) (grid x w nx) i j →
      0 < ((values.map fun r => r.map (· / r.sum)).getD i []).getD j 0) ∧
    (¬ usedEntry res (grid y w ny) (grid x w nx) i j →
      ((values.map fun r => r.map (· / r.sum)).getD i []).getD j 0 = 0) := by
  obtain ⟨P, _, hP⟩ := h.truth
  obtain ⟨c, hc, hv⟩ := h.counts i hi
  rw [getD_map' _ _ [] [] (by rw [h.lv]; exact hi), getD_map' _ _ 0 0 (by rw [(h.rowLen hi).1]; exact hj), hv j hj]
  constructor
  · intro hu
    exact div_pos (mul_pos hc (expectedCount_pos _ _ h.ln h.lT h.pn h.pT hi hj hu)) (hP i hi).1
  · intro hu
    simp [expectedCount, hu]

/-- Counts are 0 exactly for bins that are not used. -/
theorem FitCase.zero_counts (h : FitCase x y w nx ny res nld T values std) :
    let v := values.map fun r => r.map (· / r.sum)
    let c := countsV v (grid y w ny) (grid x w nx) res
    c.1.length = nx + ny - 1 ∧ c.2.length = ny ∧
    (∀ k < nx + ny - 1, c.1.getD k 0 = 0 ↔
      ¬ ∃ i < nx, ∃ j < ny, usedEntry res (grid y w ny) (grid x w nx) i j ∧ i + (ny - 1) - j = k) ∧
    (∀ j < ny, c.2.getD j 0 ≠ 0) := by
  intro v c
  have hx := h.hx
  have hy := h.hy
  obtain ⟨c1, c2, c3, c4⟩ := countsV_spec v (grid y w ny) (grid x w nx) res x y w nx ny h.hw (by omega) (by omega) rfl rfl
  rw [grid_length] at c1 c3
  have nn : ∀ i < nx, ∀ j < ny, 0 ≤ (v.getD i []).getD j 0 := by
    intro i hi j hj
    by_cases hu : usedEntry res (grid y w ny) (grid x w nx) i j
    · exact ((h.entries hi hj).1 hu).le
    · exact ((h.entries hi hj).2 hu).symm.le
  refine ⟨c1, c2, fun k hk => ?_, fun j hj => ?_⟩
  · rw [c3 k hk, Finset.sum_eq_zero_iff_of_nonneg]
    · constructor
      · rintro h0 ⟨i, hi, j, hj, hu, hk'⟩
        have h1 := h0 i (Finset.mem_range.2 hi)
        rw [Finset.sum_eq_zero_iff_of_nonneg] at h1
        · have h2 := h1 j (Finset.mem_range.2 hj)
          rw [(C34_index x y w nx ny h.hw hi hj).2.2.2, if_pos ⟨hu, hk'⟩] at h2
          exact absurd h2 ((h.entries hi hj).1 hu).ne'
        · intro q hq
          split_ifs
          · exact nn i hi q (Finset.mem_range.1 hq)
          · exact le_refl _
      · intro hno i hi
        rw [Finset.mem_range] at hi
        apply Finset.sum_eq_zero
        intro j hj
        rw [Finset.mem_range] at hj
        rw [(C34_index x y w nx ny h.hw hi hj).2.2.2, if_neg]
        rintro ⟨hu, hk'⟩
        exact hno ⟨i, hi, j, hj, hu, hk'⟩
    · intro i hi
      apply Finset.sum_nonneg
      intro j hj
      split_ifs
      · exact nn i (Finset.mem_range.1 hi) j (Finset.mem_range.1 hj)
      · exact le_refl _
  · rw [c4 j hj]
    apply ne_of_gt
    have ul : usedEntry res (grid y w ny) (grid x w nx) (nx - 1) j :=
      usedEntry_down (grid_pairwise y w ny h.hw) (by omega) (by rw [grid_length]; omega) h.u2
    apply Finset.sum_pos'
    · intro i hi
      split_ifs
      · exact nn i (Finset.mem_range.1 hi) j hj
      · exact le_refl _
    · refine ⟨nx - 1, Finset.mem_range.2 (by omega), ?_⟩
      have := (h.entries (show nx - 1 < nx by omega) hj).1 ul
      unfold usedEntry at ul
      simp only
      rw [if_pos ul]
      exact this

/-- **C76.** The matrix is normalised and the fit is started: in the situation of `FitCase` no check refuses the
input. -/
theorem FitCase.decompose_eq (h : FitCase x y w nx ny res nld T values std) (e : FitEnv) :
    decompose e values (some std) (grid y w ny) (grid x w nx) =
      fitPart e (values.map fun r => r.map (· / r.sum)) (sdOf values std) (grid y w ny) (grid x w nx) := by
  obtain ⟨P, _, hP⟩ := h.truth
  unfold decompose
  rw [if_neg]
  swap
  · rintro ⟨r, hr, q, hq, hneg⟩
    obtain ⟨i, hi, rfl⟩ := List.mem_iff_getElem.1 hr
    obtain ⟨j, hj, rfl⟩ := List.mem_iff_getElem.1 hq
    have hi' : i < nx := by rw [← h.lv]; exact hi
    have hj' : j < ny := by rw [← h.lrow _ hr]; exact hj
    obtain ⟨c, hc, hv⟩ := h.counts i hi'
    have := hv j hj'
    rw [List.getD_eq_getElem _ _ hi, List.getD_eq_getElem _ _ hj] at this
    rw [this] at hneg
    have := mul_nonneg hc.le (expectedCount_nonneg (res := res) nld T (fun v hv => (h.pn v hv).le)
      (fun v hv => (h.pT v hv).le) (grid y w ny) (grid x w nx) i j)
    linarith
  simp only
  rw [if_neg, if_neg (by rw [h.shape]; simp)]
  · rw [normalizeUnc_real _ _ (by rw [h.lv, h.ls])]
    intro r hr
    obtain ⟨i, hi, rfl⟩ := List.mem_iff_getElem.1 hr
    have := (hP i (by rw [← h.lv]; exact hi)).1
    rw [List.getD_eq_getElem _ _ hi] at this
    exact this.ne'
  · rintro ⟨r, hr, q, hq, hneg⟩
    exact absurd (h.snn r hr q hq) (by linarith)

open Classical in
/-- **C76.** Decomposing a matrix whose rows are proportional to the product of a level density and a transmission
coefficient gives these back, with a perfect minimiser and from any start: there are `A`, `B` and `a` such that
every value of the strength function is `B exp(a Eg)` times the true one, every bin of the level density to which
a matrix element contributes is `A exp(a E)` times the true one, all others are NaN, and the returned product is
the normalised matrix. -/
theorem C76_recovers (e : FitEnv)
    (h : FitCase x y w nx ny (e.resolution (grid y w ny) (grid x w nx)) nld T values std)
    (hc : e.close w w = true) (hm : PerfectMinimizer e.minimize)
    (hs : (e.start (nldAxis x y w nx ny) (values.map fun r => r.map (· / r.sum))).length = nx + ny - 1 + ny) :
    ∃ out, decompose e values (some std) (grid y w ny) (grid x w nx) = .ok out ∧
      out.E = nldAxis x y w nx ny ∧ out.nld.length = nx + ny - 1 ∧ out.gsf.length = ny ∧
      (∃ A B a : ℝ, 0 < A ∧ 0 < B ∧
        (∀ j < ny, (grid y w ny).getD j 0 ≠ 0 → out.gsf.getD j none =
          some (B * Real.exp (a * (((grid y w ny).getD j 0 : ℚ) : ℝ)) *
            (T.getD j 0 / (2 * Real.pi * (((grid y w ny).getD j 0 : ℚ) : ℝ) ^ 3)))) ∧
        ∀ k < nx + ny - 1, out.nld.getD k none =
          if ∃ i < nx, ∃ j < ny, usedEntry (e.resolution (grid y w ny) (grid x w nx)) (grid y w ny) (grid x w nx) i j ∧
              i + (ny - 1) - j = k
          then some (A * Real.exp (a * (((nldAxis x y w nx ny).getD k 0 : ℚ) : ℝ)) * nld.getD k 0)
          else none) ∧
      ∀ i < nx, out.product.getD i none = some ((values.getD i []).map (· / (values.getD i []).sum)) := by
  set res := e.resolution (grid y w ny) (grid x w nx) with hres
  have hx := h.hx
  have hy := h.hy
  have hw := h.hw
  rw [h.decompose_eq e]
  unfold fitPart
  rw [C34_grid e.close x y w nx ny hw hx hy hc]
  simp only [bind, Except.bind, pure, Except.pure]
  rw [if_neg (by rw [hs, grid_length, grid_length]; simp)]
  set v := values.map fun r => r.map (· / r.sum) with hv
  set f := errfun v (sdOf values std) res (nldAxis x y w nx ny) (grid y w ny) (grid x w nx) with hf
  set x0 := e.start (nldAxis x y w nx ny) v with hx0
  have hst := hm f x0
  set z := e.minimize f x0 with hz
  have lz : z.length = nx + ny - 1 + ny := by rw [hst.1, hs]
  -- the error of the result is 0
  have z0 : f z = some 0 := by
    have ht : IsMinimum f (T ++ nld) := by
      refine ⟨0, h.truth_zero, fun q c' _ hq => ?_⟩
      exact errfun_nonneg _ _ _ _ _ _ (grid_pairwise y w ny hw) _ _ hq
    have hlen : (T ++ nld).length = x0.length := by rw [List.length_append, h.lT, h.ln, hs]; omega
    obtain ⟨c, c1, c2⟩ := hst.2 ⟨T ++ nld, hlen, ht⟩
    have : c = 0 := by
      apply le_antisymm
      · exact c2 (T ++ nld) 0 (by rw [hlen, hst.1]) h.truth_zero
      · exact errfun_nonneg _ _ _ _ _ _ (grid_pairwise y w ny hw) _ _ c1
    rw [c1, this]
  rw [grid_length]
  have lT' : (z.take ny).length = ny := by rw [List.length_take, lz]; omega
  have ln' : (z.drop ny).length = nx + ny - 1 := by rw [List.length_drop, lz]; omega
  set T' := z.take ny with hT'
  set n' := z.drop ny with hn'
  have nonneg : (∀ q ∈ n', 0 ≤ q) ∧ ∀ q ∈ T', 0 ≤ q := by
    have : ¬ ∃ q ∈ z, q < 0 := by
      intro hneg
      rw [hf] at z0
      simp only [errfun, if_pos hneg, Option.some.injEq] at z0
      norm_num at z0
    push Not at this
    exact ⟨fun q hq => this q (List.drop_subset _ _ hq), fun q hq => this q (List.take_subset _ _ hq)⟩
  obtain ⟨F, hF⟩ := product_ok (x := x) (y := y) hw hy hx h.lres n' T' ln' lT'
  have hchi : chiNaN v F (sdOf values std) res (grid y w ny) (grid x w nx) = some 0 := by
    rw [hf] at z0
    simp only [errfun] at z0
    rw [if_neg, grid_length, ← hT', ← hn', hF] at z0
    · exact z0
    · rintro ⟨q, hq, hneg⟩
      rw [← List.take_append_drop ny z] at hq
      rcases List.mem_append.1 hq with hq | hq
      · exact absurd (nonneg.2 q hq) (by linarith)
      · exact absurd (nonneg.1 q hq) (by linarith)
  have hP := h.exact_fit n' T' F hF hchi
  obtain ⟨P, hP', hPr⟩ := h.truth
  have hPF : P = F := by rw [hP, Except.ok.injEq] at hP'; exact hP'.symm
  subst hPF
  obtain ⟨lP, rP⟩ := product_rows hw n' T' P hF
  -- used bins are positive
  have upos : ∀ i < nx, ∀ j < ny, usedEntry res (grid y w ny) (grid x w nx) i j →
      0 < n'.getD (i + (ny - 1) - j) 0 ∧ 0 < T'.getD j 0 := by
    intro i hi j hj hu
    have hS : (∑ k ∈ Finset.range ny, expectedCount n' T' res (grid y w ny) (grid x w nx) i k) ≠ 0 := by
      intro hc
      have := (rP i hi).1 hc
      rw [(hPr i hi).2] at this
      simp at this
    obtain ⟨row, r1, _, _, r4⟩ := (rP i hi).2 hS
    have e1 := r4 j hj
    rw [(hPr i hi).2, Option.some.injEq] at r1
    have e2 := (h.entries hi hj).1 hu
    rw [r1, e1] at e2
    unfold expectedCount at e2
    rw [if_pos hu, grid_length] at e2
    have g1 : n'.getD (i + (ny - 1) - j) 0 ≠ 0 := by
      intro h0
      rw [h0, zero_mul, zero_div] at e2
      exact lt_irrefl _ e2
    have g2 : T'.getD j 0 ≠ 0 := by
      intro h0
      rw [h0, mul_zero, zero_div] at e2
      exact lt_irrefl _ e2
    exact ⟨lt_of_le_of_ne (nonneg.1 _ (getD_mem' _ _ (by omega))) g1.symm,
      lt_of_le_of_ne (nonneg.2 _ (getD_mem' _ _ (by omega))) g2.symm⟩
  -- give the bins that are not used the value 1
  set n2 := n'.map fun q => if q = 0 then (1 : ℝ) else q with hn2
  have ln2 : n2.length = nx + ny - 1 := by rw [hn2, List.length_map, ln']
  have hn2e : ∀ i < nx, ∀ j < ny, usedEntry res (grid y w ny) (grid x w nx) i j →
      n2.getD (i + (ny - 1) - j) 0 = n'.getD (i + (ny - 1) - j) 0 := by
    intro i hi j hj hu
    rw [hn2, getD_map' _ _ 0 0 (by omega), if_neg (upos i hi j hj hu).1.ne']
  have hF2 : nldTProduct n2 T' res (nldAxis x y w nx ny) (grid y w ny) (grid x w nx) = .ok P := by
    rw [← hF]
    apply product_congr hw _ _ _ _ (by rw [ln2, ln']) rfl
    intro i hi j hj hu
    rw [hn2e i hi j hj hu]
  have pn2 : ∀ q ∈ n2, 0 < q := by
    intro q hq
    rw [hn2, List.mem_map] at hq
    obtain ⟨q', hq', rfl⟩ := hq
    split_ifs with h0
    · exact one_pos
    · exact lt_of_le_of_ne (nonneg.1 q' hq') (Ne.symm h0)
  have ulast : ∀ j < ny, usedEntry res (grid y w ny) (grid x w nx) (nx - 1) j := fun j hj =>
    usedEntry_down (grid_pairwise y w ny hw) (by omega) (by rw [grid_length]; omega) h.u2
  have pT' : ∀ q ∈ T', 0 < q := by
    intro q hq
    obtain ⟨j, hj, rfl⟩ := List.mem_iff_getElem.1 hq
    have := (upos (nx - 1) (by omega) j (by omega) (ulast j (by omega))).2
    rwa [List.getD_eq_getElem _ _ hj] at this
  obtain ⟨A, B, a, hA, hB, tB, nA⟩ := C33_unique x y w nx ny hw hx hy res nld T n2 T' h.ln h.lT ln2 lT' h.pn h.pT pn2 pT' P
    hP' hF2 h.u1 h.u2 h.u3
  obtain ⟨c1, c2, c3, c4⟩ := h.zero_counts
  -- the second product
  have lset : ∀ l c : List ℝ, l.length = c.length → (setNaN l c).length = l.length := by
    intro l c hl
    unfold setNaN
    rw [List.length_zipWith, hl, Nat.min_self]
  have hnldk : ∀ k < nx + ny - 1, (setNaN n' (countsV v (grid y w ny) (grid x w nx) res).1).getD k none =
      if (countsV v (grid y w ny) (grid x w nx) res).1.getD k 0 = 0 then none else some (n'.getD k 0) := by
    intro k hk
    unfold setNaN
    rw [getD_zipWith' _ _ _ 0 0 none (by omega) (by rw [c1]; exact hk)]
  have hTj : ∀ j < ny, (setNaN T' (countsV v (grid y w ny) (grid x w nx) res).2).getD j none =
      some (T'.getD j 0) := by
    intro j hj
    unfold setNaN
    rw [getD_zipWith' _ _ _ 0 0 none (by omega) (by rw [c2]; exact hj), if_neg (c4 j hj)]
  have l1 : (setNaN n' (countsV v (grid y w ny) (grid x w nx) res).1).length = nx + ny - 1 := by
    rw [lset _ _ (by rw [c1, ln']), ln']
  have l2 : (setNaN T' (countsV v (grid y w ny) (grid x w nx) res).2).length = ny := by
    rw [lset _ _ (by rw [c2, lT']), lT']
  have hprod : nldTProduct ((setNaN n' (countsV v (grid y w ny) (grid x w nx) res).1).map fun q => q.getD 0)
      ((setNaN T' (countsV v (grid y w ny) (grid x w nx) res).2).map fun q => q.getD 0) res (nldAxis x y w nx ny)
      (grid y w ny) (grid x w nx) = .ok P := by
    rw [← hF]
    apply product_congr hw _ _ _ _ (by rw [List.length_map, l1, ln']) (by rw [List.length_map, l2, lT'])
    intro i hi j hj hu
    rw [getD_map' _ _ none 0 (by rw [l1]; omega), getD_map' _ _ none 0 (by rw [l2]; exact hj), hTj j hj,
      hnldk _ (by omega), if_neg]
    · rfl
    · rw [c3 _ (by omega)]
      exact fun hcon => hcon ⟨i, hi, j, hj, hu, rfl⟩
  unfold maskNaN
  rw [if_pos (by rw [lT', c2]), if_pos (by rw [ln', c1])]
  dsimp only
  rw [hprod]
  refine ⟨_, rfl, rfl, l1, ?_, ⟨A, B, a, hA, hB, ?_, ?_⟩, ?_⟩
  · unfold gsfOf
    rw [List.length_zipWith, l2, grid_length, Nat.min_self]
  · intro j hj hg
    unfold gsfOf
    rw [getD_zipWith' _ _ _ none 0 none (by rw [l2]; exact hj) (by rw [grid_length]; exact hj), if_neg hg, hTj j hj,
      tB j hj]
    simp only [Option.map_some]
    congr 1
    ring
  · intro k hk
    rw [hnldk k hk]
    by_cases hu : ∃ i < nx, ∃ j < ny, usedEntry res (grid y w ny) (grid x w nx) i j ∧ i + (ny - 1) - j = k
    · rw [if_pos hu, if_neg (by rw [c3 k hk]; exact fun hc => hc hu)]
      obtain ⟨i, hi, j, hj, hu', rfl⟩ := hu
      rw [← hn2e i hi j hj hu']
      exact congrArg some (nA i hi j hj hu')
    · rw [if_neg hu, if_pos ((c3 k hk).2 hu)]
  · intro i hi
    rw [(hPr i hi).2, getD_map' _ _ [] [] (by rw [h.lv]; exact hi)]

/-- **C76.** What a perfect minimiser looks for exists: in the same situation no error is negative, and the true
functions have error 0 as well as all their Oslo transformations. -/
theorem C76_optimum (h : FitCase x y w nx ny res nld T values std) :
    let f := errfun (values.map fun r => r.map (· / r.sum)) (sdOf values std) res (nldAxis x y w nx ny)
      (grid y w ny) (grid x w nx)
    (∀ z c, f z = some c → 0 ≤ c) ∧ f (T ++ nld) = some 0 ∧
    ∀ A B a : ℝ, 0 < A → 0 < B →
      f (osloTransform B a (grid y w ny) T ++ osloTransform A a (nldAxis x y w nx ny) nld) = some 0 := by
  intro f
  refine ⟨fun z c => errfun_nonneg _ _ _ _ _ _ (grid_pairwise y w ny h.hw) z c, h.truth_zero, ?_⟩
  intro A B a hA hB
  have l1 : (osloTransform B a (grid y w ny) T).length = T.length := by
    simp [osloTransform, h.lT]
  have pos : ∀ (C : ℝ) (E : List ℚ) (l : List ℝ), 0 < C → (∀ v ∈ l, 0 < v) → ∀ v ∈ osloTransform C a E l, 0 < v := by
    intro C E l hC hl v hv
    obtain ⟨k, hk, rfl⟩ := List.mem_iff_getElem.1 hv
    unfold osloTransform at hk ⊢
    rw [List.getElem_zipWith]
    rw [List.length_zipWith] at hk
    exact mul_pos (mul_pos hC (Real.exp_pos _)) (hl _ (List.getElem_mem (by omega)))
  have h0 := h.truth_zero
  unfold errfun at h0
  rw [if_neg] at h0
  swap
  · rintro ⟨v, hv, hneg⟩
    rcases List.mem_append.1 hv with hv | hv
    · exact absurd (h.pT v hv) (by linarith)
    · exact absurd (h.pn v hv) (by linarith)
  simp only [f]
  unfold errfun
  rw [if_neg]
  swap
  · rintro ⟨v, hv, hneg⟩
    rcases List.mem_append.1 hv with hv | hv
    · exact absurd (pos _ _ _ hB h.pT v hv) (by linarith)
    · exact absurd (pos _ _ _ hA h.pn v hv) (by linarith)
  have cut : ∀ a b : List ℝ, a.length = T.length →
      (a ++ b).drop (grid y w ny).length = b ∧ (a ++ b).take (grid y w ny).length = a := by
    intro a b ha
    rw [grid_length, ← h.lT, ← ha]
    simp
  rw [(cut _ _ rfl).1, (cut _ _ rfl).2] at h0
  rw [(cut _ _ l1).1, (cut _ _ l1).2,
    C33_invariant A B a hA.ne' hB.ne' (fun _ _ => true) x y w nx ny h.hw h.hx h.hy rfl res nld T _
      (C34_grid _ x y w nx ny h.hw h.hx h.hy rfl) (by rw [h.ln, grid_length]) h.lT]
  exact h0

/-- **C76.** What `decompose` refuses: negative counts, a missing or negative standard deviation, another shape,
different bin widths, and start values of another length. -/
theorem C76_refuses (e : FitEnv) (values s : List (List ℝ)) (Eg Ex : List ℚ) :
    ((∃ r ∈ values, ∃ q ∈ r, q < 0) → ∀ o, decompose e values o Eg Ex = .error .valueError) ∧
    ((∀ r ∈ values, ∀ q ∈ r, 0 ≤ q) → decompose e values none Eg Ex = .error .typeError ∧
      ((∃ r ∈ s, ∃ q ∈ r, q < 0) → decompose e values (some s) Eg Ex = .error .valueError) ∧
      ((∀ r ∈ s, ∀ q ∈ r, 0 ≤ q) → hasShape s Ex.length Eg.length = false →
        decompose e values (some s) Eg Ex = .error .assertion) ∧
      ((∀ r ∈ s, ∀ q ∈ r, 0 ≤ q) → hasShape s Ex.length Eg.length = true → values.length = s.length →
        (∀ r ∈ values, r.sum ≠ 0) →
        (2 ≤ Ex.length → 2 ≤ Eg.length → e.close (Ex.getD 1 0 - Ex.getD 0 0) (Eg.getD 1 0 - Eg.getD 0 0) = false →
          decompose e values (some s) Eg Ex = .error .assertion) ∧
        (∀ E, eNld e.close Ex Eg = .ok E →
          (e.start E (values.map fun r => r.map (· / r.sum))).length ≠ E.length + Eg.length →
          decompose e values (some s) Eg Ex = .error .assertion))) := by
  refine ⟨fun hneg o => ?_, fun hpos => ?_⟩
  · unfold decompose
    rw [if_pos hneg]
  have hv : ¬ ∃ r ∈ values, ∃ q ∈ r, q < 0 := by
    rintro ⟨r, hr, q, hq, h⟩
    exact absurd (hpos r hr q hq) (by linarith)
  have hs' : (∀ r ∈ s, ∀ q ∈ r, 0 ≤ q) → ¬ ∃ r ∈ s, ∃ q ∈ r, q < 0 := by
    rintro h0 ⟨r, hr, q, hq, h⟩
    exact absurd (h0 r hr q hq) (by linarith)
  refine ⟨?_, fun h => ?_, fun h0 hsh => ?_, fun h0 hsh hl hsum => ?_⟩
  · unfold decompose
    rw [if_neg hv]
  · unfold decompose
    rw [if_neg hv]
    simp only
    rw [if_pos h]
  · unfold decompose
    rw [if_neg hv]
    simp only
    rw [if_neg (hs' h0), if_pos hsh]
  · have base : decompose e values (some s) Eg Ex =
        fitPart e (values.map fun r => r.map (· / r.sum)) (sdOf values s) Eg Ex := by
      unfold decompose
      rw [if_neg hv]
      simp only
      rw [if_neg (hs' h0), if_neg (by rw [hsh]; simp), normalizeUnc_real _ _ hl hsum]
    rw [base]
    refine ⟨fun hx hy hc => ?_, fun E hE hlen => ?_⟩
    · unfold fitPart eNld
      rw [if_neg (by omega)]
      simp only [hc, Bool.not_false, if_true]
      rfl
    · unfold fitPart
      rw [hE]
      simp only [bind, Except.bind]
      rw [if_pos hlen]

/-- A perfect minimiser exists (by choice), so the hypothesis of `C76_recovers` can be met. -/
theorem perfectMinimizer_exists : ∃ m, PerfectMinimizer m := by
  classical
  refine ⟨fun f z => if h : ∃ b, b.length = z.length ∧ IsMinimum f b then h.choose else z, fun f z => ?_⟩
  by_cases h : ∃ b, b.length = z.length ∧ IsMinimum f b
  · simp only [dif_pos h]
    exact ⟨h.choose_spec.1, fun _ => h.choose_spec.2⟩
  · simp only [dif_neg h]
    exact ⟨by simp, fun h' => absurd h' h⟩

theorem smallEg : grid 1 1 3 = [1, 2, 3] := by decide +kernel
theorem smallEx : grid 2 1 2 = [2, 3] := by decide +kernel
theorem smallE : nldAxis 2 1 1 2 3 = [-1, 0, 1, 2] := by decide +kernel

theorem small_used (i j : ℕ) (hi : i < 2) (hj : j < 3) :
    usedEntry [0, 0] (grid 1 1 3) (grid 2 1 2) i j ↔ ¬ (i = 0 ∧ j = 2) := by
  rw [smallEg, smallEx]
  unfold usedEntry
  interval_cases i <;> interval_cases j <;> norm_num

theorem small_expected (n t : List ℝ) :
    let X := expectedCount n t [0, 0] (grid 1 1 3) (grid 2 1 2)
    X 0 0 = n.getD 2 0 * t.getD 0 0 ∧ X 0 1 = n.getD 1 0 * t.getD 1 0 ∧ X 0 2 = 0 ∧
    X 1 0 = n.getD 3 0 * t.getD 0 0 ∧ X 1 1 = n.getD 2 0 * t.getD 1 0 ∧ X 1 2 = n.getD 1 0 * t.getD 2 0 := by
  intro X
  have u := small_used
  refine ⟨?_, ?_, ?_, ?_, ?_, ?_⟩
  · simp only [X]
    unfold expectedCount
    rw [if_pos ((u 0 0 (by omega) (by omega)).2 (by omega)), grid_length]
  · simp only [X]
    unfold expectedCount
    rw [if_pos ((u 0 1 (by omega) (by omega)).2 (by omega)), grid_length]
  · simp only [X]
    unfold expectedCount
    rw [if_neg (by rw [u 0 2 (by omega) (by omega)]; simp)]
  · simp only [X]
    unfold expectedCount
    rw [if_pos ((u 1 0 (by omega) (by omega)).2 (by omega)), grid_length]
  · simp only [X]
    unfold expectedCount
    rw [if_pos ((u 1 1 (by omega) (by omega)).2 (by omega)), grid_length]
  · simp only [X]
    unfold expectedCount
    rw [if_pos ((u 1 2 (by omega) (by omega)).2 (by omega)), grid_length]

/-- Non-vacuity of C76: two rows, three gamma bins, one of them beyond the diagonal of the first row. -/
theorem smallCase : FitCase 2 1 1 2 3 [0, 0] [1, 1, 2, 2] [1, 1, 1] [[2, 1, 0], [2, 2, 1]]
    [[1, 1, 1], [1, 1, 1]] where
  hw := by norm_num
  hx := by norm_num
  hy := by norm_num
  lres := by simp
  ln := by simp
  lT := by simp
  pn := by intro v hv; simp at hv; rcases hv with rfl | rfl <;> norm_num
  pT := by intro v hv; simp at hv; rw [hv]; norm_num
  lv := by simp
  lrow := by intro r hr; simp at hr; rcases hr with rfl | rfl <;> rfl
  ls := by simp
  lsrow := by intro r hr; simp at hr; rw [hr]; rfl
  counts := by
    intro i hi
    obtain ⟨e1, e2, e3, e4, e5, e6⟩ := small_expected [1, 1, 2, 2] [1, 1, 1]
    refine ⟨1, one_pos, fun j hj => ?_⟩
    interval_cases i <;> interval_cases j
    · rw [e1]; norm_num
    · rw [e2]; norm_num
    · rw [e3]; norm_num
    · rw [e4]; norm_num
    · rw [e5]; norm_num
    · rw [e6]; norm_num
  snn := by intro r hr q hq; simp at hr; rw [hr] at hq; simp at hq; rw [hq]; norm_num
  spos := by
    intro i hi j hj _
    interval_cases i <;> interval_cases j <;> norm_num
  u1 := fun i hi => (small_used i 1 hi (by omega)).2 (by omega)
  u2 := (small_used 1 2 (by omega) (by omega)).2 (by omega)
  u3 := (small_used 0 1 (by omega) (by omega)).2 (by omega)

/-- `C76_recovers` applies to this case, with start values that are all 1. -/
example : ∃ (e : FitEnv) (out : FitOut),
    decompose e [[2, 1, 0], [2, 2, 1]] (some [[1, 1, 1], [1, 1, 1]]) (grid 1 1 3) (grid 2 1 2) = .ok out ∧
      out.nld.getD 0 none = none ∧ ∃ A B a : ℝ, 0 < A ∧ 0 < B ∧
        out.nld.getD 2 none = some (A * Real.exp a * 2) ∧
        out.gsf.getD 1 none = some (B * Real.exp (a * 2) * (1 / (2 * Real.pi * 2 ^ 3))) := by
  obtain ⟨m, hm⟩ := perfectMinimizer_exists
  refine ⟨⟨fun _ _ => true, fun _ _ => [0, 0], fun _ _ => List.replicate 7 1, m⟩, ?_⟩
  obtain ⟨out, h1, _, _, _, ⟨A, B, a, hA, hB, h2, h3⟩, _⟩ := C76_recovers
    ⟨fun _ _ => true, fun _ _ => [0, 0], fun _ _ => List.replicate 7 1, m⟩ smallCase rfl hm (by simp)
  refine ⟨out, h1, ?_, A, B, a, hA, hB, ?_, ?_⟩
  · rw [h3 0 (by omega), if_neg]
    rintro ⟨i, hi, j, hj, hu, hk⟩
    rw [small_used i j hi hj] at hu
    omega
  · rw [h3 2 (by omega), if_pos ⟨0, by omega, 0, by omega, (small_used 0 0 (by omega) (by omega)).2 (by omega), rfl⟩,
      smallE]
    norm_num
  · rw [h2 1 (by omega) (by rw [smallEg]; norm_num), smallEg]
    norm_num

/-- Rows of a candidate in the small case. -/
theorem small_rows (n t : List ℝ) (F : List (Option (List ℝ)))
    (hF : nldTProduct n t [0, 0] (nldAxis 2 1 1 2 3) (grid 1 1 3) (grid 2 1 2) = .ok F)
    (h0 : F.getD 0 none ≠ none) :
    ∃ f0 f1 : ℝ, F.getD 0 none = some [f0, f1, 0] ∧ f0 + f1 = 1 := by
  obtain ⟨_, rF⟩ := product_rows (x := 2) (y := 1) (w := 1) (nx := 2) (ny := 3) (by norm_num) n t F hF
  obtain ⟨e1, e2, e3, _, _, _⟩ := small_expected n t
  obtain ⟨row, r1, r2, r3, r4⟩ := (rF 0 (by omega)).2 fun hc => h0 ((rF 0 (by omega)).1 hc)
  have h2 := r4 2 (by omega)
  rw [e3, zero_div] at h2
  match row, r2 with
  | [a, b, c], _ =>
    simp at h2 r3
    subst h2
    exact ⟨a, b, r1, by simpa using r3⟩

/-- The same matrix with one count beyond the diagonal. -/
def spilled : List (List ℝ) := [[2, 1, 1], [2, 2, 1]]

def onesStd : List (List ℝ) := [[1, 1, 1], [1, 1, 1]]

theorem spilled_norm : spilled.map (fun r => r.map (· / r.sum)) = [[1/2, 1/4, 1/4], [2/5, 2/5, 1/5]] := by
  unfold spilled
  norm_num

theorem spilled_sd : binOf (sdOf spilled onesStd) 0 0 = Real.sqrt (3/64) ∧
    binOf (sdOf spilled onesStd) 0 1 = Real.sqrt (11/256) := by
  unfold spilled onesStd binOf sdOf rowVar
  constructor
  · simp only [List.zipWith_cons_cons, List.map_cons, List.getD_cons_zero]
    congr 1
    norm_num
  · simp only [List.zipWith_cons_cons, List.map_cons, List.getD_cons_zero, List.getD_cons_succ]
    congr 1
    norm_num

/-- Chi-square of a candidate is at least that of its first row. -/
theorem spilled_chi (F : List (Option (List ℝ))) (f0 f1 : ℝ) (h0 : F.getD 0 none = some [f0, f1, 0]) :
    (1/2 - f0) ^ 2 / (3/64) + (1/4 - f1) ^ 2 / (11/256) ≤
      chisquareDiagonal (spilled.map fun r => r.map (· / r.sum)) (F.map fun r => r.getD []) (sdOf spilled onesStd)
        [0, 0] (grid 1 1 3) (grid 2 1 2) := by
  rw [C35_diagonal_sum _ _ _ _ _ _ (grid_pairwise 1 1 3 (by norm_num)), grid_length, grid_length]
  have hF0 : (F.map fun r => r.getD []).getD 0 [] = [f0, f1, 0] := by
    have hl : 0 < F.length := by
      by_contra hc
      rw [List.getD_eq_default _ _ (by omega)] at h0
      simp at h0
    rw [getD_map' _ _ none [] hl, h0]
    rfl
  have s1 : Real.sqrt (3/64) ≠ 0 := (Real.sqrt_pos.2 (by norm_num)).ne'
  have s2 : Real.sqrt (11/256) ≠ 0 := (Real.sqrt_pos.2 (by norm_num)).ne'
  have t1 : binOf (F.map fun r => r.getD []) 0 0 = f0 := by unfold binOf; rw [hF0]; rfl
  have t2 : binOf (F.map fun r => r.getD []) 0 1 = f1 := by unfold binOf; rw [hF0]; rfl
  have v1 : binOf (spilled.map fun r => r.map (· / r.sum)) 0 0 = 1/2 := by rw [spilled_norm]; rfl
  have v2 : binOf (spilled.map fun r => r.map (· / r.sum)) 0 1 = 1/4 := by rw [spilled_norm]; rfl
  have nn : ∀ (p : Prop) [Decidable p] (q : ℝ), 0 ≤ (if p then q ^ 2 else 0) := by
    intro p _ q
    split_ifs
    · exact sq_nonneg _
    · exact le_refl _
  rw [Finset.sum_range_succ, Finset.sum_range_one, Finset.sum_range_succ, Finset.sum_range_succ, Finset.sum_range_one]
  rw [if_pos ⟨by rw [smallEg, smallEx]; norm_num, by rw [spilled_sd.1]; exact s1⟩,
    if_pos ⟨by rw [smallEg, smallEx]; norm_num, by rw [spilled_sd.2]; exact s2⟩, spilled_sd.1, spilled_sd.2, t1, t2, v1, v2,
    div_pow, div_pow, Real.sq_sqrt (by norm_num), Real.sq_sqrt (by norm_num)]
  have n1 := nn ((grid 1 1 3).getD 2 0 ≤ (grid 2 1 2).getD 0 0 + ([0, 0] : List ℚ).getD 0 0 ∧
    binOf (sdOf spilled onesStd) 0 2 ≠ 0) ((binOf (spilled.map fun r => r.map (· / r.sum)) 0 2 -
      binOf (F.map fun r => r.getD []) 0 2) / binOf (sdOf spilled onesStd) 0 2)
  have n2 : 0 ≤ ∑ j ∈ Finset.range 3, if (grid 1 1 3).getD j 0 ≤ (grid 2 1 2).getD 1 0 + ([0, 0] : List ℚ).getD 1 0 ∧
    binOf (sdOf spilled onesStd) 1 j ≠ 0 then ((binOf (spilled.map fun r => r.map (· / r.sum)) 1 j -
      binOf (F.map fun r => r.getD []) 1 j) / binOf (sdOf spilled onesStd) 1 j) ^ 2 else 0 :=
    Finset.sum_nonneg fun j _ => nn _ _
  linarith

theorem spilled_counts : countsV (spilled.map fun r => r.map (· / r.sum)) (grid 1 1 3) (grid 2 1 2) [0, 0] =
    ([0, 9/20, 9/10, 2/5], [9/10, 13/20, 1/5]) := by
  rw [spilled_norm, smallEg, smallEx]
  simp [countsV, traceOff, maskedV, Finset.sum_range_succ, List.range_succ]
  norm_num

/-- A candidate that does better on this matrix than the true functions. -/
theorem spilled_best : errfun (spilled.map fun r => r.map (· / r.sum)) (sdOf spilled onesStd) [0, 0]
    (nldAxis 2 1 1 2 3) (grid 1 1 3) (grid 2 1 2) [29, 34, 34, 1, 1, 2, 68/29] = some (16/23) := by
  unfold errfun
  rw [if_neg]
  swap
  · rintro ⟨v, hv, h⟩
    simp at hv
    rcases hv with rfl | rfl | rfl | rfl | rfl <;> norm_num at h
  rw [grid_length]
  obtain ⟨F, hF⟩ := product_ok (x := 2) (y := 1) (w := 1) (nx := 2) (ny := 3) (res := [0, 0]) (by norm_num)
    (by norm_num) (by norm_num) (by simp) [1, 1, 2, 68/29] [29, 34, 34] (by simp) (by simp)
  have e1 : List.drop 3 ([29, 34, 34, 1, 1, 2, 68/29] : List ℝ) = [1, 1, 2, 68/29] := rfl
  have e2 : List.take 3 ([29, 34, 34, 1, 1, 2, 68/29] : List ℝ) = [29, 34, 34] := rfl
  rw [e1, e2, hF]
  simp only
  obtain ⟨lF, rF⟩ := product_rows (x := 2) (y := 1) (w := 1) (nx := 2) (ny := 3) (by norm_num) _ _ F hF
  obtain ⟨x1, x2, x3, x4, x5, x6⟩ := small_expected [1, 1, 2, 68/29] [29, 34, 34]
  have r0 := (rF 0 (by omega)).2
  have r1 := (rF 1 (by omega)).2
  simp only [Finset.sum_range_succ, Finset.sum_range_zero, x1, x2, x3, x4, x5, x6] at r0 r1
  obtain ⟨a, a1, a2, _, a4⟩ := r0 (by norm_num)
  obtain ⟨b, b1, b2, _, b4⟩ := r1 (by norm_num)
  have a00 : a.getD 0 0 = 29/46 := by rw [a4 0 (by omega), x1]; norm_num
  have a01 : a.getD 1 0 = 17/46 := by rw [a4 1 (by omega), x2]; norm_num
  have b10 : b.getD 0 0 = 2/5 := by rw [b4 0 (by omega), x4]; norm_num
  have b11 : b.getD 1 0 = 2/5 := by rw [b4 1 (by omega), x5]; norm_num
  have b12 : b.getD 2 0 = 1/5 := by rw [b4 2 (by omega), x6]; norm_num
  unfold chiNaN
  rw [if_neg]
  swap
  · rintro ⟨i, hi, hn, _⟩
    rw [grid_length] at hi
    interval_cases i
    · rw [a1] at hn; simp at hn
    · rw [b1] at hn; simp at hn
  congr 1
  rw [C35_diagonal_sum _ _ _ _ _ _ (grid_pairwise 1 1 3 (by norm_num)), grid_length, grid_length]
  have g : ∀ i < 2, (F.map fun r => r.getD []).getD i [] = (F.getD i none).getD [] := by
    intro i hi
    rw [getD_map' _ _ none [] (by rw [lF]; exact hi)]
  have row1 : ∑ j ∈ Finset.range 3, (if (grid 1 1 3).getD j 0 ≤ (grid 2 1 2).getD 1 0 + ([0, 0] : List ℚ).getD 1 0 ∧
    binOf (sdOf spilled onesStd) 1 j ≠ 0 then ((binOf (spilled.map fun r => r.map (· / r.sum)) 1 j -
      binOf (F.map fun r => r.getD []) 1 j) / binOf (sdOf spilled onesStd) 1 j) ^ 2 else 0) = 0 := by
    apply Finset.sum_eq_zero
    intro j hj
    rw [Finset.mem_range] at hj
    have : binOf (spilled.map fun r => r.map (· / r.sum)) 1 j = binOf (F.map fun r => r.getD []) 1 j := by
      rw [spilled_norm]
      unfold binOf
      rw [g 1 (by omega), b1, Option.getD_some]
      interval_cases j
      · rw [b10]; norm_num
      · rw [b11]; norm_num
      · rw [b12]; norm_num
    rw [this, sub_self, zero_div]
    simp
  rw [Finset.sum_range_succ, Finset.sum_range_one, row1, Finset.sum_range_succ, Finset.sum_range_succ, Finset.sum_range_one]
  have s1 : Real.sqrt (3/64) ≠ 0 := (Real.sqrt_pos.2 (by norm_num)).ne'
  have s2 : Real.sqrt (11/256) ≠ 0 := (Real.sqrt_pos.2 (by norm_num)).ne'
  have t1 : binOf (F.map fun r => r.getD []) 0 0 = 29/46 := by
    unfold binOf; rw [g 0 (by omega), a1, Option.getD_some, a00]
  have t2 : binOf (F.map fun r => r.getD []) 0 1 = 17/46 := by
    unfold binOf; rw [g 0 (by omega), a1, Option.getD_some, a01]
  have v1 : binOf (spilled.map fun r => r.map (· / r.sum)) 0 0 = 1/2 := by rw [spilled_norm]; rfl
  have v2 : binOf (spilled.map fun r => r.map (· / r.sum)) 0 1 = 1/4 := by rw [spilled_norm]; rfl
  rw [if_pos ⟨by rw [smallEg, smallEx]; norm_num, by rw [spilled_sd.1]; exact s1⟩,
    if_pos ⟨by rw [smallEg, smallEx]; norm_num, by rw [spilled_sd.2]; exact s2⟩,
    if_neg (by rw [smallEg, smallEx]; norm_num), spilled_sd.1, spilled_sd.2, t1, t2, v1, v2,
    div_pow, div_pow, Real.sq_sqrt (by norm_num), Real.sq_sqrt (by norm_num)]
  norm_num

/-- **C76** fails when there are counts beyond the diagonal: the matrix is normalised over all gamma bins, the
product only over those up to the diagonal, so the true functions are not the best fit.  The first row of the true
product is `(2/3, 1/3, 0)`, and the counts of the matrix have exactly this ratio, but the result of every perfect
minimiser has the product `(29/46, 17/46, 0)`; as the transformations of C33 do not change the product, the result
is none of them. -/
theorem C76_spill_fails (m : (List ℝ → Option ℝ) → List ℝ → List ℝ) (hm : PerfectMinimizer m) :
    let e : FitEnv := ⟨fun _ _ => true, fun _ _ => [0, 0], fun _ _ => List.replicate 7 1, m⟩
    (∃ P, nldTProduct ([1, 1, 2, 2] : List ℝ) [1, 1, 1] [0, 0] (nldAxis 2 1 1 2 3) (grid 1 1 3) (grid 2 1 2) = .ok P ∧
      P.getD 0 none = some [2/3, 1/3, 0]) ∧
    ∃ out, decompose e spilled (some onesStd) (grid 1 1 3) (grid 2 1 2) = .ok out ∧
      out.product.getD 0 none = some [29/46, 17/46, 0] := by
  intro e
  constructor
  · obtain ⟨P, hP, hr⟩ := smallCase.truth
    refine ⟨P, hP, ?_⟩
    rw [(hr 0 (by omega)).2]
    norm_num
  have base : decompose e spilled (some onesStd) (grid 1 1 3) (grid 2 1 2) =
      fitPart e (spilled.map fun r => r.map (· / r.sum)) (sdOf spilled onesStd) (grid 1 1 3) (grid 2 1 2) := by
    unfold decompose
    rw [if_neg]
    swap
    · rintro ⟨r, hr, q, hq, h⟩
      unfold spilled at hr
      simp at hr
      rcases hr with rfl | rfl <;> simp at hq <;> rcases hq with rfl | rfl <;> norm_num at h
    simp only
    rw [if_neg, if_neg, normalizeUnc_real spilled onesStd rfl]
    · intro r hr
      unfold spilled at hr
      simp at hr
      rcases hr with rfl | rfl <;> norm_num
    · rw [grid_length, grid_length]
      simp [hasShape, onesStd]
    · rintro ⟨r, hr, q, hq, h⟩
      unfold onesStd at hr
      simp at hr
      rw [hr] at hq
      simp at hq
      rw [hq] at h
      norm_num at h
  rw [base]
  unfold fitPart
  rw [C34_grid e.close 2 1 1 2 3 (by norm_num) (by norm_num) (by norm_num) rfl]
  simp only [bind, Except.bind, pure, Except.pure]
  rw [if_neg (by rw [grid_length, grid_length]; simp [e])]
  set f := errfun (spilled.map fun r => r.map (· / r.sum)) (sdOf spilled onesStd)
    (e.resolution (grid 1 1 3) (grid 2 1 2)) (nldAxis 2 1 1 2 3) (grid 1 1 3) (grid 2 1 2) with hf
  have hst := hm f (List.replicate 7 1)
  set z := m f (List.replicate 7 1) with hz
  have hze : e.minimize f (e.start (nldAxis 2 1 1 2 3) (spilled.map fun r => r.map (· / r.sum))) = z := rfl
  have hres : e.resolution (grid 1 1 3) (grid 2 1 2) = [0, 0] := rfl
  rw [hres] at hf
  -- what an error below 10^20 means
  have low : ∀ q c, q.length = 7 → f q = some c → c < 10 ^ 20 → ∃ F f0 f1,
      nldTProduct (q.drop 3) (q.take 3) [0, 0] (nldAxis 2 1 1 2 3) (grid 1 1 3) (grid 2 1 2) = .ok F ∧
      F.getD 0 none = some [f0, f1, 0] ∧ f0 + f1 = 1 ∧
      (1/2 - f0) ^ 2 / (3/64) + (1/4 - f1) ^ 2 / (11/256) ≤ c := by
    intro q c lq hq hc
    rw [hf] at hq
    simp only [errfun] at hq
    split_ifs at hq with hneg
    · rw [Option.some.injEq] at hq
      rw [hq] at hc
      exact absurd hc (lt_irrefl _)
    rw [grid_length] at hq
    cases hp : nldTProduct (q.drop 3) (q.take 3) [0, 0] (nldAxis 2 1 1 2 3) (grid 1 1 3) (grid 2 1 2) with
    | error er => rw [hp] at hq; simp at hq
    | ok F =>
      rw [hp] at hq
      simp only [chiNaN] at hq
      split_ifs at hq with hnan
      rw [Option.some.injEq] at hq
      push Not at hnan
      have h0 : F.getD 0 none ≠ none := by
        intro hc0
        have := hnan 0 (by rw [grid_length]; omega) hc0 0 (by rw [grid_length]; omega)
          (by rw [smallEg, smallEx]; norm_num)
        have h2 := spilled_sd.1
        unfold binOf at h2
        rw [this] at h2
        exact (Real.sqrt_pos.2 (show (0 : ℝ) < 3/64 by norm_num)).ne h2
      obtain ⟨f0, f1, hrow, hone⟩ := small_rows _ _ F hp h0
      exact ⟨F, f0, f1, rfl, hrow, hone, by rw [← hq]; exact spilled_chi F f0 f1 hrow⟩
  have bound : ∀ f0 f1 : ℝ, f0 + f1 = 1 → 16/23 ≤ (1/2 - f0) ^ 2 / (3/64) + (1/4 - f1) ^ 2 / (11/256) := by
    intro f0 f1 h
    have : f1 = 1 - f0 := by linarith
    subst this
    nlinarith [sq_nonneg (f0 - 29/46)]
  have hmin : IsMinimum f z := by
    apply hst.2
    refine ⟨[29, 34, 34, 1, 1, 2, 68/29], by simp, 16/23, spilled_best, ?_⟩
    intro q c lq hq
    by_cases hc : c < 10 ^ 20
    · obtain ⟨F, f0, f1, _, _, h3, h4⟩ := low q c (by simpa using lq) hq hc
      exact (bound f0 f1 h3).trans h4
    · have : (16/23 : ℝ) ≤ 10 ^ 20 := by norm_num
      linarith
  have lz : z.length = 7 := by rw [hst.1]; simp
  obtain ⟨c, c1, c2⟩ := hmin
  have hc : c ≤ 16/23 := c2 [29, 34, 34, 1, 1, 2, 68/29] (16/23) (by rw [lz]; simp) spilled_best
  obtain ⟨F, f0, f1, hF, hrow, hone, hle⟩ := low z c lz c1 (lt_of_le_of_lt hc (by norm_num))
  have hf1 : f1 = 1 - f0 := by linarith
  subst hf1
  have hf0 : f0 = 29/46 := by
    have h1 : (f0 - 29/46) ^ 2 ≤ 0 := by nlinarith
    have h2 := pow_eq_zero_iff (two_ne_zero) |>.1 (le_antisymm h1 (sq_nonneg _))
    linarith
  subst hf0
  rw [hze, hres, spilled_counts, grid_length]
  have ln : (z.drop 3).length = 4 := by rw [List.length_drop, lz]
  have lt : (z.take 3).length = 3 := by rw [List.length_take, lz]; rfl
  have hprod : nldTProduct ((setNaN (z.drop 3) [0, 9/20, 9/10, 2/5]).map fun q => q.getD 0)
      ((setNaN (z.take 3) [9/10, 13/20, 1/5]).map fun q => q.getD 0) [0, 0] (nldAxis 2 1 1 2 3)
      (grid 1 1 3) (grid 2 1 2) = .ok F := by
    rw [← hF]
    apply product_congr (by norm_num)
    · simp [setNaN, ln]
    · simp [setNaN, lt]
    · intro i hi j hj hu
      rw [small_used i j hi hj] at hu
      match z.drop 3, ln, z.take 3, lt with
      | [a, b, c, d], _, [p, q, r], _ =>
        interval_cases i <;> interval_cases j <;> simp [setNaN] at hu ⊢
  unfold maskNaN
  dsimp only
  rw [if_pos (by rw [lt]; rfl), if_pos (by rw [ln]; rfl)]
  dsimp only
  rw [hprod]
  refine ⟨_, rfl, ?_⟩
  simp only
  rw [hrow]
  norm_num

end Fit

end Ompy
