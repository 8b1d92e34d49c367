import Verif.Extractor
import Verif.DecompositionProps
import Verif.LibraryProps
import Verif.FirstGenProps
import Mathlib.Analysis.SpecialFunctions.Log.Basic

/-!
# C33, C34, C36: the extractor
-/

namespace Ompy

theorem grid_pairwise (a w : ℚ) (n : ℕ) (hw : 0 < w) : (grid a w n).Pairwise (· < ·) := by
  rw [List.pairwise_iff_getElem]
  intro i j hi hj hij
  have h1 := grid_getD a w (n := n) (k := i) (by simpa using hi)
  have h2 := grid_getD a w (n := n) (k := j) (by simpa using hj)
  rw [List.getD_eq_getElem _ _ hi] at h1
  rw [List.getD_eq_getElem _ _ hj] at h2
  rw [h1, h2]
  have : (i : ℚ) < j := by exact_mod_cast hij
  nlinarith

theorem listMin_grid (a w : ℚ) (n : ℕ) (hw : 0 < w) : listMin (grid a w (n + 1)) = .ok a := by
  have hp := grid_pairwise a w (n + 1) hw
  have h0 := grid_getD a w (n := n + 1) (k := 0) (by omega)
  have hl := grid_length a w (n + 1)
  cases hg : grid a w (n + 1) with
  | nil => rw [hg] at hl; simp at hl
  | cons x xs =>
    rw [hg] at hp h0
    simp at h0
    rw [listMin, foldl_min_eq, h0]
    intro y hy
    exact ((List.pairwise_cons.1 hp).1 y hy).le

theorem listMax_grid (a w : ℚ) (n : ℕ) (hw : 0 < w) : listMax (grid a w (n + 1)) = .ok (a + w * n) := by
  have hp := grid_pairwise a w (n + 1) hw
  have h0 := grid_getD a w (n := n + 1) (k := n) (by omega)
  have hl := grid_length a w (n + 1)
  cases hg : grid a w (n + 1) with
  | nil => rw [hg] at hl; simp at hl
  | cons x xs =>
    rw [hg] at hp h0 hl
    rw [listMax, foldl_max_sorted _ _ (hp.imp le_of_lt), ← h0, List.getLast_eq_getElem,
      List.getD_eq_getElem _ _ (by rw [hl]; omega)]
    congr 2
    simp at hl ⊢
    omega

/-- **C34.** For axes with a common bin width the final-energy grid has one bin per diagonal:
`len(Ex) + len(Eg) - 1` bins of the same width that start at `min Ex - max Eg`. -/
theorem C34_grid (close : ℚ → ℚ → Bool) (x y w : ℚ) (nx ny : ℕ) (hw : 0 < w) (hx : 2 ≤ nx) (hy : 2 ≤ ny)
    (hc : close w w = true) :
    eNld close (grid x w nx) (grid y w ny) =
      .ok (grid (x - (y + w * ((ny : ℚ) - 1))) w (nx + ny - 1)) := by
  obtain ⟨p, rfl⟩ : ∃ p, nx = p + 1 := ⟨nx - 1, by omega⟩
  obtain ⟨q, rfl⟩ : ∃ q, ny = q + 1 := ⟨ny - 1, by omega⟩
  unfold eNld
  rw [if_neg (by simp; omega)]
  have d : ∀ (a : ℚ) (n : ℕ), 2 ≤ n → (grid a w n).getD 1 0 - (grid a w n).getD 0 0 = w := by
    intro a n hn
    rw [grid_getD _ _ (by omega), grid_getD _ _ (by omega)]
    push_cast
    ring
  rw [d _ _ hx, d _ _ hy]
  simp only [hc, Bool.not_true, Bool.false_eq_true, if_false, hw.ne', listMin_grid _ _ _ hw,
    listMax_grid _ _ _ hw, bind, Except.bind]
  have e1 : (x + w * (p : ℚ) - y - (x - (y + w * (q : ℚ)))) / w = ((p + q : ℕ) : ℤ) := by
    push_cast
    field_simp
    ring
  rw [e1, Int.ceil_intCast]
  have e2 : truncZ ((((p + q : ℕ) : ℤ) : ℚ)) = ((p + q : ℕ) : ℤ) := by
    unfold truncZ
    split_ifs <;> simp
  rw [e2]
  unfold linspaceZ
  rw [if_neg (by omega)]
  have e3 : ((((p + q : ℕ) : ℤ) + 1).toNat) = p + 1 + (q + 1) - 1 := by omega
  rw [e3, ← linspace_eq_grid]
  congr 2
  have : ((p + 1 + (q + 1) - 1 : ℕ) : ℚ) = p + q + 1 := by
    have : p + 1 + (q + 1) - 1 = p + q + 1 := by omega
    rw [this]
    push_cast
    ring
  · push_cast
    ring
  · have h4 : ((p + 1 + (q + 1) - 1 : ℕ) : ℚ) = p + q + 1 := by
      have : p + 1 + (q + 1) - 1 = p + q + 1 := by omega
      rw [this]
      push_cast
      ring
    rw [h4]
    push_cast
    ring

/-- **C34.** Every difference `Ex_i - Eg_j` is exactly the energy of bin `i + (len(Eg) - 1) - j` of this grid, and
the index search finds that bin. -/
theorem C34_index (x y w : ℚ) (nx ny : ℕ) (hw : 0 < w) {i j : ℕ} (hi : i < nx) (hj : j < ny) :
    let E := grid (x - (y + w * ((ny : ℚ) - 1))) w (nx + ny - 1)
    E.getD (i + (ny - 1) - j) 0 = (grid x w nx).getD i 0 - (grid y w ny).getD j 0 ∧
      i + (ny - 1) - j < E.length ∧
      index E ((grid x w nx).getD i 0 - (grid y w ny).getD j 0) = .ok (i + (ny - 1) - j) ∧
      indexD E ((grid x w nx).getD i 0 - (grid y w ny).getD j 0) = i + (ny - 1) - j := by
  intro E
  have hlen : i + (ny - 1) - j < nx + ny - 1 := by omega
  have he : E.getD (i + (ny - 1) - j) 0 = (grid x w nx).getD i 0 - (grid y w ny).getD j 0 := by
    rw [grid_getD _ _ hlen, grid_getD _ _ hi, grid_getD _ _ hj, Nat.cast_sub (by omega),
      Nat.cast_add, Nat.cast_sub (by omega)]
    push_cast
    ring
  have hidx : index E ((grid x w nx).getD i 0 - (grid y w ny).getD j 0) = .ok (i + (ny - 1) - j) := by
    rw [← he]
    exact index_hit (grid_pairwise _ _ _ hw) (by rw [grid_length]; exact hlen)
  refine ⟨he, by rw [grid_length]; exact hlen, hidx, ?_⟩
  unfold indexD
  rw [hidx]

theorem countsV_spec {α : Type} [Field α] (values : List (List α)) (Eg Ex res : List ℚ) (x y w : ℚ) (nx ny : ℕ)
    (hw : 0 < w) (hx : 1 ≤ nx) (hy : 1 ≤ ny) (hEx : Ex = grid x w nx) (hEg : Eg = grid y w ny) :
    let E := grid (x - (y + w * ((ny : ℚ) - 1))) w (nx + ny - 1)
    let used := fun i j => Eg.getD j 0 ≤
      Ex.getD i 0 + res.getD i 0 + (Eg.getD 1 0 - Eg.getD 0 0) / 2
    (countsV values Eg Ex res).1.length = E.length ∧ (countsV values Eg Ex res).2.length = ny ∧
    (∀ k < E.length, (countsV values Eg Ex res).1.getD k 0 =
      ∑ i ∈ Finset.range nx, ∑ j ∈ Finset.range ny,
        if used i j ∧ indexD E (Ex.getD i 0 - Eg.getD j 0) = k then (values.getD i []).getD j 0 else 0) ∧
    (∀ j < ny, (countsV values Eg Ex res).2.getD j 0 =
      ∑ i ∈ Finset.range nx, if used i j then (values.getD i []).getD j 0 else 0) := by
  intro E used
  have lx : Ex.length = nx := by rw [hEx, grid_length]
  have ly : Eg.length = ny := by rw [hEg, grid_length]
  have lE : E.length = nx + ny - 1 := grid_length _ _ _
  have hmask : ∀ i j, maskedV values Eg Ex res i j = if used i j then (values.getD i []).getD j 0 else 0 := by
    intro i j
    unfold maskedV
    simp only [used]
    by_cases h : Eg.getD j 0 ≤ Ex.getD i 0 + res.getD i 0 + (Eg.getD 1 0 - Eg.getD 0 0) / 2
    · rw [if_neg (not_lt.2 h), if_pos h]
    · rw [if_pos (not_le.1 h), if_neg h]
  refine ⟨by simp [countsV, lx, ly, lE], by simp [countsV, ly], ?_, ?_⟩
  · intro k hk
    rw [lE] at hk
    unfold countsV
    simp only [lx, ly]
    rw [List.getD_eq_getElem _ _ (by simpa using hk), List.getElem_reverse]
    simp only [List.length_map, List.length_range, List.getElem_map, List.getElem_range]
    unfold traceOff
    rw [lx, ly]
    apply Finset.sum_congr rfl
    intro i hi
    rw [Finset.mem_range] at hi
    have hd : (i : ℤ) + (-((nx : ℤ) - 1) + ((nx + ny - 1 - 1 - k : ℕ) : ℤ)) = i + (ny : ℤ) - 1 - k := by
      omega
    rw [hd]
    have hidx : ∀ j < ny, indexD E (Ex.getD i 0 - Eg.getD j 0) = i + (ny - 1) - j := by
      intro j hj
      rw [hEx, hEg]
      exact (C34_index x y w nx ny hw hi hj).2.2.2
    by_cases hin : 0 ≤ (i : ℤ) + (ny : ℤ) - 1 - k ∧ (i : ℤ) + (ny : ℤ) - 1 - k < ny
    · rw [if_pos hin, hmask, Finset.sum_eq_single (((i : ℤ) + (ny : ℤ) - 1 - k).toNat)]
      · have := hidx ((i : ℤ) + (ny : ℤ) - 1 - k).toNat (by omega)
        by_cases hu : used i ((i : ℤ) + (ny : ℤ) - 1 - k).toNat
        · rw [if_pos hu, if_pos ⟨hu, by rw [this]; omega⟩]
        · rw [if_neg hu, if_neg (by tauto)]
      · intro j hj hne
        rw [Finset.mem_range] at hj
        rw [if_neg]
        rintro ⟨_, h2⟩
        rw [hidx j hj] at h2
        omega
      · intro hnot
        exact absurd (Finset.mem_range.2 (by omega)) hnot
    · rw [if_neg hin]
      symm
      apply Finset.sum_eq_zero
      intro j hj
      rw [Finset.mem_range] at hj
      rw [if_neg]
      rintro ⟨_, h2⟩
      rw [hidx j hj] at h2
      omega
  · intro j hj
    unfold countsV
    simp only [lx, ly]
    rw [List.getD_eq_getElem _ _ (by simpa using hj)]
    simp only [List.getElem_map, List.getElem_range]
    exact Finset.sum_congr rfl fun i _ => hmask i j

/-- **C34.** `constraining_counts` gives for every final-energy bin the sum of exactly those matrix elements
whose product entry reads this bin of the level density, and for every gamma bin the sum of those that read this
bin of `T`. -/
theorem C34_counts (m : Mat) (res : List ℚ) (x y w : ℚ) (nx ny : ℕ) (hw : 0 < w) (hx : 1 ≤ nx) (hy : 1 ≤ ny)
    (hEx : m.Ex = grid x w nx) (hEg : m.Eg = grid y w ny) :
    let E := grid (x - (y + w * ((ny : ℚ) - 1))) w (nx + ny - 1)
    let used := fun i j => m.Eg.getD j 0 ≤
      m.Ex.getD i 0 + res.getD i 0 + (m.Eg.getD 1 0 - m.Eg.getD 0 0) / 2
    (constrainingCounts m res).1.length = E.length ∧ (constrainingCounts m res).2.length = ny ∧
    (∀ k < E.length, (constrainingCounts m res).1.getD k 0 =
      ∑ i ∈ Finset.range nx, ∑ j ∈ Finset.range ny,
        if used i j ∧ indexD E (m.Ex.getD i 0 - m.Eg.getD j 0) = k then at2 m.values i j else 0) ∧
    (∀ j < ny, (constrainingCounts m res).2.getD j 0 =
      ∑ i ∈ Finset.range nx, if used i j then at2 m.values i j else 0) := by
  exact countsV_spec m.values m.Eg m.Ex res x y w nx ny hw hx hy hEx hEg

/-- **C34** fails for the comment in `constraining_counts` (elements that are masked are those "not used in
chi2"): an element half a bin beyond `Ex + resolution` is counted but does not enter chi-square. -/
theorem C34_counted_unused_fails :
    let Ex : List ℚ := [2, 4]
    let Eg : List ℚ := [1, 3]
    let m : Mat := { values := [[5, 7], [1, 1]], Eg := Eg, Ex := Ex, std := none, state := none }
    (constrainingCounts m [0, 0]).1 = [7, 6, 1] ∧
      ∀ a b : ℚ, chisquareDiagonal [[5, a], [1, 1]] [[5, b], [1, 1]] [[1, 1], [1, 1]] [0, 0] Eg Ex = 0 := by
  refine ⟨by decide +kernel, fun a b => ?_⟩
  simp [chisquareDiagonal, chiDiagRow, List.range_succ]
  norm_num


/-- Non-vacuity of C34: `C34_counts` applies to a 2 x 3 matrix. -/
example :
    let m : Mat := { values := [[5, 7, 9], [1, 2, 3]], Eg := grid 2 2 3, Ex := grid 4 2 2, std := none,
                     state := none }
    constrainingCounts m [0, 0] = ([0, 10, 7, 1], [6, 9, 3]) := by
  decide +kernel

/-! ### C33: the Oslo transformation -/

section Oslo

open Classical in
theorem normRow_scale (c : ℝ) (hc : c ≠ 0) (r r' : List ℝ) (hl : r'.length = r.length)
    (h : ∀ k < r.length, r'.getD k 0 = c * r.getD k 0) : normRow r' = normRow r := by
  have hr : r' = r.map (c * ·) := by
    apply List.ext_getElem (by simp [hl])
    intro k h1 h2
    have := h k (by simpa using h2)
    rw [List.getD_eq_getElem _ _ h1, List.getD_eq_getElem _ _ (by simpa using h2)] at this
    simpa using this
  subst hr
  have hs : (r.map (c * ·)).sum = c * r.sum := by
    simpa using List.sum_map_mul_left (l := r) (f := fun x => x) (r := c)
  unfold normRow
  rw [hs]
  by_cases h0 : r.sum = 0
  · rw [if_pos h0, if_pos (by rw [h0, mul_zero])]
  · rw [if_neg h0, if_neg (mul_ne_zero hc h0)]
    congr 1
    rw [List.map_map]
    apply List.map_congr_left
    intro x _
    simp only [Function.comp]
    rw [mul_div_mul_left _ _ hc]

/-- The transformation: every value times `A exp(a E)`. -/
noncomputable def osloTransform (A a : ℝ) (E : List ℚ) (v : List ℝ) : List ℝ :=
  List.zipWith (fun (e : ℚ) (x : ℝ) => A * Real.exp (a * (e : ℝ)) * x) E v

theorem osloTransform_getD (A a : ℝ) (E : List ℚ) (v : List ℝ) (hl : v.length = E.length) {k : ℕ}
    (hk : k < E.length) :
    (osloTransform A a E v).getD k 0 = A * Real.exp (a * ((E.getD k 0 : ℚ) : ℝ)) * v.getD k 0 := by
  unfold osloTransform
  rw [List.getD_eq_getElem _ _ (by simp [hl]; exact hk), List.getD_eq_getElem _ _ hk,
    List.getD_eq_getElem _ _ (by omega), List.getElem_zipWith]

open Classical in
/-- **C33.** Multiplying the level density by `A exp(aE)` and the transmission coefficient by `B exp(a Eg)` does
not change the product matrix on the grid the extractor builds. -/
theorem C33_invariant (A B a : ℝ) (hA : A ≠ 0) (hB : B ≠ 0) (close : ℚ → ℚ → Bool) (x y w : ℚ) (nx ny : ℕ)
    (hw : 0 < w) (hx : 2 ≤ nx) (hy : 2 ≤ ny) (hc : close w w = true) (res : List ℚ) (nld T : List ℝ)
    (E : List ℚ) (hE : eNld close (grid x w nx) (grid y w ny) = .ok E) (hn : nld.length = E.length)
    (hT : T.length = ny) :
    nldTProduct (osloTransform A a E nld) (osloTransform B a (grid y w ny) T) res E (grid y w ny)
        (grid x w nx) =
      nldTProduct nld T res E (grid y w ny) (grid x w nx) := by
  rw [C34_grid close x y w nx ny hw hx hy hc, Except.ok.injEq] at hE
  have lg : (grid y w ny).length = ny := grid_length _ _ _
  have l1 : (osloTransform A a E nld).length = nld.length := by simp [osloTransform, hn]
  have l2 : (osloTransform B a (grid y w ny) T).length = T.length := by simp [osloTransform, hT]
  unfold nldTProduct
  rw [l1, l2]
  split_ifs
  · rfl
  congr 1
  apply List.ext_getElem (by simp [rawProduct])
  intro i h1 h2
  have hi : i < (grid x w nx).length := by simpa [rawProduct] using h1
  simp only [List.getElem_map]
  have row : ∀ n t : List ℝ, (rawProduct n t res E (grid y w ny) (grid x w nx)).getD i [] =
      (rawProduct n t res E (grid y w ny) (grid x w nx))[i]'(by simpa [rawProduct] using hi) :=
    fun n t => List.getD_eq_getElem _ _ _
  rw [← row, ← row]
  have len : ∀ n t : List ℝ,
      ((rawProduct n t res E (grid y w ny) (grid x w nx)).getD i []).length = ny := by
    intro n t
    rw [rawProduct_row _ _ _ _ _ _ hi, rowLoop_length, lg]
  apply normRow_scale (A * B * Real.exp (a * (((grid x w nx).getD i 0 : ℚ) : ℝ)))
    (mul_ne_zero (mul_ne_zero hA hB) (Real.exp_ne_zero _)) _ _ (by rw [len, len])
  intro k hk
  rw [len] at hk
  have hi' : i < nx := by simpa using hi
  have hidx := C34_index x y w nx ny hw hi' hk
  simp only at hidx
  rw [hE] at hidx
  obtain ⟨i1, i2, _, i4⟩ := hidx
  have ps := grid_pairwise y w ny hw
  rw [rawProduct_entry _ _ _ _ _ _ ps hi (by rw [lg]; exact hk),
    rawProduct_entry _ _ _ _ _ _ ps hi (by rw [lg]; exact hk)]
  split_ifs
  · rw [i4, osloTransform_getD _ _ _ _ hn i2, i1, osloTransform_getD _ _ _ _ (by rw [lg, hT])
      (by rw [lg]; exact hk)]
    have : Real.exp (a * (((grid x w nx).getD i 0 : ℚ) : ℝ)) =
        Real.exp (a * (((grid x w nx).getD i 0 - (grid y w ny).getD k 0 : ℚ) : ℝ)) *
          Real.exp (a * (((grid y w ny).getD k 0 : ℚ) : ℝ)) := by
      rw [← Real.exp_add]
      congr 1
      push_cast
      ring
    rw [this]
    ring
  · ring

/-- Entry `j` is used by row `i`: at most half a bin beyond the resolution limit. -/
def usedEntry (res Eg Ex : List ℚ) (i j : ℕ) : Prop :=
  Eg.getD j 0 ≤ Ex.getD i 0 + res.getD i 0 + (Eg.getD 1 0 - Eg.getD 0 0) / 2

theorem usedEntry_down {res Eg Ex : List ℚ} (hs : Eg.Pairwise (· < ·)) {i j k : ℕ} (hjk : j ≤ k)
    (hk : k < Eg.length) (h : usedEntry res Eg Ex i k) : usedEntry res Eg Ex i j := by
  unfold usedEntry at *
  rcases Nat.lt_or_eq_of_le hjk with hlt | rfl
  · exact (getD_strictMono hs hlt hk).le.trans h
  · exact h

open Classical in
/-- Equal rows of two products: the un-normalised entries agree up to a factor per row. -/
theorem product_ratio (x y w : ℚ) (nx ny : ℕ) (hw : 0 < w) (res : List ℚ) (nld T nld' T' : List ℝ)
    (hn : nld.length = nx + ny - 1) (hT : T.length = ny) (hn' : nld'.length = nx + ny - 1)
    (hT' : T'.length = ny) (pn : ∀ v ∈ nld, 0 < v) (pT : ∀ v ∈ T, 0 < v) (pn' : ∀ v ∈ nld', 0 < v)
    (pT' : ∀ v ∈ T', 0 < v) (P : List (Option (List ℝ)))
    (h1 : nldTProduct nld T res (grid (x - (y + w * ((ny : ℚ) - 1))) w (nx + ny - 1)) (grid y w ny)
      (grid x w nx) = .ok P)
    (h2 : nldTProduct nld' T' res (grid (x - (y + w * ((ny : ℚ) - 1))) w (nx + ny - 1)) (grid y w ny)
      (grid x w nx) = .ok P) (i : ℕ) (hi : i < nx) (h0 : usedEntry res (grid y w ny) (grid x w nx) i 0)
    (hny : 0 < ny) :
    ∃ h : ℝ, 0 < h ∧ ∀ j < ny, usedEntry res (grid y w ny) (grid x w nx) i j →
      nld'.getD (i + (ny - 1) - j) 0 * T'.getD j 0 = h * (nld.getD (i + (ny - 1) - j) 0 * T.getD j 0) := by
  have ps := grid_pairwise y w ny hw
  obtain ⟨_, r1⟩ := C32_rows nld T res _ _ _ ps P h1
  obtain ⟨_, r2⟩ := C32_rows nld' T' res _ _ _ ps P h2
  have hi' : i < (grid x w nx).length := by simpa using hi
  have lg : (grid y w ny).length = ny := grid_length _ _ _
  have s1 := (r1 i hi').2
  have s2 := (r2 i hi').2
  set Eg := grid y w ny with hEg
  set Ex := grid x w nx with hEx
  set E := grid (x - (y + w * ((ny : ℚ) - 1))) w (nx + ny - 1) with hEE
  have hidx : ∀ j < ny, indexD E (Ex.getD i 0 - Eg.getD j 0) = i + (ny - 1) - j :=
    fun j hj => (C34_index x y w nx ny hw hi hj).2.2.2
  have pos : ∀ n t : List ℝ, n.length = nx + ny - 1 → t.length = ny → (∀ v ∈ n, 0 < v) →
      (∀ v ∈ t, 0 < v) → ∀ j < ny, 0 < n.getD (i + (ny - 1) - j) 0 * t.getD j 0 := by
    intro n t ln lt pn pt j hj
    apply mul_pos
    · rw [List.getD_eq_getElem _ _ (by omega)]
      exact pn _ (List.getElem_mem _)
    · rw [List.getD_eq_getElem _ _ (by omega)]
      exact pt _ (List.getElem_mem _)
  have sumpos : ∀ n t : List ℝ, n.length = nx + ny - 1 → t.length = ny → (∀ v ∈ n, 0 < v) →
      (∀ v ∈ t, 0 < v) → 0 < ∑ k ∈ Finset.range Eg.length,
        (if Eg.getD k 0 ≤ Ex.getD i 0 + res.getD i 0 + (Eg.getD 1 0 - Eg.getD 0 0) / 2 then
          n.getD (indexD E (Ex.getD i 0 - Eg.getD k 0)) 0 * t.getD k 0 else 0) := by
    intro n t ln lt pn pt
    apply Finset.sum_pos'
    · intro k hk
      rw [Finset.mem_range, lg] at hk
      split_ifs
      · rw [hidx k hk]
        exact (pos n t ln lt pn pt k hk).le
      · exact le_refl _
    · refine ⟨0, Finset.mem_range.2 (by rw [lg]; exact hny), ?_⟩
      unfold usedEntry at h0
      rw [if_pos h0, hidx 0 hny]
      exact pos n t ln lt pn pt 0 hny
  have q1 := sumpos nld T hn hT pn pT
  have q2 := sumpos nld' T' hn' hT' pn' pT'
  obtain ⟨row, e1, _, _, v1⟩ := s1 q1.ne'
  obtain ⟨row', e2, _, _, v2⟩ := s2 q2.ne'
  rw [e1, Option.some.injEq] at e2
  subst e2
  set S := ∑ k ∈ Finset.range Eg.length,
        (if Eg.getD k 0 ≤ Ex.getD i 0 + res.getD i 0 + (Eg.getD 1 0 - Eg.getD 0 0) / 2 then
          nld.getD (indexD E (Ex.getD i 0 - Eg.getD k 0)) 0 * T.getD k 0 else 0) with hS
  set S' := ∑ k ∈ Finset.range Eg.length,
        (if Eg.getD k 0 ≤ Ex.getD i 0 + res.getD i 0 + (Eg.getD 1 0 - Eg.getD 0 0) / 2 then
          nld'.getD (indexD E (Ex.getD i 0 - Eg.getD k 0)) 0 * T'.getD k 0 else 0) with hS'
  refine ⟨S' / S, div_pos q2 q1, ?_⟩
  intro j hj hu
  have a1 := (v1 j (by rw [lg]; exact hj)).1
  have a2 := (v2 j (by rw [lg]; exact hj)).1
  unfold usedEntry at hu
  simp only at a1 a2
  rw [a1, if_pos hu, if_pos hu, hidx j hj, div_eq_div_iff q1.ne' q2.ne'] at a2
  rw [div_mul_eq_mul_div, eq_div_iff q1.ne', ← a2]
  ring

open Classical in
/-- **C33.** Conversely the transformation is the only freedom: if two positive solutions give the same product
matrix, and every row uses its first two gamma bins, the last row all of them and the one before all but at most
the last, then `T` differs by a factor `B exp(a Eg)` and the level density, in all bins that are used, by a factor
`A exp(aE)` with the same slope. -/
theorem C33_unique (x y w : ℚ) (nx ny : ℕ) (hw : 0 < w) (hx : 2 ≤ nx) (hy : 2 ≤ ny) (res : List ℚ)
    (nld T nld' T' : List ℝ)
    (hn : nld.length = nx + ny - 1) (hT : T.length = ny) (hn' : nld'.length = nx + ny - 1)
    (hT' : T'.length = ny) (pn : ∀ v ∈ nld, 0 < v) (pT : ∀ v ∈ T, 0 < v) (pn' : ∀ v ∈ nld', 0 < v)
    (pT' : ∀ v ∈ T', 0 < v) (P : List (Option (List ℝ)))
    (h1 : nldTProduct nld T res (grid (x - (y + w * ((ny : ℚ) - 1))) w (nx + ny - 1)) (grid y w ny)
      (grid x w nx) = .ok P)
    (h2 : nldTProduct nld' T' res (grid (x - (y + w * ((ny : ℚ) - 1))) w (nx + ny - 1)) (grid y w ny)
      (grid x w nx) = .ok P)
    (u1 : ∀ i < nx, usedEntry res (grid y w ny) (grid x w nx) i 1)
    (u2 : usedEntry res (grid y w ny) (grid x w nx) (nx - 1) (ny - 1))
    (u3 : usedEntry res (grid y w ny) (grid x w nx) (nx - 2) (ny - 2)) :
    ∃ A B a : ℝ, 0 < A ∧ 0 < B ∧
      (∀ j < ny, T'.getD j 0 = B * Real.exp (a * (((grid y w ny).getD j 0 : ℚ) : ℝ)) * T.getD j 0) ∧
      ∀ i < nx, ∀ j < ny, usedEntry res (grid y w ny) (grid x w nx) i j →
        let k := i + (ny - 1) - j
        nld'.getD k 0 = A * Real.exp (a * (((grid (x - (y + w * ((ny : ℚ) - 1))) w (nx + ny - 1)).getD k 0
          : ℚ) : ℝ)) * nld.getD k 0 := by
  have ps := grid_pairwise y w ny hw
  have lg : (grid y w ny).length = ny := grid_length _ _ _
  have down : ∀ {i j k : ℕ}, j ≤ k → k < ny → usedEntry res (grid y w ny) (grid x w nx) i k →
      usedEntry res (grid y w ny) (grid x w nx) i j :=
    fun hjk hk h => usedEntry_down ps hjk (by rw [lg]; exact hk) h
  have ratio := fun (i : ℕ) (hi : i < nx) => product_ratio x y w nx ny hw res nld T nld' T' hn hT hn' hT' pn pT
    pn' pT' P h1 h2 i hi (down (Nat.zero_le 1) (by omega) (u1 i hi)) (by omega)
  -- ratios
  have posn : ∀ l : List ℝ, (∀ v ∈ l, 0 < v) → ∀ k < l.length, 0 < l.getD k 0 := by
    intro l hl k hk
    rw [List.getD_eq_getElem _ _ hk]
    exact hl _ (List.getElem_mem _)
  let f : ℕ → ℝ := fun k => nld'.getD k 0 / nld.getD k 0
  let g : ℕ → ℝ := fun j => T'.getD j 0 / T.getD j 0
  have fpos : ∀ k < nx + ny - 1, 0 < f k := fun k hk =>
    div_pos (posn _ pn' k (by omega)) (posn _ pn k (by omega))
  have gpos : ∀ j < ny, 0 < g j := fun k hk =>
    div_pos (posn _ pT' k (by omega)) (posn _ pT k (by omega))
  have fg : ∀ i < nx, ∀ j < ny, ∀ j' < ny, usedEntry res (grid y w ny) (grid x w nx) i j →
      usedEntry res (grid y w ny) (grid x w nx) i j' →
      f (i + (ny - 1) - j) * g j = f (i + (ny - 1) - j') * g j' := by
    intro i hi j hj j' hj' hu hu'
    obtain ⟨h, _, hh⟩ := ratio i hi
    have key : ∀ q < ny, usedEntry res (grid y w ny) (grid x w nx) i q →
        f (i + (ny - 1) - q) * g q = h := by
      intro q hq huq
      have hpn := posn _ pn (i + (ny - 1) - q) (by omega)
      have hpT := posn _ pT q (by omega)
      simp only [f, g]
      rw [div_mul_div_comm, hh q hq huq, mul_div_assoc, div_self (mul_pos hpn hpT).ne', mul_one]
    rw [key j hj hu, key j' hj' hu']
  -- the constant ratio of neighbouring bins
  set c := g 1 / g 0 with hc
  have g0 := gpos 0 (by omega)
  have g1 := gpos 1 (by omega)
  have cpos : 0 < c := div_pos g1 g0
  have gstep : ∀ j, j + 1 < ny → g (j + 1) = c * g j := by
    intro j
    induction j with
    | zero => intro _; rw [hc]; field_simp
    | succ j ih =>
      intro hj
      have ihj := ih (by omega)
      have a1 := fg (nx - 1) (by omega) (j + 1) (by omega) (j + 2) hj (down (by omega) (by omega) u2)
        (down (by omega) (by omega) u2)
      have a2 := fg (nx - 2) (by omega) j (by omega) (j + 1) (by omega) (down (by omega) (by omega) u3)
        (down (by omega) (by omega) u3)
      have e1 : nx - 1 + (ny - 1) - (j + 1) = nx - 2 + (ny - 1) - j := by omega
      have e2 : nx - 1 + (ny - 1) - (j + 2) = nx - 2 + (ny - 1) - (j + 1) := by omega
      rw [e1, e2] at a1
      have f1 := fpos (nx - 2 + (ny - 1) - j) (by omega)
      have f2 := fpos (nx - 2 + (ny - 1) - (j + 1)) (by omega)
      set F := f (nx - 2 + (ny - 1) - j)
      set F' := f (nx - 2 + (ny - 1) - (j + 1))
      rw [ihj] at a1 a2 ⊢
      have gj := gpos j (by omega)
      have hF : F = F' * c := by
        have : F * g j = (F' * c) * g j := by rw [a2]; ring
        exact mul_right_cancel₀ gj.ne' this
      rw [hF] at a1
      have : F' * g (j + 1 + 1) = F' * (c * (c * g j)) := by rw [← a1]; ring
      exact mul_left_cancel₀ f2.ne' this
  have gpow : ∀ j < ny, g j = g 0 * c ^ j := by
    intro j
    induction j with
    | zero => intro _; simp
    | succ j ih => intro hj; rw [gstep j hj, ih (by omega), pow_succ]; ring
  have fstep : ∀ i, i + 1 < nx → f (i + 1 + (ny - 1)) = c * f (i + (ny - 1)) := by
    intro i hi
    have a := fg (i + 1) hi 0 (by omega) 1 (by omega) (down (Nat.zero_le 1) (by omega) (u1 _ hi)) (u1 _ hi)
    have e1 : i + 1 + (ny - 1) - 1 = i + (ny - 1) := by omega
    rw [e1, Nat.sub_zero, gpow 1 (by omega), pow_one] at a
    have : f (i + 1 + (ny - 1)) * g 0 = (c * f (i + (ny - 1))) * g 0 := by rw [a]; ring
    exact mul_right_cancel₀ g0.ne' this
  have fpow : ∀ i < nx, f (i + (ny - 1)) = f (ny - 1) * c ^ i := by
    intro i
    induction i with
    | zero => intro _; simp
    | succ i ih => intro hi; rw [fstep i hi, ih (by omega), pow_succ]; ring
  have fall : ∀ i < nx, ∀ j < ny, usedEntry res (grid y w ny) (grid x w nx) i j →
      f (i + (ny - 1) - j) * c ^ j = f (ny - 1) * c ^ i := by
    intro i hi j hj hu
    have a := fg i hi j hj 0 (by omega) hu (down (Nat.zero_le j) hj hu)
    rw [Nat.sub_zero, fpow i hi, gpow j hj] at a
    have : (f (i + (ny - 1) - j) * c ^ j) * g 0 = (f (ny - 1) * c ^ i) * g 0 := by rw [← a]; ring
    exact mul_right_cancel₀ g0.ne' this
  -- translate into exponentials
  have wR : (0 : ℝ) < (w : ℝ) := by exact_mod_cast hw
  set a := Real.log c / (w : ℝ) with ha
  have cexp : ∀ n : ℕ, c ^ n = Real.exp (a * ((w : ℝ) * n)) := by
    intro n
    rw [ha, show Real.log c / (w : ℝ) * ((w : ℝ) * n) = n * Real.log c by field_simp, Real.exp_nat_mul,
      Real.exp_log cpos]
  refine ⟨f (ny - 1) * Real.exp (-(a * ((x - y : ℚ) : ℝ))), g 0 * Real.exp (-(a * (y : ℝ))), a,
    mul_pos (fpos _ (by omega)) (Real.exp_pos _), mul_pos g0 (Real.exp_pos _), ?_, ?_⟩
  · intro j hj
    have hpT := posn _ pT j (by omega)
    have hg : T'.getD j 0 = g j * T.getD j 0 := by
      simp only [g]
      field_simp
    rw [hg, gpow j hj, cexp, grid_getD _ _ hj]
    congr 1
    rw [mul_assoc, ← Real.exp_add]
    congr 2
    push_cast
    ring
  · intro i hi j hj hu k
    have hk : k < nx + ny - 1 := by simp only [k]; omega
    have hpn := posn _ pn k (by omega)
    have hf : nld'.getD k 0 = f k * nld.getD k 0 := by
      simp only [f]
      field_simp
    have a1 := fall i hi j hj hu
    rw [hf, (C34_index x y w nx ny hw hi hj).1, grid_getD _ _ hi, grid_getD _ _ hj]
    congr 1
    rw [cexp, cexp] at a1
    have : f k = f (ny - 1) * Real.exp (a * ((w : ℝ) * i)) * Real.exp (-(a * ((w : ℝ) * j))) := by
      rw [← a1, mul_assoc, ← Real.exp_add, add_neg_cancel, Real.exp_zero, mul_one]
    rw [this, mul_assoc, mul_assoc, ← Real.exp_add, ← Real.exp_add]
    congr 2
    push_cast
    ring

/-- Non-vacuity of C33: 2 x 2 axes whose entries are all used, and a proper transformation. -/
example : (∀ i < 2, usedEntry [0, 0] (grid 1 1 2) (grid 3 1 2) i 1) ∧
    eNld (fun a b => a == b) (grid 3 1 2) (grid 1 1 2) = .ok [1, 2, 3] := by
  constructor
  · unfold usedEntry
    decide +kernel
  · decide +kernel

end Oslo

/-! ### C36: row normalisation -/

/-- **C36** (part that holds). A row with non-zero total is divided by it, hence sums to 1; a row that is zero
with zero uncertainties is left as it is. -/
theorem C36_rows_partial (row std : List ℚ) :
    (row.sum ≠ 0 → ∃ v s, normUncRow row std = .ok (v, s) ∧ v = row.map (· / row.sum) ∧ v.sum = 1) ∧
    (row.sum = 0 → (∀ x ∈ std, x = 0) → normUncRow row std = .ok (row, std.map fun _ => 0)) := by
  constructor
  · intro h
    refine ⟨row.map (· / row.sum), List.zipWith (fun x s => (1 / row.sum - x / row.sum ^ 2) ^ 2 * s ^ 2
      + (x / row.sum ^ 2) ^ 2 * ((std.map fun s => s ^ 2).sum - s ^ 2)) row std, ?_, rfl, ?_⟩
    · unfold normUncRow
      rw [if_neg (by tauto), if_neg (by tauto)]
    · rw [list_sum_div, div_self h]
  · intro h0 hs
    have hv : (std.map fun s => s ^ 2) = std.map fun _ => (0 : ℚ) := by
      apply List.map_congr_left
      intro x hx
      rw [hs x hx]
      norm_num
    have hz : (std.map fun _ => (0 : ℚ)).sum = 0 := by simp
    unfold normUncRow
    rw [hv, if_pos ⟨h0, hz⟩]

/-- **C36** (part that holds). If all rows have non-zero totals, the whole matrix is normalised. -/
theorem C36_matrix_partial (values std : List (List ℚ)) (hl : values.length = std.length)
    (h : ∀ r ∈ values, r.sum ≠ 0) :
    ∃ v s, normalizeUnc values (some std) = .ok (v, s) ∧ v = values.map fun r => r.map (· / r.sum) := by
  unfold normalizeUnc
  simp only [bind, Except.bind, pure, Except.pure]
  have key : ∀ (values std : List (List ℚ)), values.length = std.length → (∀ r ∈ values, r.sum ≠ 0) →
      ∃ rows, (List.zip values std).mapM (fun p => normUncRow p.1 p.2) = .ok rows ∧
        rows.map Prod.fst = values.map fun r => r.map (· / r.sum) := by
    intro values
    induction values with
    | nil => intro std _ _; exact ⟨[], by simp [pure, Except.pure], rfl⟩
    | cons r rs ih =>
      intro std hl h
      cases std with
      | nil => simp at hl
      | cons t ts =>
        obtain ⟨rows, e1, e2⟩ := ih ts (by simpa using hl) fun q hq => h q (by simp [hq])
        obtain ⟨v, s, f1, f2, _⟩ := (C36_rows_partial r t).1 (h r (by simp))
        refine ⟨(v, s) :: rows, ?_, ?_⟩
        · rw [List.zip_cons_cons, List.mapM_cons]
          simp only [f1, e1, bind, Except.bind, pure, Except.pure]
        · simp [e2, f2]
  obtain ⟨rows, e1, e2⟩ := key values std hl h
  refine ⟨rows.map Prod.fst, rows.map Prod.snd, ?_, e2⟩
  rw [e1]

/-- **C36** fails without a standard deviation, for every matrix without negative entries: TypeError. -/
theorem C36_without_std_fails (m : Mat) (hpos : ∀ r ∈ m.values, ∀ x ∈ r, 0 ≤ x) :
    (decomposeHead m none).2 = .error .typeError := by
  unfold decomposeHead
  rw [if_neg]
  rw [List.any_eq_true]
  rintro ⟨r, hr, h⟩
  rw [List.any_eq_true] at h
  obtain ⟨x, hx, h⟩ := h
  have := hpos r hr x hx
  simp at h
  linarith

/-- **C36** fails for a row without counts but with an uncertainty: division by zero. -/
theorem C36_zero_row_fails :
    normalizeUnc (α := ℚ) [[0, 0], [1, 3]] (some [[1, 0], [1, 1]]) = .error .undefined := by
  decide +kernel

/-- **C36** fails for the caller's matrix: after a successful normalisation it holds the normalised values. -/
theorem C36_input_mutated_fails :
    let m : Mat := { values := [[1, 3], [2, 2]], Eg := [1, 2], Ex := [1, 2], std := none, state := none }
    (decomposeHead m (some [[1, 1], [1, 1]])).1.values = [[1/4, 3/4], [1/2, 1/2]] := by
  decide +kernel

/-- **C36.** Negative entries, negative uncertainties and different shapes are refused and the caller's matrix is
then untouched. -/
theorem C36_refuses (m : Mat) (s : List (List ℚ)) :
    ((∃ r ∈ m.values, ∃ x ∈ r, x < 0) → ∀ s?, decomposeHead m s? = (m, .error .valueError)) ∧
    ((∀ r ∈ m.values, ∀ x ∈ r, 0 ≤ x) → (∃ r ∈ s, ∃ x ∈ r, x < 0) →
      decomposeHead m (some s) = (m, .error .valueError)) ∧
    ((∀ r ∈ m.values, ∀ x ∈ r, 0 ≤ x) → (∀ r ∈ s, ∀ x ∈ r, 0 ≤ x) →
      hasShape s m.values.length m.Eg.length = false → decomposeHead m (some s) = (m, .error .assertion)) := by
  have neg : ∀ v : List (List ℚ), (v.any fun r => r.any fun x => decide (x < 0)) = true ↔
      ∃ r ∈ v, ∃ x ∈ r, x < 0 := by
    intro v
    simp [List.any_eq_true]
  have nonneg : ∀ v : List (List ℚ), (∀ r ∈ v, ∀ x ∈ r, 0 ≤ x) →
      ¬ (v.any fun r => r.any fun x => decide (x < 0)) = true := by
    intro v hv
    rw [neg]
    rintro ⟨r, hr, x, hx, h⟩
    exact absurd (hv r hr x hx) (not_le.2 h)
  refine ⟨fun h s? => ?_, fun h1 h2 => ?_, fun h1 h2 h3 => ?_⟩
  · unfold decomposeHead
    rw [if_pos ((neg _).2 h)]
  · unfold decomposeHead
    rw [if_neg (nonneg _ h1)]
    simp only
    rw [if_pos ((neg _).2 h2)]
  · unfold decomposeHead
    rw [if_neg (nonneg _ h1)]
    simp only
    rw [if_neg (nonneg _ h2), if_pos h3]

end Ompy
