import Verif.EnsRebin
import Verif.MatrixRebinProps
import Verif.AveragesProps
import Mathlib.Analysis.MeanInequalities

/-!
# C82: rebinning an ensemble
-/

namespace Ompy

theorem rebin2D_same_rows (M : List (List ℚ)) (a w : ℚ) (n q : ℕ) (hn : 2 ≤ n) (hw : 0 < w)
    (hM : ∀ r ∈ M, r.length = n) : rebin2D M q (grid a w n) (grid a w n) 1 = .ok M := by
  unfold rebin2D
  simp only [ne_eq, one_ne_zero, not_false_eq_true, not_true_eq_false, and_false, if_false]
  rw [mapM_ok _ id _ fun r hr => by rw [C03_rebin_same_axis r a w n hn hw (hM r hr)]; rfl]
  simp

theorem rebin2D_same_cols (M : List (List ℚ)) (a w : ℚ) (n q : ℕ) (hn : 2 ≤ n) (hw : 0 < w)
    (hM : M.length = n) (hr : ∀ r ∈ M, r.length = q) : rebin2D M q (grid a w n) (grid a w n) 0 = .ok M := by
  rw [rebin2D_cols M a w a w n n hn hn hw hw hM]
  congr 1
  apply List.ext_getElem
  · simp [hM]
  · intro i h1 h2
    apply List.ext_getElem
    · simp [hr _ (List.getElem_mem h2)]
    · intro c h3 h4
      simp only [List.getElem_map, List.getElem_range]
      rw [Finset.sum_eq_single i]
      · rw [share_self a w hw, if_pos rfl, mul_one, List.getD_eq_getElem _ _ h2, List.getD_eq_getElem _ _ h4]
      · intro j _ hne
        rw [share_self a w hw, if_neg hne, mul_zero]
      · intro h
        rw [Finset.mem_range] at h
        omega

/-- Values of an array with rows along the axis `(a, w, nx)` and columns along `(a', w', ny)`. -/
def ArrayOn (M : List (List ℚ)) (nx ny : ℕ) : Prop := M.length = nx ∧ ∀ r ∈ M, r.length = ny

theorem grid_inj {a w b v : ℚ} {n m : ℕ} (hn : 2 ≤ n) (h : grid b v m = grid a w n) : b = a ∧ v = w ∧ m = n := by
  have hl : m = n := by simpa using congrArg List.length h
  subst hl
  have h0 := congrArg (fun l : List ℚ => l.getD 0 0) h
  have h1 := congrArg (fun l : List ℚ => l.getD 1 0) h
  simp only [grid_getD b v (show 0 < m by omega), grid_getD a w (show 0 < m by omega),
    grid_getD b v (show 1 < m by omega), grid_getD a w (show 1 < m by omega)] at h0 h1
  push_cast at h0 h1
  refine ⟨by linarith, by linarith, rfl⟩

theorem rebinWhere_grid (M : List (List ℚ)) (a w a' w' b v : ℚ) (nx ny m : ℕ) (hnx : 2 ≤ nx) (hny : 2 ≤ ny)
    (hm : 2 ≤ m) (hw : 0 < w) (hw' : 0 < w') (hv : 0 < v) (hM : ArrayOn M nx ny) :
    rebinWhere M (grid a w nx) (grid a' w' ny) (grid b v m) =
      .ok ((List.range m).map fun i : ℕ => (List.range m).map fun c : ℕ =>
        rebinnedEntry M a w b v a' w' b v nx ny i c) := by
  have e1 : rebinIf M (grid a' w' ny).length (grid a w nx) (grid b v m) 0 =
      rebin2D M ny (grid a w nx) (grid b v m) 0 := by
    unfold rebinIf
    by_cases h : grid b v m = grid a w nx
    · rw [if_neg (by simp [h])]
      obtain ⟨rfl, rfl, rfl⟩ := grid_inj hnx h
      rw [rebin2D_same_cols M _ _ _ ny hnx hw hM.1 hM.2]
    · rw [if_pos h, grid_length]
  unfold rebinWhere
  rw [e1, rebin2D_cols M a w b v nx m hnx hm hw hv hM.1]
  simp only [bind, Except.bind]
  set M1 := (List.range m).map fun i : ℕ => (List.range ny).map fun c : ℕ =>
        ∑ j ∈ Finset.range nx, (M.getD j []).getD c 0 * share a w b v i j with hM1
  have hr1 : ∀ r ∈ M1, r.length = ny := by
    intro r hr
    rw [hM1, List.mem_map] at hr
    obtain ⟨i, -, rfl⟩ := hr
    simp
  have e2 : rebinIf M1 (grid a' w' ny).length (grid a' w' ny) (grid b v m) 1 =
      rebin2D M1 ny (grid a' w' ny) (grid b v m) 1 := by
    unfold rebinIf
    by_cases h : grid b v m = grid a' w' ny
    · rw [if_neg (by simp [h])]
      obtain ⟨rfl, rfl, rfl⟩ := grid_inj hny h
      rw [rebin2D_same_rows M1 _ _ _ _ hny hw' hr1]
    · rw [if_pos h, grid_length]
  rw [e2, rebin2D_rows M1 a' w' b v ny m hny hm hw' hv hr1]
  congr 1
  rw [hM1, List.map_map]
  apply List.map_congr_left
  intro i hi
  simp only [Function.comp]
  apply List.map_congr_left
  intro c hc
  unfold rebinnedEntry
  have : ∀ k ∈ Finset.range ny, ((List.range ny).map fun c : ℕ =>
      ∑ j ∈ Finset.range nx, (M.getD j []).getD c 0 * share a w b v i j).getD k 0 * share a' w' b v c k =
      ∑ j ∈ Finset.range nx, (M.getD j []).getD k 0 * share a' w' b v c k * share a w b v i j := by
    intro k hk
    rw [getD_map_range _ (Finset.mem_range.1 hk), Finset.sum_mul]
    exact Finset.sum_congr rfl fun j _ => by ring
  rw [Finset.sum_congr rfl this, Finset.sum_comm]
  exact Finset.sum_congr rfl fun j _ => by rw [Finset.sum_mul]

/-- What a usable ensemble is: all members and `firstgen` are arrays over the axes of `firstgen`, and `std_firstgen`
holds, over the same axes, the standard deviation of the members in each bin. -/
structure EnsFg.Coherent (e : EnsFg) : Prop where
  members : ∀ M ∈ e.members, ArrayOn M e.firstgen.Ex.length e.firstgen.Eg.length
  firstgen : ArrayOn e.firstgen.values e.firstgen.Ex.length e.firstgen.Eg.length
  stdEx : e.std.Ex = e.firstgen.Ex
  stdEg : e.std.Eg = e.firstgen.Eg
  stdRows : e.std.values.length = e.firstgen.Ex.length
  stdCols : ∀ r ∈ e.std.values, r.length = e.firstgen.Eg.length
  std : ∀ i < e.firstgen.Ex.length, ∀ j < e.firstgen.Eg.length,
    0 ≤ (e.std.values.getD i []).getD j 0 ∧
    let xs := e.members.map fun M => (((M.getD i []).getD j 0 : ℚ) : ℝ)
    ((e.std.values.getD i []).getD j 0) ^ 2 * xs.length = (xs.map fun x => (x - xs.sum / xs.length) ^ 2).sum

theorem ensSd_sq (l : List ℝ) : 0 ≤ ensSd l ∧ ensSd l ^ 2 * l.length = (l.map fun x => (x - l.sum / l.length) ^ 2).sum := by
  have hnn : 0 ≤ (l.map fun x => (x - l.sum / l.length) ^ 2).sum := by
    apply List.sum_nonneg
    intro y hy
    obtain ⟨x, -, rfl⟩ := List.mem_map.1 hy
    positivity
  refine ⟨Real.sqrt_nonneg _, ?_⟩
  unfold ensSd meanOf
  rw [List.length_map, Real.sq_sqrt (by positivity)]
  rcases Nat.eq_zero_or_pos l.length with h | h
  · rw [List.length_eq_zero_iff] at h; subst h; simp
  · have : (l.length : ℝ) ≠ 0 := by positivity
    rw [div_mul_cancel₀ _ this]

theorem stdOver_getD (ms : List (List (List ℚ))) {nr nc i j : ℕ} (hi : i < nr) (hj : j < nc) :
    ((stdOver ms nr nc).getD i []).getD j 0 = ensSd (ms.map fun M => (((M.getD i []).getD j 0 : ℚ) : ℝ)) := by
  unfold stdOver
  rw [List.getD_eq_getElem _ [] (by simpa using hi)]
  simp only [List.getElem_map, List.getElem_range]
  rw [List.getD_eq_getElem _ _ (by simpa using hj)]
  simp only [List.getElem_map, List.getElem_range]

theorem coherent_new (ms : List (List (List ℚ))) (g : Mat) (fm : List Mat) (ff : Mat) (fs : StdMat)
    (h1 : ∀ M ∈ ms, ArrayOn M g.Ex.length g.Eg.length) (h2 : ArrayOn g.values g.Ex.length g.Eg.length) :
    EnsFg.Coherent ⟨ms, g, ⟨stdOver ms g.Ex.length g.Eg.length, g.Eg, g.Ex⟩, fm, ff, fs⟩ := by
  refine ⟨h1, h2, rfl, rfl, by simp [stdOver], ?_, ?_⟩
  · intro r hr
    simp only [stdOver, List.mem_map] at hr
    obtain ⟨i, -, rfl⟩ := hr
    simp
  · intro i hi j hj
    simp only [stdOver_getD ms hi hj]
    exact ensSd_sq _

theorem rebinned_array (M : List (List ℚ)) (a w a' w' b v : ℚ) (nx ny m : ℕ) :
    ArrayOn ((List.range m).map fun i : ℕ => (List.range m).map fun c : ℕ =>
        rebinnedEntry M a w b v a' w' b v nx ny i c) m m := by
  refine ⟨by simp, ?_⟩
  intro r hr
  rw [List.mem_map] at hr
  obtain ⟨i, -, rfl⟩ := hr
  simp

theorem rebinned_getD (M : List (List ℚ)) (a w a' w' b v : ℚ) (nx ny m : ℕ) {i c : ℕ} (hi : i < m) (hc : c < m) :
    ((((List.range m).map fun i : ℕ => (List.range m).map fun c : ℕ =>
        rebinnedEntry M a w b v a' w' b v nx ny i c)).getD i []).getD c 0 =
      rebinnedEntry M a w b v a' w' b v nx ny i c := by
  rw [List.getD_eq_getElem _ [] (by simpa using hi)]
  simp only [List.getElem_map, List.getElem_range]
  rw [getD_map_range _ hc]

/-- On its own axes an array keeps its values. -/
theorem rebinnedEntry_same (M : List (List ℚ)) (a w : ℚ) (n : ℕ) (hn : 2 ≤ n) (hw : 0 < w)
    (hM : ArrayOn M n n) : (List.range n).map (fun i : ℕ => (List.range n).map fun c : ℕ =>
        rebinnedEntry M a w a w a w a w n n i c) = M := by
  have := rebinWhere_grid M a w a w a w n n n hn hn hn hw hw hw hM
  unfold rebinWhere rebinIf at this
  rw [if_neg (by simp)] at this
  simp only [bind, Except.bind] at this
  rw [if_neg (by simp)] at this
  injection this with this
  exact this.symm

/-- **C82.** `rebin` of a usable ensemble with equidistant axes, to any equidistant axis and whether or not one or both of the
axes are the new one already: it succeeds, the number and order of the members are kept, each new bin of each
member and of `firstgen` holds the shares of the old bins along both axes, both axes are the new one, and the standard
deviations are those of the new members. -/
theorem C82_rebin (e : EnsFg) (he : e.Coherent) (a w a' w' b v : ℚ) (nx ny m : ℕ) (hnx : 2 ≤ nx) (hny : 2 ≤ ny)
    (hm : 2 ≤ m) (hw : 0 < w) (hw' : 0 < w') (hv : 0 < v) (hEx : e.firstgen.Ex = grid a w nx)
    (hEg : e.firstgen.Eg = grid a' w' ny) :
    ∃ e', e.rebin (grid b v m) "firstgen" = (e', .ok ()) ∧ e'.Coherent ∧
      e'.firstgen.Ex = grid b v m ∧ e'.firstgen.Eg = grid b v m ∧ e'.members.length = e.members.length ∧
      (∀ k < e.members.length, ∀ i < m, ∀ c < m, ((e'.members.getD k []).getD i []).getD c 0 =
        rebinnedEntry (e.members.getD k []) a w b v a' w' b v nx ny i c) ∧
      (∀ i < m, ∀ c < m, (e'.firstgen.values.getD i []).getD c 0 =
        rebinnedEntry e.firstgen.values a w b v a' w' b v nx ny i c) := by
  have hmem := he.members
  have hfg := he.firstgen
  rw [hEx, hEg, grid_length, grid_length] at hmem hfg
  by_cases hsame : grid b v m = e.firstgen.Ex ∧ grid b v m = e.firstgen.Eg
  · refine ⟨e, ?_, he, hsame.1.symm, hsame.2.symm, rfl, ?_⟩
    · unfold EnsFg.rebin
      rw [if_neg (by simp), if_pos hsame]
    · rw [hEx, hEg] at hsame
      obtain ⟨rfl, rfl, rfl⟩ := grid_inj hnx hsame.1
      obtain ⟨rfl, rfl, rfl⟩ := grid_inj hny hsame.2
      have key : ∀ M, ArrayOn M m m → ∀ i < m, ∀ c < m, (M.getD i []).getD c 0 =
          rebinnedEntry M b v b v b v b v m m i c := by
        intro M hM i hi c hc
        conv_lhs => rw [← rebinnedEntry_same M b v m hm hv hM]
        exact rebinned_getD M b v b v b v m m m hi hc
      refine ⟨?_, key _ hfg⟩
      intro k hk
      exact key _ (hmem _ (by rw [List.getD_eq_getElem _ _ hk]; exact List.getElem_mem _))
  · have h1 := mapM_ok (fun M => rebinWhere M e.firstgen.Ex e.firstgen.Eg (grid b v m))
      (fun M => (List.range m).map fun i : ℕ => (List.range m).map fun c : ℕ =>
        rebinnedEntry M a w b v a' w' b v nx ny i c) e.members (by
        intro M hM
        rw [hEx, hEg]
        exact rebinWhere_grid M a w a' w' b v nx ny m hnx hny hm hw hw' hv (hmem M hM))
    have h2 := rebinWhere_grid e.firstgen.values a w a' w' b v nx ny m hnx hny hm hw hw' hv hfg
    rw [← hEx, ← hEg] at h2
    set ms := e.members.map fun M => (List.range m).map fun i : ℕ => (List.range m).map fun c : ℕ =>
        rebinnedEntry M a w b v a' w' b v nx ny i c with hms
    set vs := (List.range m).map fun i : ℕ => (List.range m).map fun c : ℕ =>
        rebinnedEntry e.firstgen.values a w b v a' w' b v nx ny i c with hvs
    refine ⟨⟨ms, ⟨vs, grid b v m, grid b v m, none, none⟩,
      ⟨stdOver ms (grid b v m).length (grid b v m).length, grid b v m, grid b v m⟩, e.fileMembers, e.fileFirstgen,
      ⟨stdOver ms (grid b v m).length (grid b v m).length, grid b v m, grid b v m⟩⟩, ?_, ?_, rfl, rfl, by simp [hms], ?_, ?_⟩
    · unfold EnsFg.rebin
      rw [if_neg (by simp), if_neg hsame]
      simp only [h1, h2]
    · exact coherent_new ms ⟨vs, grid b v m, grid b v m, none, none⟩ e.fileMembers e.fileFirstgen _
        (by
          intro M hM
          obtain ⟨M', -, rfl⟩ := List.mem_map.1 hM
          simpa using rebinned_array M' a w a' w' b v nx ny m)
        (by simpa using rebinned_array e.firstgen.values a w a' w' b v nx ny m)
    · intro k hk i hi c hc
      simp only
      rw [List.getD_eq_getElem ms [] (by simpa [hms] using hk), List.getD_eq_getElem e.members [] hk]
      simp only [hms, List.getElem_map]
      exact rebinned_getD _ a w a' w' b v nx ny m hi hc
    · intro i hi c hc
      exact rebinned_getD _ a w a' w' b v nx ny m hi hc


/-- **C82.** No counts are lost or created in any member if the new axis covers both old ones. -/
theorem C82_conserves (e : EnsFg) (he : e.Coherent) (a w a' w' b v : ℚ) (nx ny m : ℕ) (hnx : 2 ≤ nx) (hny : 2 ≤ ny)
    (hm : 2 ≤ m) (hw : 0 < w) (hw' : 0 < w') (hv : 0 < v) (hEx : e.firstgen.Ex = grid a w nx)
    (hEg : e.firstgen.Eg = grid a' w' ny) (hc : axisSet a w nx ⊆ axisSet b v m)
    (hc' : axisSet a' w' ny ⊆ axisSet b v m) :
    ∃ e', e.rebin (grid b v m) "firstgen" = (e', .ok ()) ∧
      ∀ k < e.members.length, matSum (e'.members.getD k []) = matSum (e.members.getD k []) := by
  obtain ⟨e', h1, h2, h3, h4, h5, h6, -⟩ := C82_rebin e he a w a' w' b v nx ny m hnx hny hm hw hw' hv hEx hEg
  refine ⟨e', h1, ?_⟩
  intro k hk
  set M := e.members.getD k [] with hM
  have hA : ArrayOn M nx ny := by
    have := he.members M (by rw [hM, List.getD_eq_getElem _ _ hk]; exact List.getElem_mem _)
    simpa [hEx, hEg] using this
  have hA' : ArrayOn (e'.members.getD k []) m m := by
    have := h2.members (e'.members.getD k [])
      (by rw [List.getD_eq_getElem _ _ (by rw [h5]; exact hk)]; exact List.getElem_mem _)
    simpa [h3, h4] using this
  obtain ⟨o1, ho1, hs1⟩ := C04_cols_conserve M a w b v nx m ny hnx hm hw hv hA.1 hA.2 hc
  have hr := rebin2D_cols M a w b v nx m hnx hm hw hv hA.1 ny
  rw [ho1] at hr
  injection hr with hr
  have hr1 : ∀ r ∈ o1, r.length = ny := by
    intro r h
    rw [hr, List.mem_map] at h
    obtain ⟨i, -, rfl⟩ := h
    simp
  obtain ⟨o2, ho2, hs2⟩ := C04_rows_conserve o1 a' w' b v ny m hny hm hw' hv hr1 hc'
  rw [← hs1, ← hs2]
  have hw1 : rebinWhere M (grid a w nx) (grid a' w' ny) (grid b v m) = .ok o2 := by
    unfold rebinWhere
    have e1 : rebinIf M (grid a' w' ny).length (grid a w nx) (grid b v m) 0 = .ok o1 := by
      unfold rebinIf
      by_cases h : grid b v m = grid a w nx
      · rw [if_neg (by simp [h])]
        obtain ⟨rfl, rfl, rfl⟩ := grid_inj hnx h
        rw [rebin2D_same_cols M _ _ _ ny hnx hw hA.1 hA.2] at ho1
        exact ho1
      · rw [if_pos h, grid_length, ho1]
    have e2 : rebinIf o1 (grid a' w' ny).length (grid a' w' ny) (grid b v m) 1 = .ok o2 := by
      unfold rebinIf
      by_cases h : grid b v m = grid a' w' ny
      · rw [if_neg (by simp [h])]
        obtain ⟨rfl, rfl, rfl⟩ := grid_inj hny h
        rw [rebin2D_same_rows o1 _ _ _ _ hny hw' hr1] at ho2
        exact ho2
      · rw [if_pos h, grid_length, ho2]
    simp only [bind, Except.bind, e1, e2]
  rw [rebinWhere_grid M a w a' w' b v nx ny m hnx hny hm hw hw' hv hA] at hw1
  injection hw1 with hw1
  have ho : e'.members.getD k [] = o2 := by
    rw [← hw1]
    apply List.ext_getElem
    · rw [hA'.1]; simp
    · intro i p1 p2
      have hi : i < m := by rw [← hA'.1]; exact p1
      apply List.ext_getElem
      · rw [hA'.2 _ (List.getElem_mem p1)]; simp
      · intro c p3 p4
        have hcm : c < m := by rw [← hA'.2 _ (List.getElem_mem p1)]; exact p3
        have := h6 k hk i hi c hcm
        rw [List.getD_eq_getElem _ _ p1, List.getD_eq_getElem _ _ p3] at this
        rw [this]
        simp only [List.getElem_map, List.getElem_range]
        rfl
  rw [ho]

/-- **C82.** Anything but `firstgen` is refused, as is an object without ensemble; a second call with the same axis, and
any call that raises, changes nothing. -/
theorem C82_refused (e : EnsFg) (out : List ℚ) (member : String) :
    (member ≠ "firstgen" → e.rebin out member = (e, .error .notImplemented) ∧
      ensRebin none out member = (none, .error .notImplemented)) ∧
    ensRebin none out "firstgen" = (none, .error .attributeError) ∧
    ((e.rebin out member).2 = .ok () →
      (e.rebin out member).1.rebin out member = ((e.rebin out member).1, .ok ())) ∧
    (∀ err, (e.rebin out member).2 = .error err → (e.rebin out member).1 = e) := by
  refine ⟨?_, by simp [ensRebin], ?_, ?_⟩
  · intro h
    exact ⟨by unfold EnsFg.rebin; rw [if_pos h], by simp [ensRebin, h]⟩
  · intro h
    by_cases hm : member = "firstgen"
    · unfold EnsFg.rebin at h ⊢
      rw [if_neg (not_not.2 hm)] at h ⊢
      by_cases hs : out = e.firstgen.Ex ∧ out = e.firstgen.Eg
      · rw [if_pos hs, if_neg (not_not.2 hm), if_pos hs]
      · rw [if_neg hs] at h ⊢
        cases h1 : e.members.mapM fun M => rebinWhere M e.firstgen.Ex e.firstgen.Eg out with
        | error err => rw [h1] at h; simp at h
        | ok ms =>
          rw [h1] at h
          simp only at h ⊢
          cases h2 : rebinWhere e.firstgen.values e.firstgen.Ex e.firstgen.Eg out with
          | error err => rw [h2] at h; simp at h
          | ok v => simp only [hm, ne_eq, not_true_eq_false, if_false, true_and, if_true]
    · unfold EnsFg.rebin at h
      rw [if_pos hm] at h
      simp at h
  · intro err h
    unfold EnsFg.rebin at h ⊢
    by_cases h1 : member ≠ "firstgen"
    · rw [if_pos h1]
    · rw [if_neg h1] at h ⊢
      by_cases h2 : out = e.firstgen.Ex ∧ out = e.firstgen.Eg
      · rw [if_pos h2]
      rw [if_neg h2] at h ⊢
      cases h3 : e.members.mapM fun M => rebinWhere M e.firstgen.Ex e.firstgen.Eg out with
      | error err => rfl
      | ok ms =>
        rw [h3] at h
        simp only at h ⊢
        cases h4 : rebinWhere e.firstgen.values e.firstgen.Ex e.firstgen.Eg out with
        | error err => rfl
        | ok v => rw [h4] at h; simp at h

/-- The files hold what the object holds, as after `generate` or `load`. -/
def EnsFg.Stored (e : EnsFg) : Prop :=
  e.fileMembers.map Mat.values = e.members ∧ e.fileFirstgen = e.firstgen ∧ e.fileStd = e.std

/-- **C82 (disagreement).** `rebin` saves the new standard deviations but neither the members nor `firstgen`: if the object agreed
with its files and `rebin` changed anything, `load` gives the old members together with the standard deviations of
the new ones, on another axis. -/
theorem C82_reload_fails (e e' : EnsFg) (out : List ℚ) (hs : e.Stored)
    (h : e.rebin out "firstgen" = (e', .ok ())) (hne : ¬ (out = e.firstgen.Ex ∧ out = e.firstgen.Eg)) :
    e'.reload.members = e.members ∧ e'.reload.firstgen = e.firstgen ∧ e'.reload.std.Ex = out ∧
      e'.reload.std.Eg = out ∧ ¬ e'.reload.Coherent := by
  obtain ⟨hs1, hs2, hs3⟩ := hs
  unfold EnsFg.rebin at h
  rw [if_neg (by simp), if_neg hne] at h
  cases h1 : e.members.mapM fun M => rebinWhere M e.firstgen.Ex e.firstgen.Eg out with
  | error err => rw [h1] at h; simp at h
  | ok ms =>
    rw [h1] at h
    simp only at h
    cases h2 : rebinWhere e.firstgen.values e.firstgen.Ex e.firstgen.Eg out with
    | error err => rw [h2] at h; simp at h
    | ok v =>
      rw [h2] at h
      simp only [Prod.mk.injEq, and_true] at h
      subst h
      refine ⟨hs1, hs2, rfl, rfl, ?_⟩
      intro hc
      apply hne
      have c1 := hc.stdEx
      have c2 := hc.stdEg
      simp only [EnsFg.reload, hs2] at c1 c2
      exact ⟨c1, c2⟩

/-! ### Uncertainty of the new bins -/

theorem ensSd_map {α : Type} (l : List α) (f : α → ℝ) :
    ensSd (l.map f) = Real.sqrt (∑ i : Fin l.length, (f l[i] - meanOf (l.map f)) ^ 2) / Real.sqrt l.length := by
  have h : ∀ g : α → ℝ, (l.map g).sum = ∑ i : Fin l.length, g l[i] := fun g =>
    (Fin.sum_univ_fun_getElem l g).symm
  unfold ensSd
  rw [← Real.sqrt_div' _ (by positivity)]
  congr 1
  conv_lhs => rw [meanOf, List.length_map, List.length_map, List.map_map, h]
  rfl

theorem meanOf_add {α : Type} (l : List α) (f g : α → ℝ) :
    meanOf (l.map fun x => f x + g x) = meanOf (l.map f) + meanOf (l.map g) := by
  simp only [meanOf, List.length_map, List.sum_map_add]
  rw [add_div]

theorem meanOf_smul {α : Type} (l : List α) (c : ℝ) (f : α → ℝ) :
    meanOf (l.map fun x => c * f x) = c * meanOf (l.map f) := by
  simp only [meanOf, List.length_map, List.sum_map_mul_left]
  rw [mul_div_assoc]

theorem ensSd_add {α : Type} (l : List α) (f g : α → ℝ) :
    ensSd (l.map fun x => f x + g x) ≤ ensSd (l.map f) + ensSd (l.map g) := by
  rw [ensSd_map, ensSd_map, ensSd_map, ← add_div, meanOf_add]
  apply div_le_div_of_nonneg_right _ (Real.sqrt_nonneg _)
  set F : Fin l.length → ℝ := fun i => f l[i] - meanOf (l.map f)
  set G : Fin l.length → ℝ := fun i => g l[i] - meanOf (l.map g)
  have e : ∀ i : Fin l.length, f l[i] + g l[i] - (meanOf (l.map f) + meanOf (l.map g)) = F i + G i := by
    intro i; simp only [F, G]; ring
  simp only [e]
  rw [Real.sqrt_le_left (by positivity)]
  have hcs : ∑ i, F i * G i ≤ Real.sqrt (∑ i, F i ^ 2) * Real.sqrt (∑ i, G i ^ 2) :=
    Real.sum_mul_le_sqrt_mul_sqrt Finset.univ F G
  have hF : 0 ≤ ∑ i, F i ^ 2 := Finset.sum_nonneg fun i _ => sq_nonneg _
  have hG : 0 ≤ ∑ i, G i ^ 2 := Finset.sum_nonneg fun i _ => sq_nonneg _
  have : ∑ i, (F i + G i) ^ 2 = ∑ i, F i ^ 2 + ∑ i, G i ^ 2 + 2 * ∑ i, F i * G i := by
    rw [Finset.mul_sum, ← Finset.sum_add_distrib, ← Finset.sum_add_distrib]
    exact Finset.sum_congr rfl fun i _ => by ring
  rw [this, add_sq, Real.sq_sqrt hF, Real.sq_sqrt hG]
  linarith

theorem ensSd_smul {α : Type} (l : List α) (c : ℝ) (hc : 0 ≤ c) (f : α → ℝ) :
    ensSd (l.map fun x => c * f x) = c * ensSd (l.map f) := by
  rw [ensSd_map, ensSd_map, meanOf_smul, mul_div_assoc']
  congr 1
  have : ∑ i : Fin l.length, (c * f l[i] - c * meanOf (l.map f)) ^ 2 =
      c ^ 2 * ∑ i : Fin l.length, (f l[i] - meanOf (l.map f)) ^ 2 := by
    rw [Finset.mul_sum]
    exact Finset.sum_congr rfl fun i _ => by ring
  rw [this, Real.sqrt_mul (by positivity), Real.sqrt_sq hc]

theorem ensSd_zero {α : Type} (l : List α) : ensSd (l.map fun _ => (0 : ℝ)) = 0 := by
  have := ensSd_smul l 0 le_rfl fun _ => (0 : ℝ)
  simpa using this

theorem ensSd_sum {α : Type} (l : List α) (s : Finset ℕ) (f : ℕ → α → ℝ) :
    ensSd (l.map fun x => ∑ k ∈ s, f k x) ≤ ∑ k ∈ s, ensSd (l.map (f k)) := by
  classical
  induction s using Finset.induction_on with
  | empty => simp only [Finset.sum_empty]; exact (ensSd_zero l).le
  | insert a s ha ih =>
    simp only [Finset.sum_insert ha]
    exact (ensSd_add l (f a) fun x => ∑ k ∈ s, f k x).trans (by linarith)

/-- **C82.** The standard deviation of a new bin is never larger than the shares of the standard deviations of the old bins
(and would only be equal to it if these fluctuated together). -/
theorem C82_std_bound (e : EnsFg) (he : e.Coherent) (a w a' w' b v : ℚ) (nx ny m : ℕ) (hnx : 2 ≤ nx) (hny : 2 ≤ ny)
    (hm : 2 ≤ m) (hw : 0 < w) (hw' : 0 < w') (hv : 0 < v) (hEx : e.firstgen.Ex = grid a w nx)
    (hEg : e.firstgen.Eg = grid a' w' ny) (hne : e.members ≠ []) :
    ∃ e', e.rebin (grid b v m) "firstgen" = (e', .ok ()) ∧ ∀ i < m, ∀ c < m,
      (e'.std.values.getD i []).getD c 0 ≤ ∑ j ∈ Finset.range nx, ∑ k ∈ Finset.range ny,
        (e.std.values.getD j []).getD k 0 * (share a w b v i j * share a' w' b v c k : ℚ) := by
  obtain ⟨e', h1, h2, h3, h4, h5, h6, -⟩ := C82_rebin e he a w a' w' b v nx ny m hnx hny hm hw hw' hv hEx hEg
  refine ⟨e', h1, ?_⟩
  have uniq : ∀ (x y : ℝ) (l : List ℝ), l ≠ [] → 0 ≤ x → x ^ 2 * l.length = (l.map fun x => (x - l.sum / l.length) ^ 2).sum →
      x = ensSd l := by
    intro x y l hl hx hxl
    obtain ⟨s1, s2⟩ := ensSd_sq l
    have hn : (0 : ℝ) < l.length := by exact_mod_cast List.length_pos_iff.2 hl
    have : x ^ 2 = ensSd l ^ 2 := mul_right_cancel₀ hn.ne' (hxl.trans s2.symm)
    exact (sq_eq_sq₀ hx s1).1 this
  have hold : ∀ j < nx, ∀ k < ny, (e.std.values.getD j []).getD k 0 =
      ensSd (e.members.map fun M => (((M.getD j []).getD k 0 : ℚ) : ℝ)) := by
    intro j hj k hk
    obtain ⟨s1, s2⟩ := he.std j (by rw [hEx, grid_length]; exact hj) k (by rw [hEg, grid_length]; exact hk)
    exact uniq _ 0 _ (by simpa using hne) s1 s2
  intro i hi c hc
  obtain ⟨s1, s2⟩ := h2.std i (by rw [h3, grid_length]; exact hi) c (by rw [h4, grid_length]; exact hc)
  have hne' : e'.members ≠ [] := by
    intro h
    rw [h, List.length_nil] at h5
    exact hne (List.length_eq_zero_iff.1 h5.symm)
  rw [uniq _ 0 _ (by simpa using hne') s1 s2]
  have hmap : (e'.members.map fun M => (((M.getD i []).getD c 0 : ℚ) : ℝ)) =
      e.members.map fun M => ∑ j ∈ Finset.range nx, ∑ k ∈ Finset.range ny,
        ((share a w b v i j * share a' w' b v c k : ℚ) : ℝ) * (((M.getD j []).getD k 0 : ℚ) : ℝ) := by
    apply List.ext_getElem
    · simp [h5]
    · intro k p1 p2
      have hk : k < e.members.length := by simpa using p2
      have hk' : k < e'.members.length := by simpa using p1
      have := h6 k hk i hi c hc
      rw [List.getD_eq_getElem e'.members [] hk', List.getD_eq_getElem e.members [] hk] at this
      simp only [List.getElem_map]
      rw [this]
      unfold rebinnedEntry
      push_cast
      apply Finset.sum_congr rfl
      intro j _
      rw [Finset.sum_mul]
      exact Finset.sum_congr rfl fun k _ => by ring
  rw [hmap]
  refine (ensSd_sum e.members (Finset.range nx) fun j M => ∑ k ∈ Finset.range ny,
        ((share a w b v i j * share a' w' b v c k : ℚ) : ℝ) * (((M.getD j []).getD k 0 : ℚ) : ℝ)).trans ?_
  apply Finset.sum_le_sum
  intro j hj
  refine (ensSd_sum e.members (Finset.range ny) fun k M =>
        ((share a w b v i j * share a' w' b v c k : ℚ) : ℝ) * (((M.getD j []).getD k 0 : ℚ) : ℝ)).trans ?_
  apply Finset.sum_le_sum
  intro k hk
  have hnn : (0 : ℝ) ≤ ((share a w b v i j * share a' w' b v c k : ℚ) : ℝ) := by
    exact_mod_cast mul_nonneg (share_nonneg a w b v hw i j) (share_nonneg a' w' b v hw' c k)
  rw [ensSd_smul _ _ hnn, hold j (Finset.mem_range.1 hj) k (Finset.mem_range.1 hk), mul_comm]

/-- An ensemble of two members on four by two bins, in memory and on disk. -/
noncomputable def ensWitness : EnsFg :=
  let A : List (List ℚ) := [[1, 2], [3, 4], [5, 6], [7, 8]]
  let B : List (List ℚ) := [[1, 0], [3, 0], [5, 0], [9, 8]]
  let g : Mat := ⟨A, grid 1 2 2, grid (1/2) 1 4, none, none⟩
  let s : StdMat := ⟨stdOver [A, B] 4 2, grid 1 2 2, grid (1/2) 1 4⟩
  ⟨[A, B], g, s, [g, ⟨B, grid 1 2 2, grid (1/2) 1 4, none, none⟩], g, s⟩

/-- Non-vacuity of C82: the witness meets the hypotheses, and the new axis is that of the columns but not that of the rows. -/
example : ensWitness.Coherent ∧ ensWitness.Stored ∧ ensWitness.members ≠ [] ∧
    ensWitness.firstgen.Ex = grid (1/2) 1 4 ∧ ensWitness.firstgen.Eg = grid 1 2 2 ∧
    ¬ (grid 1 2 2 = ensWitness.firstgen.Ex ∧ grid 1 2 2 = ensWitness.firstgen.Eg) ∧
    rebinnedEntry (ensWitness.members.getD 1 []) (1/2) 1 1 2 1 2 1 2 4 2 1 0 = 14 := by
  refine ⟨coherent_new _ _ _ _ _ ?_ ?_, ⟨rfl, rfl, rfl⟩, by simp [ensWitness], rfl, rfl, ?_, ?_⟩
  · intro M hM
    simp only [List.mem_cons, List.not_mem_nil, or_false] at hM
    rcases hM with rfl | rfl <;> exact ⟨rfl, by simp⟩
  · exact ⟨rfl, by simp⟩
  · intro h
    have := congrArg List.length h.1
    simp [ensWitness] at this
  · simp only [ensWitness]
    decide +kernel

end Ompy
