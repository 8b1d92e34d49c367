import Verif.ResponseCompton

/-!
# Tabulated energies (C60) and loading of the response (C61)
-/

namespace Ompy

/-- A table that meets the hypotheses of `C43_rows` and `C59_total_partial`. -/
example : respSample.Good 0 500 3 ∧ (∀ x ∈ respSample.fwhmArray 30 (grid 100 100 5), 0 ≤ x) ∧
    |interpLin respSample.Eg (fun i => respSample.fwhmRel.getD i 0) 1330 - 1| < 5 / 100 ∧
    (100 : ℚ) + 100 * ((5 : ℕ) - 1) < 0 + 500 * ((3 : ℕ) - 1) := by
  refine ⟨⟨by decide, by decide +kernel, by decide +kernel, by decide, by norm_num, ?_⟩,
    by decide +kernel, by decide +kernel, by norm_num⟩
  intro i hi
  have : i < 2 := hi
  interval_cases i <;> decide +kernel

/-- C59: an output axis that starts above the Compton spectra makes `interpolate` fail. -/
theorem C59_not_covered_fails :
    respInterpolate respSample (grid 1000 500 3) 30 false 6 = .error .indexError := by
  have h1 : respSample.closest (grid 1000 500 3) 1000 = .error .indexError := by
    have : (respSample.closest (grid 1000 500 3) 1000).isOk = false ∧
        (match respSample.closest (grid 1000 500 3) 1000 with
          | .ok _ => false
          | .error e => decide (e = Err.indexError)) = true := by decide +kernel
    cases h : respSample.closest (grid 1000 500 3) 1000 with
    | ok c => rw [h] at this; simp at this
    | error e => rw [h] at this; simp at this; rw [this.2]
  unfold respInterpolate
  rw [if_neg (by decide), if_neg (by norm_num), if_neg (by rw [grid_length]; norm_num),
    if_neg (by simp only [not_not]; decide +kernel)]
  simp only [grid_length, List.range_succ_eq_map, List.range_zero, List.map_nil, List.map_cons,
    List.mapM_cons, bind, Except.bind]
  unfold responseRow comptonPart
  simp only [bind, Except.bind]
  rw [grid_getD _ _ (by norm_num : 0 < 3)]
  simp only [Nat.cast_zero, mul_zero, add_zero]
  rw [h1]

/-! ## Tabulated energies -/

/-- The spectra selected for an energy of the table. -/
theorem closest_table {d : RespData} {c0 c1 : ℚ} {m : ℕ} (hs : d.Eg.Pairwise (· < ·))
    {Eout : List ℚ} {k : ℕ} (hk : k < d.Eg.length) {c : Closest}
    (hc : d.closest Eout (d.Eg.getD k 0) = .ok c) (h2 : 2 ≤ d.Eg.length)
    (hE : Eout = grid c0 c1 m) (hm : 2 ≤ m) (hc1 : c1 ≠ 0) (last : ℚ) (hl : d.Ecmp.getLast? = some last) :
    (k + 1 < d.Eg.length ∧ c.Elow = d.Eg.getD k 0 ∧ c.Elow < c.Ehigh ∧
      rebin1D (d.cmpRow k) d.Ecmp (arange c0 last c1) = .ok c.low) ∨
    (k + 1 = d.Eg.length ∧ c.Ehigh = d.Eg.getD k 0 ∧ c.Elow < c.Ehigh ∧
      rebin1D (d.cmpRow k) d.Ecmp (arange c0 last c1) = .ok c.high) := by
  have hs' : d.Eg.Pairwise (· ≤ ·) := hs.imp fun h => h.le
  have hlt : ∀ i j, i < j → j < d.Eg.length → d.Eg.getD i 0 < d.Eg.getD j 0 := by
    intro i j hij hj
    rw [List.getD_eq_getElem _ _ (by omega), List.getD_eq_getElem _ _ hj]
    exact List.pairwise_iff_getElem.1 hs _ _ _ _ hij
  have hss : searchsorted d.Eg (d.Eg.getD k 0) true = k + 1 := by
    have q := searchsorted_right d.Eg hs' (d.Eg.getD k 0)
    have hle : searchsorted d.Eg (d.Eg.getD k 0) true ≤ d.Eg.length := List.length_filter_le _ _
    have h1 := (q k hk).1 le_rfl
    by_contra hne
    have h3 : k + 1 < searchsorted d.Eg (d.Eg.getD k 0) true := by omega
    have := (q (k + 1) (by omega)).2 h3
    have := hlt k (k + 1) (by omega) (by omega)
    linarith
  unfold RespData.closest at hc
  rw [if_neg (by omega : ¬ d.Eg.length = 0), hE, grid_two c0 c1 hm] at hc
  simp only [hl, add_sub_cancel_left, hss, bind, Except.bind, pure, Except.pure] at hc
  rw [if_neg hc1] at hc
  by_cases hlast : k + 1 = d.Eg.length
  · right
    simp only [if_pos hlast, Nat.add_sub_cancel] at hc
    rw [if_neg (by omega : ¬ k = 0)] at hc
    simp only at hc
    split at hc
    · simp at hc
    split at hc
    · simp at hc
    rename_i high hhigh
    injection hc with hc
    rw [← hc]
    exact ⟨hlast, rfl, hlt _ _ (by omega) hk, hhigh⟩
  · left
    simp only [if_neg hlast] at hc
    rw [if_neg (by omega : ¬ k + 1 = 0)] at hc
    simp only [Nat.add_sub_cancel] at hc
    split at hc
    · simp at hc
    rename_i low hlow
    split at hc
    · simp at hc
    injection hc with hc
    rw [← hc]
    exact ⟨by omega, rfl, hlt _ _ (by omega) (by omega), hlow⟩

/-- The spectrum of a `Closest` at energy `E` if `E` is one of its two energies. -/
def Closest.exact (c : Closest) (E : ℚ) (s : List ℚ) : Prop :=
  c.Elow < c.Ehigh ∧ (E = c.Elow ∧ s = c.low ∨ E = c.Ehigh ∧ s = c.high)

theorem linear_exact {c : Closest} {E : ℚ} {s : List ℚ} (h : c.exact E s)
    (hl : c.high.length = c.low.length) : c.linear E = s := by
  obtain ⟨hlt, h⟩ := h
  have hne : c.Ehigh - c.Elow ≠ 0 := by linarith
  apply List.ext_getElem
  · rw [linear_length hl]
    rcases h with ⟨-, rfl⟩ | ⟨-, rfl⟩
    · rfl
    · exact hl.symm
  · intro k h1 h2
    have hz : (c.linear E)[k] = linInterp E c.Elow (c.low[k]'(by rw [linear_length hl] at h1; exact h1))
        c.Ehigh (c.high[k]'(by rw [linear_length hl] at h1; omega)) := by
      simp only [Closest.linear, List.getElem_zipWith]
    rw [hz]
    unfold linInterp
    rcases h with ⟨rfl, rfl⟩ | ⟨rfl, rfl⟩
    · simp
    · rw [mul_div_assoc, div_self hne]; ring

theorem indexR_hit (a w : ℚ) (n : ℕ) (hw : 0 < w) {i : ℕ} (hi : i < n) :
    indexR (grid a w n) ((a : ℝ) + w * i) = i := by
  obtain ⟨h1, h2, h3⟩ := indexR_grid a w n (by omega) hw ((a : ℝ) + w * i)
  set k := indexR (grid a w n) ((a : ℝ) + w * i)
  have hw' : (0 : ℝ) < w := by exact_mod_cast hw
  apply le_antisymm
  · by_contra hc
    push Not at hc
    have h4 := h2 (by omega)
    have : (i : ℝ) + 1 ≤ k := by exact_mod_cast hc
    nlinarith
  · by_contra hc
    push Not at hc
    have h4 := h3 (by omega)
    have : (k : ℝ) + 1 ≤ i := by exact_mod_cast hc
    nlinarith

/-- One step of the fan method at an energy of the table copies the bin. -/
theorem fanStep_exact {a w : ℚ} {n : ℕ} (hw : 0 < w) {c : Closest} {E : ℚ} {s : List ℚ}
    (hx : c.exact E s) (hE : (1 : ℝ) / 10 < (E : ℝ)) {st st' : List ℝ × ℕ} {i : ℕ} (hi : i < n)
    (hlen : st.1.length = n) (hact : FanActive (grid a w n) E i)
    (h : fanStep (grid a w n) c E st i = .ok st') :
    st'.1.getD i 0 = ((s.getD i 0 : ℚ) : ℝ) ∧ st'.2 = i := by
  obtain ⟨f1, f2, f3, f4⟩ := hact
  obtain ⟨hlt, hx⟩ := hx
  unfold fanStep at h
  simp only at h
  rw [if_neg (by push Not; exact ⟨f1, f2⟩), if_pos ⟨f3, f4⟩] at h
  simp only [bind, Except.bind, pure, Except.pure] at h
  split at h
  · simp at h
  rename_i x1 hx1
  split at h
  · simp at h
  rename_i x2 hx2
  injection h with h
  have hEi : (((grid a w n).getD i 0 : ℚ) : ℝ) = (a : ℝ) + w * i := by
    rw [grid_getD _ _ hi]; push_cast; ring
  have hang := C44_angle (E : ℝ) (((grid a w n).getD i 0 : ℚ) : ℝ) hE (by linarith) f2
  have hd : dEdTheta (E : ℝ) (fanAngle E ((grid a w n).getD i 0 : ℚ)) ≠ 0 :=
    (C44_derivative_pos _ _ (by linarith) f3 f4).ne'
  have hpick : ∀ l x, countAt l (indexR (grid a w n) (eCompton (E : ℝ)
      (fanAngle E ((grid a w n).getD i 0 : ℚ)))) = .ok x → x = l.getD i 0 := by
    intro l x hx
    rw [hang, hEi, indexR_hit a w n hw hi] at hx
    unfold countAt at hx
    split_ifs at hx
    injection hx with hx
    exact hx.symm
  have hcast : (c.Ehigh : ℝ) - (c.Elow : ℝ) ≠ 0 := by
    have : (c.Elow : ℝ) < c.Ehigh := by exact_mod_cast hlt
    linarith
  rw [← h]
  refine ⟨?_, rfl⟩
  simp only
  rw [List.getD_eq_getElem _ _ (by rw [List.length_set]; omega), List.getElem_set_self]
  rcases hx with ⟨rfl, rfl⟩ | ⟨rfl, rfl⟩
  · rw [hpick _ _ hx1]
    unfold linInterp
    rw [sub_self, mul_zero, zero_div, add_zero]
    field_simp
  · rw [hpick _ _ hx2]
    unfold linInterp
    rw [mul_div_assoc, div_self hcast]
    field_simp
    ring

theorem fanStep_other {Eout : List ℚ} {c : Closest} {E : ℚ} {st st' : List ℝ × ℕ} {i k : ℕ}
    (hik : k ≠ i) (h : fanStep Eout c E st k = .ok st') :
    st'.1.getD i 0 = st.1.getD i 0 ∧ (st'.2 = st.2 ∨ st'.2 = k) := by
  unfold fanStep at h
  simp only [bind, Except.bind, pure, Except.pure] at h
  split at h
  · injection h with h; rw [← h]; exact ⟨rfl, Or.inl rfl⟩
  split at h
  · split at h
    · simp at h
    split at h
    · simp at h
    injection h with h
    rw [← h]
    refine ⟨?_, Or.inr rfl⟩
    simp only
    rw [List.getD_eq_getElem?_getD, List.getD_eq_getElem?_getD, List.getElem?_set_ne hik,
      ← List.getD_eq_getElem?_getD]
  · injection h with h; rw [← h]; exact ⟨rfl, Or.inl rfl⟩

theorem fanFold_exact {a w : ℚ} {n : ℕ} (hw : 0 < w) {c : Closest} {E : ℚ} {s : List ℚ}
    (hx : c.exact E s) (hE : (1 : ℝ) / 10 < (E : ℝ)) {i : ℕ} (hi : i < n)
    (hact : FanActive (grid a w n) E i) :
    ∀ (is : List ℕ) (st st' : List ℝ × ℕ), is.Pairwise (· < ·) → st.1.length = n →
      is.foldlM (fanStep (grid a w n) c E) st = .ok st' →
      (i ∈ is ∨ st.1.getD i 0 = ((s.getD i 0 : ℚ) : ℝ) ∧ i ≤ st.2 ∧ ∀ k ∈ is, i < k) →
      st'.1.getD i 0 = ((s.getD i 0 : ℚ) : ℝ) ∧ i ≤ st'.2 := by
  intro is
  induction is with
  | nil =>
    intro st st' _ _ h hc
    simp only [List.foldlM_nil, pure, Except.pure] at h
    injection h with h
    subst h
    rcases hc with hc | hc
    · simp at hc
    · exact ⟨hc.1, hc.2.1⟩
  | cons k is ih =>
    intro st st' hp hlen h hc
    simp only [List.foldlM_cons, bind, Except.bind] at h
    split at h
    · simp at h
    rename_i st1 h1
    rw [List.pairwise_cons] at hp
    have hlen1 : st1.1.length = n := by rw [fanStep_length h1, hlen]
    apply ih st1 st' hp.2 hlen1 h
    by_cases hki : k = i
    · subst hki
      obtain ⟨g1, g2⟩ := fanStep_exact hw hx hE hi hlen hact h1
      right
      exact ⟨g1, g2.ge, hp.1⟩
    · obtain ⟨g1, g2⟩ := fanStep_other (i := i) hki h1
      rcases hc with hc | hc
      · left
        rcases List.mem_cons.1 hc with hc | hc
        · exact absurd hc.symm hki
        · exact hc
      · right
        refine ⟨by rw [g1, hc.1], ?_, fun q hq => hc.2.2 q (by simp [hq])⟩
        rcases g2 with g2 | g2
        · rw [g2]; exact hc.2.1
        · rw [g2]; exact (hc.2.2 k (by simp)).le

theorem clip0_getD {K : Type} [Field K] [LinearOrder K] (l : List K) (i : ℕ) :
    (clip0 l).getD i 0 = max (l.getD i 0) 0 := by
  by_cases hi : i < l.length
  · rw [List.getD_eq_getElem _ _ (by rwa [clip0_length]), List.getD_eq_getElem _ _ hi]
    unfold clip0
    rw [List.getElem_map]
    split_ifs with h
    · exact (max_eq_right h.le).symm
    · exact (max_eq_left (not_lt.1 h)).symm
  · rw [List.getD_eq_default _ _ (by rw [clip0_length]; omega),
      List.getD_eq_default _ _ (by omega)]
    simp

theorem zerosAssign_getD {n lo hi : ℕ} {src r : List ℚ} (h : zerosAssign n lo hi src = .ok r)
    (h1 : hi ≤ n) (h2 : n ≤ src.length) {i : ℕ} (hin : i < n) :
    r.getD i 0 = if lo ≤ i ∧ i < hi then src.getD i 0 else 0 := by
  unfold zerosAssign at h
  simp only at h
  rw [if_pos (by rw [List.length_drop, List.length_take, min_eq_left (by omega), min_eq_left h1])] at h
  injection h with h
  rw [← h, getD_map_range _ hin]
  split_ifs with hc
  · rw [List.getD_eq_getElem?_getD, List.getD_eq_getElem?_getD, List.getElem?_drop,
      Nat.add_sub_cancel' hc.1, List.getElem?_take_of_lt hc.2]
  · rfl

/-- C60: at an energy of the table the Compton part of the response, up to the Compton edge, is the
tabulated spectrum itself (put on the output axis, normalised and with negative entries set to 0):
neither the interpolation below the backscatter peak nor the fan method distorts it. -/
theorem C60_tabulated (d : RespData) (c0 c1 : ℚ) (m : ℕ) (hg : d.Good c0 c1 m)
    (hs : d.Eg.Pairwise (· < ·)) (a w : ℚ) (n : ℕ) (hn : 2 ≤ n) (hw : 0 < w)
    (hcov : a + w * ((n : ℚ) - 1) < c0 + c1 * ((m : ℚ) - 1)) (fwhm : List ℚ) (j k : ℕ) (hj : j < n)
    (hk : k < d.Eg.length) (hjk : a + w * j = d.Eg.getD k 0) (hE : 1 / 10 < a + w * j)
    (hsig : 0 ≤ fwhm.getD j 0) (r : List ℝ)
    (h : comptonPart d (grid a w n) fwhm j = .ok r) :
    ∃ s, rebin1D (d.cmpRow k) d.Ecmp (arange a (c0 + c1 * ((m : ℚ) - 1)) w) = .ok s ∧
      ∀ i < n,
        (i ≤ indexR (grid a w n) (((a + w * j : ℚ) : ℝ) - eCompton ((a + w * j : ℚ) : ℝ) Real.pi) ∨
          i < indexR (grid a w n) (eCompton ((a + w * j : ℚ) : ℝ) Real.pi) ∧
          (1 : ℝ) / 10 ≤ (a : ℝ) + w * i ∧
          (a : ℝ) + w * i < eCompton ((a + w * j : ℚ) : ℝ) Real.pi) →
        r.getD i 0 = max ((s.getD i 0 : ℚ) : ℝ) 0 := by
  set E : ℚ := a + w * j with hEdef
  have hE' : (1 : ℝ) / 10 < (E : ℝ) := by
    have : ((1 / 10 : ℚ) : ℝ) < (E : ℝ) := by exact_mod_cast hE
    simpa using this
  have hER : (E : ℝ) = (a : ℝ) + w * j := by rw [hEdef]; push_cast; ring
  have hw' : (0 : ℝ) < w := by exact_mod_cast hw
  obtain ⟨c, k1, k2, k3, k4, k5⟩ := closest_ok hg a w n hn hw hcov E
  have hlast : d.Ecmp.getLast? = some (c0 + c1 * ((m : ℚ) - 1)) := by
    rw [hg.axis, grid_getLast _ _ (by have := hg.axis_two; omega)]
  obtain ⟨s, hs1, hs2⟩ : ∃ s, rebin1D (d.cmpRow k) d.Ecmp (arange a (c0 + c1 * ((m : ℚ) - 1)) w) =
      .ok s ∧ c.exact E s := by
    have k1' := k1
    rw [hjk] at k1'
    rcases closest_table hs hk k1' hg.two rfl hn hw.ne' _ hlast with ⟨-, q2, q3, q4⟩ | ⟨-, q2, q3, q4⟩
    · exact ⟨_, q4, q3, Or.inl ⟨by rw [hjk, q2], rfl⟩⟩
    · exact ⟨_, q4, q3, Or.inr ⟨by rw [hjk, q2], rfl⟩⟩
  have hslen : n ≤ s.length := by
    rcases hs2.2 with ⟨-, rfl⟩ | ⟨-, rfl⟩ <;> omega
  have hlin := linear_exact hs2 k3
  refine ⟨s, hs1, ?_⟩
  intro i hi hcond
  set istop := min (indexR (grid a w n) ((E : ℝ) + 6 * (((fwhm.getD j 0 : ℚ) : ℝ) / (235 / 100))))
    (n - 1) with histop
  set ib := indexR (grid a w n) ((E : ℝ) - eCompton (E : ℝ) Real.pi) with hib
  set ie := indexR (grid a w n) (eCompton (E : ℝ) Real.pi) with hie
  have hibn : ib < n := (indexR_grid a w n (by omega) hw _).1
  have hstopn : istop < n := by
    have : istop ≤ n - 1 := min_le_right _ _
    omega
  -- the row goes at least up to its own bin, and the edge is not above
  have hjstop : j ≤ istop := by
    obtain ⟨g1, g2, g3⟩ := indexR_grid a w n (by omega) hw
      ((E : ℝ) + 6 * (((fwhm.getD j 0 : ℚ) : ℝ) / (235 / 100)))
    rw [histop, le_min_iff]
    refine ⟨?_, by omega⟩
    by_contra hc
    push Not at hc
    have h5 := g3 (by omega)
    have h6 : ((indexR (grid a w n) ((E : ℝ) + 6 * (((fwhm.getD j 0 : ℚ) : ℝ) / (235 / 100))) : ℕ) : ℝ)
        + 1 ≤ j := by exact_mod_cast hc
    have h7 : (0 : ℝ) ≤ ((fwhm.getD j 0 : ℚ) : ℝ) := by exact_mod_cast hsig
    have h8 : (0 : ℝ) ≤ 6 * (((fwhm.getD j 0 : ℚ) : ℝ) / (235 / 100)) := by positivity
    nlinarith
  have hiej : ie ≤ j := by
    obtain ⟨g1, g2, g3⟩ := indexR_grid a w n (by omega) hw (eCompton (E : ℝ) Real.pi)
    by_contra hc
    push Not at hc
    have h5 := g2 (by omega)
    have h6 : (j : ℝ) + 1 ≤ ie := by exact_mod_cast hc
    have h7 := (C44_bounds (E : ℝ) Real.pi hE').2.2
    nlinarith
  unfold comptonPart at h
  simp only [bind, Except.bind, pure, Except.pure] at h
  rw [grid_getD _ _ hj, ← hEdef, k1] at h
  simp only [linearBackscatter, linearToEnd, bind, Except.bind, pure, Except.pure, grid_length] at h
  rw [← hib, ← histop, hlin] at h
  split at h
  · simp at h
  rename_i low hlow
  split at hlow
  · simp at hlow
  rename_i R1 hR1
  injection hlow with hlow
  subst hlow
  simp only at h
  have hlowv : (clip0 R1).getD i 0 = if i ≤ ib then max (s.getD i 0) 0 else 0 := by
    rw [clip0_getD, zerosAssign_getD hR1 (by omega) hslen hi]
    by_cases hc : i ≤ ib
    · rw [if_pos ⟨by omega, by omega⟩, if_pos hc]
    · rw [if_neg (by omega), if_neg hc]; simp
  have hlowR : (toR (clip0 R1)).getD i 0 = if i ≤ ib then max ((s.getD i 0 : ℚ) : ℝ) 0 else 0 := by
    have : (toR (clip0 R1)).getD i 0 = (((clip0 R1).getD i 0 : ℚ) : ℝ) := by
      have hl : i < (clip0 R1).length := by
        rw [clip0_length, zerosAssign_length hR1]; exact hi
      rw [List.getD_eq_getElem _ _ (by rwa [toR_length]), List.getD_eq_getElem _ _ hl]
      simp [toR]
    rw [this, hlowv]
    split_ifs <;> simp
  have hlowlen : (toR (clip0 R1)).length = n := by
    rw [toR_length, clip0_length, zerosAssign_length hR1]
  split at h
  · simp at h
  rename_i fan hfan
  obtain ⟨flen, -⟩ := fanMethod_spec hfan
  rw [grid_length] at flen
  -- what the fan method left in bin `i`
  have hfanv : ib < i → fan.1.getD i 0 = max ((s.getD i 0 : ℚ) : ℝ) 0 ∧ i ≤ fan.2 := by
    intro hbi
    rcases hcond with hcond | ⟨q1, q2, q3⟩
    · omega
    have hval : (((grid a w n).getD i 0 : ℚ) : ℝ) = (a : ℝ) + w * i := by
      rw [grid_getD _ _ hi]; push_cast; ring
    have hang := C44_angle (E : ℝ) ((a : ℝ) + w * i) hE' (by linarith) q3.le
    have hact : FanActive (grid a w n) E i := by
      unfold FanActive
      rw [hval]
      refine ⟨q2, q3.le, ?_, ?_⟩
      · rcases (Real.arccos_nonneg _).lt_or_eq with h0 | h0
        · exact h0
        · exfalso
          have h1 : fanAngle (E : ℝ) ((a : ℝ) + w * i) = 0 := h0.symm
          rw [h1, (C44_bounds (E : ℝ) 0 hE').1] at hang
          linarith
      · rcases (Real.arccos_le_pi (1 - if (E : ℝ) / 511 * (E - ((a : ℝ) + w * i)) = 0 then 0 else
          ((a : ℝ) + w * i) / ((E : ℝ) / 511 * (E - ((a : ℝ) + w * i))))).lt_or_eq with h0 | h0
        · exact h0
        · exfalso
          have h1 : fanAngle (E : ℝ) ((a : ℝ) + w * i) = Real.pi := h0
          rw [h1] at hang
          linarith
    unfold fanMethod at hfan
    simp only [bind, Except.bind, pure, Except.pure, grid_length] at hfan
    split at hfan
    · simp at hfan
    rename_i st hst
    injection hfan with hfan
    rw [← hie] at hst
    have := fanFold_exact hw hs2 hE' hi hact _ _ _
      (List.pairwise_lt_range.filter _) (by simp) hst (Or.inl (by
        rw [List.mem_filter, List.mem_range]
        simp only [decide_eq_true_eq, lt_min_iff]
        exact ⟨⟨q1, by omega, hi⟩, by omega⟩))
    rw [← hfan]
    refine ⟨?_, this.2⟩
    simp only
    rw [clip0_getD, this.1]
  have zget : ∀ l1 l2 : List ℝ, l1.length = n → l2.length = n →
      (List.zipWith (· + ·) l1 l2).getD i 0 = l1.getD i 0 + l2.getD i 0 := by
    intro l1 l2 g1 g2
    rw [List.getD_eq_getElem _ _ (by rw [List.length_zipWith]; omega), List.getElem_zipWith,
      List.getD_eq_getElem _ _ (by omega), List.getD_eq_getElem _ _ (by omega)]
  split at h
  · -- linear to the end
    rename_i hbr
    split at h
    · simp at h
    rename_i high hhigh
    split at hhigh
    · simp at hhigh
    rename_i R2 hR2
    injection hhigh with hhigh
    subst hhigh
    injection h with h
    have hhigh : (toR (clip0 R2)).getD i 0 =
        if ib < i ∧ i ≤ istop then max ((s.getD i 0 : ℚ) : ℝ) 0 else 0 := by
      have hl : i < (clip0 R2).length := by
        rw [clip0_length, zerosAssign_length hR2]; exact hi
      have : (toR (clip0 R2)).getD i 0 = (((clip0 R2).getD i 0 : ℚ) : ℝ) := by
        rw [List.getD_eq_getElem _ _ (by rwa [toR_length]), List.getD_eq_getElem _ _ hl]
        simp [toR]
      rw [this, clip0_getD, zerosAssign_getD hR2 (by omega) hslen hi]
      by_cases hc : ib < i ∧ i ≤ istop
      · rw [if_pos ⟨by omega, by omega⟩, if_pos hc]; simp
      · rw [if_neg (by omega), if_neg hc]; simp
    rw [← h, zget _ _ hlowlen (by rw [toR_length, clip0_length, zerosAssign_length hR2]), hlowR, hhigh]
    by_cases hbi : i ≤ ib
    · rw [if_pos hbi, if_neg (by omega), add_zero]
    · rw [if_neg hbi, if_pos, zero_add]
      refine ⟨by omega, ?_⟩
      rcases hcond with hcond | hcond
      · omega
      · have := hcond.1
        omega
  · rename_i hbr
    split at h
    · simp at h
    rename_i high hhigh
    injection h with h
    obtain ⟨g1, -⟩ := fanToEnd_spec hhigh
    rw [grid_length] at g1
    have hhighv : i < fan.2 + 1 → high.getD i 0 = 0 := by
      intro hif
      unfold fanToEnd at hhigh
      simp only [bind, Except.bind, throw, throwThe, MonadExceptOf.throw] at hhigh
      split at hhigh
      · simp at hhigh
      simp only [pure, Except.pure] at hhigh
      split at hhigh
      · simp at hhigh
      split at hhigh
      · simp at hhigh
      injection hhigh with hhigh
      rw [← hhigh, clip0_getD, List.getD_append _ _ _ _ (by simpa using hif),
        List.getD_eq_getElem _ _ (by simpa using hif), List.getElem_replicate]
      simp
    rw [← h, zget _ _ (by rw [List.length_zipWith, hlowlen, flen, min_self]) g1,
      zget _ _ hlowlen flen, hlowR]
    by_cases hbi : i ≤ ib
    · have hf0 : fan.1.getD i 0 = 0 := by
        -- the fan method does not touch bins up to the backscatter peak
        unfold fanMethod at hfan
        simp only [bind, Except.bind, pure, Except.pure] at hfan
        split at hfan
        · simp at hfan
        rename_i st hst
        injection hfan with hfan
        rw [← hfan]
        simp only
        have : ∀ (is : List ℕ) (st st' : List ℝ × ℕ), (∀ q ∈ is, q ≠ i) →
            is.foldlM (fanStep (grid a w n) c E) st = .ok st' → st'.1.getD i 0 = st.1.getD i 0 := by
          intro is
          induction is with
          | nil =>
            intro st st' _ hh
            simp only [List.foldlM_nil, pure, Except.pure] at hh
            injection hh with hh
            rw [hh]
          | cons q is ih =>
            intro st st' hq hh
            simp only [List.foldlM_cons, bind, Except.bind] at hh
            split at hh
            · simp at hh
            rename_i st1 h1
            rw [ih st1 st' (fun z hz => hq z (by simp [hz])) hh,
              (fanStep_other (hq q (by simp)) h1).1]
        rw [clip0_getD, this _ _ _ _ hst]
        · rw [List.getD_eq_getElem _ _ (by simpa using hi), List.getElem_replicate]
          simp
        · intro q hq
          rw [List.mem_filter] at hq
          simp only [decide_eq_true_eq] at hq
          omega
      rw [if_pos hbi, hf0, hhighv (by omega)]
      ring
    · obtain ⟨v1, v2⟩ := hfanv (by omega)
      rw [if_neg hbi, v1, hhighv (by omega)]
      ring

/-- Two spectra of twelve bins at 400 and 800 keV. -/
def respSample2 : RespData :=
  ⟨[400, 800], [1, 1], [1, 1], [6, 2], [1, 1], [0, 1], [1, 2],
    [[5, 4, 3, 2, 1, 0, 0, 0, 0, 0, 0, 0], [9, 8, 7, 6, 5, 4, 3, 2, 1, 0, 0, 0]], grid 0 100 12⟩

/-- The hypotheses of `C60_tabulated` can be met: the row of 400 keV. -/
example : respSample2.Good 0 100 12 ∧ respSample2.Eg.Pairwise (· < ·) ∧
    (100 : ℚ) + 20 * ((40 : ℕ) - 1) < 0 + 100 * ((12 : ℕ) - 1) ∧
    (100 : ℚ) + 20 * (15 : ℕ) = respSample2.Eg.getD 0 0 ∧
    ∃ r, comptonPart respSample2 (grid 100 20 40) (List.replicate 40 30) 15 = .ok r := by
  have hg : respSample2.Good 0 100 12 := by
    refine ⟨by decide, by decide +kernel, rfl, by decide, by norm_num, ?_⟩
    intro i hi
    have : i < 2 := hi
    interval_cases i <;> decide +kernel
  refine ⟨hg, by decide +kernel, by norm_num, by norm_num [respSample2], ?_⟩
  apply comptonPart_ok hg 100 20 40 (by norm_num) (by norm_num) (by norm_num) (by norm_num) _ (by simp)
  · intro x hx
    rw [List.eq_of_mem_replicate hx]
    norm_num
  · norm_num

/-! ## Loading -/

/-- The spectrum of an energy, filled up with zeros. -/
def paddedSpec (spec : ℤ → Option (List ℚ)) (N : ℕ) (Eg : ℚ) : List ℚ :=
  let s := (spec (truncZ Eg)).getD []
  s ++ List.replicate (N - s.length) 0

theorem sortedQ_of_sorted (l : List ℚ) (h : l.Pairwise (· ≤ ·)) : sortedQ l = l := by
  induction l with
  | nil => rfl
  | cons x xs ih =>
    rw [List.pairwise_cons] at h
    have : sortedQ (x :: xs) = insertSorted x (sortedQ xs) := rfl
    rw [this, ih h.2]
    cases xs with
    | nil => rfl
    | cons y ys =>
      simp only [insertSorted]
      rw [if_pos (h.1 y (by simp))]

/-- C61: if the table is sorted by energy, every row of the Compton matrix is the spectrum of the
energy in the same row of the table. -/
theorem C61_rows_partial (rows : List RespRow) (spec : ℤ → Option (List ℚ)) (a0 a1 : ℚ) (N : ℕ)
    (hs : (rows.map (·.Eg)).Pairwise (· ≤ ·)) (d : RespData) (h : loadZip rows spec a0 a1 N = .ok d) :
    d.Eg = rows.map (·.Eg) ∧ d.compton = rows.map fun r => paddedSpec spec N r.Eg := by
  unfold loadZip at h
  simp only [bind, Except.bind, pure, Except.pure, throw, throwThe, MonadExceptOf.throw] at h
  split at h
  · simp at h
  split at h
  · simp at h
  split at h
  · simp at h
  rename_i cm hcm
  injection h with h
  rw [← h]
  refine ⟨rfl, ?_⟩
  simp only
  rw [sortedQ_of_sorted _ hs] at hcm
  have : ∀ (l : List RespRow) (r : List (List ℚ)), ((l.map (·.Eg)).map truncZ).mapM (fun k : ℤ =>
      if N < ((spec k).getD []).length then (.error .valueError : Except Err (List ℚ))
      else .ok ((spec k).getD [] ++ List.replicate (N - ((spec k).getD []).length) 0)) = .ok r →
      r = l.map fun q => paddedSpec spec N q.Eg := by
    intro l
    induction l with
    | nil =>
      intro r hr
      simp only [List.map_nil, List.mapM_nil, pure, Except.pure] at hr
      injection hr with hr
      rw [← hr]; rfl
    | cons x xs ih =>
      intro r hr
      simp only [List.map_cons, List.mapM_cons, bind, Except.bind, pure, Except.pure] at hr
      split at hr
      · simp at hr
      rename_i y hy
      split at hr
      · simp at hr
      rename_i ys hys
      injection hr with hr
      split_ifs at hy
      injection hy with hy
      rw [← hr, ih _ hys, ← hy]
      rfl
  exact this rows cm hcm

/-- C61: an unsorted table gets the spectra of other energies. -/
theorem C61_rows_fails :
    (loadZip [⟨20, 1, 1, 1, 0, 0, 0⟩, ⟨10, 1, 1, 1, 0, 0, 0⟩]
      (fun k => if k = 10 then some [1, 0] else if k = 20 then some [0, 2] else none) 0 5 2).map
      (fun d => (d.Eg, d.compton)) = .ok ([20, 10], [[1, 0], [0, 2]]) := by decide +kernel

/-- C61: the energy axis is that of the calibration exactly if its offset is 0. -/
theorem C61_axis (rows : List RespRow) (spec : ℤ → Option (List ℚ)) (a0 a1 : ℚ) (N : ℕ) (hN : 2 ≤ N)
    (d : RespData) (h : loadZip rows spec a0 a1 N = .ok d) :
    d.Ecmp = grid a0 a1 N ↔ a0 = 0 := by
  have he : d.Ecmp = linspace a0 (a1 * ((N : ℚ) - 1)) N := by
    unfold loadZip at h
    simp only [bind, Except.bind, pure, Except.pure, throw, throwThe, MonadExceptOf.throw] at h
    split at h
    · simp at h
    split at h
    · simp at h
    split at h
    · simp at h
    injection h with h
    rw [← h]
  have hN1 : (0 : ℚ) < (N : ℚ) - 1 := by
    have : (2 : ℚ) ≤ N := by exact_mod_cast hN
    linarith
  rw [he]
  unfold linspace
  rw [if_neg (by omega)]
  constructor
  · intro hh
    have := congrArg (fun l => l.getD 1 0) hh
    rw [getD_map_range _ (by omega), grid_getD _ _ (by omega)] at this
    have h2 : (a1 * ((N : ℚ) - 1) - a0) / ((N : ℚ) - 1) = a1 := by
      push_cast at this
      linarith
    rw [div_eq_iff hN1.ne'] at h2
    linarith
  · rintro rfl
    unfold grid
    apply List.map_congr_left
    intro k _
    rw [sub_zero, mul_div_assoc, div_self hN1.ne', mul_one]

example : (loadZip [⟨10, 1, 1, 1, 0, 0, 0⟩] (fun _ => some [1, 2]) 3 5 3).map (fun d => d.Ecmp) =
    .ok [3, 13/2, 10] := by decide +kernel

/-- C61: a missing spectrum is refused. -/
theorem C61_refuses (rows : List RespRow) (spec : ℤ → Option (List ℚ)) (a0 a1 : ℚ) (N : ℕ)
    (r : RespRow) (hr : r ∈ rows) (hm : spec (truncZ r.Eg) = none) :
    loadZip rows spec a0 a1 N = .error .valueError := by
  have hmem : ∀ (l : List ℚ) (x : ℚ), x ∈ l → x ∈ sortedQ l := by
    have hins : ∀ (l : List ℚ) (x y : ℚ), y = x ∨ y ∈ l → y ∈ insertSorted x l := by
      intro l
      induction l with
      | nil => intro x y h; simpa [insertSorted] using h
      | cons z zs ih =>
        intro x y h
        simp only [insertSorted]
        split_ifs
        · simpa using h
        · simp only [List.mem_cons]
          rcases h with h | h
          · right; exact ih x y (Or.inl h)
          · rcases List.mem_cons.1 h with h | h
            · left; exact h
            · right; exact ih x y (Or.inr h)
    intro l
    induction l with
    | nil => intro x h; simp at h
    | cons z zs ih =>
      intro x h
      have : sortedQ (z :: zs) = insertSorted z (sortedQ zs) := rfl
      rw [this]
      apply hins
      rcases List.mem_cons.1 h with h | h
      · left; exact h
      · right; exact ih x h
  unfold loadZip
  simp only
  rw [if_pos]
  · rfl
  · intro hall
    rw [List.all_eq_true] at hall
    have := hall (truncZ r.Eg) (List.mem_map_of_mem (hmem _ _ (List.mem_map_of_mem hr)))
    rw [hm] at this
    simp at this

end Ompy
