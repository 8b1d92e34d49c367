import Verif.ResponseProps
import Mathlib.Analysis.SpecialFunctions.Trigonometric.Deriv

/-!
# Compton energies (C44), totality (C59) and tabulated energies (C60) of the response, loading (C61)
-/

namespace Ompy

/-! ## Compton formula -/

theorem compton_den_pos {Eg : ℝ} (h : 0 ≤ Eg) (theta : ℝ) :
    1 ≤ 1 + Eg / 511 * (1 - Real.cos theta) := by
  have : 0 ≤ Eg / 511 * (1 - Real.cos theta) :=
    mul_nonneg (by positivity) (by linarith [Real.cos_le_one theta])
  linarith

/-- C44: the code agrees with Compton's formula for the wavelength shift: the scattered photon has
energy `E' = Eg - E_compton` with `1/E' - 1/Eg = (1 - cos θ)/511`. -/
theorem C44_formula (Eg theta : ℝ) (h : 1 / 10 < Eg) :
    1 / (Eg - eCompton Eg theta) - 1 / Eg = (1 - Real.cos theta) / 511 := by
  have hd := compton_den_pos (by linarith : 0 ≤ Eg) theta
  unfold eCompton
  rw [if_pos h, sub_sub_cancel]
  have : 1 + Eg / 511 * (1 - Real.cos theta) ≠ 0 := by linarith
  have h0 : Eg ≠ 0 := by linarith
  rw [one_div_div]
  field_simp
  ring

/-- C44: no energy is transferred at angle 0; always some, but never all of it, is transferred. -/
theorem C44_bounds (Eg theta : ℝ) (h : 1 / 10 < Eg) :
    eCompton Eg 0 = 0 ∧ 0 ≤ eCompton Eg theta ∧ eCompton Eg theta < Eg := by
  have hd := compton_den_pos (by linarith : 0 ≤ Eg) theta
  have hE : 0 < Eg := by linarith
  unfold eCompton
  rw [if_pos h, if_pos h]
  refine ⟨by simp, ?_, ?_⟩
  · have : Eg / (1 + Eg / 511 * (1 - Real.cos theta)) ≤ Eg := div_le_self hE.le hd
    linarith
  · have : 0 < Eg / (1 + Eg / 511 * (1 - Real.cos theta)) := div_pos hE (by linarith)
    linarith

/-- C44: the energy increases with the angle up to backscattering. -/
theorem C44_monotone (Eg t1 t2 : ℝ) (h : 1 / 10 < Eg) (h0 : 0 ≤ t1) (h1 : t1 < t2)
    (h2 : t2 ≤ Real.pi) : eCompton Eg t1 < eCompton Eg t2 := by
  have hE : 0 < Eg := by linarith
  have hc : Real.cos t2 < Real.cos t1 := Real.cos_lt_cos_of_nonneg_of_le_pi h0 h2 h1
  have hd1 := compton_den_pos hE.le t1
  unfold eCompton
  rw [if_pos h, if_pos h]
  apply sub_lt_sub_left
  apply div_lt_div_of_pos_left hE (by linarith)
  have : Eg / 511 * (1 - Real.cos t1) < Eg / 511 * (1 - Real.cos t2) :=
    mul_lt_mul_of_pos_left (by linarith) (by positivity)
  linarith

/-- C44: it is maximal at backscattering, for every angle. -/
theorem C44_edge (Eg theta : ℝ) (h : 1 / 10 < Eg) : eCompton Eg theta ≤ eCompton Eg Real.pi := by
  have hE : 0 < Eg := by linarith
  have hd1 := compton_den_pos hE.le theta
  unfold eCompton
  rw [if_pos h, if_pos h]
  apply sub_le_sub_left
  apply div_le_div_of_nonneg_left hE.le (by linarith)
  have : Eg / 511 * (1 - Real.cos theta) ≤ Eg / 511 * (1 - Real.cos Real.pi) :=
    mul_le_mul_of_nonneg_left (by rw [Real.cos_pi]; linarith [Real.neg_one_le_cos theta])
      (by positivity)
  linarith

/-- C44: `dE_dtheta` is the derivative of `E_compton` with respect to the angle. -/
theorem C44_derivative (Eg theta : ℝ) (h : 1 / 10 < Eg) :
    HasDerivAt (fun t => eCompton Eg t) (dEdTheta Eg theta) theta := by
  have hE : 0 < Eg := by linarith
  have hd := compton_den_pos hE.le theta
  have e : (fun t => eCompton Eg t) = fun t => Eg - Eg / (1 + Eg / 511 * (1 - Real.cos t)) := by
    funext t
    unfold eCompton
    rw [if_pos h]
  rw [e]
  have h1 : HasDerivAt (fun t => 1 + Eg / 511 * (1 - Real.cos t)) (Eg / 511 * Real.sin theta) theta := by
    have := (((Real.hasDerivAt_cos theta).const_sub 1).const_mul (Eg / 511)).const_add 1
    simpa using this
  have h2 := ((hasDerivAt_const theta Eg).div h1 (by linarith)).const_sub Eg
  refine HasDerivAt.congr_deriv h2 ?_
  unfold dEdTheta
  have : 1 + Eg / 511 * (1 - Real.cos theta) ≠ 0 := by linarith
  field_simp
  ring

/-- C44: `dE_dtheta` is positive strictly between 0 and π, so the fan method never divides by 0. -/
theorem C44_derivative_pos (Eg theta : ℝ) (h : 0 < Eg) (h0 : 0 < theta) (h1 : theta < Real.pi) :
    0 < dEdTheta Eg theta := by
  have hd := compton_den_pos h.le theta
  have := Real.sin_pos_of_pos_of_lt_pi h0 h1
  unfold dEdTheta
  positivity

/-- C44: the angle used by the fan method is the angle at which `E` loses `Ei`. -/
theorem C44_angle (E Ei : ℝ) (h : 1 / 10 < E) (h0 : 0 ≤ Ei) (h1 : Ei ≤ eCompton E Real.pi) :
    eCompton E (fanAngle E Ei) = Ei := by
  have hE : 0 < E := by linarith
  have hlt : Ei < E := lt_of_le_of_lt h1 (C44_bounds E Real.pi h).2.2
  have hden : E / 511 * (E - Ei) ≠ 0 := by
    have : 0 < E / 511 * (E - Ei) := by
      have : 0 < E - Ei := by linarith
      positivity
    exact this.ne'
  have hz2 : Ei / (E / 511 * (E - Ei)) ≤ 2 := by
    rw [div_le_iff₀ (by have : 0 < E - Ei := by linarith
                        positivity)]
    unfold eCompton at h1
    rw [if_pos h, Real.cos_pi] at h1
    have h2 : E / (1 + E / 511 * (1 - -1)) ≤ E - Ei := by linarith
    rw [div_le_iff₀ (by positivity)] at h2
    nlinarith
  have hz0 : 0 ≤ Ei / (E / 511 * (E - Ei)) := by
    have : 0 < E - Ei := by linarith
    positivity
  unfold fanAngle
  simp only
  rw [if_neg hden]
  unfold eCompton
  rw [if_pos h, Real.cos_arccos (by linarith) (by linarith), sub_sub_cancel]
  have hne : E - Ei ≠ 0 := by linarith
  have : 1 + E / 511 * (Ei / (E / 511 * (E - Ei))) = E / (E - Ei) := by
    field_simp
    ring
  rw [this, div_div_eq_mul_div]
  field_simp
  ring

example : (1 : ℝ) / 10 < 1000 := by norm_num

/-! ## Nearest bins of real energies -/

/-- Relative form of the search loop. -/
noncomputable def indexRelR (e : ℝ) (a : ℚ) : List ℚ → ℕ
  | [] => 0
  | x :: xs => if ((x : ℝ) - e) ^ 2 > ((a : ℝ) - e) ^ 2 then 0 else indexRelR e x xs + 1

theorem indexLoopR_rel (e : ℝ) (a : ℚ) (i : ℕ) (l : List ℚ) (hi : 1 ≤ i) :
    indexLoopR e (((a : ℝ) - e) ^ 2) i l = i - 1 + indexRelR e a l := by
  induction l generalizing a i with
  | nil => simp [indexLoopR, indexRelR]
  | cons x xs ih =>
    simp only [indexLoopR, indexRelR]
    split_ifs
    · simp
    · rw [ih x (i + 1) (by omega)]
      omega

theorem indexRelR_spec (e : ℝ) (a : ℚ) (l : List ℚ) :
    indexRelR e a l < (a :: l).length ∧
    (∀ k, indexRelR e a l = k + 1 →
      (((a :: l).getD (k + 1) 0 : ℝ) - e) ^ 2 ≤ (((a :: l).getD k 0 : ℝ) - e) ^ 2) ∧
    (indexRelR e a l + 1 < (a :: l).length →
      (((a :: l).getD (indexRelR e a l) 0 : ℝ) - e) ^ 2 <
        (((a :: l).getD (indexRelR e a l + 1) 0 : ℝ) - e) ^ 2) := by
  induction l generalizing a with
  | nil => simp [indexRelR]
  | cons x xs ih =>
    obtain ⟨h1, h2, h3⟩ := ih x
    by_cases hc : ((x : ℝ) - e) ^ 2 > ((a : ℝ) - e) ^ 2
    · have e0 : indexRelR e a (x :: xs) = 0 := by
        simp only [indexRelR]; rw [if_pos hc]
      rw [e0]
      refine ⟨by simp, by intro k hk; omega, ?_⟩
      intro _
      simpa using hc
    · have e1 : indexRelR e a (x :: xs) = indexRelR e x xs + 1 := by
        simp only [indexRelR]; rw [if_neg hc]
      rw [e1]
      refine ⟨by simp only [List.length_cons] at *; omega, ?_, ?_⟩
      · intro k hk
        cases k with
        | zero =>
          simp only [List.getD_cons_succ, List.getD_cons_zero]
          exact not_lt.1 hc
        | succ k =>
          simp only [List.getD_cons_succ]
          exact h2 k (by omega)
      · intro hl
        simp only [List.getD_cons_succ]
        exact h3 (by simp only [List.length_cons] at *; omega)

/-- `index` on an equidistant axis returns the bin that contains the energy, cut at the ends. -/
theorem indexR_grid (a w : ℚ) (n : ℕ) (hn : 1 ≤ n) (hw : 0 < w) (e : ℝ) :
    indexR (grid a w n) e < n ∧
    (1 ≤ indexR (grid a w n) e → (a : ℝ) + w * ((indexR (grid a w n) e : ℝ) - 1 / 2) ≤ e) ∧
    (indexR (grid a w n) e + 1 < n → e < (a : ℝ) + w * ((indexR (grid a w n) e : ℝ) + 1 / 2)) := by
  obtain ⟨m, rfl⟩ : ∃ m, n = m + 1 := ⟨n - 1, by omega⟩
  have hg : grid a w (m + 1) = a :: (grid a w (m + 1)).drop 1 := by
    simp [grid, List.range_succ_eq_map]
  have hidx : indexR (grid a w (m + 1)) e = indexRelR e a ((grid a w (m + 1)).drop 1) := by
    rw [hg]
    unfold indexR
    simp only [List.drop_succ_cons, List.drop_zero]
    rw [indexLoopR_rel _ _ _ _ le_rfl]
    simp
  obtain ⟨h1, h2, h3⟩ := indexRelR_spec e a ((grid a w (m + 1)).drop 1)
  rw [← hidx, ← hg] at h1 h2 h3
  rw [grid_length] at h1 h3
  set k := indexR (grid a w (m + 1)) e with hk
  have hw' : (0 : ℝ) < w := by exact_mod_cast hw
  have hval : ∀ q < m + 1, ((((grid a w (m + 1)).getD q 0 : ℚ)) : ℝ) = (a : ℝ) + w * q := by
    intro q hq
    rw [grid_getD _ _ hq]
    push_cast
    ring
  refine ⟨h1, ?_, ?_⟩
  · intro hk1
    obtain ⟨q, hq⟩ : ∃ q, k = q + 1 := ⟨k - 1, by omega⟩
    have := h2 q hq
    rw [hval _ (by omega), hval _ (by omega)] at this
    rw [hq]
    push_cast at this ⊢
    nlinarith
  · intro hk1
    have := h3 hk1
    rw [hval _ (by omega), hval _ (by omega)] at this
    push_cast at this ⊢
    nlinarith

/-! ## `interpolate` succeeds -/

theorem mapM_exists {α β : Type} (f : α → Except Err β) (l : List α)
    (h : ∀ x ∈ l, ∃ y, f x = .ok y) : ∃ r, l.mapM f = .ok r := by
  induction l with
  | nil => exact ⟨[], rfl⟩
  | cons x xs ih =>
    obtain ⟨y, hy⟩ := h x (by simp)
    obtain ⟨ys, hys⟩ := ih fun z hz => h z (by simp [hz])
    refine ⟨y :: ys, ?_⟩
    simp only [List.mapM_cons, hy, hys, bind, Except.bind, pure, Except.pure]

theorem rebin1D_ok (counts midsIn midsOut : List ℚ) (c0 c1 : ℚ) (m : ℕ) (hm : 2 ≤ m) (hc : c1 ≠ 0)
    (hin : midsIn = grid c0 c1 m) (hlen : counts.length = m) (ho : 2 ≤ midsOut.length) :
    ∃ r, rebin1D counts midsIn midsOut = .ok r ∧ r.length = midsOut.length := by
  match midsOut, ho with
  | n0 :: n1 :: ns, _ =>
    rw [hin, grid_two c0 c1 hm]
    unfold rebin1D
    simp only [add_sub_cancel_left]
    rw [if_neg hc, if_neg]
    · exact ⟨_, rfl, by simp⟩
    · rw [← grid_two c0 c1 hm, grid_length]; omega

/-- The hypotheses on a response table: increasing energies, one spectrum of full length per energy,
an equidistant axis of the spectra. -/
structure RespData.Good (d : RespData) (c0 c1 : ℚ) (m : ℕ) : Prop where
  two : 2 ≤ d.Eg.length
  nonneg : ∀ x ∈ d.Eg, 0 ≤ x
  axis : d.Ecmp = grid c0 c1 m
  axis_two : 2 ≤ m
  axis_step : 0 < c1
  spectra : ∀ i < d.Eg.length, (d.compton.getD i []).length = m

theorem closest_ok {d : RespData} {c0 c1 : ℚ} {m : ℕ} (hg : d.Good c0 c1 m) (a w : ℚ) (n : ℕ)
    (hn : 2 ≤ n) (hw : 0 < w) (hcov : a + w * ((n : ℚ) - 1) < c0 + c1 * ((m : ℚ) - 1)) (E : ℚ) :
    ∃ c, d.closest (grid a w n) E = .ok c ∧ n ≤ c.low.length ∧ c.high.length = c.low.length ∧
      0 ≤ c.Elow ∧ 0 ≤ c.Ehigh := by
  have hN := hg.two
  have hss : searchsorted d.Eg E true ≤ d.Eg.length := List.length_filter_le _ _
  set ih0 := searchsorted d.Eg E true with hih0
  set ih := (if ih0 = d.Eg.length then ih0 - 1 else ih0) with hih
  have hihN : ih < d.Eg.length := by
    rw [hih]; split_ifs <;> omega
  set Enew := arange a (c0 + c1 * ((m : ℚ) - 1)) w with hEnew
  have hlenE : n ≤ Enew.length := by
    rw [hEnew]
    unfold arange
    rw [List.length_map, List.length_range]
    have : (n : ℤ) - 1 < ⌈(c0 + c1 * ((m : ℚ) - 1) - a) / w⌉ := by
      rw [Int.lt_ceil, lt_div_iff₀ hw]
      push_cast
      linarith
    omega
  have hcmp : ∀ i < d.Eg.length, (d.cmpRow i).length = m := by
    intro i hi
    unfold RespData.cmpRow
    rw [List.length_map, hg.spectra i hi]
  have hnn : ∀ i < d.Eg.length, 0 ≤ d.Eg.getD i 0 := by
    intro i hi
    rw [List.getD_eq_getElem _ _ hi]
    exact hg.nonneg _ (List.getElem_mem _)
  set p : ℚ × List ℚ := (if ih = 0 then (0, (d.cmpRow ih).map fun _ => 0) else
    (d.Eg.getD (ih - 1) 0, d.cmpRow (ih - 1))) with hp
  have hp1 : 0 ≤ p.1 ∧ p.2.length = m := by
    rw [hp]
    split_ifs with h0
    · exact ⟨le_rfl, by rw [List.length_map, hcmp _ hihN]⟩
    · exact ⟨hnn _ (by omega), hcmp _ (by omega)⟩
  obtain ⟨low, l1, l2⟩ := rebin1D_ok p.2 d.Ecmp Enew c0 c1 m hg.axis_two hg.axis_step.ne' hg.axis
    hp1.2 (by omega)
  obtain ⟨high, k1, k2⟩ := rebin1D_ok (d.cmpRow ih) d.Ecmp Enew c0 c1 m hg.axis_two
    hg.axis_step.ne' hg.axis (hcmp _ hihN) (by omega)
  refine ⟨⟨p.1, d.Eg.getD ih 0, low, high⟩, ?_, by simp only; omega, by simp only; omega, hp1.1, hnn _ hihN⟩
  unfold RespData.closest
  rw [if_neg (by omega : ¬ d.Eg.length = 0)]
  rw [grid_two a w hn]
  have hl : d.Ecmp.getLast? = some (c0 + c1 * ((m : ℚ) - 1)) := by
    rw [hg.axis, grid_getLast _ _ (by have := hg.axis_two; omega)]
  simp only [hl, add_sub_cancel_left, ← hih0, ← hih, ← hp, ← hEnew]
  rw [if_neg hw.ne']
  simp only [bind, Except.bind, pure, Except.pure]
  rw [l1]
  simp only
  rw [k1]

theorem linear_length {c : Closest} (h : c.high.length = c.low.length) (E : ℚ) :
    (c.linear E).length = c.low.length := by
  unfold Closest.linear
  rw [List.length_zipWith, h, min_self]

theorem zerosAssign_ok (n lo hi : ℕ) (src : List ℚ) (h1 : hi ≤ n) (h2 : n ≤ src.length) :
    ∃ r, zerosAssign n lo hi src = .ok r := by
  unfold zerosAssign
  simp only
  rw [if_pos]
  · exact ⟨_, rfl⟩
  · rw [List.length_drop, List.length_take, min_eq_left (by omega), min_eq_left h1]

/-- The condition under which the fan method fills bin `i`. -/
def FanActive (Eout : List ℚ) (E : ℚ) (i : ℕ) : Prop :=
  1 / 10 ≤ ((Eout.getD i 0 : ℚ) : ℝ) ∧ ((Eout.getD i 0 : ℚ) : ℝ) ≤ eCompton E Real.pi ∧
    0 < fanAngle E (Eout.getD i 0 : ℚ) ∧ fanAngle E (Eout.getD i 0 : ℚ) < Real.pi

theorem fanStep_ok {a w : ℚ} {n : ℕ} (hn : 2 ≤ n) (hw : 0 < w) {c : Closest}
    (h1 : n ≤ c.low.length) (h2 : c.high.length = c.low.length) (E : ℚ) (st : List ℝ × ℕ) (i : ℕ) :
    ∃ st', fanStep (grid a w n) c E st i = .ok st' ∧
      (st'.2 = st.2 ∨ st'.2 = i ∧ FanActive (grid a w n) E i) := by
  have hc : ∀ e l, l = c.low ∨ l = c.high → countAt l (indexR (grid a w n) e) =
      .ok (l.getD (indexR (grid a w n) e) 0) := by
    intro e l hl
    have := (indexR_grid a w n (by omega) hw e).1
    unfold countAt
    rw [if_pos]
    rcases hl with rfl | rfl <;> omega
  unfold fanStep
  simp only
  by_cases k1 : (((grid a w n).getD i 0 : ℚ) : ℝ) < 1 / 10 ∨
      (((grid a w n).getD i 0 : ℚ) : ℝ) > eCompton E Real.pi
  · rw [if_pos k1]
    exact ⟨st, rfl, Or.inl rfl⟩
  · rw [if_neg k1]
    by_cases k2 : 0 < fanAngle E ((grid a w n).getD i 0 : ℚ) ∧
        fanAngle E ((grid a w n).getD i 0 : ℚ) < Real.pi
    · rw [if_pos k2, hc _ _ (Or.inl rfl), hc _ _ (Or.inr rfl)]
      simp only [bind, Except.bind, pure, Except.pure]
      push Not at k1
      exact ⟨_, rfl, Or.inr ⟨rfl, k1.1, k1.2, k2.1, k2.2⟩⟩
    · rw [if_neg k2]
      exact ⟨st, rfl, Or.inl rfl⟩

theorem fanMethod_ok {a w : ℚ} {n : ℕ} (hn : 2 ≤ n) (hw : 0 < w) {c : Closest}
    (h1 : n ≤ c.low.length) (h2 : c.high.length = c.low.length) (E : ℚ) (istart istop : ℕ) :
    ∃ r, fanMethod (grid a w n) c E istart istop = .ok r ∧
      (r.2 = istart ∨ FanActive (grid a w n) E r.2 ∧ istart ≤ r.2 ∧
        r.2 < indexR (grid a w n) (eCompton E Real.pi) ∧ r.2 < istop) := by
  have fold : ∀ (is : List ℕ) (s : List ℝ × ℕ), ∃ s', is.foldlM (fanStep (grid a w n) c E) s = .ok s' ∧
      (s'.2 = s.2 ∨ s'.2 ∈ is ∧ FanActive (grid a w n) E s'.2) := by
    intro is
    induction is with
    | nil => intro s; exact ⟨s, rfl, Or.inl rfl⟩
    | cons i is ih =>
      intro s
      obtain ⟨s1, e1, q1⟩ := fanStep_ok (a := a) hn hw h1 h2 E s i
      obtain ⟨s2, e2, q2⟩ := ih s1
      refine ⟨s2, ?_, ?_⟩
      · simp only [List.foldlM_cons, e1, bind, Except.bind]
        exact e2
      · rcases q2 with q2 | q2
        · rcases q1 with q1 | q1
          · left; rw [q2, q1]
          · right; rw [q2, q1.1]; exact ⟨by simp, q1.2⟩
        · right; exact ⟨by simp [q2.1], q2.2⟩
  obtain ⟨s, e, q⟩ := fold ((List.range (min (indexR (grid a w n) (eCompton E Real.pi))
    (min istop (grid a w n).length))).filter fun i => istart ≤ i)
    (List.replicate (grid a w n).length (0 : ℝ), istart)
  refine ⟨(clip0 s.1, s.2), ?_, ?_⟩
  · unfold fanMethod
    simp only [e, bind, Except.bind, pure, Except.pure]
  · rcases q with q | q
    · left; exact q
    · right
      have hm := q.1
      rw [List.mem_filter, List.mem_range] at hm
      simp only [decide_eq_true_eq, lt_min_iff] at hm
      exact ⟨q.2, hm.2, hm.1.1, hm.1.2.1⟩

theorem eCompton_le {Eg : ℝ} (h : 0 ≤ Eg) (theta : ℝ) : eCompton Eg theta ≤ Eg := by
  by_cases h1 : 1 / 10 < Eg
  · exact (C44_bounds Eg theta h1).2.2.le
  · unfold eCompton; rw [if_neg h1]

theorem truncR_nonneg {x : ℝ} (h : 0 ≤ x) : 0 ≤ truncR x := by
  unfold truncR
  rw [if_pos h]
  exact Int.floor_nonneg.2 h

theorem countCut_ok (l : List ℚ) (i : ℤ) (hl : l ≠ []) (hi : 0 ≤ i) : ∃ x, countCut l i = .ok x := by
  have := List.length_pos_iff.2 hl
  unfold countCut
  rw [npIndex_in]
  · exact ⟨_, rfl⟩
  · split_ifs <;> omega
  · split_ifs <;> omega

theorem fanToEnd_ok {a w : ℚ} {n : ℕ} (hw : 0 < w) (fwhm : List ℚ)
    (hf : ∀ x ∈ fwhm, 0 ≤ x) {c : Closest} (h1 : n ≤ c.low.length)
    (h2 : c.high.length = c.low.length) (h3 : 0 ≤ c.Elow) (h4 : 0 ≤ c.Ehigh) (E : ℚ)
    (istart istop : ℕ) (hs : istart < istop) (ht : istop < n) :
    ∃ r, fanToEnd (grid a w n) fwhm c E istart istop = .ok r := by
  have hden : (0 : ℝ) < (((grid a w n).getD istop 0 - (grid a w n).getD istart 0 : ℚ) : ℝ) := by
    rw [grid_getD _ _ ht, grid_getD _ _ (by omega)]
    have : (istart : ℚ) < istop := by exact_mod_cast hs
    have : 0 < w * ((istop : ℚ) - istart) := mul_pos hw (by linarith)
    have e : a + w * (istop : ℚ) - (a + w * (istart : ℚ)) = w * ((istop : ℚ) - istart) := by ring
    rw [e]
    exact_mod_cast this
  have hfw : ∀ k, (0 : ℝ) ≤ ((fwhm.getD k 0 : ℚ) : ℝ) := by
    intro k
    by_cases hk : k < fwhm.length
    · rw [List.getD_eq_getElem _ _ hk]
      exact_mod_cast hf _ (List.getElem_mem _)
    · rw [List.getD_eq_default _ _ (by omega)]; simp
  have hl : c.low ≠ [] := by
    intro h; rw [h] at h1; simp at h1; omega
  have hh : c.high ≠ [] := by
    intro h; rw [h] at h2; simp at h2
    exact hl (by simpa using h2.symm)
  have hidx : ∀ (e : ℚ) (i k : ℕ), 0 ≤ e → istart ≤ i →
      0 ≤ truncR ((k : ℝ) + ((e : ℝ) + 6 * (((fwhm.getD (indexR (grid a w n) e) 0 : ℚ) : ℝ) /
        (235 / 100)) - eCompton e Real.pi) /
        (((grid a w n).getD istop 0 - (grid a w n).getD istart 0 : ℚ) : ℝ) *
        ((i : ℝ) - ((istart : ℝ) - 1))) := by
    intro e i k he hi
    apply truncR_nonneg
    have h5 : eCompton e Real.pi ≤ (e : ℝ) := eCompton_le (by exact_mod_cast he) _
    have h6 := hfw (indexR (grid a w n) e)
    have h7 : (0 : ℝ) ≤ (e : ℝ) + 6 * (((fwhm.getD (indexR (grid a w n) e) 0 : ℚ) : ℝ) /
        (235 / 100)) - eCompton e Real.pi := by
      have : (0 : ℝ) ≤ 6 * (((fwhm.getD (indexR (grid a w n) e) 0 : ℚ) : ℝ) / (235 / 100)) := by
        positivity
      linarith
    have h8 : (0 : ℝ) ≤ (i : ℝ) - ((istart : ℝ) - 1) := by
      have : (istart : ℝ) ≤ i := by exact_mod_cast hi
      linarith
    have := mul_nonneg (div_nonneg h7 hden.le) h8
    have : (0 : ℝ) ≤ (k : ℝ) := by positivity
    linarith
  obtain ⟨vals, hv⟩ := mapM_exists (fun i : ℕ => (do
    let k : ℝ := ((i : ℝ) - ((istart : ℝ) - 1))
    let c1 ← countCut c.low (truncR ((indexR (grid a w n) (eCompton c.Elow Real.pi) : ℝ) +
      ((c.Elow : ℝ) + 6 * (((fwhm.getD (indexR (grid a w n) c.Elow) 0 : ℚ) : ℝ) /
        (235 / 100)) - eCompton c.Elow Real.pi) /
        (((grid a w n).getD istop 0 - (grid a w n).getD istart 0 : ℚ) : ℝ) * k))
    let c2 ← countCut c.high (truncR ((indexR (grid a w n) (eCompton c.Ehigh Real.pi) : ℝ) +
      ((c.Ehigh : ℝ) + 6 * (((fwhm.getD (indexR (grid a w n) c.Ehigh) 0 : ℚ) : ℝ) /
        (235 / 100)) - eCompton c.Ehigh Real.pi) /
        (((grid a w n).getD istop 0 - (grid a w n).getD istart 0 : ℚ) : ℝ) * k))
    (pure ((linInterp E c.Elow c1 c.Ehigh c2 : ℚ) : ℝ) : Except Err ℝ)))
    ((List.range (grid a w n).length).filter fun i => istart ≤ i) (by
      intro i hi
      rw [List.mem_filter] at hi
      simp only [decide_eq_true_eq] at hi
      obtain ⟨x, hx⟩ := countCut_ok c.low _ hl (hidx c.Elow i (indexR (grid a w n) (eCompton c.Elow Real.pi)) h3 hi.2)
      obtain ⟨y, hy⟩ := countCut_ok c.high _ hh (hidx c.Ehigh i (indexR (grid a w n) (eCompton c.Ehigh Real.pi)) h4 hi.2)
      refine ⟨((linInterp E c.Elow x c.Ehigh y : ℚ) : ℝ), ?_⟩
      simp only [bind, Except.bind, pure, Except.pure]
      rw [hx]
      simp only
      rw [hy])
  refine ⟨clip0 (List.replicate istart 0 ++ vals), ?_⟩
  unfold fanToEnd
  simp only
  rw [if_neg (by rw [grid_length]; omega), if_neg hden.ne']
  simp only [bind, Except.bind, pure, Except.pure] at hv ⊢
  rw [hv]

/-- The fan method cannot reach the upper end of the row for bins up to 400 keV. -/
theorem fan_below_end {a w : ℚ} {n j : ℕ} (hw : 0 < w) (hw4 : w ≤ 400) (hj : j < n) (sig : ℝ)
    (hs : 0 ≤ sig) (i : ℕ)
    (hact : FanActive (grid a w n) (a + w * j) i)
    (h1 : indexR (grid a w n) (((a + w * j : ℚ) : ℝ) - eCompton ((a + w * j : ℚ) : ℝ) Real.pi) + 3 ≤ i)
    (h2 : i < indexR (grid a w n) (eCompton ((a + w * j : ℚ) : ℝ) Real.pi)) :
    i + 1 < min (indexR (grid a w n) (((a + w * j : ℚ) : ℝ) + 6 * sig)) (n - 1) := by
  have hn : 1 ≤ n := by omega
  set E : ℚ := a + w * j with hE
  have hER : (E : ℝ) = (a : ℝ) + w * j := by rw [hE]; push_cast; ring
  have hw' : (0 : ℝ) < w := by exact_mod_cast hw
  have hw4' : (w : ℝ) ≤ 400 := by exact_mod_cast hw4
  set ec := eCompton (E : ℝ) Real.pi with hec
  obtain ⟨b1, b2, b3⟩ := indexR_grid a w n hn hw ((E : ℝ) - ec)
  obtain ⟨e1, e2, e3⟩ := indexR_grid a w n hn hw ec
  obtain ⟨g1, g2, g3⟩ := indexR_grid a w n hn hw ((E : ℝ) + 6 * sig)
  set ib := indexR (grid a w n) ((E : ℝ) - ec)
  set ie := indexR (grid a w n) ec
  set ig := indexR (grid a w n) ((E : ℝ) + 6 * sig)
  -- the end of the row is at or above `j`
  have hjg : j ≤ ig := by
    by_contra hc
    push Not at hc
    have h5 := g3 (by omega)
    have h6 : (ig : ℝ) + 1 ≤ j := by exact_mod_cast hc
    rw [hER] at h5
    nlinarith
  -- the Compton edge is below `j`
  have hej : ie < j := by
    by_contra hc
    push Not at hc
    have h5 := e2 (by omega)
    have h6 : (j : ℝ) ≤ ie := by exact_mod_cast hc
    have h7 : (E : ℝ) - w / 2 ≤ ec := by rw [hER]; nlinarith
    have h8 := b3 (by omega)
    have h9 : (ib : ℝ) + 4 ≤ ie := by
      have : ib + 4 ≤ ie := by omega
      exact_mod_cast this
    have h10 : 3 * (w : ℝ) < ec - ((E : ℝ) - ec) := by nlinarith
    by_cases hlow : (1 : ℝ) / 10 < E
    · have h11 : ec = (E : ℝ) - E / (1 + E / 511 * (1 - Real.cos Real.pi)) := by
        rw [hec]; unfold eCompton; rw [if_pos hlow]
      rw [Real.cos_pi] at h11
      set b := (E : ℝ) / (1 + E / 511 * (1 - -1)) with hb
      have hden : (0 : ℝ) < 1 + E / 511 * (1 - -1) := by positivity
      have hb' : b * (1 + (E : ℝ) / 511 * (1 - -1)) = E := by
        rw [hb]; field_simp
      have hb0 : 0 < b := div_pos (by linarith) hden
      have hbw : b ≤ w / 2 := by linarith
      have hE3 : 3 * (w : ℝ) + 2 * b < E := by linarith
      -- b (1 + 2E/511) = E
      nlinarith
    · obtain ⟨f1, f2, -, -⟩ := hact
      have h11 : ec = (E : ℝ) := by
        rw [hec]; unfold eCompton; rw [if_neg hlow]
      rw [← hec, h11] at f2
      push Not at hlow
      have hin : i < n := by omega
      rw [grid_getD _ _ hin] at f1 f2
      push_cast at f1 f2
      have hij : (a : ℝ) + w * i = E := by linarith
      rw [hER] at hij
      have : (i : ℝ) = j := by
        have : (w : ℝ) * ((i : ℝ) - j) = 0 := by linarith
        rcases mul_eq_zero.1 this with h | h
        · linarith
        · linarith
      have hij' : i = j := by exact_mod_cast this
      -- but the loop stops before the bin of the edge, which is `j`
      have h12 : ie ≤ j := by
        by_contra hcc
        push Not at hcc
        have h13 := e2 (by omega)
        have h14 : (j : ℝ) + 1 ≤ ie := by exact_mod_cast hcc
        rw [h11, hER] at h13
        nlinarith
      omega
  rw [lt_min_iff]
  omega

/-- The Compton part of a row is always computed. -/
theorem comptonPart_ok {d : RespData} {c0 c1 : ℚ} {m : ℕ} (hg : d.Good c0 c1 m) (a w : ℚ) (n : ℕ)
    (hn : 2 ≤ n) (hw : 0 < w) (hw4 : w ≤ 400)
    (hcov : a + w * ((n : ℚ) - 1) < c0 + c1 * ((m : ℚ) - 1)) (fwhm : List ℚ) (hfl : fwhm.length = n)
    (hf : ∀ x ∈ fwhm, 0 ≤ x) (j : ℕ) (hj : j < n) :
    ∃ r, comptonPart d (grid a w n) fwhm j = .ok r := by
  obtain ⟨c, k1, k2, k3, k4, k5⟩ := closest_ok hg a w n hn hw hcov (a + w * j)
  have hlin := linear_length k3 (a + w * (j : ℚ))
  have hsig : (0 : ℝ) ≤ ((fwhm.getD j 0 : ℚ) : ℝ) / (235 / 100) := by
    have : (0 : ℚ) ≤ fwhm.getD j 0 := by
      rw [List.getD_eq_getElem _ _ (by omega)]
      exact hf _ (List.getElem_mem _)
    have : (0 : ℝ) ≤ ((fwhm.getD j 0 : ℚ) : ℝ) := by exact_mod_cast this
    positivity
  set istop := min (indexR (grid a w n) (((a + w * j : ℚ) : ℝ) +
    6 * (((fwhm.getD j 0 : ℚ) : ℝ) / (235 / 100)))) (n - 1) with histop
  set ib := indexR (grid a w n) (((a + w * j : ℚ) : ℝ) - eCompton ((a + w * j : ℚ) : ℝ) Real.pi)
    with hib
  have hibn : ib < n := (indexR_grid a w n (by omega) hw _).1
  have hstopn : istop < n := by
    have : istop ≤ n - 1 := min_le_right _ _
    omega
  obtain ⟨R1, r1⟩ := zerosAssign_ok n 0 (ib + 1) (c.linear (a + w * j)) (by omega) (by omega)
  obtain ⟨R2, r2⟩ := zerosAssign_ok n (ib + 1) (istop + 1) (c.linear (a + w * j)) (by omega)
    (by omega)
  obtain ⟨fan, f1, f2⟩ := fanMethod_ok (a := a) hn hw k2 k3 (a + w * (j : ℚ)) (ib + 1) istop
  unfold comptonPart
  simp only [bind, Except.bind, pure, Except.pure]
  rw [grid_getD _ _ hj, k1]
  simp only [linearBackscatter, linearToEnd, bind, Except.bind, pure, Except.pure, grid_length]
  rw [← hib, r1]
  simp only
  rw [← histop, f1]
  simp only
  by_cases hb : fan.2 ≤ ib + 2
  · rw [if_pos hb, r2]
    exact ⟨_, rfl⟩
  · rw [if_neg hb]
    rcases f2 with f2 | ⟨f2, f3, f4, f5⟩
    · omega
    · have hlt := fan_below_end hw hw4 hj (((fwhm.getD j 0 : ℚ) : ℝ) / (235 / 100)) hsig fan.2 f2
        (by rw [← hib]; omega) f4
      rw [← histop] at hlt
      obtain ⟨R3, r3⟩ := fanToEnd_ok (a := a) hw fwhm hf k2 k3 k4 k5 (a + w * (j : ℚ)) (fan.2 + 1)
        istop hlt hstopn
      rw [r3]
      exact ⟨_, rfl⟩

/-- C59: for every table with increasing energies, and every equidistant output axis with bins up to
400 keV that ends below the end of the Compton spectra, `interpolate` returns a response matrix: no
index, shape or division error occurs in any row. -/
theorem C59_total_partial (d : RespData) (c0 c1 : ℚ) (m : ℕ) (hg : d.Good c0 c1 m) (a w fwhmAbs : ℚ) (n : ℕ)
    (hn : 2 ≤ n) (hw : 0 < w) (hw4 : w ≤ 400)
    (hcov : a + w * ((n : ℚ) - 1) < c0 + c1 * ((m : ℚ) - 1))
    (smooth : Bool) (t : ℝ) (ht : 0 ≤ t)
    (hf : ∀ x ∈ d.fwhmArray fwhmAbs (grid a w n), 0 ≤ x)
    (hf1 : 1 / 10 ≤ fwhmAbs ∧ fwhmAbs ≤ 1000)
    (hf2 : |interpLin d.Eg (fun i => d.fwhmRel.getD i 0) 1330 - 1| < 5 / 100) :
    ∃ R, respInterpolate d (grid a w n) fwhmAbs smooth t = .ok R := by
  set fwhm := d.fwhmArray fwhmAbs (grid a w n) with hfw
  have hfl : fwhm.length = n := by simp [hfw, RespData.fwhmArray]
  have hfr : ∀ i < n, 0 ≤ (toR fwhm).getD i 0 := by
    intro i hi
    rw [List.getD_eq_getElem _ _ (by rw [toR_length]; omega)]
    exact toR_nonneg _ hf _ (List.getElem_mem _)
  have hcompton : ∀ j < n, ∃ r, comptonPart d (grid a w n) fwhm j = .ok r :=
    fun j hj => comptonPart_ok hg a w n hn hw hw4 hcov fwhm hfl hf j hj
  have hrows : ∀ j < n, ∃ r, responseRow d (grid a w n) fwhm smooth t j = .ok r := by
    intro j hj
    obtain ⟨R, hR⟩ := hcompton j hj
    obtain ⟨q1, -⟩ := comptonPart_spec hR
    rw [grid_length] at q1
    obtain ⟨p, p1, p2, -, -, -⟩ := C43_peaks (d.fFE (a + w * j)) (d.fSE (a + w * j))
      (d.fDE (a + w * j)) (d.f511 (a + w * j)) a w n j hn hw hj
    have smoothing : ∀ c : List ℝ, c.length = n →
        ∃ out, gaussSmoothing c (toR (grid a w n)) (toR fwhm) t = .ok out := by
      intro c hc
      rw [toR_grid]
      obtain ⟨out, q1, -⟩ := C31_conserves (a : ℝ) (w : ℝ) n hn (by exact_mod_cast hw)
        (toR fwhm) c (by rw [toR_length, hfl]) hfr t ht hc
      exact ⟨out, q1⟩
    unfold responseRow
    simp only [bind, Except.bind, pure, Except.pure]
    rw [hR, grid_getD _ _ hj]
    simp only
    rw [p1]
    simp only
    cases smooth with
    | true =>
      simp only [if_true]
      obtain ⟨out, ho⟩ := smoothing (List.zipWith (· + ·) (if a + w * (j : ℚ) < d.Eg.getD 0 0 then
        (List.range R.length).map fun k : ℕ => if j < k then 0 else R.getD k 0 else R) (toR p)) (by
          rw [List.length_zipWith, toR_length, p2]
          split_ifs <;> simp [q1])
      rw [ho]
      exact ⟨_, rfl⟩
    | false =>
      simp only [Bool.false_eq_true, if_false]
      obtain ⟨out, ho⟩ := smoothing (toR p) (by rw [toR_length, p2])
      rw [ho]
      exact ⟨_, rfl⟩
  obtain ⟨R, hR⟩ := mapM_exists (responseRow d (grid a w n) fwhm smooth t)
    (List.range (grid a w n).length) (by
      intro j hj
      rw [List.mem_range, grid_length] at hj
      exact hrows j hj)
  refine ⟨R.map clip0, ?_⟩
  unfold respInterpolate
  rw [if_neg (by have := hg.two; omega), if_neg (by simpa using hf1), if_neg (by rw [grid_length]; omega),
    if_neg (by simpa using hf2)]
  simp only [bind, Except.bind, pure, Except.pure]
  rw [← hfw, hR]

end Ompy
