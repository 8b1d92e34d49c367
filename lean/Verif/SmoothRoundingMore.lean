import Verif.SmoothRoundingProps

/-!
# More properties of the Gaussian smoothing in floating point (C126)
-/

namespace Ompy

theorem smoothLoopF_single {fl : ℚ → ℚ} {sum : List ℚ → ℚ} (g : ℚ → ℚ → ℚ → ℚ)
    (c E fwhm : List ℚ) (t : ℚ) {i : ℕ} (hz : ∀ j, j ≠ i → c.getD j 0 ≤ 0) (k : ℕ) :
    ∀ j, smoothLoopF fl sum g c E fwhm t j k = if i < j ∧ 0 < c.getD i 0 then
      fl (fl (c.getD i 0 * fl (rawPdfF fl g E fwhm t i k / sum (pdfRowF fl g c.length E fwhm t i)))) else 0 := by
  intro j
  induction j with
  | zero => simp [smoothLoopF]
  | succ j ih =>
    rw [smoothLoopF]
    by_cases hj : j = i
    · subst hj
      rw [if_neg (by omega)] at ih
      by_cases hc : 0 < c.getD j 0
      · rw [if_pos hc, if_pos ⟨by omega, hc⟩, ih, zero_add]
      · rw [if_neg hc, if_neg (fun h => hc h.2), ih]
    · rw [if_neg (not_lt.2 (hz j hj)), ih]
      have : i < j + 1 ↔ i < j := by omega
      simp only [this]

/-- **C126.** A spectrum with counts in one bin only becomes the bell function around this bin, cut off at the window and
scaled to the counts. -/
theorem C126_point {fl : ℚ → ℚ} {u : ℚ} (hfl : Rounding fl u) (hu : 0 ≤ u) (hu1 : u < 1) {D : ℕ → ℕ}
    {sum : List ℚ → ℚ} (hs : Summation fl D sum) (g : ℚ → ℚ → ℚ → ℚ) (hg : ∀ m s x, 0 ≤ g m s x)
    (hg1 : ∀ m s, 0 < g m s m) {E : List ℚ} {R : ℚ} (hE : NearAxis fl u E R) (c fwhm : List ℚ) (hc : c.length = E.length)
    (hf : fwhm.length = E.length) (hf0 : ∀ i < E.length, 0 ≤ fwhm.getD i 0) (t : ℚ) (ht : 0 ≤ t) {i : ℕ}
    (hi : i < E.length) (hci : 0 < c.getD i 0) (hz : ∀ j, j ≠ i → c.getD j 0 ≤ 0) {W : Finset ℕ}
    (hW : ∀ q, q ∈ W ↔ q < E.length ∧ (windowF fl E fwhm t i).1 ≤ (q : ℤ) ∧ (q : ℤ) ≤ (windowF fl E fwhm t i).2)
    {s : ℚ} (hsig : s = fl (fwhm.getD i 0 / fl (2355 / 1000))) :
    ∃ out, gaussSmoothingF fl sum g c E fwhm t = .ok out ∧
      (∀ k ∈ W, Within u (D E.length + 3) (c.getD i 0 * (g (E.getD i 0) s (E.getD k 0) /
        ∑ q ∈ W, g (E.getD i 0) s (E.getD q 0))) (out.getD k 0)) ∧
      ∀ k ∉ W, out.getD k 0 = 0 := by
  obtain ⟨out, h1, h2, -, -, -⟩ := C126_counts hfl hu hu1 hs g hg hg1 hE c fwhm hc hf hf0 t ht
  refine ⟨out, h1, ?_⟩
  have hout : out = (List.range c.length).map fun k : ℕ => smoothLoopF fl sum g c E fwhm t c.length k := by
    unfold gaussSmoothingF at h1
    have := hE.len
    rw [if_neg (by omega), if_neg (by omega), if_neg (by omega)] at h1
    split_ifs at h1
    exact (Except.ok.inj h1).symm
  have raw : ∀ k < E.length, rawPdfF fl g E fwhm t i k = if k ∈ W then g (E.getD i 0) s (E.getD k 0) else 0 := by
    intro k hk
    unfold rawPdfF
    rw [← hsig]
    by_cases hkW : k ∈ W
    · have := (hW k).1 hkW
      rw [if_pos hkW, if_pos (by omega)]
    · rw [if_neg hkW, if_neg]
      intro h
      exact hkW ((hW k).2 ⟨hk, by omega, by omega⟩)
  have hsub : W ⊆ Finset.range E.length := fun q hq => Finset.mem_range.2 ((hW q).1 hq).1
  have tot : (pdfRowF fl g c.length E fwhm t i).sum = ∑ q ∈ W, g (E.getD i 0) s (E.getD q 0) := by
    unfold pdfRowF
    rw [list_map_range_sum, hc, Finset.sum_congr rfl fun q hq => raw q (Finset.mem_range.1 hq), ← Finset.sum_filter,
      Finset.filter_mem_eq_inter, Finset.inter_eq_right.2 hsub]
  have iW : i ∈ W := by
    obtain ⟨w1, w2, -⟩ := C126_window hfl hu hE fwhm t ht hi (hf0 i hi)
    exact (hW i).2 ⟨hi, by omega, by omega⟩
  have Tp : 0 < ∑ q ∈ W, g (E.getD i 0) s (E.getD q 0) :=
    Finset.sum_pos' (fun q _ => hg _ _ _) ⟨i, iW, hg1 _ _⟩
  have rownn : ∀ x ∈ pdfRowF fl g c.length E fwhm t i, 0 ≤ x := by
    intro x hx
    obtain ⟨q, _, rfl⟩ := List.mem_map.1 hx
    unfold rawPdfF
    split_ifs
    · exact hg _ _ _
    · exact le_rfl
  have ws := (hs.spec hfl hu hu1 rownn).1
  rw [tot] at ws
  have hlen : (pdfRowF fl g c.length E fwhm t i).length = E.length := by simp [pdfRowF, hc]
  rw [hlen] at ws
  constructor
  · intro k hk
    have hkl := ((hW k).1 hk).1
    rw [hout, getD_map_range _ (by omega), smoothLoopF_single g c E fwhm t hz k, if_pos ⟨by omega, hci⟩, raw k hkl,
      if_pos hk]
    have w1 := Within.div hu1 (Within.refl' (u := u) (g (E.getD i 0) s (E.getD k 0))) ws (hg _ _ _) Tp
    have q0 := div_nonneg (hg (E.getD i 0) s (E.getD k 0)) Tp.le
    have w2 := Within.trans hu1 w1 (Within.rounded hu hu1 hfl (w1.nonneg hu1 q0))
    have w3 := Within.mul hu1 (Within.refl' (u := u) (c.getD i 0)) w2 hci.le q0
    have q1 := mul_nonneg hci.le q0
    have w4 := Within.trans hu1 w3 (Within.rounded hu hu1 hfl (w3.nonneg hu1 q1))
    have w5 := Within.trans hu1 w4 (Within.rounded hu hu1 hfl (w4.nonneg hu1 q1))
    exact w5.mono hu hu1 q1 (by omega)
  · intro k hk
    by_cases hkl : k < E.length
    · rw [hout, getD_map_range _ (by omega), smoothLoopF_single g c E fwhm t hz k, if_pos ⟨by omega, hci⟩, raw k hkl,
        if_neg hk, zero_div, hfl.zero, mul_zero, hfl.zero, hfl.zero]
    · rw [List.getD_eq_default]
      omega

/-- **C126.** Bins without counts are skipped: a distribution that is zero there does no harm. -/
theorem C126_skips {fl : ℚ → ℚ} (sum : List ℚ → ℚ) (g : ℚ → ℚ → ℚ → ℚ) (c E fwhm : List ℚ) (hc : c.length = E.length)
    (hf : c.length = fwhm.length) (hn : 2 ≤ E.length) (hw : fl (E.getD 1 0 - E.getD 0 0) ≠ 0) (t : ℚ)
    (h0 : ∀ x ∈ c, x ≤ 0) : gaussSmoothingF fl sum g c E fwhm t = .ok (List.replicate E.length 0) := by
  have hz : ∀ i, c.getD i 0 ≤ 0 := by
    intro i
    by_cases hi : i < c.length
    · rw [List.getD_eq_getElem c 0 hi]
      exact h0 _ (List.getElem_mem hi)
    · rw [List.getD_eq_default _ _ (by omega)]
  have hl : ∀ j k, smoothLoopF fl sum g c E fwhm t j k = 0 := by
    intro j k
    induction j with
    | zero => rfl
    | succ j ih => rw [smoothLoopF, if_neg (not_lt.2 (hz j)), ih]
  unfold gaussSmoothingF
  rw [if_neg (by omega), if_neg (by omega), if_neg (by omega), if_neg hw, if_neg]
  · simp only [hl]
    rw [List.map_const', List.length_range, hc]
  · rintro ⟨i, -, h, -⟩
    exact absurd h (not_lt.2 (hz i))

/-- **C126.** Equal first energies are a division by zero. -/
theorem C126_zero_width {fl : ℚ → ℚ} (hfl : fl 0 = 0) (sum : List ℚ → ℚ) (g : ℚ → ℚ → ℚ → ℚ) (c E fwhm : List ℚ)
    (hc : c.length = E.length) (hf : c.length = fwhm.length) (hn : 2 ≤ E.length) (he : E.getD 1 0 = E.getD 0 0) (t : ℚ) :
    gaussSmoothingF fl sum g c E fwhm t = .error .undefined := by
  unfold gaussSmoothingF
  rw [if_neg (by omega), if_neg (by omega), if_neg (by omega), if_pos]
  rw [he, sub_self, hfl]

/-- The uneven axis of `C126_uneven_fails` is harmless for an empty spectrum. -/
example (g : ℚ → ℚ → ℚ → ℚ) :
    gaussSmoothingF dbl (npSum dbl) g [0, -1, 0] [0, 1, 100] [1, 1, 1] 3 = .ok [0, 0, 0] :=
  C126_skips (npSum dbl) g [0, -1, 0] [0, 1, 100] [1, 1, 1] rfl rfl (by simp) (by decide +kernel) 3 (by simp)

/-- 5 counts in a bin without width stay in the bins 0 and 1. -/
example : ∃ out, gaussSmoothingF dbl (npSum dbl) bell [5, -3, 0, 0] [0, dbl (1 / 10), dbl (2 / 10), dbl (3 / 10)]
    [0, 1, 1, 1] 3 = .ok out ∧ out.getD 2 0 = 0 ∧ out.getD 3 0 = 0 := by
  have hwin : windowF dbl [0, dbl (1 / 10), dbl (2 / 10), dbl (3 / 10)] [0, 1, 1, 1] 3 0 = (0, 1) := by decide +kernel
  obtain ⟨out, h1, -, h2⟩ := C126_point dbl_rounding (by norm_num) (by norm_num) (C117_numpy dbl) bell
    (fun m s x => by unfold bell; positivity) (fun m s => by unfold bell; positivity) tenths_axis [5, -3, 0, 0]
    [0, 1, 1, 1] rfl rfl (by
      intro i hi
      simp only [List.length_cons, List.length_nil] at hi
      interval_cases i <;> norm_num) 3 (by norm_num) (i := 0) (by simp) (by norm_num) (by
      intro j hj
      by_cases h : j < 4
      · interval_cases j <;> simp at *
      · rw [List.getD_eq_default _ _ (by simpa using h)])
    (W := {0, 1}) (by
      intro q
      rw [hwin]
      simp only [Finset.mem_insert, Finset.mem_singleton, List.length_cons, List.length_nil]
      omega) rfl
  exact ⟨out, h1, h2 2 (by simp), h2 3 (by simp)⟩

end Ompy
