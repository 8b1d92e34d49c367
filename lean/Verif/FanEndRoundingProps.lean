import Verif.FanEndRounding
import Verif.ComptonRoundingProps
import Verif.LogInterpRoundingProps

/-!
# C156: the linear fan above the Compton edge with rounded numbers
-/

namespace Ompy

/-- **C156.** The scale of the fan: the error is relative to the upper end of the peak, not to the distance between peak and edge. -/
theorem C156_scale {fl : ℚ → ℚ} {u : ℚ} (hfl : Rounding fl u) (hu : 0 ≤ u) (hu1 : u < 1) {Esim fwhm ec eStart eStop : ℚ} (h1 : 0 ≤ Esim)
    (h2 : 0 ≤ fwhm) (h3 : eStart < eStop) :
    |fanScaleF fl Esim fwhm ec eStart eStop - (Esim + 6 * (fwhm / (235 / 100)) - ec) / (eStop - eStart)| ≤
      (excess u 3 * |Esim + 6 * (fwhm / (235 / 100)) - ec| +
        excess u 4 * (1 + excess u 3) * (Esim + 6 * (fwhm / (235 / 100)))) / (eStop - eStart) := by
  have w1 : Within u 1 (235 / 100) (fl (235 / 100)) := Within.rounded hu hu1 hfl (by norm_num)
  have w2 := (Within.refl' (u := u) fwhm).div hu1 w1 h2 (by norm_num)
  have w3 := w2.trans hu1 (Within.rounded hu hu1 hfl (w2.nonneg hu1 (by positivity)))
  have w4 := (Within.refl' (u := u) (6 : ℚ)).mul hu1 w3 (by norm_num) (by positivity)
  have w5 := w4.trans hu1 (Within.rounded hu hu1 hfl (w4.nonneg hu1 (by positivity)))
  have w6 := ((Within.refl' (u := u) Esim).mono hu hu1 h1 (show 0 ≤ 0 + (0 + 1 + 1) + 1 by omega)).add w5
  have w7 := w6.trans hu1 (Within.rounded hu hu1 hfl (w6.nonneg hu1 (by positivity)))
  have hA : 0 ≤ Esim + 6 * (fwhm / (235 / 100)) := by positivity
  have fa := (w7.factor hu hu1 hA).abs_sub hu1
  rw [abs_of_nonneg hA] at fa
  unfold fanScaleF
  set A := Esim + 6 * (fwhm / (235 / 100)) with hAdef
  set A' := fl (Esim + fl (6 * fl (fwhm / fl (235 / 100)))) with hA'
  have hD : 0 < eStop - eStart := by linarith
  have fa' : |A' - A| ≤ excess u 4 * A := fa
  have r := Factor.rounded hfl hu1
  have f2 := ((r (A' - ec)).mul hu1 ((r (eStop - eStart)).inv hu1)).trans hu1 (r _)
  have f3 := f2.abs_sub hu1
  rw [← div_eq_mul_inv, ← div_eq_mul_inv, abs_div, abs_of_pos hD] at f3
  have f3' : |fl (fl (A' - ec) / fl (eStop - eStart)) - (A' - ec) / (eStop - eStart)| ≤ excess u 3 * (|A' - ec| / (eStop - eStart)) := f3
  have e0 := excess_nonneg hu hu1 3
  have t : |A' - ec| ≤ |A - ec| + excess u 4 * A := by
    have e : A' - ec = (A - ec) + (A' - A) := by ring
    rw [e]
    exact (abs_add_le _ _).trans (by linarith)
  have e : fl (fl (A' - ec) / fl (eStop - eStart)) - (A - ec) / (eStop - eStart) =
      (fl (fl (A' - ec) / fl (eStop - eStart)) - (A' - ec) / (eStop - eStart)) + (A' - A) / (eStop - eStart) := by
    field_simp
    ring
  rw [e]
  refine (abs_add_le _ _).trans ?_
  rw [abs_div (A' - A), abs_of_pos hD]
  have g1 : excess u 3 * (|A' - ec| / (eStop - eStart)) ≤ excess u 3 * ((|A - ec| + excess u 4 * A) / (eStop - eStart)) :=
    mul_le_mul_of_nonneg_left (div_le_div_of_nonneg_right t hD.le) e0
  have g2 := div_le_div_of_nonneg_right fa' hD.le
  calc _ ≤ excess u 3 * ((|A - ec| + excess u 4 * A) / (eStop - eStart)) + excess u 4 * A / (eStop - eStart) := by linarith
    _ = _ := by ring

example : (0 : ℚ) ≤ 1000 ∧ fanScaleF dbl 1000 47 800 300 500 = dbl (8 / 5) := by decide +kernel

/-- **C156.** Bins further up take counts from bins further up, and no bin lies below the edge. -/
theorem C156_order {fl : ℚ → ℚ} {u : ℚ} (hfl : Rounding fl u) (edge : ℕ) (hf : fl edge = edge) {scale : ℚ} (hs : 0 ≤ scale) {d e : ℕ} (h : d ≤ e) :
    (edge : ℤ) ≤ fanPlaceF fl edge scale d ∧ fanPlaceF fl edge scale d ≤ fanPlaceF fl edge scale e := by
  have z : fl 0 = 0 := by simpa using hfl.rel 0
  have p : ∀ k : ℕ, 0 ≤ fl (scale * k) := fun k => by
    rw [← z]
    exact hfl.mono (by positivity)
  have q : ∀ k : ℕ, (edge : ℚ) ≤ fl (edge + fl (scale * k)) := fun k => by
    conv_lhs => rw [← hf]
    exact hfl.mono (by linarith [p k])
  have n0 : (0 : ℚ) ≤ edge := Nat.cast_nonneg _
  unfold fanPlaceF
  rw [truncZ_of_nonneg (n0.trans (q d)), truncZ_of_nonneg (n0.trans (q e))]
  refine ⟨Int.le_floor.2 (by simpa using q d), Int.floor_le_floor (hfl.mono ?_)⟩
  have : fl (scale * d) ≤ fl (scale * e) := hfl.mono (mul_le_mul_of_nonneg_left (by exact_mod_cast h) hs)
  linarith

example : dbl (3 : ℕ) = (3 : ℕ) ∧ fanPlaceF dbl 3 (3 / 2) 1 = 4 ∧ fanPlaceF dbl 3 (3 / 2) 2 = 6 := by decide +kernel

/-- **C156.** The bin is the one of the exact position or a neighbour of it, and it is the exact one where the position is further from
a whole number than the error `((1-u)^-2 - 1) x`. -/
theorem C156_place_partial {fl : ℚ → ℚ} {u : ℚ} (hfl : Rounding fl u) (hu : 0 ≤ u) (hu1 : u < 1) (edge d : ℕ) {scale : ℚ} (hs : 0 ≤ scale) :
    ((1 / (1 - u) ^ 2 - 1) * (edge + scale * d) ≤ 1 → |fanPlaceF fl edge scale d - ⌊edge + scale * d⌋| ≤ 1) ∧
      (⌊edge + scale * d⌋ + (1 / (1 - u) ^ 2 - 1) * (edge + scale * d) ≤ edge + scale * d →
        edge + scale * d + (1 / (1 - u) ^ 2 - 1) * (edge + scale * d) < ⌊edge + scale * d⌋ + 1 → fanPlaceF fl edge scale d = ⌊edge + scale * d⌋) := by
  have x0 : 0 ≤ scale * d := by positivity
  have n0 : (0 : ℚ) ≤ edge := Nat.cast_nonneg _
  have w1 := Within.rounded hu hu1 hfl x0
  have w2 := ((Within.refl' (u := u) (edge : ℚ)).mono hu hu1 n0 (show 0 ≤ 1 by omega)).add w1
  have w3 := w2.trans hu1 (Within.rounded hu hu1 hfl (w2.nonneg hu1 (by positivity)))
  have hx : 0 ≤ (edge : ℚ) + scale * d := by positivity
  have y0 := w3.nonneg hu1 hx
  have f := (w3.factor hu hu1 hx).abs_sub hu1
  rw [abs_of_nonneg hx] at f
  have hE : (1 / (1 - u) ^ 2 - 1 : ℚ) = excess u (1 + 1) := by unfold excess; rw [one_div]
  unfold fanPlaceF
  rw [truncZ_of_nonneg y0, hE]
  set x := (edge : ℚ) + scale * d with hxd
  set y := fl (edge + fl (scale * d)) with hyd
  rw [abs_le] at f
  constructor
  · intro h
    have a1 := Int.floor_le x
    have a2 := Int.lt_floor_add_one x
    rw [abs_le]
    constructor
    · have : ⌊x⌋ - 1 ≤ ⌊y⌋ := Int.le_floor.2 (by push_cast; linarith)
      omega
    · have : ⌊y⌋ < ⌊x⌋ + 2 := Int.floor_lt.2 (by push_cast; linarith)
      omega
  · intro h h'
    exact Int.floor_eq_iff.2 ⟨by linarith, by linarith⟩

example : (1 / (1 - 1 / 2 ^ 53) ^ 2 - 1 : ℚ) * (10 + 3 / 2 * 7) ≤ 1 ∧ fanPlaceF dbl 10 (3 / 2) 7 = ⌊(10 + 3 / 2 * 7 : ℚ)⌋ ∧
    (⌊(10 + 3 / 2 * 7 : ℚ)⌋ : ℚ) + (1 / (1 - 1 / 2 ^ 53) ^ 2 - 1) * (10 + 3 / 2 * 7) ≤ 10 + 3 / 2 * 7 := by
  refine ⟨by norm_num, by decide +kernel, by norm_num⟩

/-- **C156.** It is not always the exact one: 49 bins above the edge with a scale of 1/49. -/
theorem C156_place_fails : ∃ Esim ec eStart eStop : ℚ, dbl Esim = Esim ∧ dbl ec = ec ∧ dbl eStart = eStart ∧ dbl eStop = eStop ∧
    fanPlaceF dbl 0 (fanScaleF dbl Esim 0 ec eStart eStop) 49 ≠ ⌊(0 : ℚ) + (Esim - ec) / (eStop - eStart) * 49⌋ :=
  ⟨200, 100, 0, 4900, by decide +kernel, by decide +kernel, by decide +kernel, by decide +kernel, by decide +kernel⟩

theorem countCut_min {l : List ℚ} (hl : l ≠ []) {i : ℤ} (h : 0 ≤ i) : countCut l i = .ok (l.getD (min i.toNat (l.length - 1)) 0) := by
  have n : 0 < l.length := List.length_pos_iff.2 hl
  have key : npIndex l.length (if (l.length : ℤ) ≤ i then (l.length : ℤ) - 1 else i) = .ok (min i.toNat (l.length - 1)) := by
    unfold npIndex
    split_ifs <;> first | omega | (congr 1; omega)
  unfold countCut
  rw [key]
  rfl

/-- **C156.** An entry of the fan interpolates the counts of the two bins, the last bins of the spectra standing for all above; it is not negative
and right to `u + 2(1+u)((1-u)^-5 - 1)` of the larger count. -/
theorem C156_entry {fl : ℚ → ℚ} {u : ℚ} (hfl : Rounding fl u) (hu : 0 ≤ u) (hu1 : u < 1) {E M : ℚ} {c : Closest} (edge1 edge2 d : ℕ)
    {scale1 scale2 : ℚ} (h1 : c.Elow ≤ E) (h2 : E ≤ c.Ehigh) (h3 : c.Elow < c.Ehigh) (l1 : c.low ≠ []) (l2 : c.high ≠ [])
    (s1 : 0 ≤ fanPlaceF fl edge1 scale1 d) (s2 : 0 ≤ fanPlaceF fl edge2 scale2 d)
    (m1 : ∀ x ∈ c.low, |x| ≤ M) (m2 : ∀ x ∈ c.high, |x| ≤ M) (y1 y2 : ℚ)
    (hy1 : y1 = c.low.getD (min (fanPlaceF fl edge1 scale1 d).toNat (c.low.length - 1)) 0)
    (hy2 : y2 = c.high.getD (min (fanPlaceF fl edge2 scale2 d).toNat (c.high.length - 1)) 0) :
    ∃ r, fanEndEntryF fl E c edge1 edge2 scale1 scale2 d = .ok r ∧ 0 ≤ r ∧
      |r - max 0 (y1 + (E - c.Elow) / (c.Ehigh - c.Elow) * (y2 - y1))| ≤ (u + 2 * (1 + u) * (1 / (1 - u) ^ 5 - 1)) * M := by
  have n1 := List.length_pos_iff.2 l1
  have n2 := List.length_pos_iff.2 l2
  have a1 : |y1| ≤ M := by
    rw [hy1, List.getD_eq_getElem _ _ (show min (fanPlaceF fl edge1 scale1 d).toNat (c.low.length - 1) < c.low.length by omega)]
    exact m1 _ (List.getElem_mem _)
  have a2 : |y2| ≤ M := by
    rw [hy2, List.getD_eq_getElem _ _ (show min (fanPlaceF fl edge2 scale2 d).toNat (c.high.length - 1) < c.high.length by omega)]
    exact m2 _ (List.getElem_mem _)
  refine ⟨max 0 (linInterpF fl E c.Elow y1 c.Ehigh y2), ?_, le_max_left _ _, ?_⟩
  · unfold fanEndEntryF
    rw [countCut_min l1 s1, countCut_min l2 s2, ← hy1, ← hy2]
    rfl
  · have hE : (1 / (1 - u) ^ 5 - 1 : ℚ) = excess u 5 := by unfold excess; rw [one_div]
    rw [hE]
    rw [max_comm 0, max_comm 0]
    refine (abs_max_sub_max_le_abs _ _ 0).trans ?_
    have b := linInterpF_bound hfl hu hu1 E c.Elow y1 c.Ehigh y2
    have o := onLine_signed h3 h1 h2 a1 a2
    have e0 := excess_nonneg hu hu1 5
    have p := mul_le_mul_of_nonneg_left o.1 hu
    have q := mul_le_mul_of_nonneg_left o.2 (show (0 : ℚ) ≤ (1 + u) * excess u 5 by positivity)
    refine b.trans ?_
    nlinarith

/-- **C156.** In doubles: an entry is right to `12/2^53` of the largest count. -/
theorem C156_double {E M : ℚ} {c : Closest} (edge1 edge2 d : ℕ)
    {scale1 scale2 : ℚ} (h1 : c.Elow ≤ E) (h2 : E ≤ c.Ehigh) (h3 : c.Elow < c.Ehigh) (l1 : c.low ≠ []) (l2 : c.high ≠ [])
    (s1 : 0 ≤ fanPlaceF dbl edge1 scale1 d) (s2 : 0 ≤ fanPlaceF dbl edge2 scale2 d)
    (m1 : ∀ x ∈ c.low, |x| ≤ M) (m2 : ∀ x ∈ c.high, |x| ≤ M) (y1 y2 : ℚ)
    (hy1 : y1 = c.low.getD (min (fanPlaceF dbl edge1 scale1 d).toNat (c.low.length - 1)) 0)
    (hy2 : y2 = c.high.getD (min (fanPlaceF dbl edge2 scale2 d).toNat (c.high.length - 1)) 0) :
    ∃ r, fanEndEntryF dbl E c edge1 edge2 scale1 scale2 d = .ok r ∧ 0 ≤ r ∧
      |r - max 0 (y1 + (E - c.Elow) / (c.Ehigh - c.Elow) * (y2 - y1))| ≤ 12 / 2 ^ 53 * M := by
  obtain ⟨r, hr, r0, h⟩ := C156_entry dbl_rounding (by norm_num) (by norm_num) edge1 edge2 d h1 h2 h3 l1 l2 s1 s2 m1 m2 y1 y2 hy1 hy2
  refine ⟨r, hr, r0, h.trans (mul_le_mul_of_nonneg_right (by norm_num) ?_)⟩
  obtain ⟨x, hx⟩ := List.exists_mem_of_ne_nil _ l1
  exact (abs_nonneg x).trans (m1 x hx)

/-- A small table. -/
def fanTable : Closest := ⟨900, 1100, [1, 2, 3, 4], [5, 6, 7, 8, 9]⟩

example : fanPlaceF dbl 1 (1 / 2) 3 = 2 ∧ fanPlaceF dbl 2 2 3 = 8 ∧ fanEndEntryF dbl 1000 fanTable 1 2 (1 / 2) 2 3 = .ok 6 ∧
    fanEndEntryF dbl 1000 fanTable 1 2 (-4) 2 3 = .error .indexError ∧ fanEndEntryF dbl 2000 ⟨900, 1100, [9], [1]⟩ 1 2 1 2 3 = .ok 0 ∧
    (∀ x ∈ fanTable.low, |x| ≤ 9) ∧ ∀ x ∈ fanTable.high, |x| ≤ 9 := by decide +kernel

/-- **C156.** Without rounding these are the bins, scales and entries of the model of C59. -/
theorem C156_exact (edge d : ℕ) (scale Esim fwhm ec eStart eStop E : ℚ) (c : Closest) (edge2 : ℕ) (scale2 : ℚ) :
    fanPlaceF id edge scale d = truncR ((edge : ℝ) + scale * d) ∧
      fanScaleF id Esim fwhm ec eStart eStop = (Esim + 6 * (fwhm / (235 / 100)) - ec) / (eStop - eStart) ∧
      fanEndEntryF id E c edge edge2 scale scale2 d = (do
        let c1 ← countCut c.low (truncR ((edge : ℝ) + scale * d))
        let c2 ← countCut c.high (truncR ((edge2 : ℝ) + scale2 * d))
        pure (max 0 (linInterp E c.Elow c1 c.Ehigh c2))) := by
  have key : ∀ (n : ℕ) (s : ℚ), fanPlaceF id n s d = truncR ((n : ℝ) + s * d) := by
    intro n s
    have e : ((n : ℝ) + s * d) = (((n : ℚ) + s * d : ℚ) : ℝ) := by push_cast; rfl
    unfold fanPlaceF truncZ truncR
    simp only [id, e, Rat.cast_nonneg, Rat.floor_cast, Rat.ceil_cast]
  refine ⟨key _ _, rfl, ?_⟩
  unfold fanEndEntryF
  rw [key, key]
  have li : ∀ x x0 y0 x1 y1 : ℚ, linInterpF id x x0 y0 x1 y1 = linInterp x x0 y0 x1 y1 := by
    intro x x0 y0 x1 y1
    unfold linInterpF linInterp
    simp only [id]
  simp only [li]

end Ompy
