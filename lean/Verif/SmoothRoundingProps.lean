import Verif.SmoothRounding
import Verif.FirstGenRoundingProps

/-!
# Properties of the Gaussian smoothing in floating point (C126)
-/

namespace Ompy

/-- Specification: an axis of doubles with nearly equal bins, and energies small enough against the bin width to be
resolved. -/
structure NearAxis (fl : ℚ → ℚ) (u : ℚ) (E : List ℚ) (R : ℚ) : Prop where
  len : 2 ≤ E.length
  repr : ∀ e ∈ E, fl e = e
  width : 0 < fl (E.getD 1 0 - E.getD 0 0)
  near : ∀ i < E.length, |E.getD i 0 - (E.getD 0 0 + i * fl (E.getD 1 0 - E.getD 0 0))| ≤ fl (E.getD 1 0 - E.getD 0 0) / 8
  size : |E.getD 0 0| + E.length * fl (E.getD 1 0 - E.getD 0 0) ≤ R * fl (E.getD 1 0 - E.getD 0 0)
  small : u * (R + 2) ≤ 1 / 1000

theorem sub_div_low {fl : ℚ → ℚ} {u : ℚ} (hfl : Rounding fl u) (hu : 0 ≤ u) (hu1 : u ≤ 1) {x a w y : ℚ} (hw : 0 < w)
    (hy : 0 ≤ y) (h : a + y * w ≤ x) : (1 - 2 * u) * y ≤ fl (fl (x - a) / w) := by
  have yw : 0 ≤ y * w := mul_nonneg hy hw.le
  have h1 : (1 - u) * (y * w) ≤ fl (x - a) := by
    have m := hfl.mono (show y * w ≤ x - a by linarith)
    have r := abs_le.1 (hfl.rel (y * w))
    rw [abs_of_nonneg yw] at r
    linarith
  have h2 : (1 - u) * y ≤ fl (x - a) / w := by
    rw [le_div_iff₀ hw]
    linarith
  have p : 0 ≤ (1 - u) * y := mul_nonneg (by linarith) hy
  have m := hfl.mono h2
  have r := abs_le.1 (hfl.rel ((1 - u) * y))
  rw [abs_of_nonneg p] at r
  nlinarith [mul_nonneg (mul_nonneg hu hu) hy]

theorem sub_div_high {fl : ℚ → ℚ} {u : ℚ} (hfl : Rounding fl u) (hu : 0 ≤ u) (hu1 : u ≤ 1) {x a w y : ℚ} (hw : 0 < w)
    (hy : 0 ≤ y) (h : x ≤ a + y * w) : fl (fl (x - a) / w) ≤ (1 + 3 * u) * y := by
  have yw : 0 ≤ y * w := mul_nonneg hy hw.le
  have h1 : fl (x - a) ≤ (1 + u) * (y * w) := by
    have m := hfl.mono (show x - a ≤ y * w by linarith)
    have r := abs_le.1 (hfl.rel (y * w))
    rw [abs_of_nonneg yw] at r
    linarith
  have h2 : fl (x - a) / w ≤ (1 + u) * y := by
    rw [div_le_iff₀ hw]
    linarith
  have p : 0 ≤ (1 + u) * y := mul_nonneg (by linarith) hy
  have m := hfl.mono h2
  have r := abs_le.1 (hfl.rel ((1 + u) * y))
  rw [abs_of_nonneg p] at r
  nlinarith [mul_nonneg (mul_nonneg hu (by linarith : 0 ≤ 1 - u)) hy]

theorem sub_div_neg {fl : ℚ → ℚ} {u : ℚ} (hfl : Rounding fl u) (hu1 : u ≤ 1 / 3000) {x a w : ℚ} (hw : 0 < w) (h : -(63 / 100 : ℚ) * w ≤ x - a) : -1 < fl (fl (x - a) / w) := by
  have x2 := hfl.mono h
  have r2 := abs_le.1 (hfl.rel (-(63 / 100 : ℚ) * w))
  rw [abs_mul, abs_neg, abs_of_pos (by norm_num : (0 : ℚ) < 63 / 100), abs_of_pos hw] at r2
  have uw : u * w ≤ 1 / 3000 * w := mul_le_mul_of_nonneg_right hu1 hw.le
  have x3 : -(64 / 100 : ℚ) ≤ fl (x - a) / w := by
    rw [le_div_iff₀ hw]
    linarith
  have x4 := hfl.mono x3
  have r3 := abs_le.1 (hfl.rel (-(64 / 100 : ℚ)))
  rw [abs_neg, abs_of_pos (by norm_num : (0 : ℚ) < 64 / 100)] at r3
  linarith

theorem shift_near {fl : ℚ → ℚ} {u : ℚ} (hfl : Rounding fl u) (hu : 0 ≤ u) {c w R : ℚ} (hw : 0 < w)
    (hc : |c| ≤ (R + 1) * w) (hsm : u * (R + 2) ≤ 1 / 1000) (s : ℚ) (hs : |s| ≤ w) :
    |fl (c + s) - (c + s)| ≤ w / 1000 := by
  refine (hfl.rel _).trans ?_
  have ca : |c + s| ≤ (R + 2) * w := (abs_add_le _ _).trans (by linarith)
  refine (mul_le_mul_of_nonneg_left ca hu).trans ?_
  rw [← mul_assoc]
  linarith [mul_le_mul_of_nonneg_right hsm hw.le]

/-- **C126.** The window of a bin contains the bin, whatever its width is. -/
theorem C126_window {fl : ℚ → ℚ} {u : ℚ} (hfl : Rounding fl u) (hu : 0 ≤ u) {E : List ℚ} {R : ℚ} (hE : NearAxis fl u E R)
    (fwhm : List ℚ) (truncate : ℚ) (ht : 0 ≤ truncate) {i : ℕ} (hi : i < E.length) (hf : 0 ≤ fwhm.getD i 0) :
    (windowF fl E fwhm truncate i).1 ≤ (i : ℤ) ∧ (i : ℤ) < (windowF fl E fwhm truncate i).2 + 1 ∧
      0 ≤ (windowF fl E fwhm truncate i).1 := by
  obtain ⟨-, hr, hw, hn, hsz, hsm⟩ := hE
  have n0 : 0 ≤ fl 0 := hfl.zero.ge
  have fnn : ∀ q : ℚ, 0 ≤ q → 0 ≤ fl q := fun q hq => by
    rw [← hfl.zero]
    exact hfl.mono hq
  have hs : 0 ≤ fl (truncate * fl (fwhm.getD i 0 / fl (2355 / 1000))) :=
    fnn _ (mul_nonneg ht (fnn _ (div_nonneg hf (fnn _ (by norm_num)))))
  have hc : fl (E.getD i 0) = E.getD i 0 := by
    rw [List.getD_eq_getElem E 0 hi]
    exact hr _ (List.getElem_mem hi)
  have hni := abs_le.1 (hn i hi)
  unfold windowF truncWindowF
  simp only
  generalize fl (truncate * fl (fwhm.getD i 0 / fl (2355 / 1000))) = ts at *
  generalize E.getD i 0 = c at *
  generalize E.getD 0 0 = a at *
  generalize fl (E.getD 1 0 - a) = w at *
  have hin : (i : ℚ) + 1 ≤ E.length := by exact_mod_cast hi
  have i0 : (0 : ℚ) ≤ i := Nat.cast_nonneg i
  have hR : (i : ℚ) + 1 ≤ R := by
    have := abs_nonneg a
    have h1 : (E.length : ℚ) * w ≤ R * w := by linarith
    exact hin.trans (le_of_mul_le_mul_right h1 hw)
  have ui : u * ((i : ℚ) + 3) ≤ 1 / 1000 := le_trans (mul_le_mul_of_nonneg_left (by linarith) hu) hsm
  have u1 : u ≤ 1 / 3000 := by nlinarith
  have cR : |c| ≤ (R + 1) * w := by
    have h1 : |c| ≤ |a| + (i * w + w / 8) := by
      rw [abs_le]
      have := abs_le.1 (le_refl |a|)
      constructor <;> nlinarith
    nlinarith
  -- the lower index
  have hA : truncZ (fl (fl (fl (c - ts) - a) / w)) ≤ i := by
    have m : fl (c - ts) ≤ c := by
      rw [← hc]
      exact hfl.mono (by rw [hc]; linarith)
    have b := sub_div_high hfl hu (by linarith) hw (show (0 : ℚ) ≤ i + 1 / 8 by linarith) (x := fl (c - ts)) (a := a)
      (by linarith)
    have b2 : fl (fl (fl (c - ts) - a) / w) < i + 1 := lt_of_le_of_lt b (by nlinarith)
    generalize fl (fl (fl (c - ts) - a) / w) = A at *
    unfold truncZ
    split_ifs with hA0
    · rw [← Int.lt_add_one_iff, Int.floor_lt]
      exact_mod_cast b2
    · have : ⌈A⌉ ≤ 0 := Int.ceil_le.2 (by push_cast; linarith)
      omega
  refine ⟨by omega, ?_, by omega⟩
  -- the upper index
  by_cases hB : (i : ℚ) ≤ fl (fl (fl (c + ts) - a) / w)
  · have : (i : ℤ) ≤ truncZ (fl (fl (fl (c + ts) - a) / w)) := by
      rw [truncZ_of_nonneg (i0.trans hB), Int.le_floor]
      exact_mod_cast hB
    omega
  · have near := fun s => shift_near hfl hu hw cR hsm s
    have small : ts < w / 2 := by
      by_contra hts
      apply hB
      have r := (abs_le.1 (near (w / 2) (by rw [abs_of_pos (by linarith)]; linarith))).1
      have m := hfl.mono (show c + w / 2 ≤ c + ts by linarith)
      have b := sub_div_low hfl hu (by linarith) hw (show (0 : ℚ) ≤ i + 3 / 8 - 1 / 1000 by linarith)
        (x := fl (c + ts)) (a := a) (by linarith)
      refine le_trans ?_ b
      linarith
    have r := (abs_le.1 (near (-(w / 2)) (by rw [abs_neg, abs_of_pos (by linarith)]; linarith))).1
    have m := hfl.mono (show c + -(w / 2) ≤ c - ts by linarith)
    have low : (i : ℤ) ≤ truncZ (fl (fl (fl (c - ts) - a) / w)) + 1 := by
      by_cases hi0 : i = 0
      · subst hi0
        push_cast at hni
        have := sub_div_neg hfl u1 hw (x := fl (c - ts)) (a := a) (by linarith)
        have h1 := lt_truncZ_add_one (fl (fl (fl (c - ts) - a) / w))
        have h2 : ((-1 : ℤ) : ℚ) < ((truncZ (fl (fl (fl (c - ts) - a) / w)) + 1 : ℤ) : ℚ) := by
          push_cast
          linarith
        have := Int.cast_lt.1 h2
        push_cast
        omega
      · have i1 : (1 : ℚ) ≤ i := by exact_mod_cast Nat.one_le_iff_ne_zero.2 hi0
        have b := sub_div_low hfl hu (by linarith) hw (show (0 : ℚ) ≤ i - 5 / 8 - 1 / 1000 by linarith)
          (x := fl (c - ts)) (a := a) (by linarith)
        have b2 : (i : ℚ) - 1 ≤ fl (fl (fl (c - ts) - a) / w) := le_trans (by linarith) b
        rw [truncZ_of_nonneg (by linarith)]
        have : ((i : ℤ) - 1) ≤ ⌊fl (fl (fl (c - ts) - a) / w)⌋ := by
          rw [Int.le_floor]
          push_cast
          exact b2
        omega
    omega

/-- Specification: what the smoothed spectrum is with exact arithmetic from the same distributions: the positive counts
of bin `i` are distributed like `p i`. -/
def smoothed (c : List ℚ) (p : ℕ → ℕ → ℚ) (n k : ℕ) : ℚ :=
  ∑ i ∈ Finset.range n, max (c.getD i 0) 0 * (p i k / ∑ q ∈ Finset.range n, p i q)

theorem smoothLoopF_near {fl : ℚ → ℚ} {u : ℚ} (hfl : Rounding fl u) (hu : 0 ≤ u) (hu1 : u < 1) {D : ℕ → ℕ}
    {sum : List ℚ → ℚ} (hs : Summation fl D sum) (g : ℚ → ℚ → ℚ → ℚ) (hg : ∀ m s x, 0 ≤ g m s x) (c E fwhm : List ℚ)
    (t : ℚ) (k : ℕ) (hpos : ∀ i < c.length, 0 < ∑ q ∈ Finset.range c.length, rawPdfF fl g E fwhm t i q) :
    ∀ j ≤ c.length, Within u (D c.length + 2 + j) (∑ i ∈ Finset.range j, max (c.getD i 0) 0 *
      (rawPdfF fl g E fwhm t i k / ∑ q ∈ Finset.range c.length, rawPdfF fl g E fwhm t i q))
      (smoothLoopF fl sum g c E fwhm t j k) := by
  have rn : ∀ i k, 0 ≤ rawPdfF fl g E fwhm t i k := by
    intro i k
    unfold rawPdfF
    split_ifs
    · exact hg _ _ _
    · exact le_rfl
  have tn : ∀ i, 0 ≤ max (c.getD i 0) 0 *
      (rawPdfF fl g E fwhm t i k / ∑ q ∈ Finset.range c.length, rawPdfF fl g E fwhm t i q) := fun i =>
    mul_nonneg (le_max_right _ _) (div_nonneg (rn i k) (Finset.sum_nonneg fun q _ => rn i q))
  intro j
  induction j with
  | zero => intro _; simp [Within, smoothLoopF]
  | succ j ih =>
    intro hj
    have ih := ih (by omega)
    have s0 := Finset.sum_nonneg fun i (_ : i ∈ Finset.range j) => tn i
    rw [Finset.sum_range_succ, smoothLoopF]
    by_cases hc : 0 < c.getD j 0
    · rw [if_pos hc, max_eq_left hc.le]
      have rownn : ∀ x ∈ pdfRowF fl g c.length E fwhm t j, 0 ≤ x := by
        intro x hx
        obtain ⟨q, _, rfl⟩ := List.mem_map.1 hx
        exact rn j q
      have ws := (hs.spec hfl hu hu1 rownn).1
      have hsum : (pdfRowF fl g c.length E fwhm t j).sum = ∑ q ∈ Finset.range c.length, rawPdfF fl g E fwhm t j q := by
        unfold pdfRowF
        rw [list_map_range_sum]
      have hlen : (pdfRowF fl g c.length E fwhm t j).length = c.length := by simp [pdfRowF]
      rw [hsum, hlen] at ws
      have hp := hpos j (by omega)
      have w1 := Within.div hu1 (Within.refl' (u := u) (rawPdfF fl g E fwhm t j k)) ws (rn j k) hp
      have q0 := div_nonneg (rn j k) hp.le
      have w2 := Within.trans hu1 w1 (Within.rounded hu hu1 hfl (w1.nonneg hu1 q0))
      have w3 := Within.mul hu1 (Within.refl' (u := u) (c.getD j 0)) w2 hc.le q0
      have q1 := mul_nonneg hc.le q0
      have w4 := Within.trans hu1 w3 (Within.rounded hu hu1 hfl (w3.nonneg hu1 q1))
      have w5 := w4.mono hu hu1 q1 (show 0 + (0 + D c.length + 1) + 1 ≤ D c.length + 2 + j by omega)
      have w6 := ih.add w5
      have w7 := Within.trans hu1 w6 (Within.rounded hu hu1 hfl (w6.nonneg hu1 (add_nonneg s0 q1)))
      exact w7
    · rw [if_neg hc, max_eq_right (not_lt.1 hc), zero_mul, add_zero]
      exact ih.mono hu hu1 s0 (by omega)

/-- **C126.** The smoothing succeeds on such axes for every spectrum and all widths, nothing comes out negative, every
bin holds what exact arithmetic makes of the same distributions up to `D n + n + 2` roundings, and so does the total,
which is the sum of the positive counts. -/
theorem C126_counts {fl : ℚ → ℚ} {u : ℚ} (hfl : Rounding fl u) (hu : 0 ≤ u) (hu1 : u < 1) {D : ℕ → ℕ}
    {sum : List ℚ → ℚ} (hs : Summation fl D sum) (g : ℚ → ℚ → ℚ → ℚ) (hg : ∀ m s x, 0 ≤ g m s x)
    (hg1 : ∀ m s, 0 < g m s m) {E : List ℚ} {R : ℚ} (hE : NearAxis fl u E R) (c fwhm : List ℚ) (hc : c.length = E.length)
    (hf : fwhm.length = E.length) (hf0 : ∀ i < E.length, 0 ≤ fwhm.getD i 0) (t : ℚ) (ht : 0 ≤ t) :
    ∃ out, gaussSmoothingF fl sum g c E fwhm t = .ok out ∧ out.length = E.length ∧ (∀ x ∈ out, 0 ≤ x) ∧
      (∀ k < E.length, Within u (D E.length + E.length + 2)
        (smoothed c (rawPdfF fl g E fwhm t) E.length k) (out.getD k 0)) ∧
      Within u (D E.length + E.length + 2) (c.map fun x => max x 0).sum out.sum := by
  have rn : ∀ i k, 0 ≤ rawPdfF fl g E fwhm t i k := by
    intro i k
    unfold rawPdfF
    split_ifs
    · exact hg _ _ _
    · exact le_rfl
  have hpos : ∀ i < c.length, 0 < ∑ q ∈ Finset.range c.length, rawPdfF fl g E fwhm t i q := by
    intro i hi
    rw [hc] at hi
    refine Finset.sum_pos' (fun q _ => rn i q) ⟨i, Finset.mem_range.2 (by omega), ?_⟩
    obtain ⟨w1, w2, -⟩ := C126_window hfl hu hE fwhm t ht hi (hf0 i hi)
    rw [rawPdfF, if_pos ⟨w1, w2⟩]
    exact hg1 _ _
  have hne : ∀ i < c.length, sum (pdfRowF fl g c.length E fwhm t i) ≠ 0 := by
    intro i hi h0
    have rownn : ∀ x ∈ pdfRowF fl g c.length E fwhm t i, 0 ≤ x := by
      intro x hx
      obtain ⟨q, _, rfl⟩ := List.mem_map.1 hx
      exact rn i q
    have := (hs.spec hfl hu hu1 rownn).2.1 h0
    unfold pdfRowF at this
    rw [list_map_range_sum] at this
    exact absurd this (hpos i hi).ne'
  refine ⟨(List.range c.length).map fun k : ℕ => smoothLoopF fl sum g c E fwhm t c.length k, ?_, by simp [hc], ?_, ?_, ?_⟩
  · have := hE.len
    have hw := hE.width.ne'
    unfold gaussSmoothingF
    rw [if_neg (by omega), if_neg (by omega), if_neg (by omega), if_neg hw, if_neg]
    rintro ⟨i, hi, -, h0⟩
    exact hne i hi h0
  · intro x hx
    obtain ⟨k, _, rfl⟩ := List.mem_map.1 hx
    exact (smoothLoopF_near hfl hu hu1 hs g hg c E fwhm t k hpos c.length le_rfl).nonneg hu1
      (Finset.sum_nonneg fun i _ => mul_nonneg (le_max_right _ _) (div_nonneg (rn i k) (Finset.sum_nonneg fun q _ => rn i q)))
  · intro k hk
    rw [← hc] at hk ⊢
    rw [getD_map_range _ hk]
    have := smoothLoopF_near hfl hu hu1 hs g hg c E fwhm t k hpos c.length le_rfl
    rwa [show D c.length + 2 + c.length = D c.length + c.length + 2 by ring] at this
  · rw [list_map_range_sum, ← hc]
    have e : (c.map fun x => max x 0).sum = ∑ k ∈ Finset.range c.length, smoothed c (rawPdfF fl g E fwhm t) c.length k := by
      unfold smoothed
      rw [Finset.sum_comm]
      have e1 : (c.map fun x => max x 0) = (List.range c.length).map fun i => max (c.getD i 0) 0 := by
        apply List.ext_getElem
        · simp
        · intro q q1 q2
          simp only [List.length_map] at q1
          simp only [List.getElem_map, List.getElem_range, List.getD_eq_getElem c 0 q1]
      rw [e1, list_map_range_sum]
      apply Finset.sum_congr rfl
      intro i hi
      rw [Finset.mem_range] at hi
      rw [← Finset.mul_sum, ← Finset.sum_div, div_self (hpos i hi).ne', mul_one]
    rw [e]
    apply within_finset
    intro k _
    have := smoothLoopF_near hfl hu hu1 hs g hg c E fwhm t k hpos c.length le_rfl
    rwa [show D c.length + 2 + c.length = D c.length + c.length + 2 by ring] at this

/-- The index computed from an energy is close to the exact one. -/
theorem index_near {fl : ℚ → ℚ} {u : ℚ} (hfl : Rounding fl u) (hu : 0 ≤ u) {c a w R s : ℚ} (hw : 0 < w)
    (hc : |c| ≤ (R + 1) * w) (ha : |a| ≤ R * w) (hsm : u * (R + 2) ≤ 1 / 1000) (hs : |s| ≤ (R + 1) * w) :
    |fl (fl (fl (c + s) - a) / w) - (c + s - a) / w| ≤ 1 / 100 := by
  have R0 : 0 ≤ R := by
    by_contra h
    have := abs_nonneg a
    nlinarith
  have hmul : ∀ {x K : ℚ}, |x| ≤ K * (R + 2) * w → 0 ≤ K → |fl x - x| ≤ K / 1000 * w := by
    intro x K h hK
    refine (hfl.rel x).trans ((mul_le_mul_of_nonneg_left h hu).trans ?_)
    have := mul_le_mul_of_nonneg_right hsm (mul_nonneg hK hw.le)
    nlinarith
  have e1 : |fl (c + s) - (c + s)| ≤ 2 / 1000 * w :=
    hmul ((abs_add_le _ _).trans (by nlinarith)) (by norm_num)
  have e2 : |fl (fl (c + s) - a) - (fl (c + s) - a)| ≤ 3 / 1000 * w := by
    refine hmul ?_ (by norm_num)
    have h1 : |fl (c + s) - a| ≤ |fl (c + s) - (c + s)| + (|c| + |s| + |a|) := by
      have : fl (c + s) - a = (fl (c + s) - (c + s)) + (c + s + -a) := by ring
      rw [this]
      refine (abs_add_le _ _).trans (add_le_add le_rfl ((abs_add_le _ _).trans ?_))
      rw [abs_neg]
      exact add_le_add (abs_add_le _ _) le_rfl
    nlinarith
  have e3 : |fl (fl (c + s) - a) - (c + s - a)| ≤ 5 / 1000 * w := by
    have : fl (fl (c + s) - a) - (c + s - a) = (fl (fl (c + s) - a) - (fl (c + s) - a)) + (fl (c + s) - (c + s)) := by ring
    rw [this]
    exact (abs_add_le _ _).trans (by linarith)
  have e4 : |fl (fl (c + s) - a) / w - (c + s - a) / w| ≤ 5 / 1000 := by
    rw [← sub_div, abs_div, abs_of_pos hw, div_le_iff₀ hw]
    exact e3
  have e5 : |fl (fl (c + s) - a) / w| ≤ 3 * (R + 2) := by
    rw [abs_div, abs_of_pos hw, div_le_iff₀ hw]
    have h1 : |fl (fl (c + s) - a)| ≤ |fl (fl (c + s) - a) - (c + s - a)| + (|c| + |s| + |a|) := by
      have : fl (fl (c + s) - a) = (fl (fl (c + s) - a) - (c + s - a)) + (c + s + -a) := by ring
      calc |fl (fl (c + s) - a)| = |(fl (fl (c + s) - a) - (c + s - a)) + (c + s + -a)| := by rw [← this]
        _ ≤ _ := by
          refine (abs_add_le _ _).trans (add_le_add le_rfl ((abs_add_le _ _).trans ?_))
          rw [abs_neg]
          exact add_le_add (abs_add_le _ _) le_rfl
    nlinarith
  have e6 : |fl (fl (fl (c + s) - a) / w) - fl (fl (c + s) - a) / w| ≤ 3 / 1000 := by
    refine (hfl.rel _).trans ((mul_le_mul_of_nonneg_left e5 hu).trans ?_)
    nlinarith
  have : fl (fl (fl (c + s) - a) / w) - (c + s - a) / w = (fl (fl (fl (c + s) - a) / w) - fl (fl (c + s) - a) / w) +
      (fl (fl (c + s) - a) / w - (c + s - a) / w) := by ring
  rw [this]
  exact (abs_add_le _ _).trans (by linarith)

/-- **C126.** How far the window reaches: all bins nearer than `truncate` standard deviations less a quarter of a bin are
inside, and none farther than that plus one and a quarter bins. -/
theorem C126_reach {fl : ℚ → ℚ} {u : ℚ} (hfl : Rounding fl u) (hu : 0 ≤ u) {E : List ℚ} {R : ℚ} (hE : NearAxis fl u E R)
    (fwhm : List ℚ) (truncate : ℚ) (ht : 0 ≤ truncate) {i k : ℕ} (hi : i < E.length) (hk : k < E.length)
    (hf : 0 ≤ fwhm.getD i 0) {w : ℚ} (hw : w = fl (E.getD 1 0 - E.getD 0 0)) {T : ℚ}
    (hT : T * w = truncate * (fwhm.getD i 0 / (2355 / 1000))) (hTR : T ≤ R) :
    (|(k : ℚ) - i| ≤ T - 1 / 4 →
      (windowF fl E fwhm truncate i).1 ≤ (k : ℤ) ∧ (k : ℤ) < (windowF fl E fwhm truncate i).2 + 1) ∧
    ((windowF fl E fwhm truncate i).1 ≤ (k : ℤ) ∧ (k : ℤ) < (windowF fl E fwhm truncate i).2 + 1 →
      |(k : ℚ) - i| ≤ T + 5 / 4) := by
  have hwin := (C126_window hfl hu hE fwhm truncate ht hi hf).1
  obtain ⟨-, hr, hw0, hn, hsz, hsm⟩ := hE
  rw [← hw] at hw0 hsz hn
  have hni := abs_le.1 (hn i hi)
  have hin : (i : ℚ) + 1 ≤ E.length := by exact_mod_cast hi
  have i0 : (0 : ℚ) ≤ i := Nat.cast_nonneg i
  have hR : (i : ℚ) + 1 ≤ R := by
    have := abs_nonneg (E.getD 0 0)
    have h1 : (E.length : ℚ) * w ≤ R * w := by linarith
    exact hin.trans (le_of_mul_le_mul_right h1 hw0)
  have u1 : u ≤ 1 / 3000 := by nlinarith
  have ts0 : 0 ≤ T * w := by
    rw [hT]
    exact mul_nonneg ht (div_nonneg hf (by norm_num))
  have hts : |fl (truncate * fl (fwhm.getD i 0 / fl (2355 / 1000))) - T * w| ≤ 6 / 1000 * w := by
    have c1 : (0 : ℚ) < 2355 / 1000 := by norm_num
    have v1 := Within.rounded hu (by linarith : u < 1) hfl c1.le
    have v2 := Within.div (by linarith : u < 1) (Within.refl' (u := u) (fwhm.getD i 0)) v1 hf c1
    have q0 := div_nonneg hf c1.le
    have v3 := Within.trans (by linarith : u < 1) v2 (Within.rounded hu (by linarith) hfl (v2.nonneg (by linarith) q0))
    have v4 := Within.mul (by linarith : u < 1) (Within.refl' (u := u) truncate) v3 ht q0
    have q1 := mul_nonneg ht q0
    have v5 := Within.trans (by linarith : u < 1) v4 (Within.rounded hu (by linarith) hfl (v4.nonneg (by linarith) q1))
    have v6 := v5.abs_sub_le hu (by linarith) q1
    rw [← hT] at v6
    push_cast at v6
    generalize fl (truncate * fl (fwhm.getD i 0 / fl (2355 / 1000))) = ts at *
    have uT : u * (T * w) ≤ 1 / 1000 * w := by
      rw [← mul_assoc]
      refine mul_le_mul_of_nonneg_right ?_ hw0.le
      nlinarith
    have m2 : max (T * w) ts ≤ 2 * (T * w) := by
      apply max_le (by linarith)
      by_contra h
      have h' := not_le.1 h
      rw [max_eq_right (by linarith)] at v6
      have := (abs_le.1 v6).2
      nlinarith
    refine v6.trans ?_
    have := mul_le_mul_of_nonneg_left m2 (mul_nonneg (by norm_num : (0 : ℚ) ≤ 3) hu)
    nlinarith
  have cR : |E.getD i 0| ≤ (R + 1) * w := by
    have h1 : |E.getD i 0| ≤ |E.getD 0 0| + (i * w + w / 8) := by
      rw [abs_le]
      have := abs_le.1 (le_refl |E.getD 0 0|)
      have := mul_nonneg i0 hw0.le
      constructor <;> linarith
    nlinarith
  have aR : |E.getD 0 0| ≤ R * w := by nlinarith
  unfold windowF truncWindowF at hwin ⊢
  simp only at hwin ⊢
  rw [← hw] at hwin ⊢
  generalize fl (truncate * fl (fwhm.getD i 0 / fl (2355 / 1000))) = ts at *
  generalize E.getD i 0 = c at *
  generalize E.getD 0 0 = a at *
  have hts2 := abs_le.1 hts
  have tsR : |ts| ≤ (R + 1) * w := by
    have := mul_le_mul_of_nonneg_right hTR hw0.le
    rw [abs_le]
    constructor <;> nlinarith
  have nA := abs_le.1 (index_near hfl hu hw0 cR aR hsm (s := -ts) (by rwa [abs_neg]))
  have nB := abs_le.1 (index_near hfl hu hw0 cR aR hsm tsR)
  rw [← sub_eq_add_neg] at nA
  have yA1 : (c - ts - a) / w ≤ i + 1 / 8 - T + 6 / 1000 := by
    rw [div_le_iff₀ hw0]
    linarith
  have yA2 : (i : ℚ) - 1 / 8 - T - 6 / 1000 ≤ (c - ts - a) / w := by
    rw [le_div_iff₀ hw0]
    linarith
  have yB1 : (c + ts - a) / w ≤ i + 1 / 8 + T + 6 / 1000 := by
    rw [div_le_iff₀ hw0]
    linarith
  have yB2 : (i : ℚ) - 1 / 8 + T - 6 / 1000 ≤ (c + ts - a) / w := by
    rw [le_div_iff₀ hw0]
    linarith
  have T0 : 0 ≤ T := nonneg_of_mul_nonneg_left ts0 hw0
  generalize fl (fl (fl (c - ts) - a) / w) = A at *
  generalize fl (fl (fl (c + ts) - a) / w) = B at *
  have k0 : (0 : ℚ) ≤ k := Nat.cast_nonneg k
  have up : ∀ {X : ℚ} {q : ℕ}, X ≤ q → truncZ X ≤ q := by
    intro X q h
    unfold truncZ
    split_ifs
    · exact_mod_cast (Int.floor_le X).trans h
    · have : ⌈X⌉ ≤ 0 := Int.ceil_le.2 (by push_cast; linarith)
      omega
  constructor
  · intro h
    have h := abs_le.1 h
    have l : truncZ A ≤ k := up (by linarith)
    have hB : (k : ℚ) ≤ B := by linarith
    have r : (k : ℤ) ≤ truncZ B := by
      rw [truncZ_of_nonneg (k0.trans hB), Int.le_floor]
      exact_mod_cast hB
    omega
  · rintro ⟨h1, h2⟩
    have l : A - 1 < k := by
      have h3 : truncZ A ≤ k := by omega
      have := lt_truncZ_add_one A
      have h4 : ((truncZ A : ℤ) : ℚ) ≤ k := by exact_mod_cast h3
      linarith
    rw [abs_le]
    refine ⟨by linarith, ?_⟩
    rcases le_or_gt (k : ℤ) (i + 1) with h3 | h3
    · have h4 : (k : ℚ) ≤ i + 1 := by exact_mod_cast h3
      linarith
    · have h4 : (k : ℤ) ≤ truncZ B := by omega
      have h5 : (k : ℚ) ≤ B := by
        by_contra hB
        have hB := not_le.1 hB
        rcases le_or_gt 0 B with b0 | b0
        · rw [truncZ_of_nonneg b0, Int.le_floor] at h4
          push_cast at h4
          linarith
        · have := up (X := B) (q := 0) (by push_cast; linarith)
          omega
      linarith

/-- Specification of a bell: positive and falling with the distance. -/
def bell (m _s x : ℚ) : ℚ := 1 / (1 + |x - m|)

/-- **C126.** "Preserves number of counts" is not exact for doubles: one count in the first of three bins becomes more. -/
theorem C126_exactly_fails : ∃ out, gaussSmoothingF dbl (npSum dbl) bell [1, 0, 0] [0, 1, 2] [100, 100, 100] 3 = .ok out ∧
    out.sum = 1 + 1 / 2 ^ 53 := by
  have h : (gaussSmoothingF dbl (npSum dbl) bell [1, 0, 0] [0, 1, 2] [100, 100, 100] 3).toOption.map List.sum =
      some (1 + 1 / 2 ^ 53) := by decide +kernel
  cases e : gaussSmoothingF dbl (npSum dbl) bell [1, 0, 0] [0, 1, 2] [100, 100, 100] 3 with
  | error x => rw [e] at h; simp [Except.toOption] at h
  | ok out =>
    rw [e] at h
    exact ⟨out, rfl, by simpa [Except.toOption] using h⟩

/-- **C126.** Without nearly equal bins the counts are lost: the window is computed from the first bin width and lies
outside of the array, and everything becomes NaN. -/
theorem C126_uneven_fails (g : ℚ → ℚ → ℚ → ℚ) :
    gaussSmoothingF dbl (npSum dbl) g [1, 1, 1] [0, 1, 100] [1, 1, 1] 3 = .error .undefined := by
  have hw : (windowF dbl [0, 1, 100] [1, 1, 1] 3 2).1 = 98 := by decide +kernel
  have hrow : pdfRowF dbl g 3 [0, 1, 100] [1, 1, 1] 3 2 = [0, 0, 0] := by
    have h0 : ∀ k < 3, rawPdfF dbl g [0, 1, 100] [1, 1, 1] 3 2 k = 0 := by
      intro k hk
      rw [rawPdfF, if_neg]
      rw [hw]
      omega
    show [rawPdfF dbl g [0, 1, 100] [1, 1, 1] 3 2 0, rawPdfF dbl g [0, 1, 100] [1, 1, 1] 3 2 1,
      rawPdfF dbl g [0, 1, 100] [1, 1, 1] 3 2 2] = _
    rw [h0 0 (by norm_num), h0 1 (by norm_num), h0 2 (by norm_num)]
  have hd : dbl (([0, 1, 100] : List ℚ).getD 1 0 - ([0, 1, 100] : List ℚ).getD 0 0) ≠ 0 := by decide +kernel
  unfold gaussSmoothingF
  rw [if_neg (by simp), if_neg (by simp), if_neg (by simp), if_neg hd, if_pos]
  refine ⟨2, by simp, by simp, ?_⟩
  show npSum dbl (pdfRowF dbl g 3 [0, 1, 100] [1, 1, 1] 3 2) = 0
  rw [hrow]
  decide +kernel

/-- **C126.** Different lengths raise ValueError and a single bin IndexError. -/
theorem C126_errors (fl : ℚ → ℚ) (sum : List ℚ → ℚ) (g : ℚ → ℚ → ℚ → ℚ) (c E fwhm : List ℚ) (t : ℚ) :
    ((c.length ≠ E.length ∨ c.length ≠ fwhm.length) → gaussSmoothingF fl sum g c E fwhm t = .error .valueError) ∧
    (c.length = E.length → c.length = fwhm.length → E.length < 2 →
      gaussSmoothingF fl sum g c E fwhm t = .error .indexError) := by
  unfold gaussSmoothingF
  constructor
  · rintro (h | h)
    · rw [if_pos h]
    · by_cases h1 : c.length = E.length
      · rw [if_neg (not_not.2 h1), if_pos h]
      · rw [if_pos h1]
  · intro h1 h2 h3
    rw [if_neg (not_not.2 h1), if_neg (not_not.2 h2), if_pos h3]

/-- **C126.** Without rounding the windows are those of the exact model (C31). -/
theorem C126_exact_window (E fwhm : List ℚ) (t : ℚ) (i : ℕ) :
    windowF id E fwhm t i = truncWindow ((E.getD 0 0 : ℚ) : ℝ) (((E.getD 1 0 - E.getD 0 0 : ℚ)) : ℝ) E.length (t : ℝ)
      ((E.getD i 0 : ℚ) : ℝ) ((fwhm.getD i 0 / (2355 / 1000) : ℚ) : ℝ) := by
  have tr : ∀ q : ℚ, truncR (q : ℝ) = truncZ q := by
    intro q
    unfold truncR truncZ
    have : (0 : ℝ) ≤ q ↔ 0 ≤ q := by exact_mod_cast Iff.rfl
    simp only [this, Rat.floor_cast, Rat.ceil_cast]
  unfold windowF truncWindowF truncWindow
  simp only [id]
  rw [← tr, ← tr]
  push_cast
  rfl

/-- Non-vacuity of C126: bins of a tenth in doubles, whose width is not exact, with a bin of negative counts, one of no
width and one wider than the axis. -/
theorem tenths_axis : NearAxis dbl (1 / 2 ^ 53) [0, dbl (1 / 10), dbl (2 / 10), dbl (3 / 10)] 5 := by
  refine ⟨by simp, ?_, by decide +kernel, ?_, by decide +kernel, by norm_num⟩
  · decide +kernel
  · intro i hi
    simp only [List.length_cons, List.length_nil] at hi
    interval_cases i <;> decide +kernel

example : ∃ out, gaussSmoothingF dbl (npSum dbl) bell [5, -3, 7, 1] [0, dbl (1 / 10), dbl (2 / 10), dbl (3 / 10)]
    [0, 1, 20, 1] 3 = .ok out ∧ (∀ x ∈ out, 0 ≤ x) ∧
    Within (1 / 2 ^ 53) 34 13 out.sum := by
  obtain ⟨out, h1, -, h2, -, h3⟩ := C126_counts dbl_rounding (by norm_num) (by norm_num) (C117_numpy dbl) bell
    (fun m s x => by unfold bell; positivity) (fun m s => by unfold bell; positivity) tenths_axis [5, -3, 7, 1]
    [0, 1, 20, 1] rfl rfl (by
      intro i hi
      simp only [List.length_cons, List.length_nil] at hi
      interval_cases i <;> norm_num) 3 (by norm_num)
  refine ⟨out, h1, h2, ?_⟩
  have e : (([5, -3, 7, 1] : List ℚ).map fun x => max x 0).sum = 13 := by norm_num
  have d : 26 + Nat.log 2 4 + 4 + 2 = 34 := by decide +kernel
  rw [e] at h3
  simp only [List.length_cons, List.length_nil] at h3
  rw [← d]
  exact h3

/-- Three standard deviations of two bins: bin 1 is in the window of bin 0. -/
example : (windowF dbl [0, dbl (1 / 10), dbl (2 / 10), dbl (3 / 10)] [157 / 1000, 1, 1, 1] 3 0).1 ≤ ((1 : ℕ) : ℤ) := by
  refine ((C126_reach dbl_rounding (by norm_num) tenths_axis [157 / 1000, 1, 1, 1] 3 (by norm_num) (i := 0) (k := 1)
    (by simp) (by simp) (by norm_num) rfl (T := 2 / 10 / dbl (dbl (1 / 10) - 0)) ?_ ?_).1 ?_).1 <;> decide +kernel

end Ompy
