import Verif.FactorRounding
import Verif.RebinRoundingProps
import Verif.MatrixRebinProps

/-!
# C116: rebinning by a factor, with rounded numbers
-/

namespace Ompy

/-! ### The number of bins -/

/-- The rounded quotient by a rounded factor. -/
theorem quotientF_near {fl : ℚ → ℚ} {u : ℚ} (h : Rounding fl u) (u0 : 0 ≤ u) (hu : u ≤ 1 / 100) {f : ℚ} (hf : 0 < f) (n : ℕ) :
    |fl ((n : ℚ) / fl f) - (n : ℚ) / f| ≤ 3 * u * ((n : ℚ) / f) := by
  have h1 := h.rel f
  rw [abs_of_pos hf] at h1
  obtain ⟨l1, l2⟩ := abs_le.1 h1
  have hff : (99 / 100) * f ≤ fl f := by nlinarith
  have hfp : 0 < fl f := by linarith
  have n0 : (0 : ℚ) ≤ n := by positivity
  have x0 : 0 ≤ (n : ℚ) / f := by positivity
  have y0 : 0 ≤ (n : ℚ) / fl f := by positivity
  have e : (n : ℚ) / fl f * fl f = (n : ℚ) / f * f := by
    rw [div_mul_cancel₀ _ hfp.ne', div_mul_cancel₀ _ hf.ne']
  set x := (n : ℚ) / f with hx
  set y := (n : ℚ) / fl f with hy
  -- (y - x) * fl f = x * (f - fl f)
  have e2 : (y - x) * fl f = x * (f - fl f) := by linarith
  have h3 : |y - x| * fl f ≤ x * (u * f) := by
    have : |y - x| * fl f = x * |f - fl f| := by
      rw [← abs_of_pos hfp, ← abs_mul, abs_of_pos hfp, e2, abs_mul, abs_of_nonneg x0]
    rw [this, abs_sub_comm]
    exact mul_le_mul_of_nonneg_left h1 x0
  have h4 : |y - x| ≤ 100 / 99 * (u * x) := by
    have h5 : |y - x| * ((99 / 100) * f) ≤ |y - x| * fl f := mul_le_mul_of_nonneg_left hff (abs_nonneg _)
    have h6 : (|y - x| * (99 / 100)) * f ≤ (u * x) * f := by linarith
    have := le_of_mul_le_mul_right h6 hf
    linarith
  have h5 := h.near u0 h4 (le_of_eq (abs_of_nonneg x0))
  have hux : 0 ≤ u * x := mul_nonneg u0 x0
  have h6 : u * (100 / 99 * (u * x)) ≤ 1 / 99 * (u * x) := by nlinarith
  linarith

/-- **C116 (partial).** The number of new bins in floating point, for a factor that is itself rounded, is the exact one unless the quotient of
number and factor is a whole number up to rounding; then it is at most one off.  Missing: quotients that are whole numbers
(`C116_number_fails`), apart from whole factors (`C116_number_whole`). -/
theorem C116_number_partial (fl : ℚ → ℚ) (u : ℚ) (h : Rounding fl u) (u0 : 0 ≤ u) (hu : u ≤ 1 / 100) (n : ℕ) (f : ℚ) (hf : 0 < f) :
    (3 * u * ((n : ℚ) / f) ≤ (n : ℚ) / f - ⌊(n : ℚ) / f⌋ → 3 * u * ((n : ℚ) / f) < ⌊(n : ℚ) / f⌋ + 1 - (n : ℚ) / f → numMidsF fl n (fl f) = ⌊(n : ℚ) / f⌋) ∧
    (3 * u * ((n : ℚ) / f) < 1 → |numMidsF fl n (fl f) - ⌊(n : ℚ) / f⌋| ≤ 1) := by
  have key := quotientF_near h u0 hu hf n
  have x0 : 0 ≤ (n : ℚ) / f := by positivity
  set x := (n : ℚ) / f with hx
  have hy0 : 0 ≤ fl ((n : ℚ) / fl f) := by
    obtain ⟨k1, -⟩ := abs_le.1 key
    nlinarith
  unfold numMidsF
  rw [truncZ_of_nonneg hy0]
  obtain ⟨k1, k2⟩ := abs_le.1 key
  constructor
  · intro h1 h2
    rw [Int.floor_eq_iff]
    constructor <;> linarith
  · intro h1
    have f1 := Int.floor_le x
    have f2 := Int.lt_floor_add_one x
    have g1 : ⌊x⌋ - 1 ≤ ⌊fl ((n : ℚ) / fl f)⌋ := by
      rw [Int.le_floor]
      push_cast
      linarith
    have g2 : ⌊fl ((n : ℚ) / fl f)⌋ < ⌊x⌋ + 2 := by
      rw [Int.floor_lt]
      push_cast
      linarith
    rw [abs_le]
    omega

/-- **C116.** Whole factors give the exact number of bins in doubles. -/
theorem C116_number_whole (n f : ℕ) (hf : 1 ≤ f) (hn : n < 2 ^ 53) : numMidsF dbl n (f : ℚ) = ((n / f : ℕ) : ℤ) := by
  have hfq : (0 : ℚ) < f := by exact_mod_cast hf
  have fixed : ∀ k : ℕ, k ≤ 2 ^ 53 → dbl (k : ℚ) = k := by
    intro k hk
    have := dbl_int (k : ℤ) (by rw [abs_of_nonneg (by positivity)]; exact_mod_cast hk)
    exact_mod_cast this
  have x0 : (0 : ℚ) ≤ (n : ℚ) / f := by positivity
  have hmod := Nat.div_add_mod n f
  have hlt := Nat.mod_lt n hf
  have lo : ((n / f : ℕ) : ℚ) ≤ (n : ℚ) / f := by
    rw [le_div_iff₀ hfq]
    have : n / f * f ≤ n := Nat.div_mul_le_self n f
    exact_mod_cast this
  have hq : n / f ≤ n := Nat.div_le_self n f
  have l1 : ((n / f : ℕ) : ℚ) ≤ dbl ((n : ℚ) / f) := by
    have := C111_double_mono lo
    rwa [fixed _ (by omega)] at this
  have l2 : dbl ((n : ℚ) / f) < ((n / f : ℕ) : ℚ) + 1 := by
    have hnear := (abs_le.1 (C111_double_near ((n : ℚ) / f))).2
    rw [abs_of_nonneg x0] at hnear
    have gap : (n : ℚ) / f + 1 / f ≤ ((n / f : ℕ) : ℚ) + 1 := by
      rw [← add_div, div_le_iff₀ hfq]
      have h2 : n + 1 ≤ (n / f + 1) * f := by
        have e : (n / f + 1) * f = f * (n / f) + f := by ring
        rw [e]
        omega
      exact_mod_cast h2
    have small : (n : ℚ) / f / 2 ^ 53 < 1 / f := by
      rw [div_div, div_lt_div_iff₀ (by positivity) hfq]
      have : (n : ℚ) < 2 ^ 53 := by exact_mod_cast hn
      nlinarith
    linarith
  unfold numMidsF
  rw [truncZ_of_nonneg (le_trans (by positivity) l1), Int.floor_eq_iff]
  push_cast
  exact ⟨by exact_mod_cast l1, by exact_mod_cast l2⟩


example : numMidsF dbl 1000 3 = 333 := by decide +kernel

/-- **C116, fails.** Factors that are not whole numbers: 33 bins with factor 1.1 become 29 and not 30, 81 bins with factor 2.7 become 29 and not 30;
dividing the bins by 75 gives one bin too few for three bins. -/
theorem C116_number_fails :
    numMidsF dbl 33 (dbl (11 / 10)) = 29 ∧ ⌊(33 : ℚ) / (11 / 10)⌋ = 30 ∧
    numMidsF dbl 81 (dbl (27 / 10)) = 29 ∧ ⌊(81 : ℚ) / (27 / 10)⌋ = 30 ∧
    numMidsF dbl 3 (dbl (1 / 75)) = 224 ∧ ⌊(3 : ℚ) / (1 / 75)⌋ = 225 := by
  refine ⟨by decide +kernel, by norm_num, by decide +kernel, by norm_num, by decide +kernel, by norm_num⟩

/-! ### The new axis -/

/-- `np.linspace` with rounding. -/
theorem linspaceF_mid {fl : ℚ → ℚ} {u : ℚ} (h : Rounding fl u) (u0 : 0 ≤ u) (hu : u ≤ 1 / 100) {a b : ℚ} (hab : a ≤ b) {m k : ℕ} (hm : 2 ≤ m) (hk : k < m) :
    |(linspaceF fl a b m).getD k 0 - (a + (b - a) / ((m : ℚ) - 1) * k)| ≤ 6 * u * (|a| + (b - a)) := by
  have m1 : (0 : ℚ) < (m : ℚ) - 1 := by
    have : (2 : ℚ) ≤ m := by exact_mod_cast hm
    linarith
  have D0 : 0 ≤ b - a := by linarith
  have uD : 0 ≤ u * (b - a) := mul_nonneg u0 D0
  have ua : 0 ≤ u * |a| := mul_nonneg u0 (abs_nonneg a)
  have e0 : (linspaceF fl a b m).getD k 0 = if k + 1 = m then b
      else fl (fl (fl (fl (b - a) / ((m : ℚ) - 1)) * (k : ℚ)) + a) := by
    unfold linspaceF
    rw [if_neg (by omega), getD_map_range _ hk]
  rw [e0]
  split_ifs with hlast
  · have : ((m : ℚ) - 1) = k := by
      rw [← hlast]; push_cast; ring
    rw [this] at m1 ⊢
    rw [div_mul_cancel₀ _ m1.ne']
    have : b - (a + (b - a)) = 0 := by ring
    rw [this, abs_zero]
    linarith
  · have k1 : (k : ℚ) ≤ (m : ℚ) - 1 := by
      have : k + 1 ≤ m := hk
      have : ((k + 1 : ℕ) : ℚ) ≤ m := by exact_mod_cast this
      push_cast at this
      linarith
    have k0 : (0 : ℚ) ≤ k := by positivity
    set D := b - a with hD
    set t := (k : ℚ) / ((m : ℚ) - 1) with ht
    have t0 : 0 ≤ t := by positivity
    have t1 : t ≤ 1 := by rw [ht, div_le_one m1]; exact k1
    have h1 : |fl D - D| ≤ u * D := by
      have := h.rel D
      rwa [abs_of_nonneg D0] at this
    have h2 : |fl D / ((m : ℚ) - 1) - D / ((m : ℚ) - 1)| ≤ u * D / ((m : ℚ) - 1) := by
      rw [← sub_div, abs_div, abs_of_pos m1]
      exact div_le_div_of_nonneg_right h1 m1.le
    have h3 := h.near u0 h2 (le_of_eq (abs_of_nonneg (div_nonneg D0 m1.le)))
    set s := fl (fl D / ((m : ℚ) - 1)) with hs
    have h4 : |s * k - D / ((m : ℚ) - 1) * k| ≤ (u * D / ((m : ℚ) - 1) + u * (D / ((m : ℚ) - 1) + u * D / ((m : ℚ) - 1))) * k := by
      rw [← sub_mul, abs_mul, abs_of_nonneg k0]
      exact mul_le_mul_of_nonneg_right h3 k0
    have e1 : (u * D / ((m : ℚ) - 1) + u * (D / ((m : ℚ) - 1) + u * D / ((m : ℚ) - 1))) * k = (2 * (u * D) + u * (u * D)) * t := by
      rw [ht]; ring
    have e2 : D / ((m : ℚ) - 1) * k = D * t := by rw [ht]; ring
    rw [e1] at h4
    rw [e2] at h4 ⊢
    have uuD : u * (u * D) ≤ 1 / 100 * (u * D) := mul_le_mul_of_nonneg_right hu uD
    have uuD0 : 0 ≤ u * (u * D) := mul_nonneg u0 uD
    have b1 : (2 * (u * D) + u * (u * D)) * t ≤ (2 * (u * D) + u * (u * D)) * 1 := mul_le_mul_of_nonneg_left t1 (by linarith)
    have h5 : |s * k - D * t| ≤ 201 / 100 * (u * D) := by linarith
    have Dt : D * t ≤ D := by nlinarith
    have Dt0 : 0 ≤ D * t := mul_nonneg D0 t0
    have h6 := h.near u0 h5 ((le_of_eq (abs_of_nonneg Dt0)).trans Dt)
    have h7 : |fl (s * k) + a - (a + D * t)| ≤ 4 * (u * D) := by
      have : fl (s * k) + a - (a + D * t) = fl (s * k) - D * t := by ring
      rw [this]
      have e : u * (D + 201 / 100 * (u * D)) = u * D + 201 / 100 * (u * (u * D)) := by ring
      rw [e] at h6
      linarith
    have h8 : |a + D * t| ≤ |a| + D := by
      have := abs_add_le a (D * t)
      rw [abs_of_nonneg Dt0] at this
      linarith
    have h9 := h.near u0 h7 h8
    have e : u * (|a| + D + 4 * (u * D)) = u * |a| + u * D + 4 * (u * (u * D)) := by ring
    rw [e] at h9
    linarith

/-- **C116.** The new axis: from the first to the last old energy, every bin within rounding of its place. -/
theorem C116_axis (fl : ℚ → ℚ) (u : ℚ) (h : Rounding fl u) (u0 : 0 ≤ u) (hu : u ≤ 1 / 100) (E : List ℚ) (f : ℚ) (hf : 0 < f) (hE : E ≠ []) (m : ℕ)
    (hs : E.getD 0 0 ≤ E.getD (E.length - 1) 0) (hm : numMidsF fl E.length f = m) (hm2 : 2 ≤ m) :
    ∃ mids, rebinMidsF fl E none (some f) = .ok mids ∧ mids.length = m ∧ mids.getD (m - 1) 0 = E.getD (E.length - 1) 0 ∧
      mids.getD 0 0 = fl (E.getD 0 0) ∧
      ∀ k < m, |mids.getD k 0 - (E.getD 0 0 + (E.getD (E.length - 1) 0 - E.getD 0 0) / ((m : ℚ) - 1) * k)| ≤
        6 * u * (|E.getD 0 0| + (E.getD (E.length - 1) 0 - E.getD 0 0)) := by
  have hpos : 0 < E.length := List.length_pos_iff.2 hE
  have e1 : E.head? = some (E.getD 0 0) := by
    rw [List.head?_eq_getElem?, List.getD_eq_getElem?_getD, List.getElem?_eq_getElem hpos]; rfl
  have e2 : E.getLast? = some (E.getD (E.length - 1) 0) := by
    rw [List.getLast?_eq_getElem?, List.getD_eq_getElem?_getD, List.getElem?_eq_getElem (by omega)]; rfl
  refine ⟨linspaceF fl (E.getD 0 0) (E.getD (E.length - 1) 0) m, ?_, linspaceF_length _ _ _ _, ?_, ?_, fun k hk => linspaceF_mid h u0 hu hs hm2 hk⟩
  · unfold rebinMidsF
    simp only
    rw [if_neg (not_le.2 hf), e1, e2]
    simp only
    rw [hm, Int.toNat_natCast]
  · unfold linspaceF
    rw [if_neg (by omega), getD_map_range _ (by omega), if_pos (by omega)]
  · unfold linspaceF
    have z : fl 0 = 0 := by
      have := h.rel 0
      simpa using this
    rw [if_neg (by omega), getD_map_range _ (by omega), if_neg (by omega)]
    push_cast
    rw [mul_zero, z, zero_add]

/-- **C116.** A factor of at least one conserves the counts up to rounding: the sum of the new values differs from that of the old ones by at most the
bound of C112 with the errors of the axes. -/
theorem C116_conserves (fl : ℚ → ℚ) (u : ℚ) (h : Rounding fl u) (u0 : 0 ≤ u) (v : Vec ℚ) (f a w δ R : ℚ) (n m : ℕ) (hf : 1 ≤ f)
    (hE : NearGrid v.E a w n δ) (hw : 0 < w) (hfix : fl (n : ℚ) = n) (hm : numMidsF fl n f = m) (hm2 : 2 ≤ m) (hv : v.values.length = n)
    (hR : |a| + 3 * (w * ((n : ℚ) + 1)) ≤ R) (hfine : 4 * ((4 * (n : ℚ) + 12) * (3 * δ + 13 * (u * R))) ≤ w) :
    ∃ v', v.rebinCopyF fl none (some f) = .ok v' ∧ v'.E.length = m ∧ v'.values.length = m ∧
      NearGrid v'.E a (w * (((n : ℚ) - 1) / ((m : ℚ) - 1))) m (3 * δ + 12 * (u * R)) ∧
      |v'.values.sum - v.values.sum| ≤ m * ((4 * ((4 * (n : ℚ) + 12) * (3 * δ + 13 * (u * R))) / w + (4 * n + 5) * u) * (v.values.map abs).sum) := by
  have hlen := hE.len
  have n0 : (0 : ℚ) ≤ (n : ℚ) := by positivity
  -- fewer bins than before
  have hmn : m ≤ n := by
    have h1 : fl ((n : ℚ) / f) ≤ n := by
      have := h.mono (div_le_self n0 hf)
      rwa [hfix] at this
    unfold numMidsF at hm
    have hp : 0 < truncZ (fl ((n : ℚ) / f)) := by rw [hm]; exact_mod_cast (by omega : 0 < m)
    have h2 := truncZ_pos_le hp
    rw [hm] at h2
    have : ((m : ℤ) : ℚ) ≤ n := h2.trans h1
    exact_mod_cast this
  have hn : 2 ≤ n := hm2.trans hmn
  have q1 : (2 : ℚ) ≤ m := by exact_mod_cast hm2
  have q2 : (m : ℚ) ≤ n := by exact_mod_cast hmn
  have d0 : 0 ≤ δ := (abs_nonneg _).trans (hE.near 0 (by omega))
  have R0 : 0 ≤ R := by
    have : 0 ≤ w * ((n : ℚ) + 1) := by positivity
    have := abs_nonneg a
    linarith
  have uR0 : 0 ≤ u * R := mul_nonneg u0 R0
  -- sizes
  have wn : 0 ≤ w * (n : ℚ) := by positivity
  have RW : 3 * w * (n : ℚ) + 3 * w ≤ R := by
    have := abs_nonneg a
    linarith
  have wR : 9 * w ≤ R := by nlinarith
  have hdw : 240 * δ + 1040 * (u * R) ≤ w := by nlinarith
  have hu : u ≤ 1 / 100 := by
    by_contra hc
    push Not at hc
    have : 1 / 100 * R ≤ u * R := mul_le_mul_of_nonneg_right hc.le R0
    nlinarith
  -- the ends of the old axis
  have g0 := hE.near 0 (by omega)
  have g1 := hE.near 1 (by omega)
  have gl := hE.near (n - 1) (by omega)
  have cast1 : ((n - 1 : ℕ) : ℚ) = (n : ℚ) - 1 := by
    rw [Nat.cast_sub (by omega)]; norm_num
  rw [cast1] at gl
  simp only [Nat.cast_zero, mul_zero, add_zero] at g0
  simp only [Nat.cast_one, mul_one] at g1
  have hEne : v.E ≠ [] := by
    rintro hc
    rw [hc] at hlen
    simp at hlen
    omega
  set A := v.E.getD 0 0 with hA
  set B := v.E.getD (n - 1) 0 with hB
  obtain ⟨ga1, ga2⟩ := abs_le.1 g0
  obtain ⟨gb1, gb2⟩ := abs_le.1 gl
  have w1 : w ≤ w * ((n : ℚ) - 1) := by nlinarith
  have hAB : A ≤ B := by linarith
  obtain ⟨mids, r1, r2, r3, r4, r5⟩ := C116_axis fl u h u0 hu v.E f (by linarith) hEne m (by rw [hlen]; exact hAB) (by rw [hlen]; exact hm) hm2
  rw [hlen] at r5
  rw [← hA, ← hB] at r5
  set V := w * (((n : ℚ) - 1) / ((m : ℚ) - 1)) with hV
  have m1 : (0 : ℚ) < (m : ℚ) - 1 := by linarith
  have hVm : V * ((m : ℚ) - 1) = w * ((n : ℚ) - 1) := by
    rw [hV]
    field_simp
  have hwV : w ≤ V := by
    have : 1 ≤ ((n : ℚ) - 1) / ((m : ℚ) - 1) := by rw [le_div_iff₀ m1]; linarith
    rw [hV]
    nlinarith
  have aA : |A| ≤ |a| + δ := by
    have := abs_add_le (A - a) a
    rw [sub_add_cancel] at this
    linarith
  have size : |A| + (B - A) ≤ 2 * R := by
    have e : w * ((n : ℚ) - 1) = w * n - w := by ring
    linarith
  have near : NearGrid mids a V m (3 * δ + 12 * (u * R)) := by
    refine ⟨r2, fun k hk => ?_⟩
    have c1 := r5 k hk
    have k1 : (k : ℚ) ≤ (m : ℚ) - 1 := by
      have : k + 1 ≤ m := hk
      have : ((k + 1 : ℕ) : ℚ) ≤ m := by exact_mod_cast this
      push_cast at this
      linarith
    have k0 : (0 : ℚ) ≤ k := by positivity
    set t := (k : ℚ) / ((m : ℚ) - 1) with ht
    have t0 : 0 ≤ t := by positivity
    have t1 : t ≤ 1 := by rw [ht, div_le_one m1]; exact k1
    have e1 : (B - A) / ((m : ℚ) - 1) * k = (B - A) * t := by rw [ht]; ring
    have e2 : V * k = w * ((n : ℚ) - 1) * t := by rw [← hVm, ht]; field_simp
    rw [e1] at c1
    rw [e2]
    have c2 : |(A + (B - A) * t) - (a + w * ((n : ℚ) - 1) * t)| ≤ 3 * δ := by
      have e : (A + (B - A) * t) - (a + w * ((n : ℚ) - 1) * t) = (A - a) * (1 - t) + (B - (a + w * ((n : ℚ) - 1))) * t := by ring
      rw [e]
      refine (abs_add_le _ _).trans ?_
      rw [abs_mul, abs_mul, abs_of_nonneg t0, abs_of_nonneg (by linarith : 0 ≤ 1 - t)]
      have x1 := mul_le_mul g0 (by linarith : 1 - t ≤ 1) (by linarith) d0
      have x2 := mul_le_mul gl t1 t0 d0
      linarith
    have c3 : 6 * u * (|A| + (B - A)) ≤ 12 * (u * R) := by
      have := mul_le_mul_of_nonneg_left size u0
      linarith
    have c4 := abs_add_le (mids.getD k 0 - (A + (B - A) * t)) ((A + (B - A) * t) - (a + w * ((n : ℚ) - 1) * t))
    have e : mids.getD k 0 - (A + (B - A) * t) + ((A + (B - A) * t) - (a + w * ((n : ℚ) - 1) * t)) = mids.getD k 0 - (a + w * ((n : ℚ) - 1) * t) := by ring
    rw [e] at c4
    linarith
  have o0 := near.near 0 (by omega)
  have o1 := near.near 1 (by omega)
  simp only [Nat.cast_zero, mul_zero, add_zero] at o0
  simp only [Nat.cast_one, mul_one] at o1
  have hsc : RebinScale u v.E mids a w a V (3 * δ + 12 * (u * R)) R n m n := by
    have e : 3 * δ + 12 * (u * R) + u * R = 3 * δ + 13 * (u * R) := by ring
    refine ⟨hlen, r2, hn, hm2, le_refl _, hmn, hw, by linarith, by linarith, by linarith, o0, o1, ?_, ?_, ?_, ?_⟩
    · linarith
    · have : V * ((m : ℚ) + 1) ≤ 3 * (V * ((m : ℚ) - 1)) := by
        have : 0 ≤ V * ((m : ℚ) - 2) := mul_nonneg (by linarith) (by linarith)
        linarith
      rw [hVm] at this
      have e : w * ((n : ℚ) - 1) = w * n - w := by ring
      linarith
    · rw [e]; exact hfine
    · rw [e]; exact hfine.trans hwV
  have hcover : axisSet a w n ⊆ axisSet a V m := by
    unfold axisSet
    have hvw' : (w : ℝ) ≤ V := by exact_mod_cast hwV
    have hvm' : (V : ℝ) * ((m : ℝ) - 1) = w * ((n : ℝ) - 1) := by exact_mod_cast hVm
    apply Set.Icc_subset_Icc
    · linarith
    · linarith
  obtain ⟨out, t1, t2⟩ := C112_total h u0 v.values hsc hv hcover
  have ol : out.length = m := by
    obtain ⟨out', s1, s2, -⟩ := C112_share h u0 v.values hsc hv
    rw [t1] at s1
    cases s1
    exact s2
  refine ⟨⟨mids, out, none, "keV"⟩, ?_, r2, ol, near, ?_⟩
  · simp only [Vec.rebinCopyF, bind, Except.bind, r1, t1, Vec.new]
    rw [if_pos]
    simp [Vec.consistent, r2, ol]
  · have e : 3 * δ + 12 * (u * R) + u * R = 3 * δ + 13 * (u * R) := by ring
    rw [e] at t2
    exact t2

/-- Non-vacuity: 9 bins of 100 keV rebinned with factor 2. -/
example : (Vec.rebinCopyF dbl ⟨grid 0 100 9, [1, 2, 3, 4, 5, 6, 7, 8, 9], none, "keV"⟩ none (some 2)).map (fun v => (v.E.length, decide (v.values.sum = 45))) = .ok (4, false) ∧
    NearGrid (grid 0 100 9) 0 100 9 0 ∧ dbl (9 : ℕ) = 9 ∧ numMidsF dbl 9 2 = 4 ∧
    4 * ((4 * (9 : ℚ) + 12) * (3 * 0 + 13 * (1 / 2 ^ 53 * 4000))) ≤ 100 := by
  refine ⟨by decide +kernel, nearGrid_grid _ _ _ (le_refl _), by decide +kernel, by decide +kernel, by norm_num⟩

/-! ### Without rounding, and what is refused -/

/-- **C116.** Without rounding this is the model of C10 and C54. -/
theorem C116_exact (old : List ℚ) (mids : Option (List ℚ)) (factor : Option ℚ) (v : Vec ℚ) :
    rebinMidsF (fun q => q) old mids factor = rebinMids old mids factor ∧
    v.rebinCopyF (fun q => q) mids factor = v.rebinCopy mids factor ∧ v.rebinInplaceF (fun q => q) mids factor = v.rebinInplace mids factor := by
  have lin : ∀ a b : ℚ, ∀ n : ℕ, linspaceF (fun q => q) a b n = linspace a b n := by
    intro a b n
    unfold linspaceF linspace
    by_cases h1 : n = 1
    · rw [if_pos h1, if_pos h1]
    · rw [if_neg h1, if_neg h1]
      apply List.map_congr_left
      intro k hk
      rw [List.mem_range] at hk
      split_ifs with h2
      · have hk' : (k : ℚ) = (n : ℚ) - 1 := by rw [← h2]; push_cast; ring
        have : (n : ℚ) - 1 ≠ 0 := by
          rw [← hk']
          have : 0 < k := by omega
          exact_mod_cast this.ne'
        rw [hk']
        field_simp
        ring
      · ring
  have e1 : ∀ old mids factor, rebinMidsF (fun q => q) old mids factor = rebinMids old mids factor := by
    intro old mids factor
    unfold rebinMidsF rebinMids numMidsF
    cases mids <;> cases factor <;> simp only [lin]
    split_ifs
    · rfl
    · cases old.head? <;> cases old.getLast? <;> rfl
  have e2 : ∀ c i o, rebin1DF (fun q => q) c i o = rebin1D c i o := C112_exact
  refine ⟨e1 _ _ _, ?_, ?_⟩
  · unfold Vec.rebinCopyF Vec.rebinCopy
    simp only [e1, e2]
  · unfold Vec.rebinInplaceF Vec.rebinInplace
    simp only [e1, e2]
    rfl

/-- **C116.** What is refused: both or neither of `mids` and `factor`, a factor that is not positive, a vector without bins, and factors so large
that fewer than two bins are left.  The object is then left as it was. -/
theorem C116_refused (fl : ℚ → ℚ) (v : Vec ℚ) :
    (∀ mids factor, mids.isSome = factor.isSome → v.rebinInplaceF fl mids factor = (v, .error .valueError) ∧ v.rebinCopyF fl mids factor = .error .valueError) ∧
    (∀ f, f ≤ 0 → v.rebinInplaceF fl none (some f) = (v, .error .valueError) ∧ v.rebinCopyF fl none (some f) = .error .valueError) ∧
    (∀ f, 0 < f → v.E = [] → v.rebinInplaceF fl none (some f) = (v, .error .indexError) ∧ v.rebinCopyF fl none (some f) = .error .indexError) ∧
    (∀ f, 0 < f → numMidsF fl v.E.length f < 2 → v.rebinInplaceF fl none (some f) = (v, .error .indexError) ∧ v.rebinCopyF fl none (some f) = .error .indexError) := by
  have lift : ∀ mids factor e, rebinMidsF fl v.E mids factor = .error e →
      v.rebinInplaceF fl mids factor = (v, .error e) ∧ v.rebinCopyF fl mids factor = .error e := by
    intro mids factor e he
    simp only [Vec.rebinInplaceF, Vec.rebinCopyF, he, bind, Except.bind, and_self]
  have empty : ∀ f, 0 < f → v.E = [] → rebinMidsF fl v.E none (some f) = .error .indexError := by
    intro f hf hE
    unfold rebinMidsF
    simp only
    rw [if_neg (not_le.2 hf), hE]
    rfl
  refine ⟨fun mids factor hs => lift _ _ _ ?_, fun f hf => lift _ _ _ ?_, fun f hf hE => lift _ _ _ (empty f hf hE), fun f hf hm => ?_⟩
  · cases mids <;> cases factor <;> simp at hs <;> rfl
  · unfold rebinMidsF
    simp only
    rw [if_pos hf]
  · by_cases hE : v.E = []
    · exact lift _ _ _ (empty f hf hE)
    · obtain ⟨mids, hmids, hl⟩ : ∃ mids, rebinMidsF fl v.E none (some f) = .ok mids ∧ mids.length < 2 := by
        unfold rebinMidsF
        simp only
        rw [if_neg (not_le.2 hf)]
        cases hh : v.E.head? with
        | none => exact absurd (List.head?_eq_none_iff.1 hh) hE
        | some a =>
          cases hl : v.E.getLast? with
          | none => exact absurd (List.getLast?_eq_none_iff.1 hl) hE
          | some b => exact ⟨_, rfl, by rw [linspaceF_length]; omega⟩
      have hr : rebin1DF fl v.values v.E mids = .error .indexError := by
        unfold rebin1DF
        rw [if_pos (Or.inr hl)]
      simp only [Vec.rebinInplaceF, Vec.rebinCopyF, hmids, hr, bind, Except.bind, and_self]

end Ompy
