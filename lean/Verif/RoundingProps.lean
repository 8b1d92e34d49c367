import Verif.Rounding
import Verif.DecomposeFitProps
import Verif.PrintfProps
import Verif.MatrixMore

/-!
# Properties of the extraction in floating point (C111)
-/

namespace Ompy

/-! ### The rounding of doubles -/

/-- Specification: a rounding keeps the order and has a relative error of at most `u`. -/
structure Rounding (fl : ℚ → ℚ) (u : ℚ) : Prop where
  mono : Monotone fl
  rel : ∀ q, |fl q - q| ≤ u * |q|

theorem ulp_pos (q : ℚ) : 0 < (2 : ℚ) ^ (Int.log 2 |q| - 52) := by positivity

theorem log_le {q : ℚ} (h : q ≠ 0) : (2 : ℚ) ^ Int.log 2 |q| ≤ |q| :=
  Int.zpow_log_le_self (by norm_num) (abs_pos.2 h)

theorem lt_log (q : ℚ) : |q| < (2 : ℚ) ^ (Int.log 2 |q| + 1) :=
  Int.lt_zpow_succ_log_self (by norm_num) _

/-- **C111.** The rounding of doubles has a relative error of at most `2⁻⁵³`. -/
theorem C111_double_near (q : ℚ) : |dbl q - q| ≤ |q| / 2 ^ 53 := by
  unfold dbl
  split_ifs with h
  · simp [h]
  have hu := ulp_pos q
  set u := (2 : ℚ) ^ (Int.log 2 |q| - 52) with hdu
  have e : (roundHalfEven (q / u) : ℚ) * u - q = ((roundHalfEven (q / u) : ℚ) - q / u) * u := by
    field_simp
  rw [e, abs_mul, abs_of_pos hu]
  have h1 := roundHalfEven_near (q / u)
  have h2 : u * 2 ^ 52 ≤ |q| := by
    rw [hdu]
    refine le_trans (le_of_eq ?_) (log_le h)
    rw [show ((2 : ℚ) ^ 52) = (2 : ℚ) ^ (52 : ℤ) by norm_cast, ← zpow_add₀ (by norm_num)]
    congr 1
    ring
  have h3 : |(roundHalfEven (q / u) : ℚ) - q / u| * u ≤ 1 / 2 * u := mul_le_mul_of_nonneg_right h1 hu.le
  rw [le_div_iff₀ (by positivity)]
  nlinarith

theorem round_le_of_le {t : ℚ} {k : ℤ} (h : t ≤ k) : roundHalfEven t ≤ k := by
  have := roundHalfEven_mono _ _ h
  rwa [roundHalfEven_int] at this

theorem le_round_of_le {t : ℚ} {k : ℤ} (h : (k : ℚ) ≤ t) : k ≤ roundHalfEven t := by
  have := roundHalfEven_mono _ _ h
  rwa [roundHalfEven_int] at this

theorem ulp_lo (z : ℤ) : (2 : ℚ) ^ z = 4503599627370496 * (2 : ℚ) ^ (z - 52) := by
  rw [show (4503599627370496 : ℚ) = (2 : ℚ) ^ (52 : ℤ) by norm_num, ← zpow_add₀ (by norm_num)]
  congr 1
  ring

theorem ulp_hi (z : ℤ) : (2 : ℚ) ^ (z + 1) = 9007199254740992 * (2 : ℚ) ^ (z - 52) := by
  rw [show (9007199254740992 : ℚ) = (2 : ℚ) ^ (53 : ℤ) by norm_num, ← zpow_add₀ (by norm_num)]
  congr 1
  ring

/-- The double of a number lies between the powers of two around it. -/
theorem dbl_pos {q : ℚ} (h : 0 < q) :
    (2 : ℚ) ^ Int.log 2 |q| ≤ dbl q ∧ dbl q ≤ (2 : ℚ) ^ (Int.log 2 |q| + 1) := by
  unfold dbl
  rw [if_neg h.ne']
  have hu := ulp_pos q
  have h1 := log_le h.ne'
  have h2 := lt_log q
  rw [abs_of_pos h] at *
  generalize Int.log 2 q = z at *
  rw [ulp_hi] at *
  rw [ulp_lo z] at *
  generalize (2 : ℚ) ^ (z - 52) = u at *
  constructor
  · apply mul_le_mul_of_nonneg_right _ hu.le
    have : (4503599627370496 : ℤ) ≤ roundHalfEven (q / u) :=
      le_round_of_le (by rw [le_div_iff₀ hu]; push_cast; exact h1)
    exact_mod_cast this
  · apply mul_le_mul_of_nonneg_right _ hu.le
    have : roundHalfEven (q / u) ≤ (9007199254740992 : ℤ) :=
      round_le_of_le (by rw [div_le_iff₀ hu]; push_cast; exact h2.le)
    exact_mod_cast this

theorem dbl_neg {q : ℚ} (h : q < 0) :
    -(2 : ℚ) ^ (Int.log 2 |q| + 1) ≤ dbl q ∧ dbl q ≤ -(2 : ℚ) ^ Int.log 2 |q| := by
  unfold dbl
  rw [if_neg h.ne]
  have hu := ulp_pos q
  have h1 := log_le h.ne
  have h2 := lt_log q
  rw [abs_of_neg h] at *
  generalize Int.log 2 (-q) = z at *
  rw [ulp_hi] at *
  rw [ulp_lo z] at *
  generalize (2 : ℚ) ^ (z - 52) = u at *
  constructor
  · have : (-9007199254740992 : ℤ) ≤ roundHalfEven (q / u) :=
      le_round_of_le (by rw [le_div_iff₀ hu]; push_cast; linarith)
    have : (-9007199254740992 : ℚ) ≤ (roundHalfEven (q / u) : ℚ) := by exact_mod_cast this
    have := mul_le_mul_of_nonneg_right this hu.le
    linarith
  · have : roundHalfEven (q / u) ≤ (-4503599627370496 : ℤ) :=
      round_le_of_le (by rw [div_le_iff₀ hu]; push_cast; linarith)
    have : (roundHalfEven (q / u) : ℚ) ≤ (-4503599627370496 : ℚ) := by exact_mod_cast this
    have := mul_le_mul_of_nonneg_right this hu.le
    linarith

/-- **C111.** The rounding of doubles keeps the order. -/
theorem C111_double_mono : Monotone dbl := by
  intro a b hab
  have two : (1 : ℚ) < 2 := by norm_num
  have same : a ≠ 0 → b ≠ 0 → Int.log 2 |a| = Int.log 2 |b| → dbl a ≤ dbl b := by
    intro ha hb he
    unfold dbl
    rw [if_neg ha, if_neg hb, he]
    apply mul_le_mul_of_nonneg_right _ (ulp_pos b).le
    have := roundHalfEven_mono _ _ (div_le_div_of_nonneg_right hab (ulp_pos b).le)
    exact_mod_cast this
  rcases lt_trichotomy a 0 with ha | rfl | ha
  · rcases lt_trichotomy b 0 with hb | rfl | hb
    · have hl : Int.log 2 |b| ≤ Int.log 2 |a| := by
        apply Int.log_mono_right (abs_pos.2 hb.ne)
        rw [abs_of_neg ha, abs_of_neg hb]
        linarith
      rcases hl.eq_or_lt with he | hl
      · exact same ha.ne hb.ne he.symm
      · have := zpow_le_zpow_right₀ two.le (show Int.log 2 |b| + 1 ≤ Int.log 2 |a| by omega)
        have h1 := (dbl_neg ha).2
        have h2 := (dbl_neg hb).1
        linarith
    · have h1 := (dbl_neg ha).2
      have : (0 : ℚ) < 2 ^ Int.log 2 |a| := by positivity
      rw [show dbl 0 = 0 by simp [dbl]]
      linarith
    · have h1 := (dbl_neg ha).2
      have h2 := (dbl_pos hb).1
      have : (0 : ℚ) < 2 ^ Int.log 2 |a| := by positivity
      have : (0 : ℚ) < 2 ^ Int.log 2 |b| := by positivity
      linarith
  · rcases hab.eq_or_lt with rfl | hb
    · exact le_rfl
    · have h2 := (dbl_pos hb).1
      have : (0 : ℚ) < 2 ^ Int.log 2 |b| := by positivity
      rw [show dbl 0 = 0 by simp [dbl]]
      linarith
  · have hb : 0 < b := lt_of_lt_of_le ha hab
    have hl : Int.log 2 |a| ≤ Int.log 2 |b| := by
      apply Int.log_mono_right (abs_pos.2 ha.ne')
      rw [abs_of_pos ha, abs_of_pos hb]
      exact hab
    rcases hl.eq_or_lt with he | hl
    · exact same ha.ne' hb.ne' he
    · have := zpow_le_zpow_right₀ two.le (show Int.log 2 |a| + 1 ≤ Int.log 2 |b| by omega)
      have h1 := (dbl_pos ha).2
      have h2 := (dbl_pos hb).1
      linarith

theorem dbl_rounding : Rounding dbl (1 / 2 ^ 53) :=
  ⟨C111_double_mono, fun q => by
    have := C111_double_near q
    rwa [div_eq_mul_one_div, mul_comm] at this⟩

/-- **C111.** An integer of up to 53 binary digits times a power of two is a double: it is not changed. -/
theorem C111_double_exact (m p : ℤ) (hm : |m| ≤ 2 ^ 53) :
    dbl ((m : ℚ) * (2 : ℚ) ^ p) = (m : ℚ) * (2 : ℚ) ^ p := by
  by_cases h0 : m = 0
  · simp [h0, dbl]
  have p0 : (0 : ℚ) < (2 : ℚ) ^ p := by positivity
  set q := (m : ℚ) * (2 : ℚ) ^ p with hq
  have q0 : q ≠ 0 := mul_ne_zero (by exact_mod_cast h0) p0.ne'
  have habs : |q| = ((|m| : ℤ) : ℚ) * (2 : ℚ) ^ p := by
    rw [hq, abs_mul, abs_of_pos p0]
    push_cast
    rfl
  have hq2 : |q| ≤ (2 : ℚ) ^ (p + 53) := by
    rw [habs, zpow_add₀ (by norm_num), mul_comm]
    apply mul_le_mul_of_nonneg_left _ p0.le
    have : ((|m| : ℤ) : ℚ) ≤ ((2 ^ 53 : ℤ) : ℚ) := by exact_mod_cast hm
    refine this.trans (le_of_eq ?_)
    norm_num
  have hl := log_le q0
  have hle : Int.log 2 |q| ≤ p + 53 := by
    have := hl.trans hq2
    exact (zpow_le_zpow_iff_right₀ (by norm_num : (1 : ℚ) < 2)).1 this
  have key : ∃ k : ℤ, q / (2 : ℚ) ^ (Int.log 2 |q| - 52) = k := by
    rcases hle.eq_or_lt with he | hlt
    · have hm' : |m| = 2 ^ 53 := by
        rw [he, habs, zpow_add₀ (by norm_num), mul_comm] at hl
        have := le_of_mul_le_mul_right hl p0
        have h3 : ((2 ^ 53 : ℤ) : ℚ) ≤ ((|m| : ℤ) : ℚ) := by
          refine le_trans (le_of_eq ?_) this
          norm_num
        have h3 : (2 ^ 53 : ℤ) ≤ |m| := by exact_mod_cast h3
        exact le_antisymm hm h3
      rw [he, hq, show p + 53 - 52 = p + 1 by ring, zpow_add₀ (by norm_num)]
      rcases (abs_eq (by norm_num : (0 : ℤ) ≤ 2 ^ 53)).1 hm' with hm' | hm'
      · refine ⟨2 ^ 52, ?_⟩
        rw [hm']
        push_cast
        field_simp
        norm_num
      · refine ⟨-2 ^ 52, ?_⟩
        rw [hm']
        push_cast
        field_simp
        norm_num
    · obtain ⟨n, hn⟩ := Int.eq_ofNat_of_zero_le (show 0 ≤ p - (Int.log 2 |q| - 52) by omega)
      refine ⟨m * 2 ^ n, ?_⟩
      rw [hq, mul_div_assoc, ← zpow_sub₀ (by norm_num), ← hq, hn]
      push_cast
      rfl
  obtain ⟨k, hk⟩ := key
  unfold dbl
  rw [if_neg q0, hk, roundHalfEven_int, ← hk, div_mul_cancel₀ _ (ulp_pos q).ne']

theorem dbl_int (m : ℤ) (hm : |m| ≤ 2 ^ 53) : dbl (m : ℚ) = m := by
  have := C111_double_exact m 0 hm
  simpa using this

/-! ### The axis of the level density -/

/-- **C111.** Calibrations in whole numbers (times a power of two), such as keV: if the numbers have at most 50 binary
digits, the axis of the level density computed with doubles is exactly the one of exact arithmetic. -/
theorem C111_integer_axes (close : ℚ → ℚ → Bool) (X Y W p : ℤ) (nx ny : ℕ) (hW : 0 < W) (hx : 2 ≤ nx) (hy : 2 ≤ ny)
    (hX : |X| ≤ 2 ^ 50) (hY : |Y| ≤ 2 ^ 50) (hnx : W * nx ≤ 2 ^ 50) (hny : W * ny ≤ 2 ^ 50)
    (hc : close ((W : ℚ) * 2 ^ p) ((W : ℚ) * 2 ^ p) = true) :
    eNldF dbl close (grid ((X : ℚ) * 2 ^ p) ((W : ℚ) * 2 ^ p) nx) (grid ((Y : ℚ) * 2 ^ p) ((W : ℚ) * 2 ^ p) ny) =
      eNld close (grid ((X : ℚ) * 2 ^ p) ((W : ℚ) * 2 ^ p) nx) (grid ((Y : ℚ) * 2 ^ p) ((W : ℚ) * 2 ^ p) ny) := by
  have p0 : (0 : ℚ) < (2 : ℚ) ^ p := by positivity
  have hw : (0 : ℚ) < (W : ℚ) * 2 ^ p := mul_pos (by exact_mod_cast hW) p0
  have fl : ∀ (q : ℚ) (z : ℤ), q = (z : ℚ) * 2 ^ p → |z| ≤ 2 ^ 53 → dbl q = q := by
    intro q z hq hz
    rw [hq]
    exact C111_double_exact z p hz
  rw [C34_grid close _ _ _ nx ny hw hx hy hc]
  obtain ⟨m, rfl⟩ : ∃ m, nx = m + 1 := ⟨nx - 1, by omega⟩
  obtain ⟨n, rfl⟩ : ∃ n, ny = n + 1 := ⟨ny - 1, by omega⟩
  have X1 := abs_le.1 hX
  have Y1 := abs_le.1 hY
  have k1 : ∀ k : ℕ, 0 ≤ W * (k : ℤ) := fun k => by positivity
  have km := k1 m
  have kn := k1 n
  push_cast at hnx hny
  rw [mul_add, mul_one] at hnx hny
  have hm1 : (m : ℤ) ≤ W * m := le_mul_of_one_le_left (by positivity) hW
  have hn1 : (n : ℤ) ≤ W * n := le_mul_of_one_le_left (by positivity) hW
  unfold eNldF
  rw [if_neg (by simp; omega)]
  have d : ∀ (a : ℚ) (n : ℕ), 2 ≤ n →
      (grid a ((W : ℚ) * 2 ^ p) n).getD 1 0 - (grid a ((W : ℚ) * 2 ^ p) n).getD 0 0 = (W : ℚ) * 2 ^ p := by
    intro a n hn
    rw [grid_getD _ _ (by omega), grid_getD _ _ (by omega)]
    push_cast
    ring
  have dw : dbl ((W : ℚ) * 2 ^ p) = (W : ℚ) * 2 ^ p := fl _ W rfl (by rw [abs_le]; constructor <;> linarith)
  rw [d _ _ hx, d _ _ hy, dw]
  simp only [hc, Bool.not_true, Bool.false_eq_true, if_false, hw.ne', listMin_grid _ _ _ hw,
    listMax_grid _ _ _ hw, bind, Except.bind]
  rw [fl _ (X - (Y + W * n)) (by push_cast; ring) (by rw [abs_le]; constructor <;> linarith),
    fl _ (X + W * m - Y) (by push_cast; ring) (by rw [abs_le]; constructor <;> linarith)]
  set a := (X : ℚ) * 2 ^ p - ((Y : ℚ) * 2 ^ p + (W : ℚ) * 2 ^ p * (n : ℚ)) with ha
  set b := (X : ℚ) * 2 ^ p + (W : ℚ) * 2 ^ p * (m : ℚ) - (Y : ℚ) * 2 ^ p with hb
  have hba : b - a = (W : ℚ) * 2 ^ p * ((m : ℚ) + n) := by rw [ha, hb]; ring
  have hD : dbl (b - a) = (W : ℚ) * 2 ^ p * ((m : ℚ) + n) := by
    rw [← hba]
    exact fl _ (W * (m + n)) (by rw [hba]; push_cast; ring) (by rw [abs_le]; constructor <;> linarith)
  have hq : (W : ℚ) * 2 ^ p * ((m : ℚ) + n) / ((W : ℚ) * 2 ^ p) = (((m + n : ℕ) : ℤ) : ℚ) := by
    rw [mul_div_cancel_left₀ _ hw.ne']
    push_cast
    rfl
  have hbins : binsF dbl a b ((W : ℚ) * 2 ^ p) = ((m + n : ℕ) : ℤ) + 1 := by
    unfold binsF
    rw [hD, hq, dbl_int _ (by push_cast; rw [abs_le]; constructor <;> linarith), Int.ceil_intCast, truncZ_int]
  rw [hbins, if_neg (by omega)]
  have hN : (((m + n : ℕ) : ℤ) + 1).toNat = m + n + 1 := by omega
  have hN2 : m + 1 + (n + 1) - 1 = m + n + 1 := by omega
  rw [hN, hN2]
  congr 1
  unfold linspaceF
  rw [if_neg (by omega)]
  apply List.ext_getElem (by simp)
  intro k h1 h2
  rw [List.length_map, List.length_range] at h1
  simp only [List.getElem_map, List.getElem_range, grid]
  by_cases hk : k + 1 = m + n + 1
  · rw [if_pos hk, hb]
    have : (k : ℚ) = m + n := by
      have : k = m + n := by omega
      rw [this]
      push_cast
      rfl
    rw [this]
    push_cast
    ring
  · rw [if_neg hk, hD]
    have hmn : ((m : ℚ) + n) ≠ 0 := by
      have : (0 : ℚ) < (m : ℚ) + n := by
        have : 0 < m + n := by omega
        exact_mod_cast this
      exact this.ne'
    have e1 : (W : ℚ) * 2 ^ p * ((m : ℚ) + n) / (((m + n + 1 : ℕ) : ℚ) - 1) = (W : ℚ) * 2 ^ p := by
      push_cast
      rw [add_sub_cancel_right, mul_div_cancel_right₀ _ hmn]
    have hkk : W * (k : ℤ) ≤ W * ((m : ℤ) + n) := mul_le_mul_of_nonneg_left (by omega) hW.le
    have k0 := k1 k
    rw [mul_add] at hkk
    rw [e1, dw, fl ((W : ℚ) * 2 ^ p * (k : ℚ)) (W * k) (by push_cast; ring) (by rw [abs_le]; constructor <;> linarith),
      fl _ (W * k + (X - (Y + W * n))) (by rw [ha]; push_cast; ring) (by rw [abs_le]; constructor <;> linarith)]
    push_cast
    ring

/-- Non-vacuity: axes of 100 keV from 4000 and from 1000 keV. -/
example : eNldF dbl (fun a b => a == b) (grid 4000 100 3) (grid 1000 100 4) = .ok (grid 2700 100 6) := by
  have h := C111_integer_axes (fun a b => a == b) 4000 1000 100 0 3 4 (by norm_num) (by norm_num) (by norm_num)
    (by norm_num) (by norm_num) (by norm_num) (by norm_num) (by simp)
  have h2 := C34_grid (fun a b => a == b) 4000 1000 100 3 4 (by norm_num) (by norm_num) (by norm_num) (by simp)
  norm_num at h h2 ⊢
  rw [h, h2]

/-- keV converted to MeV in doubles: `v*1e-3`. -/
def mevAxis (l : List ℚ) : List ℚ := l.map fun v => dbl (v * dbl (1 / 1000))

/-- **C111** (false part). The axis of the level density is not always the one of exact arithmetic: for the energies
0, 10 and 150, 160 keV, each correctly rounded in MeV, the quotient is just above 2, so that there are 4 bins
instead of 3, 6.7 keV wide. The same axes in keV give 3 bins of 10 keV. -/
theorem C111_double_fails :
    (∀ v ∈ mevAxis [0, 10, 150, 160], dbl v = v) ∧
    (eNldF dbl (fun a b => decide (|a - b| ≤ 1 / 10 ^ 8 + 1 / 10 ^ 5 * |b|)) (mevAxis [0, 10]) (mevAxis [150, 160])).map
      List.length = .ok 4 ∧
    (eNldF dbl (fun a b => decide (|a - b| ≤ 1 / 10 ^ 8 + 1 / 10 ^ 5 * |b|)) [0, 10] [150, 160]) =
      .ok [-160, -150, -140] ∧
    eNld (fun a b => decide (|a - b| ≤ 1 / 10 ^ 8 + 1 / 10 ^ 5 * |b|)) [0, 1 / 100] [15 / 100, 16 / 100] =
      .ok [-16 / 100, -15 / 100, -14 / 100] := by
  refine ⟨by decide +kernel, by decide +kernel, by decide +kernel, by decide +kernel⟩

/-- Specification: the list follows the grid `a, a + w, …` up to `δ`. -/
structure NearGrid (l : List ℚ) (a w : ℚ) (n : ℕ) (δ : ℚ) : Prop where
  len : l.length = n
  near : ∀ k < n, |l.getD k 0 - (a + w * (k : ℚ))| ≤ δ

theorem nearGrid_grid (a w : ℚ) (n : ℕ) {δ : ℚ} (h : 0 ≤ δ) : NearGrid (grid a w n) a w n δ :=
  ⟨grid_length _ _ _, fun k hk => by rw [grid_getD _ _ hk]; simpa using h⟩

/-- The smallest and the largest element of a list near a grid are the first and the last one. -/
theorem NearGrid.extrema {l : List ℚ} {a w δ : ℚ} {n : ℕ} (h : NearGrid l a w (n + 1) δ) (hd : 2 * δ ≤ w) (hw : 0 < w) :
    listMin l = .ok (l.getD 0 0) ∧ listMax l = .ok (l.getD n 0) := by
  have hlen := h.len
  have mem : ∀ k < n + 1, l.getD k 0 ∈ l := by
    intro k hk
    rw [List.getD_eq_getElem l 0 (by omega)]
    exact List.getElem_mem _
  have le : ∀ i j, i < j → j < n + 1 → l.getD i 0 ≤ l.getD j 0 := by
    intro i j hij hj
    have h1 := abs_le.1 (h.near i (by omega))
    have h2 := abs_le.1 (h.near j hj)
    have : w * (i : ℚ) + w ≤ w * (j : ℚ) := by
      have : ((i + 1 : ℕ) : ℚ) ≤ j := by exact_mod_cast hij
      push_cast at this
      nlinarith
    linarith [h1.1, h1.2, h2.1, h2.2]
  constructor
  · refine listMin_of (mem 0 (by omega)) ?_
    intro v hv
    obtain ⟨k, hk, rfl⟩ := List.mem_iff_getElem.1 hv
    rw [← List.getD_eq_getElem l 0 hk]
    rcases Nat.eq_zero_or_pos k with rfl | hp
    · exact le_rfl
    · exact le 0 k hp (by omega)
  · refine listMax_of (mem n (by omega)) ?_
    intro v hv
    obtain ⟨k, hk, rfl⟩ := List.mem_iff_getElem.1 hv
    rw [← List.getD_eq_getElem l 0 hk]
    rcases (show k ≤ n by omega).eq_or_lt with rfl | hp
    · exact le_rfl
    · exact le k n hp (by omega)

theorem unit_small {u δ M w c : ℚ} (hu : 0 ≤ u) (d0 : 0 ≤ δ) (hw : 0 < w) (hd : 96 * δ ≤ w) (hc : 2 ≤ c)
    (h4 : w * c ≤ 4 * M + 4 * δ) (hM : 16 * u * M ≤ δ) : u ≤ 1 / 32 ∧ u * (c + 1 / 8) ≤ 1 / 16 := by
  have h1 : u * (w * c) ≤ u * (4 * M + 4 * δ) := mul_le_mul_of_nonneg_left h4 hu
  have h2 : u * (96 * δ) ≤ u * w := mul_le_mul_of_nonneg_left hd hu
  have h3 : (u * w) * 2 ≤ (u * w) * c := mul_le_mul_of_nonneg_left hc (mul_nonneg hu hw.le)
  have h5 : u * (w * c) ≤ w / 32 := by linarith
  constructor
  · by_contra hcon
    push Not at hcon
    have h4 : 1 / 32 * w < u * w := mul_lt_mul_of_pos_right hcon hw
    linarith
  · by_contra hcon
    push Not at hcon
    have h4 : 1 / 16 * w < u * (c + 1 / 8) * w := mul_lt_mul_of_pos_right hcon hw
    linarith

theorem quotient_near {D dx w c δ : ℚ} (d0 : 0 ≤ δ) (hw : 0 < w) (hc : 2 ≤ c) (hδ : 32 * (c + 1) * δ ≤ w)
    (hD : |D - w * c| ≤ 5 * δ) (hdx : |dx - w| ≤ 3 * δ) : 0 < dx ∧ |D / dx - c| ≤ 1 / 8 := by
  rw [abs_le] at hD hdx
  have h1 : δ * 2 ≤ δ * c := mul_le_mul_of_nonneg_left hc d0
  have dx0 : 0 < dx := by linarith
  refine ⟨dx0, ?_⟩
  have e1 : D / dx - c = (D - c * dx) / dx := by field_simp
  rw [e1, abs_div, abs_of_pos dx0, div_le_iff₀ dx0, abs_le]
  have p1 : c * (w - dx) ≤ c * (3 * δ) := mul_le_mul_of_nonneg_left (by linarith [hdx.1]) (by linarith)
  have p2 : c * (-(3 * δ)) ≤ c * (w - dx) := mul_le_mul_of_nonneg_left (by linarith [hdx.2]) (by linarith)
  constructor <;> linarith [hD.1, hD.2, hdx.1]

/-- The arithmetic behind `eNldF_near`: first and last energies near two grids, and every operation rounded. -/
theorem axis_arith {fl : ℚ → ℚ} {u : ℚ} (hfl : Rounding fl u) (hu : 0 ≤ u) {x y w δ M X0 X1 Xm Y0 Yn m n : ℚ}
    (hw : 0 < w) (d0 : 0 ≤ δ) (m1 : 1 ≤ m) (n1 : 1 ≤ n) (hM : 16 * u * M ≤ δ)
    (hδ : 32 * (m + n + 1) * δ ≤ w)
    (a1 : |X0 - x| ≤ δ) (a2 : |Xm - (x + w * m)| ≤ δ) (a3 : |Y0 - y| ≤ δ) (a4 : |Yn - (y + w * n)| ≤ δ)
    (a5 : |X1 - (x + w)| ≤ δ) (b1 : |X0| ≤ M) (b2 : |Xm| ≤ M) (b3 : |Y0| ≤ M) (b4 : |Yn| ≤ M) (b5 : |X1| ≤ M) :
    |fl (X0 - Yn) - (x - (y + w * n))| ≤ 3 * δ ∧ |fl (Xm - Y0) - (x + w * m - y)| ≤ 3 * δ ∧
      |fl (Xm - Y0) - fl (X0 - Yn)| ≤ 4 * M + δ ∧
      |fl (fl (Xm - Y0) - fl (X0 - Yn)) - w * (m + n)| ≤ 5 * δ ∧ |fl (X1 - X0) - w| ≤ 3 * δ ∧ 0 < fl (X1 - X0) ∧
      |fl (fl (fl (Xm - Y0) - fl (X0 - Yn)) / fl (X1 - X0)) - (m + n)| < 1 / 4 := by
  have p1 : δ * 2 ≤ δ * (m + n) := mul_le_mul_of_nonneg_left (by linarith) d0
  have hd : 96 * δ ≤ w := by linarith
  have err : ∀ q B, |q| ≤ B → |fl q - q| ≤ u * B := fun q B h =>
    (hfl.rel q).trans (mul_le_mul_of_nonneg_left h hu)
  have sub : ∀ a b A B : ℚ, |a| ≤ A → |b| ≤ B → |a - b| ≤ A + B := fun a b A B h1 h2 =>
    (abs_sub a b).trans (add_le_add h1 h2)
  have c1 := abs_le.1 (err _ _ (sub _ _ _ _ b1 b4))
  have c2 := abs_le.1 (err _ _ (sub _ _ _ _ b2 b3))
  have c3 := abs_le.1 (err _ _ (sub _ _ _ _ b5 b1))
  rw [abs_le] at a1 a2 a3 a4 a5 b1 b2 b3 b4 b5
  have uM : u * (M + M) ≤ δ / 8 := by linarith
  generalize fl (X0 - Yn) = emin at *
  generalize fl (Xm - Y0) = emax at *
  generalize fl (X1 - X0) = dx at *
  have hD : |emax - emin| ≤ 4 * M + δ := by
    rw [abs_le]
    constructor <;> linarith
  have c5 := abs_le.1 (err _ _ hD)
  obtain ⟨u1, u2⟩ := unit_small hu d0 hw hd (show 2 ≤ m + n by linarith) (M := M) (by linarith) hM
  have ud : u * δ ≤ 1 / 32 * δ := mul_le_mul_of_nonneg_right u1 d0
  have hfD : |fl (emax - emin) - w * (m + n)| ≤ 5 * δ := by
    rw [abs_le]
    constructor <;> linarith
  have hdx1 : |dx - w| ≤ 3 * δ := by
    rw [abs_le]
    constructor <;> linarith
  obtain ⟨dx0, hQ⟩ := quotient_near d0 hw (show 2 ≤ m + n by linarith) hδ hfD hdx1
  refine ⟨?_, ?_, hD, hfD, hdx1, dx0, ?_⟩
  · rw [abs_le]
    constructor <;> linarith
  · rw [abs_le]
    constructor <;> linarith
  · generalize fl (emax - emin) / dx = Q at *
    have hQa : |Q| ≤ m + n + 1 / 8 := by
      rw [abs_le] at hQ ⊢
      constructor <;> linarith
    have c6 := abs_le.1 (err _ _ hQa)
    rw [abs_le] at hQ
    rw [abs_lt]
    constructor <;> linarith

/-- The numbers behind the bins: near a grid, with rounding, the axis goes from about the lowest to about the highest
final energy, the number of bins is `⌈q⌉ + 1`, and `q` differs by less than a quarter from the right number. -/
theorem eNldF_near (fl : ℚ → ℚ) (u : ℚ) (hfl : Rounding fl u) (close : ℚ → ℚ → Bool) (Ex Eg : List ℚ)
    (x y w δ M : ℚ) (nx ny : ℕ) (hx : 2 ≤ nx) (hy : 2 ≤ ny) (hw : 0 < w) (hu : 0 ≤ u)
    (hEx : NearGrid Ex x w nx δ) (hEg : NearGrid Eg y w ny δ)
    (hMx : ∀ v ∈ Ex, |v| ≤ M) (hMy : ∀ v ∈ Eg, |v| ≤ M) (hM : 16 * u * M ≤ δ)
    (hδ : 32 * ((nx + ny - 1 : ℕ) : ℚ) * δ ≤ w) (hc : ∀ a b, |a - b| ≤ 6 * δ → close a b = true) :
    ∃ emin emax q : ℚ, |emin - (x - (y + w * ((ny : ℚ) - 1)))| ≤ 3 * δ ∧ |emax - (x + w * ((nx : ℚ) - 1) - y)| ≤ 3 * δ ∧
      |emax - emin| ≤ 4 * M + δ ∧
      |fl (emax - emin) - w * (((nx + ny - 1 : ℕ) : ℚ) - 1)| ≤ 5 * δ ∧
      |q - (((nx + ny - 1 : ℕ) : ℚ) - 1)| < 1 / 4 ∧
      eNldF fl close Ex Eg = .ok (linspaceF fl emin emax (⌈q⌉.toNat + 1)) := by
  obtain ⟨m, rfl⟩ : ∃ m, nx = m + 1 := ⟨nx - 1, by omega⟩
  obtain ⟨n, rfl⟩ : ∃ n, ny = n + 1 := ⟨ny - 1, by omega⟩
  have hNe : (((m + 1 + (n + 1) - 1 : ℕ)) : ℚ) = (m : ℚ) + n + 1 := by
    have : m + 1 + (n + 1) - 1 = m + n + 1 := by omega
    rw [this]
    push_cast
    rfl
  rw [hNe] at hδ ⊢
  have m1 : (1 : ℚ) ≤ m := by
    have : 1 ≤ m := by omega
    exact_mod_cast this
  have n1 : (1 : ℚ) ≤ n := by
    have : 1 ≤ n := by omega
    exact_mod_cast this
  have d0 : 0 ≤ δ := (abs_nonneg _).trans (hEx.near 0 (by omega))
  have p1 : δ * 2 ≤ δ * ((m : ℚ) + n) := mul_le_mul_of_nonneg_left (by linarith) d0
  obtain ⟨x1, x2⟩ := hEx.extrema (by linarith) hw
  obtain ⟨y1, y2⟩ := hEg.extrema (by linarith) hw
  have ax : ∀ k < m + 1, |Ex.getD k 0| ≤ M := by
    intro k hk
    rw [List.getD_eq_getElem Ex 0 (by rw [hEx.len]; exact hk)]
    exact hMx _ (List.getElem_mem _)
  have ay : ∀ k < n + 1, |Eg.getD k 0| ≤ M := by
    intro k hk
    rw [List.getD_eq_getElem Eg 0 (by rw [hEg.len]; exact hk)]
    exact hMy _ (List.getElem_mem _)
  have a1 := hEx.near 0 (by omega)
  have a2 := hEx.near m (by omega)
  have a3 := hEg.near 0 (by omega)
  have a4 := hEg.near n (by omega)
  have a5 := hEx.near 1 (by omega)
  have a6 := hEg.near 1 (by omega)
  simp only [Nat.cast_zero, mul_zero, add_zero, Nat.cast_one, mul_one] at a1 a3 a5 a6
  obtain ⟨r1, r2, r3, r4, r5, r6, r7⟩ := axis_arith hfl hu hw d0 m1 n1 hM hδ a1 a2 a3 a4 a5 (ax 0 (by omega))
    (ax m (by omega)) (ay 0 (by omega)) (ay n (by omega)) (ax 1 (by omega))
  have r8 : |fl (Eg.getD 1 0 - Eg.getD 0 0) - w| ≤ 3 * δ := by
    have h1 := abs_le.1 (hfl.rel (Eg.getD 1 0 - Eg.getD 0 0))
    have h2 : |Eg.getD 1 0 - Eg.getD 0 0| ≤ M + M := (abs_sub _ _).trans (add_le_add (ay 1 (by omega)) (ay 0 (by omega)))
    have h3 := mul_le_mul_of_nonneg_left h2 hu
    rw [abs_le] at a3 a6 ⊢
    constructor <;> linarith
  refine ⟨fl (Ex.getD 0 0 - Eg.getD n 0), fl (Ex.getD m 0 - Eg.getD 0 0),
    fl (fl (fl (Ex.getD m 0 - Eg.getD 0 0) - fl (Ex.getD 0 0 - Eg.getD n 0)) / fl (Ex.getD 1 0 - Ex.getD 0 0)),
    ?_, ?_, r3, ?_, ?_, ?_⟩
  rotate_left 3
  · rw [add_sub_cancel_right]
    exact r7
  · unfold eNldF
    rw [if_neg (by rw [hEx.len, hEg.len]; omega)]
    simp only
    rw [hc _ _ (show |fl (Ex.getD 1 0 - Ex.getD 0 0) - fl (Eg.getD 1 0 - Eg.getD 0 0)| ≤ 6 * δ by
      rw [abs_le] at r5 r8 ⊢; constructor <;> linarith), x1, x2, y1, y2]
    simp only [Bool.not_true, Bool.false_eq_true, if_false, r6.ne', bind, Except.bind]
    have hpos : 0 ≤ ⌈fl (fl (fl (Ex.getD m 0 - Eg.getD 0 0) - fl (Ex.getD 0 0 - Eg.getD n 0)) /
        fl (Ex.getD 1 0 - Ex.getD 0 0))⌉ := by
      rw [abs_lt] at r7
      apply Int.ceil_nonneg
      linarith [r7.1]
    unfold binsF
    rw [truncZ_int, if_neg (by omega)]
    congr 2
    omega
  · push_cast
    rw [add_sub_cancel_right]
    exact r1
  · push_cast
    rw [add_sub_cancel_right]
    exact r2
  · rw [add_sub_cancel_right]
    exact r4

theorem linspaceF_length (fl : ℚ → ℚ) (a b : ℚ) (n : ℕ) : (linspaceF fl a b n).length = n := by
  unfold linspaceF
  split_ifs with h <;> simp [h]

/-- `np.linspace` with rounding between two numbers near the ends of a grid stays near the grid. -/
theorem linspaceF_near {fl : ℚ → ℚ} {u : ℚ} (hfl : Rounding fl u) (hu : 0 ≤ u) (u32 : u ≤ 1 / 32)
    {a w δ M emin emax : ℚ} {c : ℕ} (hw : 0 < w) (d0 : 0 ≤ δ) (hc : 2 ≤ c) (hM : 16 * u * M ≤ δ)
    (ha : |a| ≤ 2 * M + 2 * δ) (hb : |a + w * (c : ℚ)| ≤ 2 * M + 2 * δ)
    (h1 : |emin - a| ≤ 3 * δ) (h2 : |emax - (a + w * (c : ℚ))| ≤ 3 * δ)
    (h3 : |fl (emax - emin) - w * (c : ℚ)| ≤ 5 * δ) :
    NearGrid (linspaceF fl emin emax (c + 1)) a w (c + 1) (12 * δ) := by
  refine ⟨linspaceF_length _ _ _ _, fun k hk => ?_⟩
  have e0 : (linspaceF fl emin emax (c + 1)).getD k 0 = if k + 1 = c + 1 then emax
      else fl (fl (fl (fl (emax - emin) / (((c + 1 : ℕ) : ℚ) - 1)) * (k : ℚ)) + emin) := by
    unfold linspaceF
    rw [if_neg (by omega), getD_map_range _ hk]
  rw [e0]
  by_cases hkc : k + 1 = c + 1
  · rw [if_pos hkc]
    have : k = c := by omega
    subst this
    linarith
  rw [if_neg hkc]
  push_cast
  rw [add_sub_cancel_right]
  have c0 : (0 : ℚ) < c := by exact_mod_cast (by omega : 0 < c)
  have k0 : (0 : ℚ) ≤ k := by positivity
  have kc : (k : ℚ) ≤ c := by exact_mod_cast (by omega : k ≤ c)
  generalize fl (emax - emin) = D at *
  have ud : u * δ ≤ 1 / 32 * δ := mul_le_mul_of_nonneg_right u32 d0
  have err : ∀ q B, |q| ≤ B → |fl q - q| ≤ u * B := fun q B h =>
    (hfl.rel q).trans (mul_le_mul_of_nonneg_left h hu)
  rw [abs_le] at ha hb h1 h2 h3
  have wk : w * (k : ℚ) ≤ w * c := mul_le_mul_of_nonneg_left kc hw.le
  have wk0 : 0 ≤ w * (k : ℚ) := mul_nonneg hw.le k0
  -- the step
  have s1 := hfl.rel (D / c)
  generalize fl (D / c) = s at *
  have hs : |s * (k : ℚ) - D * ((k : ℚ) / c)| ≤ δ := by
    have e : s * (k : ℚ) - D * ((k : ℚ) / c) = (s - D / c) * k := by
      field_simp
    rw [e, abs_mul, abs_of_nonneg k0]
    have p1 : |s - D / c| * k ≤ u * |D / c| * k := mul_le_mul_of_nonneg_right s1 k0
    have p2 : u * |D / c| * k = u * (|D| * ((k : ℚ) / c)) := by
      rw [abs_div, abs_of_pos c0]
      field_simp
    have r1 : (k : ℚ) / c ≤ 1 := by rw [div_le_one c0]; exact kc
    have p3 : |D| * ((k : ℚ) / c) ≤ |D| * 1 := mul_le_mul_of_nonneg_left r1 (abs_nonneg _)
    have p4 : |D| ≤ 4 * M + 9 * δ := by
      rw [abs_le]
      constructor <;> linarith
    have p5 : u * (|D| * ((k : ℚ) / c)) ≤ u * (4 * M + 9 * δ) := mul_le_mul_of_nonneg_left (by linarith) hu
    linarith
  have hD : |D * ((k : ℚ) / c) - w * k| ≤ 5 * δ := by
    have e : D * ((k : ℚ) / c) - w * k = (D - w * c) * ((k : ℚ) / c) := by
      field_simp
    have r1 : (k : ℚ) / c ≤ 1 := by rw [div_le_one c0]; exact kc
    have r0 : 0 ≤ (k : ℚ) / c := by positivity
    rw [e, abs_mul, abs_of_nonneg r0]
    have : |D - w * c| ≤ 5 * δ := abs_le.2 h3
    calc |D - w * c| * ((k : ℚ) / c) ≤ |D - w * c| * 1 := mul_le_mul_of_nonneg_left r1 (abs_nonneg _)
      _ ≤ 5 * δ := by linarith
  generalize D * ((k : ℚ) / c) = Z at *
  rw [abs_le] at hs hD
  have t1 := abs_le.1 (err (s * k) (4 * M + 10 * δ) (by rw [abs_le]; constructor <;> linarith))
  generalize fl (s * k) = t at *
  have t2 := abs_le.1 (err (t + emin) (2 * M + 12 * δ) (by rw [abs_le]; constructor <;> linarith))
  rw [abs_le]
  constructor <;> linarith

/-- What the bounds on the energies say about the grid. -/
theorem near_bounds {Ex Eg : List ℚ} {x y w δ M : ℚ} {nx ny : ℕ} (hEx : NearGrid Ex x w nx δ)
    (hEg : NearGrid Eg y w ny δ) (hMx : ∀ v ∈ Ex, |v| ≤ M) (hMy : ∀ v ∈ Eg, |v| ≤ M) :
    (∀ i < nx, |Ex.getD i 0| ≤ M) ∧ (∀ j < ny, |Eg.getD j 0| ≤ M) ∧
      ∀ i < nx, ∀ j < ny, |x + w * (i : ℚ) - (y + w * (j : ℚ))| ≤ 2 * M + 2 * δ := by
  have ax : ∀ k < nx, |Ex.getD k 0| ≤ M := by
    intro k hk
    rw [List.getD_eq_getElem Ex 0 (by rw [hEx.len]; exact hk)]
    exact hMx _ (List.getElem_mem _)
  have ay : ∀ k < ny, |Eg.getD k 0| ≤ M := by
    intro k hk
    rw [List.getD_eq_getElem Eg 0 (by rw [hEg.len]; exact hk)]
    exact hMy _ (List.getElem_mem _)
  refine ⟨ax, ay, fun i hi j hj => ?_⟩
  have h1 := abs_le.1 (ax i hi)
  have h2 := abs_le.1 (ay j hj)
  have h3 := abs_le.1 (hEx.near i hi)
  have h4 := abs_le.1 (hEg.near j hj)
  rw [abs_le]
  constructor <;> linarith

/-- **C111 (partial: axes near a grid; the number of bins can be one too large).** With any rounding of every operation,
and axes that follow a common bin width up to a small error, the axis of the level density has the right number of
bins `nx + ny - 1` or one bin more; with the right number every bin is near its place. The rounded quotient is always
nearest to the right number, so that `np.round` in place of `np.ceil` would never be wrong. -/
theorem C111_bins_partial (fl : ℚ → ℚ) (u : ℚ) (hfl : Rounding fl u) (close : ℚ → ℚ → Bool) (Ex Eg : List ℚ)
    (x y w δ M : ℚ) (nx ny : ℕ) (hx : 2 ≤ nx) (hy : 2 ≤ ny) (hw : 0 < w) (hu : 0 ≤ u)
    (hEx : NearGrid Ex x w nx δ) (hEg : NearGrid Eg y w ny δ)
    (hMx : ∀ v ∈ Ex, |v| ≤ M) (hMy : ∀ v ∈ Eg, |v| ≤ M) (hM : 16 * u * M ≤ δ)
    (hδ : 32 * ((nx + ny - 1 : ℕ) : ℚ) * δ ≤ w) (hc : ∀ a b, |a - b| ≤ 6 * δ → close a b = true) :
    ∃ E q, eNldF fl close Ex Eg = .ok E ∧ (E.length : ℤ) = ⌈q⌉ + 1 ∧
      roundHalfEven q + 1 = ((nx + ny - 1 : ℕ) : ℤ) ∧
      (E.length = nx + ny - 1 ∨ E.length = nx + ny) ∧
      (E.length = nx + ny - 1 → NearGrid E (x - (y + w * ((ny : ℚ) - 1))) w (nx + ny - 1) (12 * δ)) := by
  obtain ⟨emin, emax, q, r1, r2, r3, r4, r5, r6⟩ := eNldF_near fl u hfl close Ex Eg x y w δ M nx ny hx hy hw hu hEx hEg
    hMx hMy hM hδ hc
  obtain ⟨b1, b2, b3⟩ := near_bounds hEx hEg hMx hMy
  obtain ⟨N, hN⟩ : ∃ N, nx + ny - 1 = N + 1 := ⟨nx + ny - 2, by omega⟩
  have hNq : (N : ℚ) = (nx : ℚ) - 1 + ((ny : ℚ) - 1) := by
    have : (N : ℚ) + 2 = (nx : ℚ) + ny := by
      have : N + 2 = nx + ny := by omega
      exact_mod_cast this
    linarith
  have hN2 : 2 ≤ N := by omega
  have d0 : 0 ≤ δ := (abs_nonneg _).trans (hEx.near 0 (by omega))
  rw [hN] at hδ r4 r5 ⊢
  push_cast at hδ r4 r5
  rw [add_sub_cancel_right] at r4 r5
  rw [abs_lt] at r5
  have hceil : ⌈q⌉ = N ∨ ⌈q⌉ = (N : ℤ) + 1 := by
    have h1 : (N : ℤ) ≤ ⌈q⌉ := by
      have : (N : ℤ) - 1 < ⌈q⌉ := by
        rw [Int.lt_ceil]
        push_cast
        linarith
      omega
    have h2 : ⌈q⌉ ≤ (N : ℤ) + 1 := by
      rw [Int.ceil_le]
      push_cast
      linarith
    omega
  have hlen : (linspaceF fl emin emax (⌈q⌉.toNat + 1)).length = ⌈q⌉.toNat + 1 := linspaceF_length _ _ _ _
  refine ⟨_, q, r6, by rw [hlen]; omega, ?_, by rw [hlen]; omega, ?_⟩
  · have h1 : roundHalfEven q = N := by
      have := abs_le.1 (roundHalfEven_near q)
      have u1 : (roundHalfEven q : ℚ) < ((N : ℤ) + 1 : ℤ) := by push_cast; linarith
      have u2 : (((N : ℤ) - 1 : ℤ) : ℚ) < (roundHalfEven q : ℚ) := by push_cast; linarith
      have u1 : roundHalfEven q < (N : ℤ) + 1 := by exact_mod_cast u1
      have u2 : (N : ℤ) - 1 < roundHalfEven q := by exact_mod_cast u2
      omega
    rw [h1]
    push_cast
    rfl
  · intro hl
    rw [hlen] at hl
    rw [hl]
    have B1 := b3 0 (by omega) (ny - 1) (by omega)
    have B2 := b3 (nx - 1) (by omega) 0 (by omega)
    rw [Nat.cast_sub (by omega)] at B1 B2
    push_cast at B1 B2
    have hdd : 96 * δ ≤ w := by
      have : δ * 3 ≤ δ * ((N : ℚ) + 1) := mul_le_mul_of_nonneg_left (by
        have : (2 : ℚ) ≤ N := by exact_mod_cast hN2
        linarith) d0
      linarith
    have B3 := abs_le.1 B1
    have B4 := abs_le.1 B2
    have hu32 := (unit_small (c := (N : ℚ)) (M := M) hu d0 hw hdd (by exact_mod_cast hN2)
      (by rw [hNq]; linarith) hM).1
    apply linspaceF_near hfl hu hu32 hw d0 hN2 hM
    · convert B1 using 2
      ring
    · convert B2 using 2
      rw [hNq]
      ring
    · exact r1
    · convert r2 using 2
      rw [hNq]
      ring
    · exact r4

/-- **C111** (false part). However small the error of the axes: for every common grid and every `d > 0` there is a gamma
axis that deviates from the grid by at most `d`, in one element only, for which the axis of the level density has one
bin too many, already in exact arithmetic. -/
theorem C111_bins_fails (close : ℚ → ℚ → Bool) (x y w d : ℚ) (nx ny : ℕ) (hw : 0 < w) (hx : 2 ≤ nx) (hy : 2 ≤ ny)
    (hd : 0 < d) (hdw : d ≤ w) (hc : close w (w + d) = true) :
    ∃ Eg, NearGrid Eg y w ny d ∧ (∀ j, 0 < j → Eg.getD j 0 = (grid y w ny).getD j 0) ∧
      ∃ E, eNld close (grid x w nx) Eg = .ok E ∧ E.length = nx + ny := by
  obtain ⟨m, rfl⟩ : ∃ m, nx = m + 1 := ⟨nx - 1, by omega⟩
  obtain ⟨n, rfl⟩ : ∃ n, ny = n + 1 := ⟨ny - 1, by omega⟩
  have h0 : ((grid y w (n + 1)).set 0 (y - d)).getD 0 0 = y - d := by
    rw [List.getD_eq_getElem _ 0 (by simp), List.getElem_set_self]
  have hne : ∀ j, 0 < j → ((grid y w (n + 1)).set 0 (y - d)).getD j 0 = (grid y w (n + 1)).getD j 0 := by
    intro j hj
    rw [List.getD_eq_getElem?_getD, List.getD_eq_getElem?_getD, List.getElem?_set_ne (by omega)]
  refine ⟨(grid y w (n + 1)).set 0 (y - d), ⟨by simp, fun k hk => ?_⟩, hne, ?_⟩
  · rcases Nat.eq_zero_or_pos k with rfl | hk'
    · rw [h0]
      rw [abs_le]
      push_cast
      constructor <;> linarith
    · rw [hne k hk', grid_getD _ _ hk]
      simpa using hd.le
  · have memset : ∀ v ∈ (grid y w (n + 1)).set 0 (y - d), y - d ≤ v ∧ v ≤ y + w * n := by
      intro v hv
      obtain ⟨k, hk, rfl⟩ := List.mem_iff_getElem.1 hv
      rw [List.length_set, grid_length] at hk
      rw [← List.getD_eq_getElem _ 0]
      have n0 : 0 ≤ w * (n : ℚ) := by positivity
      rcases Nat.eq_zero_or_pos k with rfl | hk'
      · rw [h0]
        constructor <;> linarith
      · rw [hne k hk', grid_getD _ _ hk]
        have k1 : w * (k : ℚ) ≤ w * n := mul_le_mul_of_nonneg_left (by exact_mod_cast (by omega : k ≤ n)) hw.le
        have k2 : 0 ≤ w * (k : ℚ) := by positivity
        constructor <;> linarith
    have mn : listMin ((grid y w (n + 1)).set 0 (y - d)) = .ok (y - d) := by
      refine listMin_of ?_ fun v hv => (memset v hv).1
      have : ((grid y w (n + 1)).set 0 (y - d)).getD 0 0 ∈ (grid y w (n + 1)).set 0 (y - d) := by
        rw [List.getD_eq_getElem _ 0 (by simp)]
        exact List.getElem_mem _
      rwa [h0] at this
    have mx : listMax ((grid y w (n + 1)).set 0 (y - d)) = .ok (y + w * n) := by
      refine listMax_of ?_ fun v hv => (memset v hv).2
      rw [← grid_getD y w (n := n + 1) (k := n) (by omega), ← hne n (by omega), List.getD_eq_getElem _ 0 (by simp)]
      exact List.getElem_mem _
    unfold eNld
    rw [if_neg (by simp; omega), h0, hne 1 (by omega), grid_getD _ _ (by omega), grid_getD _ _ (by omega),
      grid_getD _ _ (by omega)]
    have e1 : x + w * ((1 : ℕ) : ℚ) - (x + w * ((0 : ℕ) : ℚ)) = w := by push_cast; ring
    have e2 : y + w * ((1 : ℕ) : ℚ) - (y - d) = w + d := by push_cast; ring
    rw [e1, e2]
    simp only [hc, Bool.not_true, Bool.false_eq_true, if_false, hw.ne', listMin_grid _ _ _ hw,
      listMax_grid _ _ _ hw, mn, mx, bind, Except.bind]
    have e3 : (x + w * (m : ℚ) - (y - d) - (x - (y + w * (n : ℚ)))) / w = ((m : ℚ) + n) + d / w := by
      field_simp
      ring
    have hdw' : 0 < d / w := div_pos hd hw
    have hdw2 : d / w ≤ 1 := by rw [div_le_one hw]; exact hdw
    have hceil : ⌈((m : ℚ) + n) + d / w⌉ = ((m + n + 1 : ℕ) : ℤ) := by
      rw [Int.ceil_eq_iff]
      push_cast
      constructor <;> linarith
    rw [e3, hceil, truncZ_int]
    unfold linspaceZ
    rw [if_neg (by omega)]
    refine ⟨_, rfl, ?_⟩
    unfold linspace
    rw [if_neg (by omega), List.length_map, List.length_range]
    omega

/-- **C111.** A wrong number of bins ends in an exception: `fitAlong`, whatever the minimiser does (as long as it returns
as many numbers as it was given), raises IndexError when the axis of the level density does not have `nx + ny - 1`
bins, and for start values given by the caller for the right number of bins AssertionError. -/
theorem C111_index_error (e : FitEnv) (v s : List (List ℝ)) (Eg Ex E : List ℚ)
    (hm : ∀ f z, (e.minimize f z).length = z.length) (hE : E.length ≠ Ex.length + Eg.length - 1) :
    fitAlong e v s Eg Ex E =
      if (e.start E v).length = E.length + Eg.length then .error .indexError else .error .assertion := by
  unfold fitAlong
  by_cases h : (e.start E v).length = E.length + Eg.length
  · simp only [h, if_true, ne_eq, not_true_eq_false, if_false]
    have l := hm (errfun v s (e.resolution Eg Ex) E Eg Ex) (e.start E v)
    generalize e.minimize (errfun v s (e.resolution Eg Ex) E Eg Ex) (e.start E v) = z at *
    unfold maskNaN
    have c2 : (countsV v Eg Ex (e.resolution Eg Ex)).2.length = Eg.length := by simp [countsV]
    have c1 : (countsV v Eg Ex (e.resolution Eg Ex)).1.length = Ex.length + Eg.length - 1 := by simp [countsV]
    rw [if_pos (by rw [c2, List.length_take, l, h]; omega), if_neg (by rw [c1, List.length_drop, l, h]; omega)]
    rfl
  · simp only [h, if_false, ne_eq, not_false_eq_true, if_true]

/-- `fitPart` is the fit along the axis of exact arithmetic. -/
theorem fitPart_eq (e : FitEnv) (v s : List (List ℝ)) (Eg Ex : List ℚ) :
    fitPart e v s Eg Ex = (eNld e.close Ex Eg).bind (fitAlong e v s Eg Ex) := by
  unfold fitPart fitAlong
  cases eNld e.close Ex Eg with
  | error er => rfl
  | ok E =>
    simp only [bind, Except.bind]

/-- **C111** (false part). The extraction from counts is not safe against errors of the axes: for every grid and every
`d > 0` there is a gamma axis within `d` of the grid for which `decompose` of every matrix and all its uncertainties,
with start values guessed from the axis, ends with an exception after the fit. -/
theorem C111_decompose_fails (e : FitEnv) (x y w d : ℚ) (nx ny : ℕ) (hw : 0 < w) (hx : 2 ≤ nx) (hy : 2 ≤ ny)
    (hd : 0 < d) (hdw : d ≤ w) (hc : e.close w (w + d) = true) (hm : ∀ f z, (e.minimize f z).length = z.length)
    (hs : ∀ E v, (e.start E v).length = E.length + ny) :
    ∃ Eg, NearGrid Eg y w ny d ∧ ∀ values std out, decompose e values std Eg (grid x w nx) ≠ .ok out := by
  obtain ⟨Eg, h1, _, E, h3, h4⟩ := C111_bins_fails e.close x y w d nx ny hw hx hy hd hdw hc
  refine ⟨Eg, h1, fun values std out hout => ?_⟩
  have key : ∀ v s, fitPart e v s Eg (grid x w nx) = .error .indexError := by
    intro v s
    rw [fitPart_eq, h3]
    show fitAlong e v s Eg (grid x w nx) E = _
    rw [C111_index_error e v s Eg (grid x w nx) E hm (by rw [grid_length, h1.len, h4]; omega),
      if_pos (by rw [hs, h1.len])]
  unfold decompose at hout
  split_ifs at hout
  cases std with
  | none => simp at hout
  | some s =>
    simp only at hout
    split_ifs at hout
    cases hn : normalizeUnc values (some s) with
    | error er => rw [hn] at hout; simp at hout
    | ok p =>
      rw [hn] at hout
      simp only [key] at hout
      cases hout

/-- Non-vacuity of `C111_decompose_fails`: a minimiser that returns its start values, an axis off by one part in 10⁹. -/
example : ∃ Eg, NearGrid Eg 1000 100 4 (1 / 10 ^ 7) ∧ ∀ values std out,
    decompose ⟨fun a b => decide (|a - b| ≤ 1 / 10 ^ 8 + 1 / 10 ^ 5 * |b|), fun _ Ex => Ex.map fun _ => 0,
      fun E _ => List.replicate (E.length + 4) 1, fun _ z => z⟩ values std Eg (grid 4000 100 3) ≠ .ok out :=
  C111_decompose_fails _ 4000 1000 100 (1 / 10 ^ 7) 3 4 (by norm_num) (by norm_num) (by norm_num) (by norm_num)
    (by norm_num) (by norm_num) (fun _ _ => rfl) (fun E _ => by simp)

/-! ### The index search with rounding -/

/-- The rounded squared distance of element `k` of the axis, what the search compares. -/
def distF (fl : ℚ → ℚ) (l : List ℚ) (e : ℚ) (k : ℕ) : ℚ := fl (fl (l.getD k 0 - e) ^ 2)

theorem indexLoopF_spec (fl : ℚ → ℚ) (l : List ℚ) (e : ℚ) : ∀ (as : List ℚ) (i : ℕ), 1 ≤ i → i + as.length = l.length →
    (∀ t < as.length, as.getD t 0 = l.getD (i + t) 0) →
    let r := indexLoopF fl e (distF fl l e (i - 1)) i as
    i - 1 ≤ r ∧ r < l.length ∧ (∀ j, i - 1 ≤ j → j < r → distF fl l e (j + 1) ≤ distF fl l e j) ∧
      (r + 1 < l.length → distF fl l e r < distF fl l e (r + 1)) := by
  intro as
  induction as with
  | nil =>
    intro i hi hl _
    simp only [List.length_nil] at hl
    simp only [indexLoopF]
    exact ⟨le_rfl, by omega, fun j h1 h2 => by omega, fun h => by omega⟩
  | cons a as ih =>
    intro i hi hl hg
    simp only [List.length_cons] at hl hg
    have h0 := hg 0 (by omega)
    simp only [List.getD_cons_zero, add_zero] at h0
    have hd : fl (fl (a - e) ^ 2) = distF fl l e i := by rw [h0]; rfl
    simp only [indexLoopF]
    rw [hd]
    by_cases hgt : distF fl l e i > distF fl l e (i - 1)
    · rw [if_pos hgt]
      refine ⟨le_rfl, by omega, fun j h1 h2 => by omega, fun _ => ?_⟩
      rw [show i - 1 + 1 = i by omega]
      exact hgt
    · rw [if_neg hgt]
      have := ih (i + 1) (by omega) (by omega) (fun t ht => by
        have := hg (t + 1) (by omega)
        rw [List.getD_cons_succ] at this
        rw [this]
        congr 1
        omega)
      simp only [add_tsub_cancel_right] at this
      obtain ⟨g1, g2, g3, g4⟩ := this
      refine ⟨by omega, g2, fun j h1 h2 => ?_, g4⟩
      rcases Nat.lt_or_ge j i with hj | hj
      · have : j = i - 1 := by omega
        subst this
        rw [show i - 1 + 1 = i by omega]
        exact le_of_not_gt hgt
      · exact g3 j hj h2

/-- What the search returns: the first position after which the rounded distance grows. -/
theorem indexF_spec (fl : ℚ → ℚ) (l : List ℚ) (e : ℚ) (hl : l ≠ []) :
    indexF fl l e < l.length ∧ (∀ j < indexF fl l e, distF fl l e (j + 1) ≤ distF fl l e j) ∧
      (indexF fl l e + 1 < l.length → distF fl l e (indexF fl l e) < distF fl l e (indexF fl l e + 1)) := by
  cases l with
  | nil => exact absurd rfl hl
  | cons a as =>
    have := indexLoopF_spec fl (a :: as) e as 1 le_rfl (by simp; omega) (fun t ht => by
      rw [add_comm, List.getD_cons_succ])
    simp only [Nat.sub_self] at this
    obtain ⟨_, g2, g3, g4⟩ := this
    exact ⟨g2, fun j hj => g3 j (by omega) hj, g4⟩

/-- The search returns position `k` if the rounded distances fall up to it and grow after it. -/
theorem indexF_eq (fl : ℚ → ℚ) (l : List ℚ) (e : ℚ) (k : ℕ) (hk : k < l.length)
    (h1 : ∀ j < k, distF fl l e (j + 1) ≤ distF fl l e j)
    (h2 : k + 1 < l.length → distF fl l e k < distF fl l e (k + 1)) : indexF fl l e = k := by
  have hl : l ≠ [] := by
    rintro rfl
    simp at hk
  obtain ⟨g1, g2, g3⟩ := indexF_spec fl l e hl
  rcases lt_trichotomy (indexF fl l e) k with h | h | h
  · exact absurd (g3 (by omega)) (not_lt.2 (h1 _ h))
  · exact h
  · exact absurd (h2 (by omega)) (not_lt.2 (g2 _ h))

/-- **C111.** With any rounding that keeps the order, the search on a sorted axis returns a bin at the smallest rounded
distance. -/
theorem C111_index_closest (fl : ℚ → ℚ) (hfl : Monotone fl) (l : List ℚ) (e : ℚ) (hl : l ≠ [])
    (hs : l.Pairwise (· ≤ ·)) :
    indexF fl l e < l.length ∧ ∀ j < l.length, distF fl l e (indexF fl l e) ≤ distF fl l e j := by
  obtain ⟨g1, g2, g3⟩ := indexF_spec fl l e hl
  refine ⟨g1, fun j hj => ?_⟩
  have sorted : ∀ a b, a ≤ b → b < l.length → l.getD a 0 ≤ l.getD b 0 := by
    intro a b hab hb
    rcases hab.eq_or_lt with rfl | hab
    · exact le_rfl
    rw [List.getD_eq_getElem l 0 (by omega), List.getD_eq_getElem l 0 hb]
    exact List.pairwise_iff_getElem.1 hs a b _ hb hab
  set r := indexF fl l e with hr
  rcases Nat.lt_or_ge r j with hj' | hj'
  · have h1 : r + 1 < l.length := by omega
    have h2 := g3 h1
    -- between `r` and `j` the distance is at most the larger of both
    have hmax : distF fl l e (r + 1) ≤ max (distF fl l e r) (distF fl l e j) := by
      have m1 := hfl (sub_le_sub_right (sorted r (r + 1) (by omega) h1) e)
      have m2 := hfl (sub_le_sub_right (sorted (r + 1) j (by omega) hj) e)
      unfold distF
      rcases le_total 0 (fl (l.getD (r + 1) 0 - e)) with hp | hp
      · exact le_max_of_le_right (hfl (pow_le_pow_left₀ hp m2 2))
      · apply le_max_of_le_left
        apply hfl
        nlinarith
    rcases le_max_iff.1 hmax with h | h
    · exact absurd h2 (not_lt.2 h)
    · exact h2.le.trans h
  · have : ∀ d, d ≤ r → distF fl l e r ≤ distF fl l e (r - d) := by
      intro d
      induction d with
      | zero => intro _; exact le_rfl
      | succ d ih =>
        intro hd
        have h1 := ih (by omega)
        have h2 := g2 (r - (d + 1)) (by omega)
        rw [show r - (d + 1) + 1 = r - d by omega] at h2
        exact h1.trans h2
    have h1 := this (r - j) (by omega)
    rwa [show r - (r - j) = j by omega] at h1

/-- **C111.** With a rounding of relative error below 1 that keeps the order, an energy that is an element of a strictly
increasing axis is found at its place. -/
theorem C111_index_hit (fl : ℚ → ℚ) (u : ℚ) (hfl : Rounding fl u) (hu1 : u < 1) (l : List ℚ)
    (hs : l.Pairwise (· < ·)) (k : ℕ) (hk : k < l.length) : indexF fl l (l.getD k 0) = k := by
  have hl : l ≠ [] := by
    rintro rfl
    simp at hk
  have zero : ∀ q, fl q = 0 → q = 0 := by
    intro q hq
    have := hfl.rel q
    rw [hq, zero_sub, abs_neg] at this
    by_contra hne
    have : 0 < |q| := abs_pos.2 hne
    nlinarith
  have fl0 : fl 0 = 0 := by
    have := hfl.rel 0
    simpa using this
  obtain ⟨h1, h2⟩ := C111_index_closest fl hfl.mono l (l.getD k 0) hl (hs.imp le_of_lt)
  have h3 := h2 k hk
  have dk : distF fl l (l.getD k 0) k = 0 := by
    unfold distF
    rw [sub_self, fl0]
    simpa using fl0
  set r := indexF fl l (l.getD k 0) with hr
  have h4 : distF fl l (l.getD k 0) r = 0 := by
    apply le_antisymm (h3.trans dk.le)
    have := hfl.mono (sq_nonneg (fl (l.getD r 0 - l.getD k 0)))
    rwa [fl0] at this
  have h5 : l.getD r 0 = l.getD k 0 := by
    have := zero _ h4
    have := zero _ (pow_eq_zero_iff (two_ne_zero) |>.1 this)
    linarith
  rw [List.getD_eq_getElem l 0 h1, List.getD_eq_getElem l 0 hk] at h5
  rcases lt_trichotomy r k with h | h | h
  · exact absurd h5 (List.pairwise_iff_getElem.1 hs r k h1 hk h).ne
  · exact h
  · exact absurd h5 (List.pairwise_iff_getElem.1 hs k r hk h1 h).ne'

/-- Non-vacuity of the index theorems: a search with doubles on an axis of 0.1 MeV. -/
example : indexF dbl ((grid 0 (1 / 10) 5).map dbl) (dbl (3 / 10)) = 3 ∧
    indexF dbl ((grid 0 (1 / 10) 5).map dbl) (dbl (26 / 100)) = 3 := by
  decide +kernel

/-! ### The product with rounding -/

section Product

variable {α : Type} [Field α] [DecidableEq α]

theorem rowLoopF_eq (fl : ℚ → ℚ) (nld T : List α) (E E' : List ℚ) (ex ex' cut cut' : ℚ) : ∀ (gs gs' : List ℚ) (j : ℕ),
    gs.length = gs'.length →
    (∀ t < gs.length, (gs.getD t 0 ≤ cut ↔ gs'.getD t 0 ≤ cut') ∧
      indexF fl E (fl (ex - gs.getD t 0)) = indexD E' (ex' - gs'.getD t 0)) →
    rowLoopF fl nld T E ex cut j gs = rowLoop nld T E' ex' cut' j gs' := by
  intro gs
  induction gs with
  | nil =>
    intro gs' j hl _
    cases gs' with
    | nil => rfl
    | cons _ _ => simp at hl
  | cons g gs ih =>
    intro gs' j hl h
    cases gs' with
    | nil => simp at hl
    | cons g' gs' =>
      simp only [List.length_cons, add_left_inj] at hl
      have h0 := h 0 (by simp)
      simp only [List.getD_cons_zero] at h0
      have hr := ih gs' (j + 1) hl (fun t ht => by
        have := h (t + 1) (by simp; omega)
        simpa only [List.getD_cons_succ] using this)
      simp only [rowLoopF, rowLoop]
      by_cases hc : g ≤ cut
      · rw [if_pos hc, if_pos (h0.1.1 hc), hr, prodEntry, h0.2]
      · rw [if_neg hc, if_neg (fun h' => hc (h0.1.2 h')), hl]

/-- The bin of a difference, with rounding, near a grid. -/
theorem indexF_near {fl : ℚ → ℚ} {u : ℚ} (hfl : Rounding fl u) (hu : 0 ≤ u) (u8 : u ≤ 1 / 8) {E : List ℚ}
    {a w δ M e : ℚ} {N k : ℕ} (hw : 0 < w) (d0 : 0 ≤ δ) (hδ : 72 * δ ≤ w) (hM : 16 * u * M ≤ δ) (hE : NearGrid E a w N (12 * δ))
    (hb : ∀ k < N, |a + w * (k : ℚ)| ≤ 2 * M + 2 * δ) (hk : k < N) (he : |e - (a + w * (k : ℚ))| ≤ 3 * δ) :
    indexF fl E e = k := by
  have err : ∀ q B, |q| ≤ B → |fl q - q| ≤ u * B := fun q B h =>
    (hfl.rel q).trans (mul_le_mul_of_nonneg_left h hu)
  have ud : u * δ ≤ 1 / 8 * δ := mul_le_mul_of_nonneg_right u8 d0
  -- the rounded differences
  have diff : ∀ t < N, |fl (E.getD t 0 - e) - w * ((t : ℚ) - k)| ≤ 18 * δ := by
    intro t ht
    have h1 := abs_le.1 (hE.near t ht)
    have h2 := abs_le.1 he
    have h3 := abs_le.1 (hb t ht)
    have h4 := abs_le.1 (hb k hk)
    have h5 := abs_le.1 (err (E.getD t 0 - e) (4 * M + 19 * δ) (by rw [abs_le]; constructor <;> linarith))
    rw [abs_le]
    constructor <;> linarith
  apply indexF_eq fl E e k (by rw [hE.len]; exact hk)
  · intro j hj
    have h1 := abs_le.1 (diff j (by omega))
    have h2 := abs_le.1 (diff (j + 1) (by omega))
    have hjk : (j : ℚ) + 1 ≤ k := by exact_mod_cast hj
    have h3 : w * ((j : ℚ) + 1 - k) ≤ 0 := by nlinarith
    push_cast at h2
    unfold distF
    apply hfl.mono
    rw [← neg_sq (fl (E.getD j 0 - e))]
    apply sq_le_sq'
    all_goals linarith
  · intro hlt
    rw [hE.len] at hlt
    have h1 := abs_le.1 (diff k hk)
    have h2 := abs_le.1 (diff (k + 1) hlt)
    push_cast at h1 h2
    rw [sub_self, mul_zero] at h1
    have e1 : w * ((k : ℚ) + 1 - k) = w := by ring
    rw [e1] at h2
    unfold distF
    generalize fl (E.getD k 0 - e) = p at *
    generalize fl (E.getD (k + 1) 0 - e) = q at *
    have p2 : p ^ 2 ≤ (w / 4) ^ 2 := by apply sq_le_sq' <;> linarith
    have q2 : (3 * w / 4) ^ 2 ≤ q ^ 2 := by
      apply pow_le_pow_left₀ <;> linarith
    have r1 := abs_le.1 (hfl.rel (p ^ 2))
    have r2 := abs_le.1 (hfl.rel (q ^ 2))
    rw [abs_of_nonneg (sq_nonneg _)] at r1 r2
    have r3 : u * p ^ 2 ≤ 1 / 8 * p ^ 2 := mul_le_mul_of_nonneg_right u8 (sq_nonneg _)
    have r4 : u * q ^ 2 ≤ 1 / 8 * q ^ 2 := mul_le_mul_of_nonneg_right u8 (sq_nonneg _)
    have w2 : 0 < w ^ 2 := by positivity
    nlinarith

/-- The limit of a row, with rounding, near a grid. -/
theorem cutF_near {fl : ℚ → ℚ} {u : ℚ} (hfl : Rounding fl u) (hu : 0 ≤ u) (u8 : u ≤ 1 / 8) {Ex Eg res : List ℚ}
    {x y w δ M : ℚ} {nx ny i : ℕ} (d0 : 0 ≤ δ) (hM : 16 * u * M ≤ δ) (hi : i < nx) (hy : 2 ≤ ny)
    (hEx : NearGrid Ex x w nx δ) (hEg : NearGrid Eg y w ny δ) (hMx : ∀ v ∈ Ex, |v| ≤ M) (hMy : ∀ v ∈ Eg, |v| ≤ M)
    (hr : |res.getD i 0| ≤ M) :
    |cutF fl res Eg Ex i - (x + w * (i : ℚ) + res.getD i 0 + w / 2)| ≤ 5 * δ := by
  obtain ⟨b1, b2, _⟩ := near_bounds hEx hEg hMx hMy
  have err : ∀ q B, |q| ≤ B → |fl q - q| ≤ u * B := fun q B h =>
    (hfl.rel q).trans (mul_le_mul_of_nonneg_left h hu)
  have ud : u * δ ≤ 1 / 8 * δ := mul_le_mul_of_nonneg_right u8 d0
  have a1 := abs_le.1 (hEx.near i hi)
  have a2 := abs_le.1 (hEg.near 0 (by omega))
  have a3 := abs_le.1 (hEg.near 1 (by omega))
  have c1 := abs_le.1 (b1 i hi)
  have c2 := abs_le.1 (b2 0 (by omega))
  have c3 := abs_le.1 (b2 1 (by omega))
  have c4 := abs_le.1 hr
  push_cast at a2 a3
  unfold cutF
  have d1 := abs_le.1 (err (Ex.getD i 0 + res.getD i 0) (2 * M) (by rw [abs_le]; constructor <;> linarith))
  have d2 := abs_le.1 (err (Eg.getD 1 0 - Eg.getD 0 0) (2 * M) (by rw [abs_le]; constructor <;> linarith))
  generalize fl (Ex.getD i 0 + res.getD i 0) = p at *
  generalize fl (Eg.getD 1 0 - Eg.getD 0 0) = q at *
  have d3 := abs_le.1 (err (q / 2) (M + δ) (by rw [abs_le]; constructor <;> linarith))
  generalize fl (q / 2) = r at *
  have d4 := abs_le.1 (err (p + r) (3 * M + 3 * δ) (by rw [abs_le]; constructor <;> linarith))
  rw [abs_le]
  constructor <;> linarith

/-- **C111.** The mask of `constraining_counts` and the limit of `nld_T_product`, with rounding, select the entries of
exact arithmetic, provided that no entry of the grid lies within `8 δ` of the limit of its row. -/
theorem C111_mask (fl : ℚ → ℚ) (u : ℚ) (hfl : Rounding fl u) (hu : 0 ≤ u) (u8 : u ≤ 1 / 8)
    (Ex Eg res : List ℚ) (x y w δ M : ℚ) (nx ny : ℕ) (hy : 2 ≤ ny) (d0 : 0 ≤ δ)
    (hM : 16 * u * M ≤ δ) (hEx : NearGrid Ex x w nx δ) (hEg : NearGrid Eg y w ny δ)
    (hMx : ∀ v ∈ Ex, |v| ≤ M) (hMy : ∀ v ∈ Eg, |v| ≤ M) (hr : ∀ i < nx, |res.getD i 0| ≤ M) (i j : ℕ) (hi : i < nx)
    (hj : j < ny) (far : 8 * δ < |x + w * (i : ℚ) + res.getD i 0 + w / 2 - (y + w * (j : ℚ))|) :
    Eg.getD j 0 ≤ cutF fl res Eg Ex i ↔ y + w * (j : ℚ) ≤ x + w * (i : ℚ) + res.getD i 0 + w / 2 := by
  have cn := abs_le.1 (cutF_near hfl hu u8 d0 hM hi hy hEx hEg hMx hMy (hr i hi))
  have gj := abs_le.1 (hEg.near j hj)
  rcases lt_abs.1 far with h | h
  · exact ⟨fun _ => by linarith, fun _ => by linarith⟩
  · exact ⟨fun h' => by linarith, fun h' => by linarith⟩

/-- **C111.** Given the right number of bins, the product is safe against rounding: with any rounding of the energies and
axes near a common grid, `nld_T_product` uses for every entry the bin of exact arithmetic and the same entries,
provided that no entry of the grid lies within `8 δ` of the limit of its row. -/
theorem C111_product (fl : ℚ → ℚ) (u : ℚ) (hfl : Rounding fl u) (hu : 0 ≤ u) (u8 : u ≤ 1 / 8) (nld T : List α)
    (Ex Eg E res : List ℚ) (x y w δ M : ℚ) (nx ny : ℕ) (hy : 2 ≤ ny) (hw : 0 < w) (d0 : 0 ≤ δ) (hδ : 72 * δ ≤ w)
    (hM : 16 * u * M ≤ δ) (hEx : NearGrid Ex x w nx δ) (hEg : NearGrid Eg y w ny δ)
    (hE : NearGrid E (x - (y + w * ((ny : ℚ) - 1))) w (nx + ny - 1) (12 * δ))
    (hMx : ∀ v ∈ Ex, |v| ≤ M) (hMy : ∀ v ∈ Eg, |v| ≤ M) (hr : ∀ i < nx, |res.getD i 0| ≤ M)
    (far : ∀ i < nx, ∀ j < ny, 8 * δ < |x + w * (i : ℚ) + res.getD i 0 + w / 2 - (y + w * (j : ℚ))|) :
    rawProductF fl nld T res E Eg Ex = rawProduct nld T res (nldAxis x y w nx ny) (grid y w ny) (grid x w nx) := by
  obtain ⟨b1, b2, b3⟩ := near_bounds hEx hEg hMx hMy
  have ud : u * δ ≤ 1 / 8 * δ := mul_le_mul_of_nonneg_right u8 d0
  unfold rawProductF rawProduct
  rw [hEx.len, grid_length]
  apply List.map_congr_left
  intro i hi
  rw [List.mem_range] at hi
  have hcut : (grid x w nx).getD i 0 + res.getD i 0 + ((grid y w ny).getD 1 0 - (grid y w ny).getD 0 0) / 2 =
      x + w * (i : ℚ) + res.getD i 0 + w / 2 := by
    rw [grid_getD _ _ hi, grid_getD _ _ (by omega), grid_getD _ _ (by omega)]
    push_cast
    ring
  rw [hcut]
  apply rowLoopF_eq fl nld T E _ _ _ _ _ _ _ _ (by rw [hEg.len, grid_length])
  intro j hj
  rw [hEg.len] at hj
  have gj := abs_le.1 (hEg.near j hj)
  constructor
  · rw [grid_getD _ _ hj]
    exact C111_mask fl u hfl hu u8 Ex Eg res x y w δ M nx ny hy d0 hM hEx hEg hMx hMy hr i j hi hj (far i hi j hj)
  · rw [(C34_index x y w nx ny hw hi hj).2.2.2]
    have xi := abs_le.1 (hEx.near i hi)
    have nom : x - (y + w * ((ny : ℚ) - 1)) + w * ((i + (ny - 1) - j : ℕ) : ℚ) = x + w * (i : ℚ) - (y + w * (j : ℚ)) := by
      rw [Nat.cast_sub (by omega), Nat.cast_add, Nat.cast_sub (by omega)]
      push_cast
      ring
    apply indexF_near hfl hu u8 hw d0 hδ hM hE _ (by omega)
    · rw [nom]
      have c1 := abs_le.1 (b1 i hi)
      have c2 := abs_le.1 (b2 j hj)
      have h1 := abs_le.1 ((hfl.rel (Ex.getD i 0 - Eg.getD j 0)).trans (mul_le_mul_of_nonneg_left
        (show |Ex.getD i 0 - Eg.getD j 0| ≤ 2 * M by rw [abs_le]; constructor <;> linarith) hu))
      rw [abs_le]
      constructor <;> linarith
    · intro k hk
      -- every bin of the axis is a difference of the grids
      obtain ⟨i', hi', j', hj', hkk⟩ : ∃ i' < nx, ∃ j' < ny, i' + (ny - 1) - j' = k := by
        rcases Nat.lt_or_ge k ny with h | h
        · exact ⟨0, by omega, ny - 1 - k, by omega, by omega⟩
        · exact ⟨k - (ny - 1), by omega, 0, by omega, by omega⟩
      have nom' : x - (y + w * ((ny : ℚ) - 1)) + w * (k : ℚ) = x + w * (i' : ℚ) - (y + w * (j' : ℚ)) := by
        rw [← hkk, Nat.cast_sub (by omega), Nat.cast_add, Nat.cast_sub (by omega)]
        push_cast
        ring
      rw [nom']
      exact b3 i' hi' j' hj'

/-- **C111 (partial: the right number of bins).** The steps together, for doubles: axes of numbers rounded to doubles
whose grids are whole bins apart, without resolution. If the axis of the level density gets the right number of bins,
the product is computed from the bins of exact arithmetic. -/
theorem C111_double_partial (close : ℚ → ℚ → Bool) (nld T : List α) (res : List ℚ) (x w M : ℚ) (z : ℤ) (nx ny : ℕ)
    (hx : 2 ≤ nx) (hy : 2 ≤ ny) (hw : 0 < w) (hMx : ∀ v ∈ (grid x w nx).map dbl, |v| ≤ M)
    (hMy : ∀ v ∈ (grid (x + w * z) w ny).map dbl, |v| ≤ M) (hm : 32 * ((nx + ny - 1 : ℕ) : ℚ) * (M / 2 ^ 49) ≤ w)
    (hr : ∀ i < nx, res.getD i 0 = 0) (hc : ∀ a b, |a - b| ≤ 6 * (M / 2 ^ 49) → close a b = true) :
    ∃ E, eNldF dbl close ((grid x w nx).map dbl) ((grid (x + w * z) w ny).map dbl) = .ok E ∧
      (E.length = nx + ny - 1 ∨ E.length = nx + ny) ∧
      (E.length = nx + ny - 1 →
        rawProductF dbl nld T res E ((grid (x + w * z) w ny).map dbl) ((grid x w nx).map dbl) =
          rawProduct nld T res (nldAxis x (x + w * z) w nx ny) (grid (x + w * z) w ny) (grid x w nx)) := by
  have M0 : 0 ≤ M := (abs_nonneg _).trans (hMx (dbl x) (List.mem_map.2 ⟨x, by
    rw [grid, List.mem_map]; exact ⟨0, List.mem_range.2 (by omega), by simp⟩, rfl⟩))
  have d0 : (0 : ℚ) ≤ M / 2 ^ 49 := by positivity
  have near : ∀ a n, (∀ v ∈ (grid a w n).map dbl, |v| ≤ M) → NearGrid ((grid a w n).map dbl) a w n (M / 2 ^ 49) := by
    intro a n hv
    refine ⟨by simp, fun k hk => ?_⟩
    have hg : ((grid a w n).map dbl).getD k 0 = dbl (a + w * k) := by
      rw [List.getD_eq_getElem _ 0 (by simpa using hk), List.getElem_map]
      simp [grid]
    have h1 : |dbl (a + w * k)| ≤ M := by
      rw [← hg, List.getD_eq_getElem _ 0 (by simpa using hk)]
      exact hv _ (List.getElem_mem _)
    have h2 := C111_double_near (a + w * k)
    rw [hg]
    have h3 : |a + w * (k : ℚ)| ≤ |dbl (a + w * k)| + |dbl (a + w * k) - (a + w * k)| := by
      have := abs_sub_abs_le_abs_sub (a + w * (k : ℚ)) (dbl (a + w * k))
      rw [abs_sub_comm] at this
      linarith
    have h4 : |a + w * (k : ℚ)| ≤ 2 * M := by
      have : |a + w * (k : ℚ)| / 2 ^ 53 ≤ |a + w * (k : ℚ)| / 2 :=
        div_le_div_of_nonneg_left (abs_nonneg _) (by norm_num) (by norm_num)
      linarith
    refine h2.trans ?_
    rw [div_le_div_iff₀ (by positivity) (by positivity)]
    have : (2 : ℚ) ^ 53 = 16 * 2 ^ 49 := by norm_num
    rw [this]
    have p : (0 : ℚ) < 2 ^ 49 := by positivity
    nlinarith
  have n1 := near x nx hMx
  have n2 := near (x + w * z) ny hMy
  have hu : 16 * (1 / 2 ^ 53 : ℚ) * M ≤ M / 2 ^ 49 := by
    apply le_of_eq
    rw [show (2 : ℚ) ^ 53 = 16 * 2 ^ 49 by norm_num]
    field_simp
  obtain ⟨E, q, g1, _, _, g4, g5⟩ := C111_bins_partial dbl (1 / 2 ^ 53) dbl_rounding close _ _ x (x + w * z) w (M / 2 ^ 49) M nx ny
    hx hy hw (by positivity) n1 n2 hMx hMy hu hm hc
  have N3 : (3 : ℚ) ≤ ((nx + ny - 1 : ℕ) : ℚ) := by exact_mod_cast (by omega : 3 ≤ nx + ny - 1)
  have h96 : 96 * (M / 2 ^ 49) ≤ w := by nlinarith
  refine ⟨E, g1, g4, fun hl => ?_⟩
  apply C111_product dbl (1 / 2 ^ 53) dbl_rounding (by positivity) (by norm_num) nld T _ _ E res x (x + w * z) w (M / 2 ^ 49)
    M nx ny hy hw d0 (by linarith) hu n1 n2 (g5 hl) hMx hMy (fun i hi => by rw [hr i hi]; simpa using M0)
  intro i hi j hj
  rw [hr i hi]
  have e : x + w * (i : ℚ) + 0 + w / 2 - (x + w * z + w * (j : ℚ)) = w * ((((i : ℤ) - z - j : ℤ) : ℚ) + 1 / 2) := by
    push_cast
    ring
  rw [e, abs_mul, abs_of_pos hw]
  have half : (1 / 2 : ℚ) ≤ |(((i : ℤ) - z - j : ℤ) : ℚ) + 1 / 2| := by
    generalize (i : ℤ) - z - j = t
    rcases le_or_gt 0 t with h | h
    · have : (0 : ℚ) ≤ t := by exact_mod_cast h
      rw [abs_of_nonneg (by linarith)]
      linarith
    · have : (t : ℚ) ≤ -1 := by exact_mod_cast (by omega : t ≤ -1)
      rw [abs_of_neg (by linarith)]
      linarith
  have := mul_le_mul_of_nonneg_left half hw.le
  linarith

end Product

/-- Non-vacuity: for axes of 0.1 MeV from 0.5 MeV the number of bins is right, and `C111_double_partial` applies. -/
example :
    let close := fun a b : ℚ => decide (|a - b| ≤ 1 / 10 ^ 8 + 1 / 10 ^ 5 * |b|)
    let Ex := (grid (1 / 2) (1 / 10) 3).map dbl
    let Eg := (grid (1 / 2) (1 / 10) 2).map dbl
    (eNldF dbl close Ex Eg).map (fun E => (E.length, rawProductF dbl [(1 : ℚ), 2, 3, 4] [5, 6] [0, 0, 0] E Eg Ex)) =
      .ok (4, [[10, 0], [15, 12], [20, 18]]) ∧
    ∃ E, eNldF dbl close Ex Eg = .ok E ∧ (E.length = 4 ∨ E.length = 5) ∧
      (E.length = 4 → rawProductF dbl [(1 : ℚ), 2, 3, 4] [5, 6] [0, 0, 0] E Eg Ex =
        rawProduct [1, 2, 3, 4] [5, 6] [0, 0, 0] (nldAxis (1 / 2) (1 / 2) (1 / 10) 3 2) (grid (1 / 2) (1 / 10) 2)
          (grid (1 / 2) (1 / 10) 3)) := by
  intro close Ex Eg
  refine ⟨by decide +kernel, ?_⟩
  have h := C111_double_partial close [(1 : ℚ), 2, 3, 4] [5, 6] [0, 0, 0] (1 / 2) (1 / 10) 1 0 3 2 (by norm_num)
    (by norm_num) (by norm_num) (by decide +kernel) (by decide +kernel) (by norm_num) (by decide +kernel)
    (fun a b hab => by
      have : (0 : ℚ) ≤ 1 / 10 ^ 5 * |b| := by positivity
      have h2 : (6 : ℚ) * (1 / 2 ^ 49) ≤ 1 / 10 ^ 8 := by norm_num
      simp only [close, decide_eq_true_eq]
      linarith)
  simpa [Ex, Eg] using h

/-- **C111** (false part). `chisquare_diagonal` has no half bin in its limit, so that the entries on the diagonal depend
on the last digits: for every `d > 0` an excitation axis `d` below the gamma axis loses the diagonal of a matrix that
`nld_T_product` still fills. -/
theorem C111_diagonal_fails (d : ℚ) (hd : 0 < d) (hd1 : d < 1 / 2) :
    let fact : List (List ℚ) := [[1, 0], [1 / 2, 1 / 2]]
    let fit : List (List ℚ) := [[0, 0], [1 / 2, 0]]
    let std : List (List ℚ) := [[1, 1], [1, 1]]
    chisquareDiagonal fact fit std [0, 0] [1, 2] [1, 2] = 5 / 4 ∧
      chisquareDiagonal fact fit std [0, 0] [1, 2] [1 - d, 2 - d] = 0 ∧
      rawProduct [1, 1, 1] [1, 1] [0, 0] [-1, 0, 1] [1, 2] [1 - d, 2 - d] = ([[1, 0], [1, 1]] : List (List ℚ)) := by
  have h1 : ¬ (1 : ℚ) ≤ 1 - d := by linarith
  have h2 : (1 : ℚ) ≤ 2 - d := by linarith
  have h3 : ¬ (2 : ℚ) ≤ 2 - d := by linarith
  refine ⟨by decide +kernel, ?_, ?_⟩
  · norm_num [chisquareDiagonal, chiDiagRow, List.range_succ, h1, h2, h3, hd]
  · have one : ∀ q, ([1, 1, 1] : List ℚ).getD (indexD [-1, 0, 1] q) 0 = 1 := by
      intro q
      obtain ⟨i, hi, hlt⟩ := C05_index_in_range [-1, 0, 1] q (by simp)
      have : indexD [-1, 0, 1] q = i := by
        unfold indexD
        rw [hi]
      rw [this]
      simp only [List.length_cons, List.length_nil] at hlt
      interval_cases i <;> rfl
    have g1 : (1 : ℚ) ≤ 1 - d + 0 + (2 - 1) / 2 := by linarith
    have g2 : ¬ (2 : ℚ) ≤ 1 - d + 0 + (2 - 1) / 2 := by linarith
    have g3 : (1 : ℚ) ≤ 2 - d + 0 + (2 - 1) / 2 := by linarith
    have g4 : (2 : ℚ) ≤ 2 - d + 0 + (2 - 1) / 2 := by linarith
    simp only [rawProduct, List.length_cons, List.length_nil, List.range_succ, List.range_zero, List.nil_append,
      List.cons_append, List.map_cons, List.map_nil, List.getD_cons_zero, List.getD_cons_succ, rowLoop, g1, g2, g3, g4,
      if_true, if_false, prodEntry, one, List.replicate]
    norm_num

end Ompy
