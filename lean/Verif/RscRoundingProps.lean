import Verif.RscRounding
import Verif.RebinRoundingProps
import Verif.RhoSigChiFitProps

/-!
# Property C114: the axes of `rhosigchi` in floating point
-/

namespace Ompy

/-! ### `arange` -/

/-- A rounded quotient times the divisor. -/
theorem quotient_times {fl : ℚ → ℚ} {u : ℚ} (h : Rounding fl u) {d s : ℚ} (hs : 0 < s) : |fl (d / s) * s - d| ≤ u * |d| := by
  have e5 := h.rel (d / s)
  rw [abs_div, abs_of_pos hs] at e5
  have : fl (d / s) * s - d = (fl (d / s) - d / s) * s := by field_simp
  rw [this, abs_mul, abs_of_pos hs]
  calc |fl (d / s) - d / s| * s ≤ u * (|d| / s) * s := mul_le_mul_of_nonneg_right e5 hs.le
    _ = u * |d| := by field_simp

/-- A number near `D = w x` divided by a number near `w`. -/
theorem divide_near {fl : ℚ → ℚ} {u : ℚ} (h : Rounding fl u) (u0 : 0 ≤ u) (hu : u ≤ 1 / 100) {d s w x ε ed R : ℚ}
    (hd : |d - w * x| ≤ ed) (hs : |s - w| ≤ ε) (hR : |w * x| ≤ 2 * R) (hη : u * R ≤ ε) (hw : 0 < w) (h10 : 10 * ε ≤ w) (hed : ed ≤ w) :
    |fl (d / s) - x| * w ≤ (6 / 5 * |x| + 5) * ε + 102 / 100 * ed := by
  have ε0 : 0 ≤ ε := (abs_nonneg _).trans hs
  have d0 : 0 ≤ ed := (abs_nonneg _).trans hd
  rw [abs_le] at hs
  have s0 : 0 < s := by linarith
  have q := quotient_times h (d := d) s0
  have hdd : |d| ≤ 2 * R + ed := by
    rw [abs_le] at *
    constructor <;> linarith
  have q2 : u * |d| ≤ 2 * ε + 1 / 100 * ed := by
    have h1 := mul_le_mul_of_nonneg_left hdd u0
    have h2 := mul_le_mul_of_nonneg_right hu d0
    linarith
  set X := fl (d / s) with hX
  have e1 : |X * s - w * x| ≤ 2 * ε + 101 / 100 * ed := by
    rw [abs_le] at *
    constructor <;> linarith
  -- the size of the quotient
  have hXs : |X| * (9 / 10 * w) ≤ |x| * w + 2 * ε + 101 / 100 * ed := by
    have h1 : |X * s| ≤ |w * x| + (2 * ε + 101 / 100 * ed) := by
      have := abs_add_le (w * x) (X * s - w * x)
      rw [add_sub_cancel] at this
      linarith
    rw [abs_mul, abs_mul, abs_of_pos s0, abs_of_pos hw] at h1
    have h2 : |X| * (9 / 10 * w) ≤ |X| * s := mul_le_mul_of_nonneg_left (by linarith) (abs_nonneg _)
    linarith
  have hXb : |X| ≤ 112 / 100 * |x| + 14 / 10 := by
    have h1 : |X| * w ≤ (112 / 100 * |x| + 14 / 10) * w := by
      have : 0 ≤ |x| * w := mul_nonneg (abs_nonneg _) hw.le
      nlinarith
    exact le_of_mul_le_mul_right h1 hw
  have e2 : |X * (w - s)| ≤ (112 / 100 * |x| + 14 / 10) * ε := by
    rw [abs_mul]
    apply mul_le_mul hXb _ (abs_nonneg _) (by positivity)
    rw [abs_le]
    constructor <;> linarith
  have e3 : (X - x) * w = (X * s - w * x) + X * (w - s) := by ring
  have e4 : |X - x| * w = |(X - x) * w| := by rw [abs_mul, abs_of_pos hw]
  rw [e4, e3]
  have := abs_add_le (X * s - w * x) (X * (w - s))
  have xε : 0 ≤ |x| * ε := mul_nonneg (abs_nonneg _) ε0
  nlinarith

theorem ceil_near {x : ℚ} {m : ℤ} (h : |x - m| < 1) : ⌈x⌉ = m ∨ ⌈x⌉ = m + 1 := by
  rw [abs_lt] at h
  by_cases hx : x ≤ m
  · left
    rw [Int.ceil_eq_iff]
    exact ⟨by linarith, hx⟩
  · right
    rw [Int.ceil_eq_iff]
    push_cast
    exact ⟨by linarith, by linarith⟩

/-- The number of bins of `arange`: right, or one too many. -/
theorem arangeF_length {fl : ℚ → ℚ} {u : ℚ} (h : Rounding fl u) (u0 : 0 ≤ u) (hu : u ≤ 1 / 100) {start stop step A w ε εs R : ℚ} {m : ℕ}
    (h0 : |start - A| ≤ ε) (h1 : |step - w| ≤ ε) (h2 : |stop - (A + w * (m : ℚ))| ≤ εs) (hA : |A| ≤ R) (hB : |A + w * (m : ℚ)| ≤ R)
    (hη : u * R ≤ ε) (hw : 0 < w) (hε : (2 * (m : ℚ) + 12) * ε + 2 * εs < w) :
    (arangeF fl start stop step).length = m ∨ (arangeF fl start stop step).length = m + 1 := by
  have ε0 : 0 ≤ ε := (abs_nonneg _).trans h0
  have εs0 : 0 ≤ εs := (abs_nonneg _).trans h2
  have m0 : (0 : ℚ) ≤ m := by positivity
  have mε : 0 ≤ (m : ℚ) * ε := mul_nonneg m0 ε0
  have e1 : |(stop - start) - w * (m : ℚ)| ≤ ε + εs := by
    rw [abs_le] at *
    constructor <;> linarith
  have r : |w * (m : ℚ)| ≤ 2 * R := by
    rw [abs_le] at *
    constructor <;> linarith
  have e2 := h.near u0 e1 r
  have e3 : |fl (stop - start) - w * (m : ℚ)| ≤ 302 / 100 * ε + 101 / 100 * εs := by
    have h3 := mul_le_mul_of_nonneg_right hu (add_nonneg ε0 εs0)
    linarith
  have e4 := divide_near h u0 hu e3 h1 r hη hw (by linarith) (by linarith)
  rw [abs_of_nonneg m0] at e4
  have e5 : |fl (fl (stop - start) / step) - (m : ℚ)| < 1 := by
    have : |fl (fl (stop - start) / step) - (m : ℚ)| * w < 1 * w := by linarith
    exact lt_of_mul_lt_mul_right this hw.le
  unfold arangeF
  rw [List.length_map, List.length_range]
  rcases ceil_near (m := (m : ℤ)) (by exact_mod_cast e5) with h' | h' <;> rw [h'] <;> omega

/-- The bins of `arange`: the error grows with the number of the bin. -/
theorem arangeF_bins {fl : ℚ → ℚ} {u : ℚ} (h : Rounding fl u) (u0 : 0 ≤ u) (hu : u ≤ 1 / 100) {start stop step A w ε R : ℚ}
    (h0 : |start - A| ≤ ε) (h1 : |step - w| ≤ ε) (hA : |A| ≤ R) (hA1 : |A + w| ≤ R) (hη : u * R ≤ ε) (hw : 0 < w) {k : ℕ} (hk : k < (arangeF fl start stop step).length)
    (hB : |A + w * (k : ℚ)| ≤ R) :
    |(arangeF fl start stop step).getD k 0 - (A + w * (k : ℚ))| ≤ (7 * (k : ℚ) + 5) * ε := by
  have ε0 : 0 ≤ ε := (abs_nonneg _).trans h0
  have k0 : (0 : ℚ) ≤ k := by positivity
  have kε : 0 ≤ (k : ℚ) * ε := mul_nonneg k0 ε0
  have R0 : 0 ≤ R := (abs_nonneg _).trans hA
  have uε : u * ε ≤ 1 / 100 * ε := mul_le_mul_of_nonneg_right hu ε0
  have hk' := hk
  unfold arangeF at hk' ⊢
  rw [List.length_map, List.length_range] at hk'
  rw [getD_map_range _ hk']
  by_cases hk0 : k = 0
  · rw [if_pos hk0, hk0]
    push_cast
    rw [mul_zero, add_zero]
    linarith
  rw [if_neg hk0]
  have b1 : |(start + step) - (A + w)| ≤ 2 * ε := by
    rw [abs_le] at *
    constructor <;> linarith
  have b2 := h.near u0 b1 hA1
  have b3 : |fl (start + step) - (A + w)| ≤ 302 / 100 * ε := by linarith
  by_cases hk1 : k = 1
  · rw [if_pos hk1, hk1]
    push_cast
    rw [mul_one]
    linarith
  rw [if_neg hk1]
  generalize fl (start + step) = b at *
  have d1 : |(b - start) - w| ≤ 402 / 100 * ε := by
    rw [abs_le] at *
    constructor <;> linarith
  have rw2 : |w| ≤ 2 * R := by
    rw [abs_le] at *
    constructor <;> linarith
  have d2 := h.near u0 d1 rw2
  have d3 : |fl (b - start) - w| ≤ 607 / 100 * ε := by linarith
  generalize fl (b - start) = dl at *
  have p1 : |(k : ℚ) * dl - w * (k : ℚ)| ≤ 607 / 100 * ((k : ℚ) * ε) := by
    have : (k : ℚ) * dl - w * (k : ℚ) = (k : ℚ) * (dl - w) := by ring
    rw [this, abs_mul, abs_of_nonneg k0]
    have := mul_le_mul_of_nonneg_left d3 k0
    linarith
  have rk : |w * (k : ℚ)| ≤ 2 * R := by
    rw [abs_le] at *
    constructor <;> linarith
  have p2 := h.near u0 p1 rk
  have ukε : u * ((k : ℚ) * ε) ≤ 1 / 100 * ((k : ℚ) * ε) := mul_le_mul_of_nonneg_right hu kε
  have p3 : |fl ((k : ℚ) * dl) - w * (k : ℚ)| ≤ 614 / 100 * ((k : ℚ) * ε) + 2 * ε := by linarith
  have s1 : |(start + fl ((k : ℚ) * dl)) - (A + w * (k : ℚ))| ≤ 614 / 100 * ((k : ℚ) * ε) + 3 * ε := by
    rw [abs_le] at *
    constructor <;> linarith
  have s2 := h.near u0 s1 hB
  linarith

/-! ### The calibration -/

/-- Truncation of a number that is not below `-1/2`. -/
theorem truncZ_low {v : ℚ} (hv : -(1 / 2) ≤ v) : 0 ≤ truncZ v ∧ (truncZ v : ℚ) ≤ max v 0 ∧ v - 1 < truncZ v := by
  by_cases h0 : 0 ≤ v
  · rw [truncZ_of_nonneg h0, max_eq_left h0]
    exact ⟨Int.floor_nonneg.2 h0, Int.floor_le v, by linarith [Int.lt_floor_add_one v]⟩
  · have : truncZ v = 0 := by
      unfold truncZ
      rw [if_neg h0, Int.ceil_eq_iff]
      push Not at h0
      push_cast
      exact ⟨by linarith, h0.le⟩
    rw [this]
    push Not at h0
    refine ⟨le_refl _, ?_, ?_⟩
    · push_cast
      exact le_max_right _ _
    · push_cast
      linarith

/-- `int(x + 0.5)` with rounding. -/
theorem half_near {fl : ℚ → ℚ} {u : ℚ} (h : Rounding fl u) (u0 : 0 ≤ u) (hu : u ≤ 1 / 100) {y x e w ε R : ℚ} (hy : |y - x| * w ≤ e) (hw : 0 < w)
    (hx : |x| * w ≤ 2 * R) (hη : u * R ≤ ε) (hwR : w ≤ R) : |fl (y + 1 / 2) - (x + 1 / 2)| * w ≤ 101 / 100 * e + 3 * ε := by
  have e0 : 0 ≤ e := le_trans (mul_nonneg (abs_nonneg _) hw.le) hy
  have h1 := h.rel (y + 1 / 2)
  have h2 : |y + 1 / 2| ≤ |x| + |y - x| + 1 / 2 := by
    have a1 := abs_add_le x (y - x)
    rw [add_sub_cancel] at a1
    have a2 := abs_add_le y (1 / 2)
    rw [abs_of_pos (by norm_num : (0 : ℚ) < 1 / 2)] at a2
    linarith
  have h3 : |y + 1 / 2| * w ≤ 5 / 2 * R + e := by
    have := mul_le_mul_of_nonneg_right h2 hw.le
    linarith
  have h4 : |fl (y + 1 / 2) - (y + 1 / 2)| * w ≤ 5 / 2 * ε + 1 / 100 * e := by
    have a1 := mul_le_mul_of_nonneg_right h1 hw.le
    have a2 := mul_le_mul_of_nonneg_left h3 u0
    have a3 := mul_le_mul_of_nonneg_right hu e0
    have : u * |y + 1 / 2| * w = u * (|y + 1 / 2| * w) := by ring
    linarith
  have ε0 : 0 ≤ ε := le_trans (mul_nonneg u0 (hw.le.trans hwR)) hη
  have h5 := abs_add_le (fl (y + 1 / 2) - (y + 1 / 2)) (y - x)
  have h6 : fl (y + 1 / 2) - (x + 1 / 2) = (fl (y + 1 / 2) - (y + 1 / 2)) + (y - x) := by ring
  rw [h6]
  have h7 := mul_le_mul_of_nonneg_right h5 hw.le
  linarith

/-- What the theorems assume: an axis that follows a grid up to `δ`, and a bound `B` for the number of bins of the extended
axis such that the errors stay small against a bin. -/
structure RscScale (fl : ℚ → ℚ) (u : ℚ) (Ex : List ℚ) (e0 w : ℚ) (n : ℕ) (δ extend B : ℚ) : Prop where
  rounding : Rounding fl u
  unit0 : 0 ≤ u
  unit : u ≤ 1 / 100
  axis : NearGrid Ex e0 w n δ
  bins : 2 ≤ n
  width : 0 < w
  start : 0 ≤ e0
  ext : 0 ≤ extend
  size : e0 + extend + w * ((n : ℚ) + 3) ≤ w * B
  small : 300 * B ^ 2 * (δ + u * (w * B)) ≤ w

theorem rscCalibF_near {fl : ℚ → ℚ} {u : ℚ} {Ex : List ℚ} {e0 w : ℚ} {n : ℕ} {δ extend B : ℚ} (H : RscScale fl u Ex e0 w n δ extend B) :
    ∃ a1 a0 : ℚ, ∃ z : ℕ, rscCalibF fl Ex extend = .ok (a1, a0) ∧ |a1 - w| ≤ 3 * (δ + u * (w * B)) ∧
      |a0 - (e0 - w * (z : ℚ))| ≤ 12 * B * (δ + u * (w * B)) ∧ |w * (z : ℚ) - (e0 + extend)| ≤ 2 * w ∧ w * ((z : ℚ) + n + 2) ≤ w * B := by
  obtain ⟨h, u0, hu, ⟨hlen, hnear⟩, hn, hw, he0, hext, hsize, hsmall⟩ := H
  have n0 := hnear 0 (by omega)
  have n1 := hnear 1 (by omega)
  push_cast at n0 n1
  rw [mul_zero, add_zero] at n0
  rw [mul_one] at n1
  have d0 : 0 ≤ δ := (abs_nonneg _).trans n0
  have hn2 : (2 : ℚ) ≤ n := by exact_mod_cast hn
  have wn : w * 2 ≤ w * (n : ℚ) := mul_le_mul_of_nonneg_left hn2 hw.le
  have hB5 : 5 ≤ B := by
    have : w * 5 ≤ w * B := by linarith
    exact le_of_mul_le_mul_left this hw
  set R := w * B with hR
  have R0 : 0 ≤ R := by positivity
  have uR0 : 0 ≤ u * R := mul_nonneg u0 R0
  set η := δ + u * R with hη
  have η0 : 0 ≤ η := by positivity
  have uRη : u * R ≤ η := by linarith
  have Bη : 5 * η ≤ B * η := mul_le_mul_of_nonneg_right hB5 η0
  have BBη : 5 * (B * η) ≤ B * (B * η) := mul_le_mul_of_nonneg_right hB5 (by linarith)
  have small : 300 * (B * (B * η)) ≤ w := by
    have : 300 * B ^ 2 * η = 300 * (B * (B * η)) := by ring
    linarith
  have hwR : w ≤ R := by linarith
  -- the list
  obtain ⟨x0, x1, l, rfl⟩ : ∃ x0 x1 l, Ex = x0 :: x1 :: l := by
    match Ex, hlen with
    | [], q => simp at q; omega
    | [_], q => simp at q; omega
    | a :: b :: l, _ => exact ⟨a, b, l, rfl⟩
  simp only [List.getD_cons_zero, List.getD_cons_succ] at n0 n1
  have A1 := width_near h u0 n0 n1 (show |w| ≤ R by rw [abs_of_pos hw]; exact hwR) hu
  rw [← hη] at A1
  set a1 := fl (x1 - x0) with ha1
  have a1pos : 0 < a1 := by
    rw [abs_le] at A1
    linarith
  have w3 : 10 * (3 * η) ≤ w := by linarith
  -- the quotient
  have hq : |fl (x0 / a1) - e0 / w| * w ≤ 7 * (B * η) := by
    have hx : w * (e0 / w) = e0 := by field_simp
    have r : |w * (e0 / w)| ≤ 2 * R := by
      rw [hx, abs_of_nonneg he0]
      linarith
    have := divide_near h u0 hu (d := x0) (x := e0 / w) (ed := η) (by rw [hx]; linarith) A1 r (by linarith) hw w3 (by linarith)
    have hxb : |e0 / w| ≤ B := by
      rw [abs_of_nonneg (by positivity), div_le_iff₀ hw]
      linarith
    have m1 := mul_le_mul_of_nonneg_right hxb η0
    linarith
  set q := fl (x0 / a1) with hqd
  have hqw : |q * w - e0| ≤ 7 * (B * η) := by
    have : q * w - e0 = (q - e0 / w) * w := by field_simp
    rw [this, abs_mul, abs_of_pos hw]
    exact hq
  set t := truncZ q with ht
  have qlow : -(1 / 2) ≤ q := by
    have : -(1 / 2) * w ≤ q * w := by
      rw [abs_le] at hqw
      linarith
    exact le_of_mul_le_mul_right this hw
  obtain ⟨t0, t1, t2⟩ := truncZ_low qlow
  rw [← ht] at t0 t1 t2
  have tw1 : (t : ℚ) * w ≤ e0 + 7 * (B * η) := by
    rw [abs_le] at hqw
    rcases max_cases q 0 with ⟨hm, _⟩ | ⟨hm, _⟩ <;> rw [hm] at t1
    · have := mul_le_mul_of_nonneg_right t1 hw.le
      linarith
    · have := mul_le_mul_of_nonneg_right t1 hw.le
      linarith
  have tw2 : e0 - 7 * (B * η) - w ≤ (t : ℚ) * w := by
    rw [abs_le] at hqw
    have := mul_le_mul_of_nonneg_right t2.le hw.le
    linarith
  have hfr : |q - (t : ℚ)| ≤ 1 := (sub_truncZ_abs q).le
  -- the remainder
  have hp : |fl (fl (q - (t : ℚ)) * a1) - (e0 - w * (t : ℚ))| ≤ 771 / 100 * (B * η) := by
    have f1 : |fl (q - (t : ℚ)) - (q - (t : ℚ))| ≤ u := by
      have := h.rel (q - (t : ℚ))
      have := mul_le_mul_of_nonneg_left hfr u0
      linarith
    set f := fl (q - (t : ℚ)) with hf
    have uw : u * w ≤ 1 / 5 * η := by
      have : u * (w * 5) ≤ u * R := mul_le_mul_of_nonneg_left (mul_le_mul_of_nonneg_left hB5 hw.le) u0
      linarith
    have a1b : a1 ≤ 11 / 10 * w := by
      rw [abs_le] at A1
      linarith
    have g1 : |f * a1 - (q - (t : ℚ)) * w| ≤ 33 / 10 * η := by
      have e : f * a1 - (q - (t : ℚ)) * w = (f - (q - (t : ℚ))) * a1 + (q - (t : ℚ)) * (a1 - w) := by ring
      rw [e]
      have m1 := abs_add_le ((f - (q - (t : ℚ))) * a1) ((q - (t : ℚ)) * (a1 - w))
      rw [abs_mul, abs_mul, abs_of_pos a1pos] at m1
      have m2 : |f - (q - (t : ℚ))| * a1 ≤ u * (11 / 10 * w) := mul_le_mul f1 a1b a1pos.le u0
      have m3 : |q - (t : ℚ)| * |a1 - w| ≤ 1 * (3 * η) := mul_le_mul hfr A1 (abs_nonneg _) (by norm_num)
      linarith
    have g2 : |(q - (t : ℚ)) * w| ≤ w := by
      rw [abs_mul, abs_of_pos hw]
      have := mul_le_mul_of_nonneg_right hfr hw.le
      linarith
    have g3 := h.near u0 g1 g2
    have uη : u * η ≤ 1 / 100 * η := mul_le_mul_of_nonneg_right hu η0
    have g4 : |fl (f * a1) - (q - (t : ℚ)) * w| ≤ 35 / 10 * η + 4 / 100 * η := by linarith
    have e : (q - (t : ℚ)) * w - (e0 - w * (t : ℚ)) = q * w - e0 := by ring
    have m := abs_add_le (fl (f * a1) - (q - (t : ℚ)) * w) ((q - (t : ℚ)) * w - (e0 - w * (t : ℚ)))
    rw [sub_add_sub_cancel, e] at m
    linarith
  -- the extension
  have hy : |fl (extend / a1) - extend / w| * w ≤ 67 / 10 * (B * η) := by
    have hx : w * (extend / w) = extend := by field_simp
    have r : |w * (extend / w)| ≤ 2 * R := by
      rw [hx, abs_of_nonneg hext]
      linarith
    have := divide_near h u0 hu (d := extend) (x := extend / w) (ed := 0) (by rw [hx]; simp) A1 r (by linarith) hw w3 hw.le
    have hxb : |extend / w| ≤ B := by
      rw [abs_of_nonneg (by positivity), div_le_iff₀ hw]
      linarith
    have m1 := mul_le_mul_of_nonneg_right hxb η0
    linarith
  have hv := half_near h u0 hu hy hw (R := R) (ε := η) (by
    rw [abs_of_nonneg (by positivity), div_mul_cancel₀ _ hw.ne']
    linarith) uRη hwR
  set v := fl (fl (extend / a1) + 1 / 2) with hvd
  have hvw : |v * w - (extend + w / 2)| ≤ 8 * (B * η) := by
    have : v * w - (extend + w / 2) = (v - (extend / w + 1 / 2)) * w := by field_simp
    rw [this, abs_mul, abs_of_pos hw]
    linarith
  set c := truncZ v with hc
  have vlow : -(1 / 2) ≤ v := by
    have : -(1 / 2) * w ≤ v * w := by
      rw [abs_le] at hvw
      linarith
    exact le_of_mul_le_mul_right this hw
  obtain ⟨c0, c1, c2⟩ := truncZ_low vlow
  rw [← hc] at c0 c1 c2
  have cw1 : (c : ℚ) * w ≤ extend + w / 2 + 8 * (B * η) := by
    rw [abs_le] at hvw
    rcases max_cases v 0 with ⟨hm, _⟩ | ⟨hm, _⟩ <;> rw [hm] at c1
    · have := mul_le_mul_of_nonneg_right c1 hw.le
      linarith
    · have := mul_le_mul_of_nonneg_right c1 hw.le
      linarith
  have cw2 : extend - w / 2 - 8 * (B * η) ≤ (c : ℚ) * w := by
    rw [abs_le] at hvw
    have := mul_le_mul_of_nonneg_right c2.le hw.le
    linarith
  have c0' : (0 : ℚ) ≤ c := by exact_mod_cast c0
  have t0' : (0 : ℚ) ≤ t := by exact_mod_cast t0
  have cB : (c : ℚ) ≤ B := by
    have : (c : ℚ) * w ≤ B * w := by linarith
    exact le_of_mul_le_mul_right this hw
  have hca : |fl ((c : ℚ) * a1) - (c : ℚ) * w| ≤ 33 / 10 * (B * η) := by
    have g1 : |(c : ℚ) * a1 - (c : ℚ) * w| ≤ 3 * (B * η) := by
      rw [← mul_sub, abs_mul, abs_of_nonneg c0']
      have := mul_le_mul cB A1 (abs_nonneg _) (by linarith)
      linarith
    have g2 : |(c : ℚ) * w| ≤ R := by
      rw [abs_of_nonneg (by positivity)]
      linarith
    have g3 := h.near u0 g1 g2
    have uB : u * (3 * (B * η)) ≤ 1 / 100 * (3 * (B * η)) := mul_le_mul_of_nonneg_right hu (by linarith)
    linarith
  -- together
  have hz : (((t + c).toNat : ℕ) : ℚ) = (t : ℚ) + c := by
    have : (((t + c).toNat : ℕ) : ℤ) = t + c := Int.toNat_of_nonneg (by omega)
    exact_mod_cast this
  refine ⟨a1, fl (fl (fl (q - (t : ℚ)) * a1) - fl ((c : ℚ) * a1)), (t + c).toNat, ?_, A1, ?_, ?_, ?_⟩
  · unfold rscCalibF
    simp only
    rw [if_neg a1pos.ne']
  · rw [hz]
    have g1 : |(fl (fl (q - (t : ℚ)) * a1) - fl ((c : ℚ) * a1)) - (e0 - w * ((t : ℚ) + c))| ≤ 1102 / 100 * (B * η) := by
      rw [abs_le] at *
      constructor <;> linarith
    have g2 : |e0 - w * ((t : ℚ) + c)| ≤ R := by
      rw [abs_le]
      constructor <;> linarith
    have g3 := h.near u0 g1 g2
    have uB : u * (1102 / 100 * (B * η)) ≤ 1 / 100 * (1102 / 100 * (B * η)) := mul_le_mul_of_nonneg_right hu (by linarith)
    linarith
  · rw [hz, abs_le]
    constructor <;> linarith
  · rw [hz]
    linarith

/-! ### The axes -/

/-- The numbers of `C114_axes`, without lists. -/
theorem rsc_arith {w B η u R : ℚ} {N : ℚ} (hw : 0 < w) (hB : 5 ≤ B) (η0 : 0 ≤ η) (N0 : 0 ≤ N) (hN : N + 1 ≤ B) (hu : u ≤ 1 / 100)
    (hs : 300 * (B * (B * η)) ≤ w) (hR : u * R ≤ η) :
    (2 * N + 12) * (12 * B * η) + 2 * (6 * η) < w ∧
    (7 * N) * (12 * B * η) + 3 * η + u * (R + ((7 * N) * (12 * B * η) + 3 * η)) ≤ 86 * (B * (B * η)) ∧
    (2 * N + 12) * (12 * B * η) + 2 * (86 * (B * (B * η))) < w := by
  have Bη : 5 * η ≤ B * η := mul_le_mul_of_nonneg_right hB η0
  have BBη : 5 * (B * η) ≤ B * (B * η) := mul_le_mul_of_nonneg_right hB (by linarith)
  have Bη0 : 0 ≤ B * η := by linarith
  have NB : N * (B * η) ≤ (B - 1) * (B * η) := mul_le_mul_of_nonneg_right (by linarith) Bη0
  have NB0 : 0 ≤ N * (B * η) := mul_nonneg N0 Bη0
  have e1 : (2 * N + 12) * (12 * B * η) = 24 * (N * (B * η)) + 144 * (B * η) := by ring
  have e2 : (7 * N) * (12 * B * η) = 84 * (N * (B * η)) := by ring
  have e3 : u * (R + ((7 * N) * (12 * B * η) + 3 * η)) = u * R + u * (84 * (N * (B * η)) + 3 * η) := by ring
  have e4 : u * (84 * (N * (B * η)) + 3 * η) ≤ 1 / 100 * (84 * (N * (B * η)) + 3 * η) := mul_le_mul_of_nonneg_right hu (by linarith)
  have NB' : N * (B * η) ≤ B * (B * η) - B * η := by linarith
  rw [e3, e1, e2]
  refine ⟨?_, ?_, ?_⟩
  · by_cases hz : η = 0
    · rw [hz] at *
      linarith
    · have : 0 < η := lt_of_le_of_ne η0 (Ne.symm hz)
      linarith
  · linarith
  · by_cases hz : η = 0
    · rw [hz] at *
      linarith
    · have : 0 < η := lt_of_le_of_ne η0 (Ne.symm hz)
      linarith

/-- What the calibration gives: a bin width near `w`, a first bin near the one `z` bins below `e0`, and `z` bins reaching down to
the extension below 0. -/
structure RscNear (e0 w : ℚ) (n : ℕ) (δ extend B u a1 a0 : ℚ) (z : ℕ) : Prop where
  width : |a1 - w| ≤ 3 * (δ + u * (w * B))
  first : |a0 - (e0 - w * (z : ℚ))| ≤ 12 * B * (δ + u * (w * B))
  reach : |w * (z : ℚ) - (e0 + extend)| ≤ 2 * w
  size : w * ((z : ℚ) + n + 2) ≤ w * B

/-- **C114.** The axes of `rhosigchi` in floating point.  Both continue the axis of the matrix to lower energies by the same
number `z` of bins, and every bin is where it should be up to the accumulated error; but the number of bins is certain only
up to one: the axis of the spectra may have one bin more than it should have, and that of the uncertainties may have one more
again. -/
theorem C114_axes_partial (fl : ℚ → ℚ) (u : ℚ) (Ex : List ℚ) (e0 w : ℚ) (n : ℕ) (δ extend B : ℚ) (H : RscScale fl u Ex e0 w n δ extend B) :
    ∃ a1 a0 : ℚ, ∃ first second : List ℚ, ∃ z : ℕ, rscCalibF fl Ex extend = .ok (a1, a0) ∧ rscAxesF fl Ex extend = .ok (first, second) ∧
      RscNear e0 w n δ extend B u a1 a0 z ∧
      (first.length = z + n ∨ first.length = z + n + 1) ∧ (second.length = first.length ∨ second.length = first.length + 1) ∧
      (∀ k < first.length, |first.getD k 0 - (e0 + w * ((k : ℚ) - z))| ≤ (7 * (k : ℚ) + 5) * (12 * B * (δ + u * (w * B)))) ∧
      ∀ k < second.length, |second.getD k 0 - (e0 + w * ((k : ℚ) - z))| ≤ (7 * (k : ℚ) + 5) * (12 * B * (δ + u * (w * B))) := by
  obtain ⟨a1, a0, z, hcal, A1, A0, hzw, hzB⟩ := rscCalibF_near H
  obtain ⟨h, u0, hu, ⟨hlen, hnear⟩, hn, hw, he0, hext, hsize, hsmall⟩ := H
  have n0 := hnear 0 (by omega)
  have d0 : 0 ≤ δ := (abs_nonneg _).trans n0
  have hn2 : (2 : ℚ) ≤ n := by exact_mod_cast hn
  have z0 : (0 : ℚ) ≤ z := by positivity
  have wn : w * 2 ≤ w * (n : ℚ) := mul_le_mul_of_nonneg_left hn2 hw.le
  have hB5 : 5 ≤ B := by
    have : w * 5 ≤ w * B := by linarith
    exact le_of_mul_le_mul_left this hw
  have hzB' : (z : ℚ) + n + 2 ≤ B := le_of_mul_le_mul_left hzB hw
  set R := w * B with hR
  have R0 : 0 ≤ R := by positivity
  have uR0 : 0 ≤ u * R := mul_nonneg u0 R0
  set η := δ + u * R with hη
  have η0 : 0 ≤ η := by positivity
  have uRη : u * R ≤ η := by linarith
  have Bη : 5 * η ≤ B * η := mul_le_mul_of_nonneg_right hB5 η0
  have BBη : 5 * (B * η) ≤ B * (B * η) := mul_le_mul_of_nonneg_right hB5 (by linarith)
  have small : 300 * (B * (B * η)) ≤ w := by
    have : 300 * B ^ 2 * η = 300 * (B * (B * η)) := by ring
    linarith
  have hwR : w ≤ R := by linarith
  set ε := 12 * B * η with hε
  have ηε : 3 * η ≤ ε := by rw [hε]; linarith
  have A1' : |a1 - w| ≤ ε := by linarith
  have uRε : u * R ≤ ε := by linarith
  set A := e0 - w * (z : ℚ) with hA
  have hAR : |A| ≤ R := by
    rw [abs_le] at *
    constructor <;> linarith
  have hup : ∀ k : ℚ, 0 ≤ k → k ≤ (z : ℚ) + n + 1 → |A + w * k| ≤ R := by
    intro k k0 k1
    have m0 : 0 ≤ w * k := by positivity
    have m1 := mul_le_mul_of_nonneg_left k1 hw.le
    rw [abs_le] at *
    constructor <;> linarith
  have hA1 : |A + w| ≤ R := by
    have := hup 1 (by norm_num) (by linarith)
    rwa [mul_one] at this
  -- the first axis
  have l1 := hnear (n - 1) (by omega)
  have hcast : (((n - 1 : ℕ)) : ℚ) = (n : ℚ) - 1 := by
    rw [Nat.cast_sub (by omega)]
    push_cast
    rfl
  rw [hcast] at l1
  have e1 : |(Ex.getD (Ex.length - 1) 0 + a1) - (A + w * ((z + n : ℕ) : ℚ))| ≤ 4 * η := by
    rw [hlen]
    push_cast
    rw [abs_le] at *
    constructor <;> linarith
  have s1 := h.near u0 e1 (hup ((z + n : ℕ) : ℚ) (by positivity) (by push_cast; linarith))
  have uη : u * η ≤ 1 / 100 * η := mul_le_mul_of_nonneg_right hu η0
  have s2 : |fl (Ex.getD (Ex.length - 1) 0 + a1) - (A + w * ((z + n : ℕ) : ℚ))| ≤ 6 * η := by linarith
  have ar1 := (rsc_arith hw hB5 η0 (N := ((z + n : ℕ) : ℚ)) (by positivity) (by push_cast; linarith) hu small uRη).1
  have len1 := arangeF_length h u0 hu A0 A1' s2 hAR (hup ((z + n : ℕ) : ℚ) (by positivity) (by push_cast; linarith)) uRε hw ar1
  set first := arangeF fl a0 (fl (Ex.getD (Ex.length - 1) 0 + a1)) a1 with hfirst
  have hle : first.length ≤ z + n + 1 := by omega
  have hpos : 0 < first.length := by omega
  have bins1 : ∀ k < first.length, |first.getD k 0 - (A + w * (k : ℚ))| ≤ (7 * (k : ℚ) + 5) * ε := by
    intro k hk
    have : (k : ℚ) ≤ (z : ℚ) + n := by
      have : k ≤ z + n := by omega
      exact_mod_cast this
    exact arangeF_bins h u0 hu A0 A1' hAR hA1 uRε hw hk (hup k (by positivity) (by linarith))
  -- the second axis
  have hN1 : ((first.length : ℕ) : ℚ) ≤ (z : ℚ) + n + 1 := by exact_mod_cast hle
  have hNpos : (1 : ℚ) ≤ ((first.length : ℕ) : ℚ) := by exact_mod_cast hpos
  obtain ⟨ar2, ar3, ar4⟩ := rsc_arith hw hB5 η0 (N := ((first.length : ℕ) : ℚ)) (by positivity) (by linarith) hu small uRη
  have l2 := bins1 (first.length - 1) (by omega)
  have hcast2 : (((first.length - 1 : ℕ)) : ℚ) = ((first.length : ℕ) : ℚ) - 1 := by
    rw [Nat.cast_sub hpos]
    push_cast
    rfl
  rw [hcast2] at l2
  have e2 : |(first.getD (first.length - 1) 0 + a1) - (A + w * ((first.length : ℕ) : ℚ))| ≤ 7 * ((first.length : ℕ) : ℚ) * (12 * B * η) + 3 * η := by
    have hε0 : 0 ≤ ε := by linarith
    have : (7 * (((first.length : ℕ) : ℚ) - 1) + 5) * ε ≤ 7 * ((first.length : ℕ) : ℚ) * (12 * B * η) := by
      rw [← hε]
      nlinarith
    rw [abs_le] at *
    constructor <;> linarith
  have s3 := h.near u0 e2 (hup ((first.length : ℕ) : ℚ) (by positivity) hN1)
  have len2 := arangeF_length h u0 hu A0 A1' (s3.trans ar3) hAR (hup ((first.length : ℕ) : ℚ) (by positivity) hN1) uRε hw ar4
  set second := arangeF fl a0 (fl (first.getD (first.length - 1) 0 + a1)) a1 with hsecond
  have bins2 : ∀ k < second.length, |second.getD k 0 - (A + w * (k : ℚ))| ≤ (7 * (k : ℚ) + 5) * ε := by
    intro k hk
    have : (k : ℚ) ≤ (z : ℚ) + n + 1 := by
      have : k ≤ z + n + 1 := by omega
      exact_mod_cast this
    exact arangeF_bins h u0 hu A0 A1' hAR hA1 uRε hw hk (hup k (by positivity) (by linarith))
  have hlab : ∀ k : ℚ, e0 + w * (k - z) = A + w * k := by
    intro k
    rw [hA]
    ring
  refine ⟨a1, a0, first, second, z, hcal, ?_, ⟨A1, A0, hzw, hzB⟩, len1, len2, ?_, ?_⟩
  · unfold rscAxesF
    rw [hcal]
    simp only
    rw [if_neg]
    rw [← hfirst]
    omega
  · intro k hk
    rw [hlab]
    exact bins1 k hk
  · intro k hk
    rw [hlab]
    exact bins2 k hk

/-- An axis of 100.1 keV in doubles. -/
def keVAxis (n : ℕ) : List ℚ := (List.range n).map fun k : ℕ => dbl ((k : ℚ) * dbl (1001 / 10))

/-- Non-vacuity: twelve bins of 100.1 keV and the extension by 800 keV that is the default. -/
example : RscScale dbl (1 / 2 ^ 53) (keVAxis 12) 0 (1001 / 10) 12 (1 / 10 ^ 10) 800 24 where
  rounding := dbl_rounding
  unit0 := by norm_num
  unit := by norm_num
  axis := ⟨by decide +kernel, by decide +kernel⟩
  bins := by norm_num
  width := by norm_num
  start := by norm_num
  ext := by norm_num
  size := by norm_num
  small := by norm_num

/-- **C114, fails.** For twelve bins of 100.1 keV the two axes have 20 and 21 bins: spectra and uncertainties get different shapes.
The same happens for 0.1 MeV; there the first axis can also have a bin too many. -/
theorem C114_axes_fails :
    (rscAxesF dbl (keVAxis 12) 800).map (fun p => (p.1.length, p.2.length)) = .ok (20, 21) ∧
    (rscAxesF dbl (mevAxis [0, 100, 200, 300, 400, 500, 600, 700, 800, 900]) (dbl (1 / 5))).map (fun p => (p.1.length, p.2.length)) = .ok (12, 13) ∧
    (rscAxesF dbl ((List.range 4).map fun k : ℕ => dbl ((k : ℚ) * dbl (1 / 10))) (dbl (1 / 5))).map (fun p => (p.1.length, p.2.length)) = .ok (7, 8) := by
  refine ⟨by decide +kernel, by decide +kernel, by decide +kernel⟩

/-- **C114, fails.** With different shapes the error analysis raises an exception, whatever the spectra are, and so does `rhosigchi`. -/
theorem C114_shapes_fails {S : Type} (fit : List (List ℚ) → List ℚ → Except Err (List ℚ × List ℚ)) (next : S → (ℕ → ℕ → ℚ) × S)
    (mat std : List (List ℚ)) (l : RscLims) (nunc : ℕ) (g : S) (hs : mat.length ≠ std.length) (hn : 1 ≤ nunc) :
    (∀ base, rscRun fit mat std l = .ok base → rscFitE fit next mat std l nunc g = .error .valueError) ∧
    ∃ e, rscFitE fit next mat std l nunc g = .error e := by
  obtain ⟨k, rfl⟩ : ∃ k, nunc = k + 1 := ⟨nunc - 1, by omega⟩
  have key : ∀ base, rscRun fit mat std l = .ok base → rscFitE fit next mat std l (k + 1) g = .error .valueError := by
    intro base hb
    unfold rscFitE
    rw [hb]
    simp only [bind, Except.bind, rscRuns, rscPerturbE, if_neg hs]
  refine ⟨key, ?_⟩
  cases hb : rscRun fit mat std l with
  | ok base => exact ⟨_, key base hb⟩
  | error e =>
    refine ⟨e, ?_⟩
    unfold rscFitE
    rw [hb]
    rfl

/-- **C114.** With equal shapes nothing changes. -/
theorem C114_shapes {S : Type} (fit : List (List ℚ) → List ℚ → Except Err (List ℚ × List ℚ)) (next : S → (ℕ → ℕ → ℚ) × S)
    (mat std : List (List ℚ)) (l : RscLims) (nunc : ℕ) (g : S) (hs : mat.length = std.length) :
    rscFitE fit next mat std l nunc g = rscFit fit next mat std l nunc g := by
  unfold rscFitE rscFit rscPerturbE
  simp only [if_pos hs, Except.bind]

example : ([[1, 2], [3, 4]] : List (List ℚ)).length ≠ ([[1, 1, 1], [1, 1, 1], [1, 1, 1]] : List (List ℚ)).length ∧ 1 ≤ 50 := by decide

/-! ### Limits -/

/-- **C114.** The limits of the fit are bins closest to the energies asked for, up to the accumulated error. -/
theorem C114_limits {fl : ℚ → ℚ} {u : ℚ} {Ex : List ℚ} {e0 w : ℚ} {n : ℕ} {δ extend B : ℚ} (H : RscScale fl u Ex e0 w n δ extend B)
    {a1 a0 : ℚ} {z : ℕ} (Z : RscNear e0 w n δ extend B u a1 a0 z) :
    (∀ E, e0 - w * (z : ℚ) ≤ E → E ≤ w * B →
      |(e0 + w * ((rscIndexF fl a0 a1 E : ℚ) - z)) - E| ≤ w / 2 + 30 * B * (δ + u * (w * B))) ∧
    |w * (rscOffsetF fl a0 a1 : ℚ) - (|e0 - w * (z : ℚ)|)| ≤ w / 2 + 30 * B * (δ + u * (w * B)) := by
  obtain ⟨A1, A0, hzw, hzB⟩ := Z
  obtain ⟨h, u0, hu, ⟨hlen, hnear⟩, hn, hw, he0, hext, hsize, hsmall⟩ := H
  have n0 := hnear 0 (by omega)
  have d0 : 0 ≤ δ := (abs_nonneg _).trans n0
  have hn2 : (2 : ℚ) ≤ n := by exact_mod_cast hn
  have z0 : (0 : ℚ) ≤ z := by positivity
  have wn : w * 2 ≤ w * (n : ℚ) := mul_le_mul_of_nonneg_left hn2 hw.le
  have hB5 : 5 ≤ B := by
    have : w * 5 ≤ w * B := by linarith
    exact le_of_mul_le_mul_left this hw
  set R := w * B with hR
  have R0 : 0 ≤ R := by positivity
  have uR0 : 0 ≤ u * R := mul_nonneg u0 R0
  set η := δ + u * R with hη
  have η0 : 0 ≤ η := by positivity
  have uRη : u * R ≤ η := by linarith
  have Bη : 5 * η ≤ B * η := mul_le_mul_of_nonneg_right hB5 η0
  have BBη : 5 * (B * η) ≤ B * (B * η) := mul_le_mul_of_nonneg_right hB5 (by linarith)
  have small : 300 * (B * (B * η)) ≤ w := by
    have : 300 * B ^ 2 * η = 300 * (B * (B * η)) := by ring
    linarith
  have hwR : w ≤ R := by linarith
  have w3 : 10 * (3 * η) ≤ w := by linarith
  have e12 : 12 * B * η = 12 * (B * η) := by ring
  have e30 : 30 * B * η = 30 * (B * η) := by ring
  rw [e12] at A0
  rw [e30]
  set A := e0 - w * (z : ℚ) with hA
  have hAR : |A| ≤ R := by
    rw [abs_le] at *
    constructor <;> linarith
  -- from the number before the truncation to the bin
  have fin : ∀ (v x : ℚ), 0 ≤ x → |v - (x + 1 / 2)| * w ≤ 30 * (B * η) → |w * (truncZ v : ℚ) - w * x| ≤ w / 2 + 30 * (B * η) := by
    intro v x hx hv
    have hv' : |v * w - (x * w + w / 2)| ≤ 30 * (B * η) := by
      have : v * w - (x * w + w / 2) = (v - (x + 1 / 2)) * w := by ring
      rw [this, abs_mul, abs_of_pos hw]
      exact hv
    rw [abs_le] at hv'
    have xw : 0 ≤ x * w := by positivity
    have vlow : 0 ≤ v := by
      have : 0 * w ≤ v * w := by linarith
      exact le_of_mul_le_mul_right this hw
    rw [truncZ_of_nonneg vlow]
    have f1 := mul_le_mul_of_nonneg_right (Int.floor_le v) hw.le
    have f2 := mul_le_mul_of_nonneg_right (Int.lt_floor_add_one v).le hw.le
    rw [abs_le]
    constructor <;> linarith
  constructor
  · intro E hE1 hE2
    have ER : |E| ≤ R := by
      rw [abs_le] at *
      constructor <;> linarith
    set x := (E - A) / w with hx
    have hxw : w * x = E - A := by rw [hx]; field_simp
    have x0 : 0 ≤ x := div_nonneg (by linarith) hw.le
    have g1 : |(E - a0) - w * x| ≤ 12 * (B * η) := by
      rw [hxw]
      rw [abs_le] at *
      constructor <;> linarith
    have r : |w * x| ≤ 2 * R := by
      rw [hxw]
      rw [abs_le] at *
      constructor <;> linarith
    have g2 := h.near u0 g1 r
    have uB : u * (12 * (B * η)) ≤ 1 / 100 * (12 * (B * η)) := mul_le_mul_of_nonneg_right hu (by linarith)
    have g3 : |fl (E - a0) - w * x| ≤ 126 / 10 * (B * η) := by linarith
    have g4 := divide_near h u0 hu g3 A1 r (by linarith) hw w3 (by linarith)
    have xB : |x| ≤ 2 * B := by
      rw [abs_of_nonneg x0]
      have : x * w ≤ 2 * B * w := by
        rw [abs_le] at r
        linarith
      exact le_of_mul_le_mul_right this hw
    have xη := mul_le_mul_of_nonneg_right xB η0
    have g4' : |fl (fl (E - a0) / a1) - x| * w ≤ 232 / 10 * (B * η) := by linarith
    have g5 := half_near h u0 hu g4' hw (R := R) (ε := η) (by
      rw [abs_of_nonneg x0]
      rw [abs_le] at r
      linarith) uRη hwR
    have := fin (fl (fl (fl (E - a0) / a1) + 1 / 2)) x x0 (by linarith)
    have e : (e0 + w * ((rscIndexF fl a0 a1 E : ℚ) - z)) - E = w * (rscIndexF fl a0 a1 E : ℚ) - w * x := by
      rw [hxw, hA]
      ring
    rw [e]
    exact this
  · set x := A / w with hx
    have hxw : w * x = A := by rw [hx]; field_simp
    have g1 : |a0 - w * x| ≤ 12 * (B * η) := by rw [hxw]; exact A0
    have r : |w * x| ≤ 2 * R := by rw [hxw]; linarith
    have g4 := divide_near h u0 hu g1 A1 r (by linarith) hw w3 (by linarith)
    have xa : |x| * w = |A| := by rw [← hxw, abs_mul, abs_of_pos hw, mul_comm]
    have xB : |x| ≤ 2 * B := by
      have : |x| * w ≤ 2 * B * w := by linarith
      exact le_of_mul_le_mul_right this hw
    have xη := mul_le_mul_of_nonneg_right xB η0
    have g5 : |(|fl (a0 / a1)| - |x|)| * w ≤ 23 * (B * η) := by
      have := mul_le_mul_of_nonneg_right (abs_abs_sub_abs_le (fl (a0 / a1)) x) hw.le
      linarith
    have g6 := half_near h u0 hu g5 hw (R := R) (ε := η) (by rw [abs_abs]; linarith) uRη hwR
    have := fin (fl (|fl (a0 / a1)| + 1 / 2)) |x| (abs_nonneg _) (by linarith)
    rw [mul_comm w |x|, xa] at this
    exact this

/-! ### Exact cases -/

/-- **C114.** Without rounding this is the calculation of C55. -/
theorem C114_exact (Ex : List ℚ) (extend a b c E : ℚ) :
    arangeF (fun q => q) a b c = arange a b c ∧ rscCalibF (fun q => q) Ex extend = rscCalib Ex extend ∧
    rscLimits a c E E E = (rscIndexF (fun q => q) a c E, rscIndexF (fun q => q) a c E, rscIndexF (fun q => q) a c E + 1, rscOffsetF (fun q => q) a c) := by
  refine ⟨?_, ?_, rfl⟩
  · unfold arangeF arange
    apply List.map_congr_left
    intro k _
    simp only
    split_ifs with h0 h1
    · rw [h0]; push_cast; ring
    · rw [h1]; push_cast; ring
    · ring
  · unfold rscCalibF rscCalib
    rfl

/-- Whole numbers as bins. -/
theorem arangeF_whole (A W : ℤ) (N : ℕ) (hW : 0 < W) (hA : |A| ≤ 2 ^ 50) (hN : W * N ≤ 2 ^ 50) :
    arangeF dbl (A : ℚ) ((A : ℚ) + (W : ℚ) * N) (W : ℚ) = grid (A : ℚ) (W : ℚ) N := by
  have fl : ∀ (q : ℚ) (m : ℤ), q = (m : ℚ) → |m| ≤ 2 ^ 53 → dbl q = q := by
    intro q m hq hm
    rw [hq]
    exact dbl_int m hm
  have hWq : (0 : ℚ) < W := by exact_mod_cast hW
  rw [abs_le] at hA
  have hWN : 0 ≤ W * (N : ℤ) := by positivity
  have hNN : (N : ℤ) ≤ W * N := le_mul_of_one_le_left (by positivity) hW
  have hW2 : 1 ≤ N → W ≤ W * (N : ℤ) := by
    intro h1
    have : (1 : ℤ) ≤ N := by exact_mod_cast h1
    exact le_mul_of_one_le_right hW.le this
  unfold arangeF grid
  have e1 : dbl ((A : ℚ) + (W : ℚ) * N - A) = (W : ℚ) * N := by
    rw [fl _ (W * N) (by push_cast; ring) (by rw [abs_le]; constructor <;> linarith)]
    ring
  have e2 : (W : ℚ) * N / W = (((N : ℕ) : ℤ) : ℚ) := by
    rw [mul_div_cancel_left₀ _ hWq.ne']
    push_cast
    rfl
  rw [e1, e2, dbl_int _ (by rw [abs_le]; constructor <;> linarith), Int.ceil_intCast, Int.toNat_natCast]
  apply List.map_congr_left
  intro k hk
  rw [List.mem_range] at hk
  have hWN1 := hW2 (by omega)
  have hk2 : W * (k : ℤ) ≤ W * N := mul_le_mul_of_nonneg_left (by exact_mod_cast hk.le) hW.le
  have hk0 : 0 ≤ W * (k : ℤ) := by positivity
  have e3 : dbl ((A : ℚ) + W) = (A : ℚ) + W := fl _ (A + W) (by push_cast; ring) (by rw [abs_le]; constructor <;> linarith)
  split_ifs with h0 h1
  · rw [h0]; push_cast; ring
  · rw [h1, e3]; push_cast; ring
  · rw [e3, add_sub_cancel_left, dbl_int W (by rw [abs_le]; constructor <;> linarith),
      fl ((k : ℚ) * W) (W * k) (by push_cast; ring) (by rw [abs_le]; constructor <;> linarith),
      fl ((A : ℚ) + (k : ℚ) * W) (A + W * k) (by push_cast; ring) (by rw [abs_le]; constructor <;> linarith)]
    ring

/-- `int(extend/a1 + 0.5)` is exact for whole numbers. -/
theorem half_whole (e W : ℤ) (hW : 0 < W) (he : 0 ≤ e) (he2 : e ≤ 2 ^ 48) (hW2 : W ≤ 2 ^ 48) :
    truncZ (dbl (dbl ((e : ℚ) / W) + 1 / 2)) = truncZ ((e : ℚ) / W + 1 / 2) := by
  have hWq : (0 : ℚ) < W := by exact_mod_cast hW
  have hW1 : (1 : ℚ) ≤ W := by exact_mod_cast hW
  have heq : (0 : ℚ) ≤ e := by exact_mod_cast he
  have he2q : (e : ℚ) ≤ 2 ^ 48 := by exact_mod_cast he2
  have hW2q : (W : ℚ) ≤ 2 ^ 48 := by exact_mod_cast hW2
  have r0 : (0 : ℚ) ≤ (e : ℚ) / W := by positivity
  have re : (e : ℚ) / W ≤ e := div_le_self heq hW1
  set r := (e : ℚ) / W with hr
  have hrW : r * W = e := by rw [hr]; field_simp
  set k := ⌊r + 1 / 2⌋ with hk
  have k1 : (k : ℚ) ≤ r + 1 / 2 := Int.floor_le _
  have k2 : r + 1 / 2 < k + 1 := Int.lt_floor_add_one _
  have k0 : 0 ≤ k := Int.floor_nonneg.2 (by linarith)
  have k0q : (0 : ℚ) ≤ k := by exact_mod_cast k0
  have kbq : (k : ℚ) ≤ 2 ^ 49 := by norm_num at *; linarith
  have kb : k ≤ 2 ^ 49 := by exact_mod_cast kbq
  -- from below
  have low : (k : ℚ) ≤ dbl (dbl r + 1 / 2) := by
    have h1 : (k : ℚ) - 1 / 2 ≤ dbl r := by
      have h2 := C111_double_exact (2 * k - 1) (-1) (by rw [abs_le]; constructor <;> norm_num at * <;> linarith)
      have h3 : ((2 * k - 1 : ℤ) : ℚ) * (2 : ℚ) ^ (-1 : ℤ) = (k : ℚ) - 1 / 2 := by
        push_cast
        rw [zpow_neg, zpow_one]
        ring
      rw [h3] at h2
      rw [← h2]
      exact C111_double_mono (by linarith)
    have h4 := dbl_int k (by rw [abs_le]; constructor <;> norm_num at * <;> linarith)
    rw [← h4]
    exact C111_double_mono (by linarith)
  -- from above
  have gap : r + 1 / 2 ≤ (k : ℚ) + 1 - 1 / (2 * W) := by
    have h1 : 2 * e + W < 2 * W * (k + 1) := by
      have : (2 : ℚ) * e + W < 2 * W * (k + 1) := by
        have := mul_lt_mul_of_pos_right k2 hWq
        nlinarith
      exact_mod_cast this
    have h2 : (2 : ℚ) * e + W + 1 ≤ 2 * W * (k + 1) := by exact_mod_cast h1
    have h3 : (r + 1 / 2) * (2 * W) ≤ ((k : ℚ) + 1 - 1 / (2 * W)) * (2 * W) := by
      have : ((k : ℚ) + 1 - 1 / (2 * W)) * (2 * W) = 2 * W * (k + 1) - 1 := by field_simp
      rw [this]
      nlinarith
    exact le_of_mul_le_mul_right h3 (by linarith)
  have up : dbl (dbl r + 1 / 2) < (k : ℚ) + 1 := by
    have h1 := (abs_le.1 (C111_double_near r)).2
    rw [abs_of_nonneg r0] at h1
    have d0 : 0 ≤ dbl r := by
      have := C111_double_mono r0
      rwa [show dbl 0 = 0 by decide +kernel] at this
    have h2 := (abs_le.1 (C111_double_near (dbl r + 1 / 2))).2
    rw [abs_of_nonneg (by linarith)] at h2
    have h3 : (3 * r + 1) / 2 ^ 53 < 1 / (2 * W) := by
      rw [div_lt_div_iff₀ (by norm_num) (by linarith)]
      have : (3 * r + 1) * (2 * W) = 6 * e + 2 * W := by
        rw [← hrW]
        ring
      rw [this]
      norm_num at *
      linarith
    have h4 : dbl r ≤ 2 * r := by
      have : r / 2 ^ 53 ≤ r := div_le_self r0 (by norm_num)
      linarith
    have h5 : (dbl r + 1 / 2) / 2 ^ 53 ≤ (2 * r + 1 / 2) / 2 ^ 53 := by
      apply div_le_div_of_nonneg_right (by linarith) (by norm_num)
    have h6 : r / 2 ^ 53 + (2 * r + 1 / 2) / 2 ^ 53 ≤ (3 * r + 1) / 2 ^ 53 := by
      rw [← add_div]
      apply div_le_div_of_nonneg_right (by linarith) (by norm_num)
    linarith
  rw [truncZ_of_nonneg (by linarith), truncZ_of_nonneg (by linarith), ← hk, Int.floor_eq_iff]
  exact ⟨low, up⟩

/-- **C114.** Axes in whole numbers that contain 0 when they are continued (the first bin is a multiple of the width), such as a calibration
in keV, are extended exactly: both matrices get the same axis, the one of exact arithmetic. -/
theorem C114_whole_partial (t W e : ℤ) (n : ℕ) (hn : 2 ≤ n) (hW : 0 < W) (ht : 0 ≤ t) (he : 0 ≤ e) (h1 : W * t ≤ 2 ^ 47) (h2 : W * n ≤ 2 ^ 47) (h3 : e ≤ 2 ^ 47) :
    ∃ a0 : ℚ, ∃ k : ℕ, rscCalib (grid ((W * t : ℤ) : ℚ) (W : ℚ) n) (e : ℚ) = .ok ((W : ℚ), a0) ∧
      rscCalibF dbl (grid ((W * t : ℤ) : ℚ) (W : ℚ) n) (e : ℚ) = .ok ((W : ℚ), a0) ∧
      rscAxesF dbl (grid ((W * t : ℤ) : ℚ) (W : ℚ) n) (e : ℚ) = .ok (grid a0 (W : ℚ) (k + n), grid a0 (W : ℚ) (k + n)) ∧
      ∀ i < n, (grid a0 (W : ℚ) (k + n)).getD (k + i) 0 = (grid ((W * t : ℤ) : ℚ) (W : ℚ) n).getD i 0 := by
  have hWq : (0 : ℚ) < W := by exact_mod_cast hW
  have hWn : W ≤ W * (n : ℤ) := le_mul_of_one_le_right hW.le (by exact_mod_cast (by omega : 1 ≤ n))
  have hWt : 0 ≤ W * t := by positivity
  set c := truncZ ((e : ℚ) / W + 1 / 2) with hc
  have r0 : (0 : ℚ) ≤ (e : ℚ) / W := by
    have : (0 : ℚ) ≤ e := by exact_mod_cast he
    positivity
  have c0 : 0 ≤ c := by
    rw [hc, truncZ_of_nonneg (by linarith)]
    exact Int.floor_nonneg.2 (by linarith)
  have cW : 2 * (c * W) ≤ 2 * e + W := by
    have : (c : ℚ) ≤ (e : ℚ) / W + 1 / 2 := by
      rw [hc, truncZ_of_nonneg (by linarith)]
      exact Int.floor_le _
    have h4 := mul_le_mul_of_nonneg_right this hWq.le
    have h5 : ((e : ℚ) / W + 1 / 2) * W = e + W / 2 := by field_simp
    rw [h5] at h4
    have : (2 : ℚ) * (c * W) ≤ 2 * e + W := by linarith
    exact_mod_cast this
  have cW0 : 0 ≤ c * W := by positivity
  have hch := half_whole e W hW he (by linarith) (by linarith)
  rw [← hc] at hch
  obtain ⟨j, rfl⟩ : ∃ j, n = j + 2 := ⟨n - 2, by omega⟩
  have hgrid : grid ((W * t : ℤ) : ℚ) (W : ℚ) (j + 2) = ((W * t : ℤ) : ℚ) :: (((W * t : ℤ) : ℚ) + W) :: (grid ((W * t : ℤ) : ℚ) (W : ℚ) (j + 2)).drop 2 := by
    simp [grid, List.range_succ_eq_map]
  have hq : ((W * t : ℤ) : ℚ) / W = (t : ℚ) := by
    push_cast
    field_simp
  have tb : |t| ≤ 2 ^ 53 := by
    have : t ≤ W * t := le_mul_of_one_le_left ht hW
    rw [abs_le]
    constructor <;> linarith
  have dW : dbl (W : ℚ) = W := dbl_int W (by rw [abs_le]; constructor <;> linarith)
  have d0 : dbl 0 = 0 := by decide +kernel
  have hexact : rscCalib (grid ((W * t : ℤ) : ℚ) (W : ℚ) (j + 2)) (e : ℚ) = .ok ((W : ℚ), ((-(c * W) : ℤ) : ℚ)) := by
    rw [hgrid]
    unfold rscCalib
    simp only [add_sub_cancel_left]
    rw [if_neg hWq.ne', hq, truncZ_int, ← hc]
    congr 2
    push_cast
    ring
  have hfl : rscCalibF dbl (grid ((W * t : ℤ) : ℚ) (W : ℚ) (j + 2)) (e : ℚ) = .ok ((W : ℚ), ((-(c * W) : ℤ) : ℚ)) := by
    rw [hgrid]
    unfold rscCalibF
    simp only [add_sub_cancel_left]
    rw [dW, if_neg hWq.ne', hq, dbl_int t tb, truncZ_int, sub_self, d0, zero_mul, d0, zero_sub, hch]
    congr 2
    have e1 : dbl ((c : ℚ) * W) = ((c * W : ℤ) : ℚ) := by
      rw [← dbl_int (c * W) (by rw [abs_le]; constructor <;> linarith)]
      congr 1
      push_cast
      ring
    rw [e1]
    have e2 : (-((c * W : ℤ) : ℚ)) = ((-(c * W) : ℤ) : ℚ) := by push_cast; ring
    rw [e2, dbl_int _ (by rw [abs_le]; constructor <;> linarith)]
  have hz : (((t + c).toNat : ℕ) : ℤ) = t + c := Int.toNat_of_nonneg (by omega)
  have hzq : (((t + c).toNat : ℕ) : ℚ) = (t : ℚ) + c := by exact_mod_cast hz
  have ar := arangeF_whole (-(c * W)) W ((t + c).toNat + (j + 2)) hW (by rw [abs_le]; constructor <;> linarith) (by
    push_cast at h2 ⊢
    rw [hz]
    nlinarith)
  have hlast : ∀ N : ℕ, 1 ≤ N → ∀ a : ℚ, (grid a (W : ℚ) N).getD ((grid a (W : ℚ) N).length - 1) 0 + W = a + W * N := by
    intro N hN a
    rw [grid_length, grid_getD _ _ (by omega), Nat.cast_sub hN]
    push_cast
    ring
  have hstop : ((W * t : ℤ) : ℚ) + W * ((j + 2 : ℕ) : ℚ) = ((-(c * W) : ℤ) : ℚ) + (W : ℚ) * (((t + c).toNat + (j + 2) : ℕ) : ℚ) := by
    push_cast
    rw [hzq]
    ring
  have dstop : dbl (((-(c * W) : ℤ) : ℚ) + (W : ℚ) * (((t + c).toNat + (j + 2) : ℕ) : ℚ)) = ((-(c * W) : ℤ) : ℚ) + (W : ℚ) * (((t + c).toNat + (j + 2) : ℕ) : ℚ) := by
    rw [← hstop]
    have : ((W * t : ℤ) : ℚ) + W * ((j + 2 : ℕ) : ℚ) = ((W * t + W * ((j + 2 : ℕ) : ℤ) : ℤ) : ℚ) := by push_cast; ring
    rw [this]
    apply dbl_int
    rw [abs_le]
    constructor
    · have : 0 ≤ W * ((j + 2 : ℕ) : ℤ) := by positivity
      linarith
    · linarith
  refine ⟨_, (t + c).toNat, hexact, hfl, ?_, ?_⟩
  · unfold rscAxesF
    rw [hfl]
    simp only
    rw [hlast _ (by omega), hstop, dstop, ar, if_neg (by
      rw [grid_length]
      omega), hlast _ (by omega), dstop, ar]
  · intro i hi
    rw [grid_getD _ _ (by omega), grid_getD _ _ hi]
    push_cast
    rw [hzq]
    ring

/-- Non-vacuity: 100 keV from 300 keV, extended by 800 keV. -/
example : (rscAxesF dbl (grid 300 100 5) 800) = .ok (grid (-800) 100 16, grid (-800) 100 16) := by decide +kernel

/-- **C114, fails.** Whole numbers are not enough: 43 bins of 240 keV from 441 keV, extended by 100 keV, give 44 and 45 bins. -/
theorem C114_whole_fails : (rscAxesF dbl (grid 441 240 43) 100).map (fun p => (p.1.length, p.2.length)) = .ok (44, 45) := by decide +kernel

end Ompy
