import Verif.RebinRounding
import Verif.RebinProps
import Verif.RoundingProps

/-!
# Property C112: `rebin_1D` in floating point
-/

namespace Ompy

open MeasureTheory

/-! ### Numbers -/

theorem Rounding.near {fl : ℚ → ℚ} {u : ℚ} (h : Rounding fl u) (u0 : 0 ≤ u) {x y e r : ℚ} (hx : |x - y| ≤ e)
    (hy : |y| ≤ r) : |fl x - y| ≤ e + u * (r + e) := by
  have h1 := h.rel x
  have h2 : |x| ≤ r + e := by
    have := abs_add_le y (x - y)
    rw [add_sub_cancel] at this
    linarith
  have h3 := abs_add_le (fl x - x) (x - y)
  rw [sub_add_sub_cancel] at h3
  have h4 := mul_le_mul_of_nonneg_left h2 u0
  linarith

/-- The width read from two mid-points that are off by `δ`. -/
theorem width_near {fl : ℚ → ℚ} {u : ℚ} (h : Rounding fl u) (u0 : 0 ≤ u) {m0 m1 a w δ R : ℚ} (h0 : |m0 - a| ≤ δ)
    (h1 : |m1 - (a + w)| ≤ δ) (hw : |w| ≤ R) (hu : u ≤ 1 / 100) :
    |fl (m1 - m0) - w| ≤ 3 * (δ + u * R) := by
  have d0 : 0 ≤ δ := (abs_nonneg _).trans h0
  have e : |(m1 - m0) - w| ≤ 2 * δ := by
    rw [abs_le] at *
    constructor <;> linarith
  have := h.near u0 e hw
  have R0 : 0 ≤ R := (abs_nonneg _).trans hw
  have : 0 ≤ u * R := mul_nonneg u0 R0
  nlinarith

theorem lowest_near {fl : ℚ → ℚ} {u : ℚ} (h : Rounding fl u) (u0 : 0 ≤ u) {m0 a1 a w δ R : ℚ} (h0 : |m0 - a| ≤ δ)
    (h1 : |a1 - w| ≤ 3 * (δ + u * R)) (hw : |w| ≤ R) (ha : |a - w / 2| ≤ R) (hu : u ≤ 1 / 100) :
    |fl (m0 - fl (a1 / 2)) - (a - w / 2)| ≤ 42 / 10 * (δ + u * R) := by
  have d0 : 0 ≤ δ := (abs_nonneg _).trans h0
  have R0 : 0 ≤ R := (abs_nonneg _).trans hw
  have hη : 0 ≤ u * R := mul_nonneg u0 R0
  generalize hg : δ + u * R = η at *
  have η0 : 0 ≤ η := by linarith
  have e1 : |a1 / 2 - w / 2| ≤ 3 / 2 * η := by
    rw [← sub_div, abs_div, abs_of_pos (by norm_num : (0 : ℚ) < 2)]
    linarith
  have w2 : |w / 2| ≤ R / 2 := by
    rw [abs_div, abs_of_pos (by norm_num : (0 : ℚ) < 2)]
    linarith
  have e2 := h.near u0 e1 w2
  have uη : u * η ≤ 1 / 100 * η := mul_le_mul_of_nonneg_right hu η0
  have e3 : |fl (a1 / 2) - w / 2| ≤ 21 / 10 * η := by nlinarith
  have e4 : |(m0 - fl (a1 / 2)) - (a - w / 2)| ≤ 31 / 10 * η := by
    rw [abs_le] at *
    constructor <;> linarith
  have e5 := h.near u0 e4 ha
  nlinarith

theorem edge_near {fl : ℚ → ℚ} {u : ℚ} (h : Rounding fl u) (u0 : 0 ≤ u) {a0 a1 A w k K η R : ℚ}
    (h0 : |a0 - A| ≤ 42 / 10 * η) (h1 : |a1 - w| ≤ 3 * η) (hk : |k| ≤ K) (hwk : |w * k| ≤ R) (hA : |A + w * k| ≤ R)
    (hη : u * R ≤ η) (η0 : 0 ≤ η) (hu : u ≤ 1 / 100) :
    |edgeF fl a0 a1 k - (A + w * k)| ≤ (31 / 10 * K + 63 / 10) * η := by
  unfold edgeF
  have K0 : 0 ≤ K := (abs_nonneg _).trans hk
  have e1 : |a1 * k - w * k| ≤ 3 * K * η := by
    rw [← sub_mul, abs_mul]
    have := mul_le_mul h1 hk (abs_nonneg _) (by positivity)
    linarith
  have e2 := h.near u0 e1 hwk
  have Kη : 0 ≤ K * η := mul_nonneg K0 η0
  have uK : u * (K * η) ≤ 1 / 100 * (K * η) := mul_le_mul_of_nonneg_right hu Kη
  have uη : u * η ≤ 1 / 100 * η := mul_le_mul_of_nonneg_right hu η0
  have e3 : |fl (a1 * k) - w * k| ≤ (303 / 100 * K + 1) * η := by nlinarith
  have e4 : |(a0 + fl (a1 * k)) - (A + w * k)| ≤ (303 / 100 * K + 52 / 10) * η := by
    rw [abs_le] at *
    constructor <;> linarith
  have e5 := h.near u0 e4 hA
  nlinarith

theorem upper_near {fl : ℚ → ℚ} {u : ℚ} (h : Rounding fl u) (u0 : 0 ≤ u) {l a1 L w K η R : ℚ}
    (h0 : |l - L| ≤ (31 / 10 * K + 63 / 10) * η) (h1 : |a1 - w| ≤ 3 * η) (K0 : 0 ≤ K) (hA : |L + w| ≤ R)
    (hη : u * R ≤ η) (η0 : 0 ≤ η) (hu : u ≤ 1 / 100) :
    |fl (l + a1) - (L + w)| ≤ (4 * K + 12) * η := by
  have e1 : |(l + a1) - (L + w)| ≤ (31 / 10 * K + 93 / 10) * η := by
    rw [abs_le] at *
    constructor <;> linarith
  have e2 := h.near u0 e1 hA
  have Kη : 0 ≤ K * η := mul_nonneg K0 η0
  have uK : u * (K * η) ≤ 1 / 100 * (K * η) := mul_le_mul_of_nonneg_right hu Kη
  have uη : u * η ≤ 1 / 100 * η := mul_le_mul_of_nonneg_right hu η0
  nlinarith

theorem position_near {fl : ℚ → ℚ} {u : ℚ} (h : Rounding fl u) (u0 : 0 ≤ u) {x X a0 A a1 ε η R : ℚ}
    (hx : |x - X| ≤ ε) (ha : |a0 - A| ≤ 42 / 10 * η) (hX : |X| ≤ R) (hA : |A| ≤ R) (h1 : 0 < a1)
    (hη : u * R ≤ η) (η0 : 0 ≤ η) (hε : 12 * η ≤ ε) (hu : u ≤ 1 / 100) :
    |fl (fl (x - a0) / a1) * a1 - (X - A)| ≤ 9 / 4 * ε := by
  have e1 : |(x - a0) - (X - A)| ≤ ε + 42 / 10 * η := by
    rw [abs_le] at *
    constructor <;> linarith
  have r : |X - A| ≤ 2 * R := by
    rw [abs_le] at *
    constructor <;> linarith
  have e2 := h.near u0 e1 r
  have uη : u * η ≤ 1 / 100 * η := mul_le_mul_of_nonneg_right hu η0
  have ε0 : 0 ≤ ε := by linarith
  have uε : u * ε ≤ 1 / 100 * ε := mul_le_mul_of_nonneg_right hu ε0
  generalize hy : fl (x - a0) = y at *
  have e3 : |y - (X - A)| ≤ 101 / 100 * ε + 63 / 10 * η := by nlinarith
  have e4 : |y| ≤ 2 * R + (101 / 100 * ε + 63 / 10 * η) := by
    rw [abs_le] at *
    constructor <;> linarith
  have e5 := h.rel (y / a1)
  rw [abs_div, abs_of_pos h1] at e5
  have e6 : |fl (y / a1) * a1 - y| ≤ u * |y| := by
    have : fl (y / a1) * a1 - y = (fl (y / a1) - y / a1) * a1 := by field_simp
    rw [this, abs_mul, abs_of_pos h1]
    calc |fl (y / a1) - y / a1| * a1 ≤ u * (|y| / a1) * a1 := mul_le_mul_of_nonneg_right e5 h1.le
      _ = u * |y| := by field_simp
  have e7 := mul_le_mul_of_nonneg_left e4 u0
  have e8 : |fl (y / a1) * a1 - y| ≤ 2 * η + 102 / 10000 * ε + 63 / 1000 * η := by nlinarith
  rw [abs_le] at *
  constructor <;> linarith

theorem overlap_near {fl : ℚ → ℚ} {u : ℚ} (h : Rounding fl u) (u0 : 0 ≤ u) {a b c d A B C D ε η R : ℚ}
    (ha : |a - A| ≤ ε) (hb : |b - B| ≤ ε) (hc : |c - C| ≤ ε) (hd : |d - D| ≤ ε)
    (hA : |A| ≤ R) (hB : |B| ≤ R) (hC : |C| ≤ R) (hD : |D| ≤ R)
    (hη : u * R ≤ η) (hε : 12 * η ≤ ε) (η0 : 0 ≤ η) (hu : u ≤ 1 / 100) :
    |overlapF fl a b c d - overlap A B C D| ≤ 9 / 4 * ε := by
  have e1 : |min d b - min D B| ≤ ε := (abs_min_sub_min_le_max d b D B).trans (max_le hd hb)
  have e2 : |max c a - max C A| ≤ ε := (abs_max_sub_max_le_max c a C A).trans (max_le hc ha)
  have e3 : |(min d b - max c a) - (min D B - max C A)| ≤ 2 * ε := by
    rw [abs_le] at *
    constructor <;> linarith
  have r1 : |min D B| ≤ R := by
    rcases min_choice D B with h | h <;> rw [h] <;> assumption
  have r2 : |max C A| ≤ R := by
    rcases max_choice C A with h | h <;> rw [h] <;> assumption
  have r : |min D B - max C A| ≤ 2 * R := by
    rw [abs_le] at *
    constructor <;> linarith
  have e4 := h.near u0 e3 r
  have ε0 : 0 ≤ ε := by linarith
  have uε : u * ε ≤ 1 / 100 * ε := mul_le_mul_of_nonneg_right hu ε0
  unfold overlapF overlap
  refine (abs_max_sub_max_le_max _ _ _ _).trans (max_le ?_ ?_)
  · simp only [sub_self, abs_zero]
    linarith
  · nlinarith

theorem term_near {fl : ℚ → ℚ} {u : ℚ} (h : Rounding fl u) (u0 : 0 ≤ u) {c o O a1 w ε η : ℚ}
    (ho : |o - O| ≤ 9 / 4 * ε) (o0 : 0 ≤ o) (O0 : 0 ≤ O) (hO : O ≤ w) (ha : |a1 - w| ≤ 3 * η) (hε : 12 * η ≤ ε) (hw : 4 * ε ≤ w)
    (η0 : 0 ≤ η) (w0 : 0 < w) (hu : u ≤ 1 / 100) :
    |fl (fl (c * o) / a1) - c * (O / w)| ≤ |c| * (3 * ε / w + 5 * u) := by
  have a0 : 15 / 16 * w ≤ a1 := by
    rw [abs_le] at ha
    linarith
  have apos : 0 < a1 := by linarith
  have ε0 : 0 ≤ ε := by linarith
  -- the share
  have s1 : |o / a1 - O / w| ≤ 3 * ε / w := by
    have e : o / a1 - O / w = (o - O + O / w * (w - a1)) / a1 := by
      field_simp
      ring
    have ow : O / w ≤ 1 := by rwa [div_le_one w0]
    have ow0 : 0 ≤ O / w := div_nonneg O0 w0.le
    have e2 : |O / w * (w - a1)| ≤ 3 * η := by
      rw [abs_mul, abs_of_nonneg ow0, abs_sub_comm]
      calc O / w * |a1 - w| ≤ 1 * |a1 - w| := mul_le_mul_of_nonneg_right ow (abs_nonneg _)
        _ ≤ 3 * η := by linarith
    have e3 := abs_add_le (o - O) (O / w * (w - a1))
    rw [e, abs_div, abs_of_pos apos, div_le_div_iff₀ apos w0]
    have e4 : |o - O + O / w * (w - a1)| ≤ 5 / 2 * ε := by linarith
    calc |o - O + O / w * (w - a1)| * w ≤ 5 / 2 * ε * w := mul_le_mul_of_nonneg_right e4 w0.le
      _ ≤ 3 * ε * a1 := by nlinarith
  have s2 : o / a1 ≤ 7 / 4 := by
    have : 3 * ε / w ≤ 3 / 4 := by
      rw [div_le_iff₀ w0]
      linarith
    have ow : O / w ≤ 1 := by rwa [div_le_one w0]
    rw [abs_le] at s1
    linarith
  have s0 : 0 ≤ o / a1 := div_nonneg o0 apos.le
  -- the roundings
  have e1 := h.rel (c * o)
  have e2 := h.rel (fl (c * o) / a1)
  have x1 : |fl (c * o) / a1 - c * (o / a1)| ≤ u * (|c| * (o / a1)) := by
    have : fl (c * o) / a1 - c * (o / a1) = (fl (c * o) - c * o) / a1 := by
      field_simp
    rw [this, abs_div, abs_of_pos apos, div_le_iff₀ apos]
    rw [abs_mul, abs_of_nonneg o0] at e1
    calc |fl (c * o) - c * o| ≤ u * (|c| * o) := e1
      _ = u * (|c| * (o / a1)) * a1 := by field_simp
  have c0 := abs_nonneg c
  have x2 : |fl (c * o) / a1| ≤ (1 + u) * (|c| * (o / a1)) := by
    have := abs_add_le (c * (o / a1)) (fl (c * o) / a1 - c * (o / a1))
    rw [add_sub_cancel, abs_mul, abs_of_nonneg s0] at this
    linarith
  have t0 : |c| * (o / a1) ≤ |c| * (7 / 4) := mul_le_mul_of_nonneg_left s2 c0
  have x3 : |fl (fl (c * o) / a1) - fl (c * o) / a1| ≤ u * ((1 + u) * (|c| * (o / a1))) :=
    e2.trans (mul_le_mul_of_nonneg_left x2 u0)
  have x4 : |c * (o / a1) - c * (O / w)| ≤ |c| * (3 * ε / w) := by
    rw [← mul_sub, abs_mul]
    exact mul_le_mul_of_nonneg_left s1 c0
  have y1 := abs_add_le (fl (fl (c * o) / a1) - fl (c * o) / a1) (fl (c * o) / a1 - c * (o / a1))
  have y2 := abs_add_le (fl (fl (c * o) / a1) - fl (c * o) / a1 + (fl (c * o) / a1 - c * (o / a1))) (c * (o / a1) - c * (O / w))
  rw [sub_add_sub_cancel] at y1
  rw [sub_add_sub_cancel, sub_add_sub_cancel] at y2
  have z1 : u * ((1 + u) * (|c| * (o / a1))) ≤ u * (101 / 100 * (|c| * (7 / 4))) := by
    apply mul_le_mul_of_nonneg_left _ u0
    apply mul_le_mul (by linarith) t0 (mul_nonneg c0 s0) (by norm_num)
  have z2 : u * (|c| * (o / a1)) ≤ u * (|c| * (7 / 4)) := mul_le_mul_of_nonneg_left t0 u0
  have uc := mul_nonneg u0 c0
  nlinarith

/-- Adding up with rounding. -/
theorem foldl_near {fl : ℚ → ℚ} {u : ℚ} (h : Rounding fl u) (u0 : 0 ≤ u) (l : List ℚ) (s : ℚ) :
    |l.foldl (fun s t => fl (s + t)) s - (s + l.sum)| ≤ ((1 + u) ^ l.length - 1) * (|s| + (l.map abs).sum) := by
  induction l generalizing s with
  | nil => simp
  | cons t l ih =>
    simp only [List.foldl_cons, List.sum_cons, List.map_cons, List.length_cons]
    have e1 := ih (fl (s + t))
    have e2 := h.rel (s + t)
    have e3 := abs_add_le s t
    have e4 : |fl (s + t)| ≤ (1 + u) * (|s| + |t|) := by
      have := abs_add_le (s + t) (fl (s + t) - (s + t))
      rw [add_sub_cancel] at this
      nlinarith
    have S0 : 0 ≤ (l.map abs).sum := by
      apply List.sum_nonneg
      intro x hx
      obtain ⟨y, _, rfl⟩ := List.mem_map.1 hx
      exact abs_nonneg y
    have p1 : 1 ≤ (1 + u) ^ l.length := one_le_pow₀ (by linarith)
    have y := abs_add_le (List.foldl (fun s t => fl (s + t)) (fl (s + t)) l - (fl (s + t) + l.sum)) (fl (s + t) - (s + t))
    have e : List.foldl (fun s t => fl (s + t)) (fl (s + t)) l - (fl (s + t) + l.sum) + (fl (s + t) - (s + t))
        = List.foldl (fun s t => fl (s + t)) (fl (s + t)) l - (s + (t + l.sum)) := by ring
    rw [e] at y
    rw [pow_succ]
    generalize (1 + u) ^ l.length = P at *
    generalize (l.map abs).sum = S at *
    generalize |s| = as at *
    have t0 := abs_nonneg t
    generalize |t| = at' at *
    have q1 : (P - 1) * (|fl (s + t)| + S) ≤ (P - 1) * ((1 + u) * (as + at') + S) :=
      mul_le_mul_of_nonneg_left (by linarith) (by linarith)
    have q2 : |fl (s + t) - (s + t)| ≤ u * (as + at') := e2.trans (mul_le_mul_of_nonneg_left e3 u0)
    have q3 : 0 ≤ P * u * S := by positivity
    nlinarith

theorem power_near {u : ℚ} (u0 : 0 ≤ u) (k : ℕ) (h : 2 * (k : ℚ) * u ≤ 1) : (1 + u) ^ k - 1 ≤ 2 * k * u := by
  induction k with
  | zero => simp
  | succ k ih =>
    push_cast at h ⊢
    have hk : 2 * (k : ℚ) * u ≤ 1 := by nlinarith
    have := ih hk
    rw [pow_succ]
    nlinarith

/-- The energies of one axis as the code has them: everything near the axis `a, a+w, …`. -/
structure AxisNear (a0 a1 a w : ℚ) (n : ℕ) (η R : ℚ) : Prop where
  low : |a0 - (a - w / 2)| ≤ 42 / 10 * η
  width : |a1 - w| ≤ 3 * η
  range : |a| + w * ((n : ℚ) + 1) ≤ R
  pos : 0 < w
  bins : 1 ≤ n

theorem AxisNear.edge_le {a0 a1 a w η R : ℚ} {n : ℕ} (h : AxisNear a0 a1 a w n η R) {k : ℚ} (h0 : -1 ≤ k) (h1 : k ≤ n) :
    |w * k| ≤ R ∧ |a - w / 2 + w * k| ≤ R := by
  have r := h.range
  have w0 := h.pos
  have n1 : (1 : ℚ) ≤ n := by exact_mod_cast h.bins
  have w1 : w * 1 ≤ w * n := mul_le_mul_of_nonneg_left n1 w0.le
  have k1 : w * k ≤ w * n := mul_le_mul_of_nonneg_left h1 w0.le
  have k0 : w * (-1) ≤ w * k := mul_le_mul_of_nonneg_left h0 w0.le
  have ha := abs_nonneg a
  have wn : 0 ≤ w * n := by positivity
  have h2 := le_abs_self a
  have h3 := neg_abs_le a
  constructor
  · rw [abs_le]
    constructor <;> nlinarith
  · rw [abs_le]
    constructor <;> nlinarith

/-- One axis as read from its first two mid-points. -/
theorem axis_near {fl : ℚ → ℚ} {u : ℚ} (h : Rounding fl u) (u0 : 0 ≤ u) {mids : List ℚ} {a w δ R : ℚ} {n : ℕ} (hw : 0 < w) (hn : 1 ≤ n)
    (h0 : |mids.getD 0 0 - a| ≤ δ) (h1 : |mids.getD 1 0 - (a + w)| ≤ δ) (hR : |a| + w * ((n : ℚ) + 1) ≤ R)
    (hu : u ≤ 1 / 100) : AxisNear (lowestF fl mids) (widthF fl mids) a w n (δ + u * R) R := by
  have n0 : (0 : ℚ) ≤ n := by positivity
  have wn : 0 ≤ w * n := by positivity
  have ha := abs_nonneg a
  have wR : |w| ≤ R := by
    rw [abs_of_pos hw]
    nlinarith
  have hwid := width_near h u0 h0 h1 wR hu
  have aR : |a - w / 2| ≤ R := by
    have h2 := le_abs_self a
    have h3 := neg_abs_le a
    rw [abs_le]
    constructor <;> nlinarith
  exact ⟨lowest_near h u0 h0 hwid wR aR hu, hwid, hR, hw, hn⟩

/-- The terms of the window, added up with rounding, against all exact terms. -/
theorem window_near {fl : ℚ → ℚ} {u w ε : ℚ} (h : Rounding fl u) (u0 : 0 ≤ u) (w0 : 0 < w) (ε0 : 0 ≤ ε) (c s T : ℕ → ℚ)
    {n N : ℕ} {lo hi' : ℤ} (hn : n ≤ N) (lo0 : 0 ≤ lo) (hin' : hi' ≤ (n : ℤ) - 1) (hNu : 2 * (N : ℚ) * u ≤ 1)
    (termNear : ∀ j < n, |T j - c j * s j| ≤ |c j| * (3 * ε / w + 5 * u)) (termLe : ∀ j < n, |T j| ≤ 2 * |c j|)
    (share0 : ∀ j, 0 ≤ s j) (low : ∀ j < n, (j : ℤ) < lo → s j = 0) (high : ∀ j < n, hi' < (j : ℤ) → s j ≤ 4 * ε / w) :
    |addAllF fl ((List.range (hi' + 1 - lo).toNat).map fun k : ℕ => T (lo.toNat + k)) - ∑ j ∈ Finset.range n, c j * s j| ≤
      (4 * ε / w + (4 * N + 5) * u) * ∑ j ∈ Finset.range n, |c j| := by
  have f1 := foldl_near h u0 ((List.range (hi' + 1 - lo).toNat).map fun k : ℕ => T (lo.toNat + k)) 0
  have win : ∀ F : ℕ → ℚ, ∑ k ∈ Finset.range (hi' + 1 - lo).toNat, F (lo.toNat + k) =
      ∑ j ∈ Finset.range n, if lo ≤ (j : ℤ) ∧ (j : ℤ) ≤ hi' then F j else 0 := by
    intro F
    rw [← windowSum (fun j : ℕ => if lo ≤ (j : ℤ) ∧ (j : ℤ) ≤ hi' then F j else 0) n lo hi' lo0 hin'
      (fun j _ h => if_neg (by omega)) (fun j _ h => if_neg (by omega))]
    apply Finset.sum_congr rfl
    intro k hk
    rw [Finset.mem_range] at hk
    rw [if_pos]
    push_cast
    omega
  rw [List.map_map, list_map_range_sum, list_map_range_sum, List.length_map, List.length_range, zero_add, abs_zero, zero_add] at f1
  simp only [Function.comp] at f1
  rw [win T, win (fun j => |T j|)] at f1
  have len : (hi' + 1 - lo).toNat ≤ N := by omega
  have pw := power_near u0 (hi' + 1 - lo).toNat (by
    have : (((hi' + 1 - lo).toNat : ℕ) : ℚ) ≤ N := by exact_mod_cast len
    have : 2 * (((hi' + 1 - lo).toNat : ℕ) : ℚ) * u ≤ 2 * N * u := by
      apply mul_le_mul_of_nonneg_right _ u0
      linarith
    linarith)
  have pw2 : (1 + u) ^ (hi' + 1 - lo).toNat - 1 ≤ 2 * N * u := by
    have : (((hi' + 1 - lo).toNat : ℕ) : ℚ) ≤ N := by exact_mod_cast len
    have : 2 * (((hi' + 1 - lo).toNat : ℕ) : ℚ) * u ≤ 2 * N * u := by
      apply mul_le_mul_of_nonneg_right _ u0
      linarith
    linarith
  have abs1 : (∑ j ∈ Finset.range n, if lo ≤ (j : ℤ) ∧ (j : ℤ) ≤ hi' then |T j| else 0) ≤ 2 * ∑ j ∈ Finset.range n, |c j| := by
    rw [Finset.mul_sum]
    apply Finset.sum_le_sum
    intro j hj
    rw [Finset.mem_range] at hj
    split_ifs
    · exact termLe j hj
    · have := abs_nonneg (c j)
      linarith
  have f2 : |(∑ j ∈ Finset.range n, if lo ≤ (j : ℤ) ∧ (j : ℤ) ≤ hi' then T j else 0) -
      ∑ j ∈ Finset.range n, c j * s j| ≤ (4 * ε / w + 5 * u) * ∑ j ∈ Finset.range n, |c j| := by
    rw [← Finset.sum_sub_distrib, Finset.mul_sum]
    refine (Finset.abs_sum_le_sum_abs _ _).trans (Finset.sum_le_sum ?_)
    intro j hj
    rw [Finset.mem_range] at hj
    have c0 := abs_nonneg (c j)
    have κ' : 3 * ε / w ≤ 4 * ε / w := div_le_div_of_nonneg_right (by linarith) w0.le
    have κ0 : 0 ≤ 4 * ε / w := by positivity
    split_ifs with hwin
    · refine (termNear j hj).trans ?_
      rw [mul_comm]
      exact mul_le_mul_of_nonneg_right (by linarith) c0
    · rw [zero_sub, abs_neg, abs_mul, abs_of_nonneg (share0 j), mul_comm]
      apply mul_le_mul_of_nonneg_right _ c0
      by_cases hl : (j : ℤ) < lo
      · rw [low j hj hl]
        positivity
      · have := high j hj (by omega)
        linarith
  have C0 : 0 ≤ ∑ j ∈ Finset.range n, |c j| := Finset.sum_nonneg fun j _ => abs_nonneg _
  have P0 : 0 ≤ (1 + u) ^ (hi' + 1 - lo).toNat - 1 := by
    have := one_le_pow₀ (n := (hi' + 1 - lo).toNat) (by linarith : 1 ≤ 1 + u)
    linarith
  have f3 : |addAllF fl ((List.range (hi' + 1 - lo).toNat).map fun k : ℕ => T (lo.toNat + k)) -
      ∑ j ∈ Finset.range n, if lo ≤ (j : ℤ) ∧ (j : ℤ) ≤ hi' then T j else 0| ≤ 2 * N * u * (2 * ∑ j ∈ Finset.range n, |c j|) := by
    refine f1.trans ((mul_le_mul_of_nonneg_left abs1 P0).trans ?_)
    exact mul_le_mul_of_nonneg_right pw2 (by linarith)
  have f4 := abs_add_le (addAllF fl ((List.range (hi' + 1 - lo).toNat).map fun k : ℕ => T (lo.toNat + k)) -
      ∑ j ∈ Finset.range n, if lo ≤ (j : ℤ) ∧ (j : ℤ) ≤ hi' then T j else 0)
      ((∑ j ∈ Finset.range n, if lo ≤ (j : ℤ) ∧ (j : ℤ) ≤ hi' then T j else 0) - ∑ j ∈ Finset.range n, c j * s j)
  rw [sub_add_sub_cancel] at f4
  linarith

/-- One pass of the outer loop against the exact shares. -/
theorem rebinBin_near {fl : ℚ → ℚ} {u : ℚ} (h : Rounding fl u) (u0 : 0 ≤ u) (c : ℕ → ℚ) {n m N i : ℕ}
    {a w b v a0 a1 b0 b1 η R : ℚ} (hn : n ≤ N) (hm : m ≤ N) (hi : i < m) (hin : AxisNear a0 a1 a w n η R)
    (hout : AxisNear b0 b1 b v m η R) (hη : u * R ≤ η) (hw : 4 * ((4 * (N : ℚ) + 12) * η) ≤ w)
    (hv : 4 * ((4 * (N : ℚ) + 12) * η) ≤ v) (hu : u ≤ 1 / 100) :
    |rebinBinF fl c n a0 a1 b0 b1 i - ∑ j ∈ Finset.range n, c j * share a w b v i j| ≤
      (4 * ((4 * (N : ℚ) + 12) * η) / w + (4 * N + 5) * u) * ∑ j ∈ Finset.range n, |c j| := by
  have w0 := hin.pos
  have v0 := hout.pos
  have N0 : (0 : ℚ) ≤ N := by positivity
  have hnN : (n : ℚ) ≤ N := by exact_mod_cast hn
  have hmN : (m : ℚ) ≤ N := by exact_mod_cast hm
  have R0 : w ≤ R := by
    have := hin.range
    have := abs_nonneg a
    have n0 : (0 : ℚ) ≤ n := by positivity
    have wn : 0 ≤ w * n := by positivity
    nlinarith
  have η0 : 0 ≤ η := (mul_nonneg u0 (by linarith)).trans hη
  have Nη : 0 ≤ N * η := mul_nonneg N0 η0
  have hNu : 2 * (N : ℚ) * u ≤ 1 := by
    have h1 : u * w ≤ η := (mul_le_mul_of_nonneg_left R0 u0).trans hη
    have h2 : N * (u * w) ≤ N * η := mul_le_mul_of_nonneg_left h1 N0
    have h3 : 2 * N * u * w ≤ 1 * w := by nlinarith
    exact le_of_mul_le_mul_right h3 w0
  generalize hε : (4 * (N : ℚ) + 12) * η = ε at *
  have ε12 : 12 * η ≤ ε := by nlinarith
  have ε0 : 0 ≤ ε := by linarith
  have a1pos : 0 < a1 := by
    have := hin.width
    rw [abs_le] at this
    linarith
  have hi' : (i : ℚ) + 1 ≤ m := by exact_mod_cast hi
  have i0 : (0 : ℚ) ≤ i := by positivity
  -- edges
  have edgeIn : ∀ j < n, |edgeF fl a0 a1 j - (a - w / 2 + w * j)| ≤ ε ∧
      |fl (edgeF fl a0 a1 j + a1) - (a - w / 2 + w * j + w)| ≤ ε := by
    intro j hj
    have j0 : (0 : ℚ) ≤ j := by positivity
    have hj' : (j : ℚ) + 1 ≤ n := by exact_mod_cast hj
    have r := hin.edge_le (k := j) (by linarith) (by linarith)
    have r' := hin.edge_le (k := j + 1) (by linarith) (by linarith)
    have e1 := edge_near h u0 (K := N) hin.low hin.width (by rw [abs_of_nonneg j0]; linarith) r.1 r.2 hη η0 hu
    have e2 := upper_near h u0 (R := R) e1 hin.width N0 (by have := r'.2; rwa [mul_add, mul_one, ← add_assoc] at this) hη η0 hu
    exact ⟨e1.trans (by nlinarith), e2.trans (by nlinarith)⟩
  have edgeOut : ∀ k : ℚ, -1 ≤ k → k ≤ m → |edgeF fl b0 b1 k - (b - v / 2 + v * k)| ≤ ε := by
    intro k h0 h1
    have r := hout.edge_le (k := k) h0 h1
    have e1 := edge_near h u0 (K := N) hout.low hout.width (by rw [abs_le]; constructor <;> linarith) r.1 r.2 hη η0 hu
    exact e1.trans (by nlinarith)
  have upOut : |fl (edgeF fl b0 b1 i + b1) - (b - v / 2 + v * i + v)| ≤ ε := by
    have r := hout.edge_le (k := i) (by linarith) (by linarith)
    have r' := hout.edge_le (k := i + 1) (by linarith) (by linarith)
    have e1 := edge_near h u0 (K := N) hout.low hout.width (by rw [abs_of_nonneg i0]; linarith) r.1 r.2 hη η0 hu
    exact (upper_near h u0 (R := R) e1 hout.width N0 (by have := r'.2; rwa [mul_add, mul_one, ← add_assoc] at this) hη η0 hu).trans
      (by nlinarith)
  have A0 := (hin.edge_le (k := 0) (by norm_num) (by positivity)).2
  rw [mul_zero, add_zero] at A0
  have posNear : ∀ k : ℚ, -1 ≤ k → k ≤ m →
      |positionF fl a0 a1 b0 b1 k * a1 - ((b - v / 2 + v * k) - (a - w / 2))| ≤ 9 / 4 * ε := by
    intro k h0 h1
    exact position_near h u0 (edgeOut k h0 h1) hin.low (hout.edge_le h0 h1).2 A0 a1pos hη η0 ε12 hu
  have wid := hin.width
  have widj : ∀ j : ℕ, j ≤ n → |a1 * j - w * j| ≤ ε := by
    intro j hj
    have j0 : (0 : ℚ) ≤ j := by positivity
    have hj' : (j : ℚ) ≤ N := by exact_mod_cast hj.trans hn
    rw [← sub_mul, abs_mul, abs_of_nonneg j0]
    calc |a1 - w| * j ≤ 3 * η * N := mul_le_mul wid hj' j0 (by positivity)
      _ ≤ ε := by nlinarith
  have shareEq : ∀ j : ℕ, share a w b v i j =
      overlap (a - w / 2 + w * j) (a - w / 2 + w * j + w) (b - v / 2 + v * i) (b - v / 2 + v * i + v) / w := by
    intro j
    unfold share
    congr 2 <;> ring
  -- the terms
  have termNear : ∀ j < n, |rebinTermF fl c a0 a1 b0 b1 i j - c j * share a w b v i j| ≤ |c j| * (3 * ε / w + 5 * u) := by
    intro j hj
    have j0 : (0 : ℚ) ≤ j := by positivity
    have hj' : (j : ℚ) + 1 ≤ n := by exact_mod_cast hj
    have r1 := (hin.edge_le (k := j) (by linarith) (by linarith)).2
    have r2 := (hin.edge_le (k := j + 1) (by linarith) (by linarith)).2
    have r3 := (hout.edge_le (k := i) (by linarith) (by linarith)).2
    have r4 := (hout.edge_le (k := i + 1) (by linarith) (by linarith)).2
    rw [mul_add, mul_one, ← add_assoc] at r2 r4
    have ov := overlap_near h u0 (edgeIn j hj).1 (edgeIn j hj).2 (edgeOut i (by linarith) (by linarith)) upOut r1 r2 r3 r4
      hη ε12 η0 hu
    rw [shareEq]
    refine term_near h u0 ov (le_max_left _ _) (le_max_left _ _) ?_ wid ε12 hw η0 w0 hu
    unfold overlap
    apply max_le w0.le
    have := min_le_right (b - v / 2 + v * i + v) (a - w / 2 + w * j + w)
    have := le_max_right (b - v / 2 + v * i) (a - w / 2 + w * j)
    linarith
  have share0 : ∀ j, 0 ≤ share a w b v i j := fun j => share_nonneg _ _ _ _ w0 _ _
  have share1 : ∀ j, share a w b v i j ≤ 1 := by
    intro j
    rw [shareEq, div_le_one w0]
    unfold overlap
    apply max_le w0.le
    have := min_le_right (b - v / 2 + v * i + v) (a - w / 2 + w * j + w)
    have := le_max_right (b - v / 2 + v * i) (a - w / 2 + w * j)
    linarith
  have κ : 3 * ε / w ≤ 3 / 4 := by
    rw [div_le_iff₀ w0]
    linarith
  have termLe : ∀ j < n, |rebinTermF fl c a0 a1 b0 b1 i j| ≤ 2 * |c j| := by
    intro j hj
    have e := termNear j hj
    have e2 := abs_add_le (c j * share a w b v i j) (rebinTermF fl c a0 a1 b0 b1 i j - c j * share a w b v i j)
    rw [add_sub_cancel, abs_mul, abs_of_nonneg (share0 j)] at e2
    have c0 := abs_nonneg (c j)
    have e3 := mul_le_mul_of_nonneg_left (share1 j) c0
    have e4 : |c j| * (3 * ε / w + 5 * u) ≤ |c j| * (3 / 4 + 5 / 100) := mul_le_mul_of_nonneg_left (by linarith) c0
    linarith
  -- the window
  have low : ∀ j < n, (j : ℤ) < jminF fl a0 a1 b0 b1 i → share a w b v i j = 0 := by
    intro j hj hlt
    have hj' : (j : ℚ) + 1 ≤ n := by exact_mod_cast hj
    unfold jminF at hlt
    have hpos : (j : ℤ) < truncZ (positionF fl a0 a1 b0 b1 ((i : ℚ) - 1)) := by
      rcases lt_max_iff.1 hlt with h | h
      · omega
      · exact h
    have h1 := truncZ_pos_le (by omega : 0 < truncZ (positionF fl a0 a1 b0 b1 ((i : ℚ) - 1)))
    have h2 : ((j : ℤ) : ℚ) + 1 ≤ (truncZ (positionF fl a0 a1 b0 b1 ((i : ℚ) - 1)) : ℚ) := by exact_mod_cast hpos
    have h3 : ((j + 1 : ℕ) : ℚ) ≤ positionF fl a0 a1 b0 b1 ((i : ℚ) - 1) := by
      push_cast at h2 ⊢
      linarith
    have h4 := posNear ((i : ℚ) - 1) (by linarith) (by linarith)
    have h5 := mul_le_mul_of_nonneg_right h3 a1pos.le
    have h6 := widj (j + 1) (by omega)
    rw [abs_le] at h4 h6
    rw [shareEq, overlap_eq_zero_of_le_left, zero_div]
    push_cast at h5 h6
    linarith [h4.1, h4.2, h6.1, h6.2]
  have high : ∀ j < n, jmaxF fl n a0 a1 b0 b1 i < (j : ℤ) → share a w b v i j ≤ 4 * ε / w := by
    intro j hj hlt
    have hj' : (j : ℚ) + 1 ≤ n := by exact_mod_cast hj
    unfold jmaxF at hlt
    have hpos : truncZ (positionF fl a0 a1 b0 b1 ((i : ℚ) + 1)) < (j : ℤ) := by
      rcases min_lt_iff.1 hlt with h | h
      · omega
      · exact h
    have h1 := lt_truncZ_add_one (positionF fl a0 a1 b0 b1 ((i : ℚ) + 1))
    have h2 : (truncZ (positionF fl a0 a1 b0 b1 ((i : ℚ) + 1)) : ℚ) + 1 ≤ (j : ℚ) := by exact_mod_cast hpos
    have h3 : positionF fl a0 a1 b0 b1 ((i : ℚ) + 1) ≤ (j : ℚ) := by linarith
    have h4 := posNear ((i : ℚ) + 1) (by linarith) (by linarith)
    have h5 := mul_le_mul_of_nonneg_right h3 a1pos.le
    have h6 := widj j (by omega)
    rw [abs_le] at h4 h6
    rw [shareEq]
    apply div_le_div_of_nonneg_right _ w0.le
    unfold overlap
    apply max_le (by linarith)
    have := min_le_left (b - v / 2 + v * i + v) (a - w / 2 + w * j + w)
    have := le_max_right (b - v / 2 + v * i) (a - w / 2 + w * j)
    linarith [h4.1, h4.2, h6.1, h6.2]
  -- adding up
  unfold rebinBinF
  simp only
  exact window_near h u0 w0 ε0 c (share a w b v i) (rebinTermF fl c a0 a1 b0 b1 i) hn (le_max_left _ _) (min_le_left _ _) hNu
    termNear termLe share0 low high


/-! ### Theorems -/

/-- C112, what the theorems below need about the energies: the first two mid-points of both axes are off by at most `δ`,
all energies are at most `R`, there are at most `N` bins, and the errors that pile up over `N` bins stay below a quarter of
a bin. -/
structure RebinScale (u : ℚ) (midsIn midsOut : List ℚ) (a w b v δ R : ℚ) (n m N : ℕ) : Prop where
  lenIn : midsIn.length = n
  lenOut : midsOut.length = m
  twoIn : 2 ≤ n
  twoOut : 2 ≤ m
  leIn : n ≤ N
  leOut : m ≤ N
  posIn : 0 < w
  posOut : 0 < v
  in0 : |midsIn.getD 0 0 - a| ≤ δ
  in1 : |midsIn.getD 1 0 - (a + w)| ≤ δ
  out0 : |midsOut.getD 0 0 - b| ≤ δ
  out1 : |midsOut.getD 1 0 - (b + v)| ≤ δ
  rangeIn : |a| + w * ((n : ℚ) + 1) ≤ R
  rangeOut : |b| + v * ((m : ℚ) + 1) ≤ R
  fineIn : 4 * ((4 * (N : ℚ) + 12) * (δ + u * R)) ≤ w
  fineOut : 4 * ((4 * (N : ℚ) + 12) * (δ + u * R)) ≤ v

theorem RebinScale.small {u : ℚ} {midsIn midsOut : List ℚ} {a w b v δ R : ℚ} {n m N : ℕ}
    (h : RebinScale u midsIn midsOut a w b v δ R n m N) (u0 : 0 ≤ u) : u ≤ 1 / 100 ∧ 0 ≤ δ ∧ w ≤ R ∧ 0 ≤ u * R := by
  have w0 := h.posIn
  have n2 : (2 : ℚ) ≤ n := by exact_mod_cast h.twoIn
  have nN : (n : ℚ) ≤ N := by exact_mod_cast h.leIn
  have d0 : 0 ≤ δ := (abs_nonneg _).trans h.in0
  have R3 : 3 * w ≤ R := by
    have := h.rangeIn
    have := abs_nonneg a
    nlinarith
  have uR := mul_le_mul_of_nonneg_left R3 u0
  have uR0 : 0 ≤ u * R := mul_nonneg u0 (by linarith)
  have h1 : 4 * (20 * (δ + u * R)) ≤ w := by
    refine le_trans ?_ h.fineIn
    have : 20 * (δ + u * R) ≤ (4 * (N : ℚ) + 12) * (δ + u * R) :=
      mul_le_mul_of_nonneg_right (by linarith) (by linarith)
    linarith
  have h2 : 240 * u * w ≤ 1 * w := by nlinarith
  have h3 := le_of_mul_le_mul_right h2 w0
  exact ⟨by linarith, d0, by linarith, uR0⟩

theorem rebin1DF_near {fl : ℚ → ℚ} {u : ℚ} (h : Rounding fl u) (u0 : 0 ≤ u) (counts : List ℚ) {midsIn midsOut : List ℚ}
    {a w b v δ R : ℚ} {n m N : ℕ} (hs : RebinScale u midsIn midsOut a w b v δ R n m N) (hc : counts.length = n) :
    ∃ out, rebin1DF fl counts midsIn midsOut = .ok out ∧ out.length = m ∧
      ∀ i < m, |out.getD i 0 - ∑ j ∈ Finset.range n, counts.getD j 0 * share a w b v i j| ≤
        (4 * ((4 * (N : ℚ) + 12) * (δ + u * R)) / w + (4 * N + 5) * u) * ∑ j ∈ Finset.range n, |counts.getD j 0| := by
  obtain ⟨hu, d0, wR, uR⟩ := hs.small u0
  have ain := axis_near h u0 (n := n) hs.posIn (by have := hs.twoIn; omega) hs.in0 hs.in1 hs.rangeIn hu
  have aout := axis_near h u0 (n := m) hs.posOut (by have := hs.twoOut; omega) hs.out0 hs.out1 hs.rangeOut hu
  have wpos : widthF fl midsIn ≠ 0 := by
    have h1 := ain.width
    have h2 := hs.fineIn
    have h3 := hs.posIn
    intro h0
    rw [h0, zero_sub, abs_neg, abs_of_pos h3] at h1
    have : 12 * (δ + u * R) ≤ (4 * (N : ℚ) + 12) * (δ + u * R) :=
      mul_le_mul_of_nonneg_right (by have : (0 : ℚ) ≤ N := by positivity
                                     linarith) (by linarith)
    linarith
  have e : rebin1DF fl counts midsIn midsOut = .ok ((List.range m).map
      (rebinBinF fl (fun j => counts.getD j 0) n (lowestF fl midsIn) (widthF fl midsIn) (lowestF fl midsOut) (widthF fl midsOut))) := by
    unfold rebin1DF
    have := hs.twoIn
    have := hs.twoOut
    rw [hs.lenIn, hs.lenOut, if_neg (by omega), if_neg wpos, if_neg (by omega)]
  refine ⟨_, e, by simp, ?_⟩
  intro i hi
  rw [getD_map_range _ hi]
  exact rebinBin_near h u0 (fun j => counts.getD j 0) hs.leIn hs.leOut hi ain aout (by linarith) hs.fineIn hs.fineOut hu

/-- **C112.** With any rounding that keeps the order and has a relative error of at most `u`, and with mid-points that are
off by at most `δ`, every output bin holds the geometric share of C01 up to an explicit error. -/
theorem C112_share {fl : ℚ → ℚ} {u : ℚ} (h : Rounding fl u) (u0 : 0 ≤ u) (counts : List ℚ) {midsIn midsOut : List ℚ}
    {a w b v δ R : ℚ} {n m N : ℕ} (hs : RebinScale u midsIn midsOut a w b v δ R n m N) (hc : counts.length = n) :
    ∃ out, rebin1DF fl counts midsIn midsOut = .ok out ∧ out.length = m ∧
      ∀ i < m, |((out.getD i 0 : ℚ) : ℝ) - ∑ j ∈ Finset.range n,
          ((counts.getD j 0 : ℚ) : ℝ) * ((volume (binSet a w j ∩ binSet b v i)).toReal / w)| ≤
        (4 * ((4 * (N : ℝ) + 12) * (δ + u * R)) / w + (4 * N + 5) * u) * ∑ j ∈ Finset.range n, |((counts.getD j 0 : ℚ) : ℝ)| := by
  obtain ⟨out, h1, h2, h3⟩ := rebin1DF_near h u0 counts hs hc
  refine ⟨out, h1, h2, ?_⟩
  intro i hi
  have h4 : ((|out.getD i 0 - ∑ j ∈ Finset.range n, counts.getD j 0 * share a w b v i j| : ℚ) : ℝ) ≤
      (((4 * ((4 * (N : ℚ) + 12) * (δ + u * R)) / w + (4 * N + 5) * u) * ∑ j ∈ Finset.range n, |counts.getD j 0| : ℚ) : ℝ) := by
    exact_mod_cast h3 i hi
  push_cast at h4
  refine le_trans (le_of_eq ?_) h4
  congr 2
  apply Finset.sum_congr rfl
  intro j _
  rw [share_volume]

/-- Non-vacuity of C112: two thousand bins of 7 keV into a thousand bins of 15 keV, energies of up to 16 MeV with an error
of a millionth of a keV. -/
example : RebinScale (1 / 2 ^ 53) (grid 0 7 2000) (grid 4 15 1000) 0 7 4 15 (1 / 1000000) 16000 2000 1000 2000 :=
  ⟨by simp [grid], by simp [grid], by norm_num, by norm_num, by norm_num, by norm_num, by norm_num, by norm_num,
    by rw [grid_getD _ _ (by norm_num)]; norm_num, by rw [grid_getD _ _ (by norm_num)]; norm_num,
    by rw [grid_getD _ _ (by norm_num)]; norm_num, by rw [grid_getD _ _ (by norm_num)]; norm_num [abs_le],
    by norm_num, by norm_num, by norm_num, by norm_num⟩

/-- **C112.** If the output range covers the input range, the counts are conserved up to an explicit error. -/
theorem C112_total {fl : ℚ → ℚ} {u : ℚ} (h : Rounding fl u) (u0 : 0 ≤ u) (counts : List ℚ) {midsIn midsOut : List ℚ}
    {a w b v δ R : ℚ} {n m N : ℕ} (hs : RebinScale u midsIn midsOut a w b v δ R n m N) (hc : counts.length = n)
    (hcover : axisSet a w n ⊆ axisSet b v m) :
    ∃ out, rebin1DF fl counts midsIn midsOut = .ok out ∧
      |out.sum - counts.sum| ≤ m * ((4 * ((4 * (N : ℚ) + 12) * (δ + u * R)) / w + (4 * N + 5) * u) * (counts.map abs).sum) := by
  obtain ⟨out, h1, h2, h3⟩ := rebin1DF_near h u0 counts hs hc
  refine ⟨out, h1, ?_⟩
  obtain ⟨out', g1, g2⟩ := C02_rebin_conserves counts a w b v n m hs.twoIn hs.twoOut hs.posIn hs.posOut hc hcover
  rw [rebin1D_grid counts a w b v n m hs.twoIn hs.twoOut hs.posIn hs.posOut hc.ge] at g1
  cases g1
  rw [← g2, list_map_range_sum, list_sum_eq_range out, h2, ← Finset.sum_sub_distrib]
  refine (Finset.abs_sum_le_sum_abs _ _).trans ?_
  have e : (counts.map abs).sum = ∑ j ∈ Finset.range n, |counts.getD j 0| := by
    rw [list_sum_eq_range, List.length_map, hc]
    apply Finset.sum_congr rfl
    intro j hj
    rw [Finset.mem_range] at hj
    simp [List.getD_eq_getElem?_getD, hc, hj]
  rw [e]
  refine (Finset.sum_le_sum fun i hi => h3 i (Finset.mem_range.1 hi)).trans (le_of_eq ?_)
  simp

example : axisSet 0 7 2000 ⊆ axisSet 4 15 1000 := by
  unfold axisSet
  apply Set.Icc_subset_Icc <;> norm_num

/-- **C112.** Doubles: axes whose mid-points are the doubles next to `a + w*k` and `b + v*k`. -/
theorem C112_double (counts : List ℚ) {a w b v R : ℚ} {n m N : ℕ} (hn : 2 ≤ n) (hm : 2 ≤ m) (hnN : n ≤ N) (hmN : m ≤ N)
    (hw : 0 < w) (hv : 0 < v) (hR : |a| + w * ((n : ℚ) + 1) ≤ R) (hR' : |b| + v * ((m : ℚ) + 1) ≤ R)
    (fw : (32 * (N : ℚ) + 96) * R / 2 ^ 53 ≤ w) (fv : (32 * (N : ℚ) + 96) * R / 2 ^ 53 ≤ v) (hc : counts.length = n) :
    ∃ out, rebin1DF dbl counts ((grid a w n).map dbl) ((grid b v m).map dbl) = .ok out ∧ out.length = m ∧
      ∀ i < m, |((out.getD i 0 : ℚ) : ℝ) - ∑ j ∈ Finset.range n,
          ((counts.getD j 0 : ℚ) : ℝ) * ((volume (binSet a w j ∩ binSet b v i)).toReal / w)| ≤
        ((32 * (N : ℝ) + 96) * R / w + (4 * N + 5)) / 2 ^ 53 * ∑ j ∈ Finset.range n, |((counts.getD j 0 : ℚ) : ℝ)| := by
  have near : ∀ (a w : ℚ) (n k : ℕ), 0 < w → |a| + w * ((n : ℚ) + 1) ≤ R → k < n → 
      |((grid a w n).map dbl).getD k 0 - (a + w * k)| ≤ 1 / 2 ^ 53 * R := by
    intro a w n k hw hR hk
    have e : ((grid a w n).map dbl).getD k 0 = dbl (a + w * k) := by
      simp [grid, List.getD_eq_getElem?_getD, hk]
    rw [e]
    refine (dbl_rounding.rel _).trans (mul_le_mul_of_nonneg_left ?_ (by positivity))
    have h1 := abs_add_le a (w * k)
    have hk' : (k : ℚ) + 1 ≤ n := by exact_mod_cast hk
    have h2 : |w * (k : ℚ)| ≤ w * ((n : ℚ) + 1) := by
      rw [abs_of_nonneg (by positivity)]
      exact mul_le_mul_of_nonneg_left (by linarith) hw.le
    linarith
  have hs : RebinScale (1 / 2 ^ 53) ((grid a w n).map dbl) ((grid b v m).map dbl) a w b v (1 / 2 ^ 53 * R) R n m N := by
    refine ⟨by simp [grid], by simp [grid], hn, hm, hnN, hmN, hw, hv, ?_, ?_, ?_, ?_, hR, hR', ?_, ?_⟩
    · simpa using near a w n 0 hw hR (by omega)
    · simpa using near a w n 1 hw hR (by omega)
    · simpa using near b v m 0 hv hR' (by omega)
    · simpa using near b v m 1 hv hR' (by omega)
    · refine le_trans (le_of_eq ?_) fw
      ring
    · refine le_trans (le_of_eq ?_) fv
      ring
  obtain ⟨out, h1, h2, h3⟩ := C112_share dbl_rounding (by positivity) counts hs hc
  refine ⟨out, h1, h2, ?_⟩
  intro i hi
  refine (h3 i hi).trans (le_of_eq ?_)
  push_cast
  congr 1
  ring

/-- Non-vacuity: with 2000 bins of 7 keV the error is less than `2·10⁻⁸` of the counts. -/
example : ((32 * (2000 : ℝ) + 96) * 16000 / 7 + (4 * 2000 + 5)) / 2 ^ 53 ≤ 2 / 10 ^ 8 ∧
    (32 * (2000 : ℚ) + 96) * 16000 / 2 ^ 53 ≤ 7 := by norm_num

/-- **C112.** Contents that are not negative give contents that are not negative, whatever the axes. -/
theorem C112_nonneg {fl : ℚ → ℚ} {u : ℚ} (h : Rounding fl u) {counts midsIn midsOut out : List ℚ}
    (hw : midsIn.getD 0 0 ≤ midsIn.getD 1 0) (hpos : ∀ c ∈ counts, 0 ≤ c) (hr : rebin1DF fl counts midsIn midsOut = .ok out) :
    ∀ c ∈ out, 0 ≤ c := by
  have z : fl 0 = 0 := by
    have := h.rel 0
    simpa using this
  have nn : ∀ {x : ℚ}, 0 ≤ x → 0 ≤ fl x := fun hx => by
    have := h.mono hx
    rwa [z] at this
  unfold rebin1DF at hr
  split_ifs at hr
  cases hr
  intro c hc
  obtain ⟨i, _, rfl⟩ := List.mem_map.1 hc
  have hw' : 0 ≤ widthF fl midsIn := nn (by linarith)
  have fold : ∀ (l : List ℚ) (s : ℚ), 0 ≤ s → (∀ t ∈ l, 0 ≤ t) → 0 ≤ l.foldl (fun s t => fl (s + t)) s := by
    intro l
    induction l with
    | nil => intro s hs _; exact hs
    | cons t l ih =>
      intro s hs ht
      exact ih _ (nn (add_nonneg hs (ht t (by simp)))) (fun x hx => ht x (by simp [hx]))
  apply fold _ _ le_rfl
  intro t ht
  obtain ⟨k, _, rfl⟩ := List.mem_map.1 ht
  unfold rebinTermF
  simp only
  apply nn
  apply div_nonneg _ hw'
  apply nn
  apply mul_nonneg _ (le_max_left _ _)
  rw [List.getD_eq_getElem?_getD]
  cases hx : counts[(jminF fl (lowestF fl midsIn) (widthF fl midsIn) (lowestF fl midsOut) (widthF fl midsOut) i).toNat + k]? with
  | none => simp
  | some x => exact hpos x (List.mem_of_getElem? hx)

example : rebin1DF dbl [4, 6, 8] (grid 1 2 3) (grid 0 1 4) = .ok [1, 2, 5/2, 3] := by decide +kernel

/-- **C112.** The code reads the calibration from the first two mid-points: nothing else about the axes matters. -/
theorem C112_first_two (fl : ℚ → ℚ) (counts : List ℚ) {i o i' o' : List ℚ} (hi : i.length = i'.length) (ho : o.length = o'.length)
    (i0 : i.getD 0 0 = i'.getD 0 0) (i1 : i.getD 1 0 = i'.getD 1 0) (o0 : o.getD 0 0 = o'.getD 0 0)
    (o1 : o.getD 1 0 = o'.getD 1 0) : rebin1DF fl counts i o = rebin1DF fl counts i' o' := by
  unfold rebin1DF lowestF widthF
  rw [hi, ho, i0, i1, o0, o1]

example : rebin1DF dbl [4, 6, 8] [1, 3, 100] (grid 0 1 4) = .ok [1, 2, 5/2, 3] := by decide +kernel

/-- **C112.** Axes with fewer than two mid-points, and only those and a missing count or two equal mid-points, fail. -/
theorem C112_errors {fl : ℚ → ℚ} {u : ℚ} (h : Rounding fl u) (hu : u < 1) (counts i o : List ℚ) :
    (∃ out, rebin1DF fl counts i o = .ok out) ↔
      2 ≤ i.length ∧ 2 ≤ o.length ∧ i.getD 0 0 ≠ i.getD 1 0 ∧ i.length ≤ counts.length := by
  have hz : widthF fl i = 0 ↔ i.getD 0 0 = i.getD 1 0 := by
    unfold widthF
    constructor
    · intro h0
      have := h.rel (i.getD 1 0 - i.getD 0 0)
      rw [h0, zero_sub, abs_neg] at this
      by_contra hne
      have hp : 0 < |i.getD 1 0 - i.getD 0 0| := abs_pos.2 (sub_ne_zero.2 (Ne.symm hne))
      nlinarith
    · intro h0
      rw [h0, sub_self]
      have := h.rel 0
      simpa using this
  unfold rebin1DF
  split_ifs with h1 h2 h3
  · constructor
    · rintro ⟨_, h⟩
      cases h
    · rintro ⟨h, h', _⟩
      omega
  · constructor
    · rintro ⟨_, h⟩
      cases h
    · rintro ⟨_, _, h, _⟩
      exact absurd (hz.1 h2) h
  · constructor
    · rintro ⟨_, h⟩
      cases h
    · rintro ⟨_, _, _, h⟩
      omega
  · constructor
    · intro _
      exact ⟨by omega, by omega, fun h => h2 (hz.2 h), by omega⟩
    · intro _
      exact ⟨_, rfl⟩

example : rebin1DF dbl [4, 6, 8] [1, 1, 1] (grid 0 1 4) = .error .undefined := by decide +kernel

/-- **C112.** Without rounding this is the model of C01 – C04. -/
theorem C112_exact (counts i o : List ℚ) : rebin1DF id counts i o = rebin1D counts i o := by
  match i, o with
  | [], _ => simp [rebin1DF, rebin1D]
  | [_], _ => simp [rebin1DF, rebin1D]
  | _ :: _ :: _, [] => simp [rebin1DF, rebin1D]
  | _ :: _ :: _, [_] => simp [rebin1DF, rebin1D]
  | m0 :: m1 :: ms, n0 :: n1 :: ns =>
    unfold rebin1DF rebin1D
    rw [if_neg (by simp)]
    simp only [widthF, lowestF, id, List.getD_cons_zero, List.getD_cons_succ]
    split_ifs
    · rfl
    · rfl
    · congr 1
      apply List.map_congr_left
      intro k _
      unfold rebinBinF rebinBin addAllF
      simp only [List.sum_eq_foldl, id]
      congr 1

/-- **C112, fails.** In doubles rebinning onto the same axis is not the identity, … -/
theorem C112_same_axis_fails : ∃ (counts : List ℚ) (a w : ℚ) (n : ℕ), 0 < w ∧ counts.length = n ∧
    rebin1DF dbl counts ((grid a w n).map dbl) ((grid a w n).map dbl) ≠ .ok counts :=
  ⟨[1, 2, 3, 4, 5], 0, 1 / 10, 5, by norm_num, rfl, by decide +kernel⟩

/-- … and counts are not conserved exactly. -/
theorem C112_total_fails : ∃ (counts : List ℚ) (a w b v : ℚ) (n m : ℕ), 0 < w ∧ 0 < v ∧ counts.length = n ∧
    axisSet a w n ⊆ axisSet b v m ∧
    (rebin1DF dbl counts ((grid a w n).map dbl) ((grid b v m).map dbl)).map (fun out => decide (out.sum = counts.sum)) = .ok false := by
  refine ⟨[1, 2, 3, 4, 5], 0, 1 / 10, 0, 1 / 10, 5, 5, by norm_num, by norm_num, rfl, subset_rfl, by decide +kernel⟩

/-- **C112, fails.** An error of the mid-points is not just passed on: the width comes from the first two, so its error is
multiplied with the number of the bin.  Here all mid-points are within a hundredth of a bin of `0, 1, 2, …`, and the content
of the last bin is put into another bin altogether. -/
theorem C112_drift_fails : ∃ (counts mids : List ℚ) (n m : ℕ), NearGrid mids 0 1 n (1 / 100) ∧ counts.length = n ∧
    rebin1DF dbl counts (grid 0 1 n) (grid 0 1 m) = .ok (counts ++ [0, 0]) ∧
    (rebin1DF dbl counts mids (grid 0 1 m)).map (fun out => (decide (0 < counts.getD (n - 1) 0), out.getD (n - 1) 0)) = .ok (true, 0) := by
  refine ⟨List.replicate 59 0 ++ [1], (-1 / 100) :: (101 / 100) :: ((List.range 58).map fun k : ℕ => ((k : ℚ) + 2)), 60, 62,
    ?_, rfl, by decide +kernel, by decide +kernel⟩
  refine ⟨by simp, ?_⟩
  decide +kernel


/-! ### Whole numbers -/

/-- A whole or half number that is not too large. -/
def HalfInt (x : ℚ) (B : ℤ) : Prop := ∃ k : ℤ, |k| ≤ B ∧ x = (k : ℚ) / 2

theorem HalfInt.dbl {x : ℚ} {B : ℤ} (h : HalfInt x B) (hB : B ≤ 2 ^ 53) : dbl x = x := by
  obtain ⟨k, hk, rfl⟩ := h
  have := C111_double_exact k (-1) (hk.trans hB)
  rwa [zpow_neg_one, ← div_eq_mul_inv] at this

theorem halfInt_of {x : ℚ} (k : ℤ) (h : x = (k : ℚ) / 2) {B : ℤ} (hx : |x| ≤ (B : ℚ) / 2) : HalfInt x B := by
  refine ⟨k, ?_, h⟩
  rw [h, abs_div, abs_of_pos (by norm_num : (0 : ℚ) < 2)] at hx
  have : |(k : ℚ)| ≤ B := by linarith
  exact_mod_cast this

/-- One axis in whole numbers: the energies the code computes are exact. -/
theorem axis_whole {a w : ℤ} {n : ℕ} (hw : 0 < w) (hn : 2 ≤ n) (hR : |a| + w * ((n : ℤ) + 1) ≤ 2 ^ 50) :
    widthF dbl (grid (a : ℚ) w n) = w ∧ lowestF dbl (grid (a : ℚ) w n) = a - w / 2 ∧
      ∀ k : ℤ, -1 ≤ k → k ≤ n → edgeF dbl (a - w / 2) w k = a - w / 2 + w * k ∧ HalfInt ((a : ℚ) - w / 2 + w * k) (2 ^ 51) ∧
        (0 ≤ k → k < n → dbl ((a : ℚ) - w / 2 + w * k + w) = a - w / 2 + w * k + w) := by
  have g0 : (grid (a : ℚ) w n).getD 0 0 = a := by
    rw [grid_getD _ _ (by omega)]
    simp
  have g1 : (grid (a : ℚ) w n).getD 1 0 = a + w := by
    rw [grid_getD _ _ (by omega)]
    simp
  have n2 : (2 : ℤ) ≤ n := by exact_mod_cast hn
  have ha := abs_nonneg a
  have h2 := le_abs_self a
  have h3 := neg_abs_le a
  have wn : w * 2 ≤ w * n := mul_le_mul_of_nonneg_left n2 hw.le
  have half : ∀ z : ℤ, |z| ≤ 2 ^ 51 → dbl ((z : ℚ) / 2) = (z : ℚ) / 2 := fun z hz =>
    HalfInt.dbl ⟨z, hz, rfl⟩ (by norm_num)
  have width : widthF dbl (grid (a : ℚ) w n) = w := by
    unfold widthF
    rw [g0, g1]
    have := half (2 * w) (by rw [abs_le]; constructor <;> nlinarith)
    push_cast at this
    rw [show ((a : ℚ) + w - a) = 2 * w / 2 by ring, this]
    ring
  have low : lowestF dbl (grid (a : ℚ) w n) = a - w / 2 := by
    unfold lowestF
    rw [width, g0, half w (by rw [abs_le]; constructor <;> nlinarith)]
    have := half (2 * a - w) (by rw [abs_le]; constructor <;> nlinarith)
    push_cast at this
    rw [show ((a : ℚ) - w / 2) = (2 * a - w) / 2 by ring, this]
  refine ⟨width, low, ?_⟩
  intro k h0 h1
  have k1 : w * k ≤ w * n := mul_le_mul_of_nonneg_left h1 hw.le
  have k0 : w * (-1) ≤ w * k := mul_le_mul_of_nonneg_left h0 hw.le
  have e1 : dbl ((w : ℚ) * k) = w * k := by
    have := half (2 * (w * k)) (by rw [abs_le]; constructor <;> nlinarith)
    push_cast at this
    rw [show ((w : ℚ) * k) = 2 * (w * k) / 2 by ring, this]
  have e2 : |2 * a - w + 2 * (w * k)| ≤ 2 ^ 51 := by rw [abs_le]; constructor <;> nlinarith
  have e3 : (a : ℚ) - w / 2 + w * k = ((2 * a - w + 2 * (w * k) : ℤ) : ℚ) / 2 := by
    push_cast
    ring
  refine ⟨?_, ⟨_, e2, e3⟩, ?_⟩
  · unfold edgeF
    rw [e1, e3, half _ e2]
  · intro p0 p1
    have k2 : w * (k + 1) ≤ w * n := mul_le_mul_of_nonneg_left (by omega) hw.le
    have p2 : 0 ≤ w * k := mul_nonneg hw.le p0
    have e4 : |2 * a + w + 2 * (w * k)| ≤ 2 ^ 51 := by rw [abs_le]; constructor <;> nlinarith
    have e5 : (a : ℚ) - w / 2 + w * k + w = ((2 * a + w + 2 * (w * k) : ℤ) : ℚ) / 2 := by
      push_cast
      ring
    rw [e5, half _ e4]

theorem foldl_whole (l : List ℚ) (s : ℚ) (hs : ∃ k : ℤ, s = k) (hl : ∀ t ∈ l, ∃ k : ℤ, t = k)
    (hb : |s| + (l.map abs).sum ≤ 2 ^ 53) : l.foldl (fun s t => dbl (s + t)) s = s + l.sum := by
  induction l generalizing s with
  | nil => simp
  | cons t l ih =>
    obtain ⟨p, rfl⟩ := hs
    obtain ⟨q, rfl⟩ := hl t (by simp)
    have S0 : 0 ≤ (l.map abs).sum := by
      apply List.sum_nonneg
      intro x hx
      obtain ⟨y, _, rfl⟩ := List.mem_map.1 hx
      exact abs_nonneg y
    simp only [List.map_cons, List.sum_cons] at hb
    have h1 := abs_add_le (p : ℚ) q
    have e : dbl ((p : ℚ) + q) = p + q := by
      have h2 : |p + q| ≤ 2 ^ 53 := by
        have : |(p : ℚ) + q| ≤ 2 ^ 53 := by linarith
        exact_mod_cast this
      have := C111_double_exact (p + q) 0 h2
      push_cast at this
      simpa using this
    simp only [List.foldl_cons, List.sum_cons]
    rw [e, ih _ ⟨p + q, by push_cast; rfl⟩ (fun x hx => hl x (by simp [hx])) (by linarith)]
    ring

/-- **C112.** Doubles are exact when the axes are in whole numbers, the contents are whole numbers and every bin is shared out
in whole numbers: the result is that of exact arithmetic (C01 – C04). -/
theorem C112_whole {a w b v : ℤ} {n m : ℕ} (counts : List ℚ) (hn : 2 ≤ n) (hm : 2 ≤ m) (hw : 0 < w) (hv : 0 < v)
    (hR : |a| + w * ((n : ℤ) + 1) ≤ 2 ^ 50) (hR' : |b| + v * ((m : ℤ) + 1) ≤ 2 ^ 50) (hc : counts.length = n)
    (hwhole : ∀ c ∈ counts, ∃ k : ℤ, c = k) (hsmall : ∀ c ∈ counts, |c| * w ≤ 2 ^ 51) (htotal : (counts.map abs).sum ≤ 2 ^ 53)
    (hshare : ∀ i < m, ∀ j < n, ∃ k : ℤ, counts.getD j 0 * share a w b v i j = k) :
    rebin1DF dbl counts (grid a w n) (grid b v m) = rebin1D counts (grid a w n) (grid b v m) := by
  have hwq : (0 : ℚ) < w := by exact_mod_cast hw
  have hvq : (0 : ℚ) < v := by exact_mod_cast hv
  rw [rebin1D_grid counts a w b v n m hn hm hwq hvq hc.ge]
  obtain ⟨iw, il, ie⟩ := axis_whole hw hn hR
  obtain ⟨ow, ol, oe⟩ := axis_whole hv hm hR'
  unfold rebin1DF
  rw [grid_length, grid_length, if_neg (by omega), iw, il, ow, ol, if_neg hwq.ne', if_neg (by omega)]
  congr 1
  apply List.map_congr_left
  intro i hi
  rw [List.mem_range] at hi
  have i0 : (0 : ℤ) ≤ i := by omega
  have ei := oe i (by omega) (by omega)
  have eu := ei.2.2 (by omega) (by omega)
  simp only [Int.cast_natCast] at ei eu
  have A0 := (ie 0 (by norm_num) (by omega)).2.1
  simp only [Int.cast_zero, mul_zero, add_zero] at A0
  have shareEq : ∀ j : ℕ, share a w b v i j =
      overlap ((a : ℚ) - w / 2 + w * j) (a - w / 2 + w * j + w) (b - v / 2 + v * i) (b - v / 2 + v * i + v) / w := by
    intro j
    unfold share
    congr 2 <;> ring
  have share0 : ∀ j, 0 ≤ share (a : ℚ) w b v i j := fun j => share_nonneg _ _ _ _ hwq _ _
  have ovle : ∀ j : ℕ, overlap ((a : ℚ) - w / 2 + w * j) (a - w / 2 + w * j + w) (b - v / 2 + v * i) (b - v / 2 + v * i + v) ≤ w := by
    intro j
    unfold overlap
    apply max_le hwq.le
    have := min_le_right ((b : ℚ) - v / 2 + v * i + v) (a - w / 2 + w * j + w)
    have := le_max_right ((b : ℚ) - v / 2 + v * i) (a - w / 2 + w * j)
    linarith
  have share1 : ∀ j, share (a : ℚ) w b v i j ≤ 1 := by
    intro j
    rw [shareEq, div_le_one hwq]
    exact ovle j
  have cmem : ∀ j < n, counts.getD j 0 ∈ counts := by
    intro j hj
    rw [List.getD_eq_getElem counts 0 (by omega)]
    exact List.getElem_mem _
  -- the terms are exact
  have term : ∀ j < n, rebinTermF dbl (fun j => counts.getD j 0) (a - w / 2) w (b - v / 2) v i j =
      counts.getD j 0 * share a w b v i j := by
    intro j hj
    have ej := ie j (by omega) (by omega)
    have eju := ej.2.2 (by omega) (by omega)
    simp only [Int.cast_natCast] at ej eju
    obtain ⟨k, hk⟩ := hshare i hi j hj
    obtain ⟨q, hq⟩ := hwhole _ (cmem j hj)
    have hsm := hsmall _ (cmem j hj)
    have hsh := shareEq j
    have hov := ovle j
    unfold rebinTermF
    simp only
    rw [ei.1, eu, ej.1, eju]
    have ovF : overlapF dbl ((a : ℚ) - w / 2 + w * j) (a - w / 2 + w * j + w) (b - v / 2 + v * i) (b - v / 2 + v * i + v) =
        overlap ((a : ℚ) - w / 2 + w * j) (a - w / 2 + w * j + w) (b - v / 2 + v * i) (b - v / 2 + v * i + v) := by
      unfold overlapF overlap
      congr 1
      apply HalfInt.dbl (B := 2 ^ 53) _ (by norm_num)
      obtain ⟨x1, b1, y1⟩ := ei.2.1
      obtain ⟨x2, b2, y2⟩ := ej.2.1
      have z3 : (b : ℚ) - v / 2 + v * i + v = ((x1 + 2 * v : ℤ) : ℚ) / 2 := by
        rw [y1]
        push_cast
        ring
      have z4 : (a : ℚ) - w / 2 + w * j + w = ((x2 + 2 * w : ℤ) : ℚ) / 2 := by
        rw [y2]
        push_cast
        ring
      have vb : 2 * v ≤ 2 ^ 51 := by nlinarith [abs_nonneg b]
      have wb : 2 * w ≤ 2 ^ 51 := by nlinarith [abs_nonneg a]
      rw [z3, z4, y1, y2]
      rw [abs_le] at b1 b2
      rcases min_choice (((x1 + 2 * v : ℤ) : ℚ) / 2) (((x2 + 2 * w : ℤ) : ℚ) / 2) with hmin | hmin <;>
      rcases max_choice ((x1 : ℚ) / 2) ((x2 : ℚ) / 2) with hmax | hmax <;> rw [hmin, hmax]
      · exact ⟨x1 + 2 * v - x1, by rw [abs_le]; constructor <;> omega, by push_cast; ring⟩
      · exact ⟨x1 + 2 * v - x2, by rw [abs_le]; constructor <;> omega, by push_cast; ring⟩
      · exact ⟨x2 + 2 * w - x1, by rw [abs_le]; constructor <;> omega, by push_cast; ring⟩
      · exact ⟨x2 + 2 * w - x2, by rw [abs_le]; constructor <;> omega, by push_cast; ring⟩
    rw [ovF]
    have ov0 := overlap_nonneg ((a : ℚ) - w / 2 + w * j) (a - w / 2 + w * j + w) (b - v / 2 + v * i) (b - v / 2 + v * i + v)
    generalize overlap ((a : ℚ) - w / 2 + w * j) (a - w / 2 + w * j + w) (b - v / 2 + v * i) (b - v / 2 + v * i + v) = o at *
    have co : counts.getD j 0 * o = (k : ℚ) * w := by
      rw [← hk, hsh]
      field_simp
    have kb : |(k : ℚ) * w| ≤ 2 ^ 51 := by
      rw [← co, abs_mul, abs_of_nonneg ov0]
      exact (mul_le_mul_of_nonneg_left hov (abs_nonneg _)).trans hsm
    have d1 : dbl (counts.getD j 0 * o) = (k : ℚ) * w := by
      rw [co]
      have h1 : |k * w| ≤ 2 ^ 53 := by
        have : |(k : ℚ) * w| ≤ 2 ^ 53 := kb.trans (by norm_num)
        exact_mod_cast this
      have := C111_double_exact (k * w) 0 h1
      push_cast at this
      simpa using this
    rw [d1, mul_div_assoc, div_self hwq.ne', mul_one, hk]
    have h1 : |k| ≤ 2 ^ 53 := by
      have w1 : (1 : ℚ) ≤ w := by exact_mod_cast hw
      rw [abs_mul, abs_of_pos hwq] at kb
      have : |(k : ℚ)| ≤ 2 ^ 53 := by nlinarith [abs_nonneg (k : ℚ)]
      exact_mod_cast this
    have := C111_double_exact k 0 h1
    simpa using this
  -- the window
  have pos : ∀ k : ℤ, -1 ≤ k → k ≤ m → ∃ z : ℤ, |z| ≤ 2 ^ 52 ∧ (b : ℚ) - v / 2 + v * k - (a - w / 2) = (z : ℚ) / 2 ∧
      positionF dbl (a - w / 2) w (b - v / 2) v k = dbl ((z : ℚ) / 2 / w) := by
    intro k h0 h1
    have ek := oe k h0 h1
    obtain ⟨x1, b1, y1⟩ := ek.2.1
    obtain ⟨x2, b2, y2⟩ := A0
    rw [abs_le] at b1 b2
    have hz : |x1 - x2| ≤ 2 ^ 52 := by rw [abs_le]; constructor <;> omega
    have hq : (b : ℚ) - v / 2 + v * k - (a - w / 2) = ((x1 - x2 : ℤ) : ℚ) / 2 := by
      rw [y1, y2]
      push_cast
      ring
    refine ⟨x1 - x2, hz, hq, ?_⟩
    unfold positionF
    rw [ek.1, hq, HalfInt.dbl ⟨_, hz, rfl⟩ (by norm_num)]
  have nb : |a| + w * ((n : ℤ) + 1) ≤ 2 ^ 50 := hR
  have low : ∀ j < n, (j : ℤ) < jminF dbl (a - w / 2) w (b - v / 2) v i → share (a : ℚ) w b v i j = 0 := by
    intro j hj hlt
    unfold jminF at hlt
    obtain ⟨z, hz, hq, hp⟩ := pos ((i : ℤ) - 1) (by omega) (by omega)
    push_cast at hp hq
    rw [hp] at hlt
    have hpos : (j : ℤ) < truncZ (dbl ((z : ℚ) / 2 / w)) := by
      rcases lt_max_iff.1 hlt with h | h
      · omega
      · exact h
    have h1 := truncZ_pos_le (by omega : 0 < truncZ (dbl ((z : ℚ) / 2 / w)))
    have h2 : ((j : ℤ) : ℚ) + 1 ≤ (truncZ (dbl ((z : ℚ) / 2 / w)) : ℚ) := by exact_mod_cast hpos
    have h3 : (j : ℚ) + 1 ≤ dbl ((z : ℚ) / 2 / w) := by
      push_cast at h2
      linarith
    have h4 := (abs_le.1 (C111_double_near ((z : ℚ) / 2 / w))).2
    have h5 : |(z : ℚ) / 2 / w| * w ≤ 2 ^ 51 := by
      rw [abs_div, abs_of_pos hwq, div_mul_cancel₀ _ hwq.ne', abs_div, abs_of_pos (by norm_num : (0 : ℚ) < 2)]
      have : |(z : ℚ)| ≤ 2 ^ 52 := by exact_mod_cast hz
      linarith
    have h6 : ((j : ℚ) + 1) * w ≤ ((z : ℚ) / 2 / w + |(z : ℚ) / 2 / w| / 2 ^ 53) * w :=
      mul_le_mul_of_nonneg_right (by linarith) hwq.le
    have h7 : ((j : ℚ) + 1) * w ≤ (z : ℚ) / 2 + 1 / 4 := by
      have : ((z : ℚ) / 2 / w + |(z : ℚ) / 2 / w| / 2 ^ 53) * w = (z : ℚ) / 2 + |(z : ℚ) / 2 / w| * w / 2 ^ 53 := by
        rw [add_mul, div_mul_cancel₀ _ hwq.ne']
        ring
      rw [this] at h6
      linarith
    have h8 : 2 * (((j : ℤ) + 1) * w) ≤ z := by
      have : (4 * (((j : ℤ) + 1) * w) : ℤ) < 2 * z + 2 := by
        have : (4 * (((j : ℚ) + 1) * w) : ℚ) < 2 * z + 2 := by linarith
        exact_mod_cast this
      omega
    have h9 : 2 * (((j : ℚ) + 1) * w) ≤ z := by exact_mod_cast h8
    rw [shareEq, overlap_eq_zero_of_le_left, zero_div]
    nlinarith
  have high : ∀ j < n, jmaxF dbl n (a - w / 2) w (b - v / 2) v i < (j : ℤ) → share (a : ℚ) w b v i j = 0 := by
    intro j hj hlt
    unfold jmaxF at hlt
    obtain ⟨z, hz, hq, hp⟩ := pos ((i : ℤ) + 1) (by omega) (by omega)
    push_cast at hp hq
    rw [hp] at hlt
    have hpos : truncZ (dbl ((z : ℚ) / 2 / w)) < (j : ℤ) := by
      rcases min_lt_iff.1 hlt with h | h
      · omega
      · exact h
    have h1 := lt_truncZ_add_one (dbl ((z : ℚ) / 2 / w))
    have h2 : (truncZ (dbl ((z : ℚ) / 2 / w)) : ℚ) + 1 ≤ (j : ℚ) := by exact_mod_cast hpos
    have h3 : (z : ℚ) / 2 / w < j := by
      by_contra hge
      have h4 := C111_double_mono (not_lt.1 hge)
      have jb : |(j : ℤ)| ≤ 2 ^ 53 := by
        have : (j : ℤ) < n := by exact_mod_cast hj
        rw [abs_of_nonneg (by omega)]
        nlinarith [abs_nonneg a]
      have h5 : dbl (j : ℚ) = j := by
        have := C111_double_exact (j : ℤ) 0 jb
        simpa using this
      rw [h5] at h4
      linarith
    rw [div_lt_iff₀ hwq] at h3
    rw [shareEq, overlap_eq_zero_of_le_right, zero_div]
    nlinarith
  -- adding up
  unfold rebinBinF
  simp only
  have lo0 : 0 ≤ jminF dbl ((a : ℚ) - w / 2) w (b - v / 2) v i := le_max_left _ _
  have hin' : jmaxF dbl n ((a : ℚ) - w / 2) w (b - v / 2) v i ≤ (n : ℤ) - 1 := min_le_left _ _
  generalize jminF dbl ((a : ℚ) - w / 2) w (b - v / 2) v i = lo at *
  generalize jmaxF dbl n ((a : ℚ) - w / 2) w (b - v / 2) v i = hi' at *
  have e : ((List.range (hi' + 1 - lo).toNat).map fun k : ℕ =>
      rebinTermF dbl (fun j => counts.getD j 0) (a - w / 2) w (b - v / 2) v i (lo.toNat + k)) =
      (List.range (hi' + 1 - lo).toNat).map fun k : ℕ => counts.getD (lo.toNat + k) 0 * share a w b v i (lo.toNat + k) := by
    apply List.map_congr_left
    intro k hk
    rw [List.mem_range] at hk
    exact term _ (by omega)
  unfold addAllF
  rw [e, foldl_whole]
  · rw [zero_add, list_map_range_sum]
    exact windowSum (fun j => counts.getD j 0 * share a w b v i j) n lo hi' lo0 hin'
      (fun j hj h => by rw [low j hj h, mul_zero]) (fun j hj h => by rw [high j hj h, mul_zero])
  · exact ⟨0, by simp⟩
  · intro t ht
    obtain ⟨k, hk, rfl⟩ := List.mem_map.1 ht
    rw [List.mem_range] at hk
    exact hshare i hi _ (by omega)
  · rw [abs_zero, zero_add, List.map_map, list_map_range_sum]
    simp only [Function.comp]
    rw [windowSum (fun j => |counts.getD j 0 * share a w b v i j|) n lo hi' lo0 hin'
      (fun j hj h => by rw [low j hj h, mul_zero, abs_zero]) (fun j hj h => by rw [high j hj h, mul_zero, abs_zero])]
    refine le_trans ?_ htotal
    rw [list_sum_eq_range, List.length_map, hc]
    apply Finset.sum_le_sum
    intro j hj
    rw [Finset.mem_range] at hj
    have e2 : (counts.map abs).getD j 0 = |counts.getD j 0| := by
      simp [List.getD_eq_getElem?_getD, hc, hj]
    rw [e2, abs_mul, abs_of_nonneg (share0 j)]
    have := mul_le_mul_of_nonneg_left (share1 j) (abs_nonneg (counts.getD j 0))
    linarith

/-- Non-vacuity: four bins of two keV joined into two bins of four keV; every input bin lies inside one output bin. -/
example : rebin1DF dbl [3, 5, 7, 9] (grid 1 2 4) (grid 2 4 2) = .ok [8, 16] ∧
    ∀ i < 2, ∀ j < 4, ([3, 5, 7, 9] : List ℚ).getD j 0 * share 1 2 2 4 i j =
      ((if j / 2 = i then [3, 5, 7, 9].getD j 0 else 0 : ℤ) : ℚ) := by decide +kernel

/-- **C112.** In particular whole counts on an axis in whole numbers are not changed by rebinning onto that axis. -/
theorem C112_same_axis_partial {a w : ℤ} {n : ℕ} (counts : List ℚ) (hn : 2 ≤ n) (hw : 0 < w)
    (hR : |a| + w * ((n : ℤ) + 1) ≤ 2 ^ 50) (hc : counts.length = n) (hwhole : ∀ c ∈ counts, ∃ k : ℤ, c = k)
    (hsmall : ∀ c ∈ counts, |c| * w ≤ 2 ^ 51) (htotal : (counts.map abs).sum ≤ 2 ^ 53) :
    rebin1DF dbl counts (grid a w n) (grid a w n) = .ok counts := by
  have hwq : (0 : ℚ) < w := by exact_mod_cast hw
  rw [C112_whole counts hn hn hw hw hR hR hc hwhole hsmall htotal, C03_rebin_same_axis counts a w n hn hwq hc]
  intro i _ j hj
  rw [share_self (a : ℚ) w hwq]
  split_ifs
  · obtain ⟨k, hk⟩ := hwhole (counts.getD j 0) (by
      rw [List.getD_eq_getElem counts 0 (by omega)]
      exact List.getElem_mem _)
    exact ⟨k, by rw [hk, mul_one]⟩
  · exact ⟨0, by simp⟩

example : rebin1DF dbl [5, -7, 123456789] (grid (-20) 7 3) (grid (-20) 7 3) = .ok [5, -7, 123456789] := by decide +kernel

end Ompy
