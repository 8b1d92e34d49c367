import Verif.CutRounding
import Verif.TrapezoidProps
import Verif.RoundingProps

/-!
# C115: cuts with rounded numbers
-/

namespace Ompy

/-- The axis is fine enough to be resolved from `e`: if `k` is the first bin not below `e`, the next one is further away by more than the
rounding of squared distances. -/
def Resolved (u : ℚ) (E : List ℚ) (e : ℚ) : Prop :=
  ∀ k, k + 1 < E.length → e ≤ E.getD k 0 → (∀ i < k, E.getD i 0 < e) → 8 * u * (E.getD k 0 - e) ≤ E.getD (k + 1) 0 - E.getD k 0

/-- Bounds of a rounded squared distance. -/
theorem sqF_bounds {fl : ℚ → ℚ} {u : ℚ} (h : Rounding fl u) (u0 : 0 ≤ u) (hu : u ≤ 1 / 100) (a : ℚ) :
    (1 - u) ^ 3 * a ^ 2 ≤ fl (fl a ^ 2) ∧ fl (fl a ^ 2) ≤ (1 + u) ^ 3 * a ^ 2 := by
  have h1 := h.rel a
  have h2 := h.rel (fl a ^ 2)
  rw [abs_of_nonneg (sq_nonneg (fl a))] at h2
  have lo : (1 - u) * |a| ≤ |fl a| := by
    have := abs_sub_abs_le_abs_sub a (fl a)
    rw [abs_sub_comm] at this
    linarith
  have hi : |fl a| ≤ (1 + u) * |a| := by
    have := abs_sub_abs_le_abs_sub (fl a) a
    linarith
  have s1 : (1 - u) ^ 2 * a ^ 2 ≤ fl a ^ 2 := by
    have := pow_le_pow_left₀ (mul_nonneg (by linarith) (abs_nonneg a)) lo 2
    rwa [mul_pow, sq_abs, sq_abs] at this
  have s2 : fl a ^ 2 ≤ (1 + u) ^ 2 * a ^ 2 := by
    have := pow_le_pow_left₀ (abs_nonneg _) hi 2
    rwa [mul_pow, sq_abs, sq_abs] at this
  rw [abs_le] at h2
  constructor
  · have := mul_le_mul_of_nonneg_left s1 (by linarith : 0 ≤ 1 - u)
    have e : (1 - u) * ((1 - u) ^ 2 * a ^ 2) = (1 - u) ^ 3 * a ^ 2 := by ring
    linarith
  · have := mul_le_mul_of_nonneg_left s2 (by linarith : 0 ≤ 1 + u)
    have e : (1 + u) * ((1 + u) ^ 2 * a ^ 2) = (1 + u) ^ 3 * a ^ 2 := by ring
    linarith

theorem cube_bound {u : ℚ} (u0 : 0 ≤ u) (hu : u ≤ 1 / 100) : (1 + u) ^ 3 ≤ (1 - u) ^ 3 * (1 + 8 * u) := by
  have e : (1 - u) ^ 3 * (1 + 8 * u) - (1 + u) ^ 3 = u * (2 - 24 * u + 22 * u ^ 2 - 8 * u ^ 3) := by ring
  have h : 0 ≤ 2 - 24 * u + 22 * u ^ 2 - 8 * u ^ 3 := by
    have : u ^ 3 ≤ 1 := pow_le_one₀ u0 (by linarith)
    have h3 : u ^ 3 ≤ 1 / 100 := by
      have := mul_le_mul hu (pow_le_one₀ u0 (by linarith) : u ^ 2 ≤ 1) (by positivity) (by norm_num)
      have e : u * u ^ 2 = u ^ 3 := by ring
      linarith
    have := sq_nonneg u
    linarith
  have := mul_nonneg u0 h
  linarith

/-- Larger distances of the same sign are larger after rounding, if they are resolved. -/
theorem sqF_lt {fl : ℚ → ℚ} {u : ℚ} (h : Rounding fl u) (u0 : 0 ≤ u) (hu : u ≤ 1 / 100) {a b : ℚ} (ha : 0 ≤ a) (hab : a < b) (hr : 8 * u * a ≤ b - a) :
    fl (fl a ^ 2) < fl (fl b ^ 2) := by
  have h1 := (sqF_bounds h u0 hu a).2
  have h2 := (sqF_bounds h u0 hu b).1
  have hb : 0 < b := by linarith
  have p : 0 < (1 - u) ^ 3 := by
    have : (0 : ℚ) < 1 - u := by linarith
    positivity
  rcases ha.eq_or_lt with rfl | ha
  · have : 0 < (1 - u) ^ 3 * b ^ 2 := by positivity
    have e : (1 + u) ^ 3 * (0 : ℚ) ^ 2 = 0 := by ring
    linarith
  · have c := cube_bound u0 hu
    have h3 : (1 + 8 * u) * a ≤ b := by linarith
    have h4 : (1 - u) ^ 3 * (((1 + 8 * u) * a) * b) ≤ (1 - u) ^ 3 * (b * b) :=
      mul_le_mul_of_nonneg_left (mul_le_mul_of_nonneg_right h3 hb.le) p.le
    have h5 : (1 + u) ^ 3 * (a * b) ≤ (1 - u) ^ 3 * (1 + 8 * u) * (a * b) := mul_le_mul_of_nonneg_right c (by positivity)
    have h6 : (1 + u) ^ 3 * (a * a) < (1 + u) ^ 3 * (a * b) := by
      apply mul_lt_mul_of_pos_left _ (by positivity)
      exact mul_lt_mul_of_pos_left hab ha
    have e1 : (1 + u) ^ 3 * a ^ 2 = (1 + u) ^ 3 * (a * a) := by ring
    have e2 : (1 - u) ^ 3 * b ^ 2 = (1 - u) ^ 3 * (b * b) := by ring
    have e3 : (1 - u) ^ 3 * (((1 + 8 * u) * a) * b) = (1 - u) ^ 3 * (1 + 8 * u) * (a * b) := by ring
    linarith

/-- **C115.** The search in floating point: the bin found is at most a relative `8u` further away than any other. -/
theorem C115_closest (fl : ℚ → ℚ) (u : ℚ) (h : Rounding fl u) (u0 : 0 ≤ u) (hu : u ≤ 1 / 100) (E : List ℚ) (e : ℚ) (hE : E ≠ [])
    (hs : E.Pairwise (· ≤ ·)) : indexF fl E e < E.length ∧ ∀ j < E.length, |E.getD (indexF fl E e) 0 - e| ≤ (1 + 8 * u) * |E.getD j 0 - e| := by
  obtain ⟨h1, h2⟩ := C111_index_closest fl h.mono E e hE hs
  refine ⟨h1, fun j hj => ?_⟩
  have h3 := h2 j hj
  unfold distF at h3
  have h4 := (sqF_bounds h u0 hu (E.getD (indexF fl E e) 0 - e)).1
  have h5 := (sqF_bounds h u0 hu (E.getD j 0 - e)).2
  generalize E.getD (indexF fl E e) 0 - e = a at *
  generalize E.getD j 0 - e = b at *
  have p : 0 < (1 - u) ^ 3 := by
    have : (0 : ℚ) < 1 - u := by linarith
    positivity
  have c := mul_le_mul_of_nonneg_right (cube_bound u0 hu) (sq_nonneg b)
  have h6 : (1 - u) ^ 3 * a ^ 2 ≤ (1 - u) ^ 3 * ((1 + 8 * u) * b ^ 2) := by
    have e : (1 - u) ^ 3 * ((1 + 8 * u) * b ^ 2) = (1 - u) ^ 3 * (1 + 8 * u) * b ^ 2 := by ring
    linarith
  have h7 := le_of_mul_le_mul_left h6 p
  have h8 : (1 + 8 * u) * b ^ 2 ≤ ((1 + 8 * u) * |b|) ^ 2 := by
    rw [mul_pow, sq_abs]
    apply mul_le_mul_of_nonneg_right _ (sq_nonneg b)
    nlinarith
  have := abs_le_of_sq_le_sq (h7.trans h8) (mul_nonneg (by linarith) (abs_nonneg b))
  exact this

/-- The bins before the one found are below `e`, those after it above. -/
theorem indexF_between {fl : ℚ → ℚ} {u : ℚ} (h : Rounding fl u) (u0 : 0 ≤ u) (hu : u ≤ 1 / 100) {E : List ℚ} {e : ℚ} (hE : E ≠ [])
    (hs : E.Pairwise (· < ·)) (hr : Resolved u E e) :
    indexF fl E e < E.length ∧ (∀ k < indexF fl E e, E.getD k 0 < e) ∧ ∀ k, indexF fl E e < k → k < E.length → e < E.getD k 0 := by
  obtain ⟨g1, g2, g3⟩ := indexF_spec fl E e hE
  refine ⟨g1, ?_, ?_⟩
  · by_contra hc
    push Not at hc
    obtain ⟨k, hk1, hk2⟩ := hc
    have hex : ∃ k, e ≤ E.getD k 0 ∧ k < indexF fl E e := ⟨k, hk2, hk1⟩
    classical
    obtain ⟨hk0, hk0'⟩ := Nat.find_spec hex
    set k0 := Nat.find hex with hk0def
    have hmin : ∀ i < k0, E.getD i 0 < e := by
      intro i hi
      by_contra hle
      exact Nat.find_min hex hi ⟨not_lt.1 hle, by omega⟩
    have hlt := getD_strictMono hs (Nat.lt_succ_self k0) (show k0 + 1 < E.length by omega)
    have := sqF_lt h u0 hu (a := E.getD k0 0 - e) (b := E.getD (k0 + 1) 0 - e) (by linarith) (by linarith)
      (by have := hr k0 (by omega) hk0 hmin; linarith)
    exact absurd (g2 k0 hk0') (not_le.2 this)
  · intro k hk hkl
    have hlast : e < E.getD (indexF fl E e + 1) 0 := by
      have hd := g3 (by omega)
      by_contra hle
      push Not at hle
      have hlt := getD_strictMono hs (Nat.lt_succ_self (indexF fl E e)) (show indexF fl E e + 1 < E.length by omega)
      have z : fl 0 = 0 := by simpa using h.rel 0
      have m1 := h.mono (show E.getD (indexF fl E e + 1) 0 - e ≤ 0 by linarith)
      have m2 := h.mono (show E.getD (indexF fl E e) 0 - e ≤ E.getD (indexF fl E e + 1) 0 - e by linarith)
      rw [z] at m1
      have : distF fl E e (indexF fl E e + 1) ≤ distF fl E e (indexF fl E e) := by
        unfold distF
        apply h.mono
        nlinarith
      exact absurd hd (not_lt.2 this)
    rcases Nat.eq_or_lt_of_le (show indexF fl E e + 1 ≤ k by omega) with rfl | hk'
    · exact hlast
    · exact hlast.trans (getD_strictMono hs hk' hkl)

/-- The lower end of the slice counts the bins below the limit. -/
theorem lowF_bound {fl : ℚ → ℚ} {u : ℚ} (h : Rounding fl u) (u0 : 0 ≤ u) (hu : u ≤ 1 / 100) {E : List ℚ} {e : ℚ} (hE : E ≠ [])
    (hs : E.Pairwise (· < ·)) (hr : Resolved u E e) (k : ℕ) (hk : k < E.length) :
    E.getD k 0 < e ↔ k < (if E.getD (indexF fl E e) 0 < e then indexF fl E e + 1 else indexF fl E e) := by
  obtain ⟨g1, g2, g3⟩ := indexF_between h u0 hu hE hs hr
  rcases lt_trichotomy k (indexF fl E e) with hlt | heq | hgt
  · have := g2 k hlt
    split_ifs <;> exact ⟨fun _ => by omega, fun _ => this⟩
  · subst heq
    split_ifs with h1
    · exact ⟨fun _ => by omega, fun _ => h1⟩
    · exact ⟨fun h2 => absurd h2 h1, fun h2 => by omega⟩
  · have := g3 k hgt hk
    split_ifs <;> exact ⟨fun h1 => absurd h1 (by linarith), fun h1 => by omega⟩

/-- The upper end of the slice counts the bins not above the limit. -/
theorem highF_bound {fl : ℚ → ℚ} {u : ℚ} (h : Rounding fl u) (u0 : 0 ≤ u) (hu : u ≤ 1 / 100) {E : List ℚ} {e : ℚ} (hE : E ≠ [])
    (hs : E.Pairwise (· < ·)) (hr : Resolved u E e) (k : ℕ) (hk : k < E.length) :
    E.getD k 0 ≤ e ↔ k < (if E.getD (indexF fl E e) 0 > e then indexF fl E e else indexF fl E e + 1) := by
  obtain ⟨g1, g2, g3⟩ := indexF_between h u0 hu hE hs hr
  rcases lt_trichotomy k (indexF fl E e) with hlt | heq | hgt
  · have := g2 k hlt
    split_ifs <;> exact ⟨fun _ => by omega, fun _ => this.le⟩
  · subst heq
    split_ifs with h1
    · exact ⟨fun h2 => absurd h2 (not_le.2 h1), fun h2 => by omega⟩
    · exact ⟨fun _ => by omega, fun _ => not_lt.1 h1⟩
  · have := g3 k hgt hk
    split_ifs <;> exact ⟨fun h1 => absurd h1 (by linarith), fun h1 => by omega⟩

/-- Two numbers up to `n` with the same smaller positions are equal. -/
theorem count_unique {n a b : ℕ} (P : ℕ → Prop) (ha : a ≤ n) (hb : b ≤ n) (h1 : ∀ k < n, P k ↔ k < a) (h2 : ∀ k < n, P k ↔ k < b) : a = b := by
  rcases lt_trichotomy a b with h | h | h
  · have := (h1 a (by omega)).1 ((h2 a (by omega)).2 h)
    omega
  · exact h
  · have := (h2 b (by omega)).1 ((h1 b (by omega)).2 h)
    omega

theorem cutLowF_fin (fl : ℚ → ℚ) (E : List ℚ) (lo : ℚ) (incl : Bool) : cutLowF fl E (.fin lo) incl =
    if incl then ((if E.getD (indexF fl E lo) 0 < lo then indexF fl E lo + 1 else indexF fl E lo : ℕ) : ℤ)
    else ((if E.getD (indexF fl E lo) 0 < lo then indexF fl E lo + 1 else indexF fl E lo : ℕ) : ℤ) + 1 := by
  have : cutLowF fl E (.fin lo) incl =
    if incl then (if decide (E.getD (indexF fl E lo) 0 < lo) = true then ((indexF fl E lo : ℕ) : ℤ) + 1 else ((indexF fl E lo : ℕ) : ℤ))
    else (if decide (E.getD (indexF fl E lo) 0 < lo) = true then ((indexF fl E lo : ℕ) : ℤ) + 1 else ((indexF fl E lo : ℕ) : ℤ)) + 1 := rfl
  rw [this]
  by_cases c : E.getD (indexF fl E lo) 0 < lo <;> simp only [c, decide_true, decide_false, if_true, if_false, Bool.false_eq_true, Nat.cast_add, Nat.cast_one]

theorem cutHighF_fin (fl : ℚ → ℚ) (E : List ℚ) (hi : ℚ) (incl : Bool) : cutHighF fl E (.fin hi) incl =
    if incl then ((if E.getD (indexF fl E hi) 0 > hi then indexF fl E hi else indexF fl E hi + 1 : ℕ) : ℤ)
    else ((if E.getD (indexF fl E hi) 0 > hi then indexF fl E hi else indexF fl E hi + 1 : ℕ) : ℤ) - 1 := by
  have : cutHighF fl E (.fin hi) incl =
    (if incl then (if decide (hi < E.getD (indexF fl E hi) 0) = true then ((indexF fl E hi : ℕ) : ℤ) - 1 else ((indexF fl E hi : ℕ) : ℤ))
    else (if decide (hi < E.getD (indexF fl E hi) 0) = true then ((indexF fl E hi : ℕ) : ℤ) - 1 else ((indexF fl E hi : ℕ) : ℤ)) - 1) + 1 := rfl
  rw [this]
  by_cases c : hi < E.getD (indexF fl E hi) 0 <;> cases incl <;>
    simp only [gt_iff_lt, c, decide_true, decide_false, if_true, if_false, Bool.false_eq_true, Nat.cast_add, Nat.cast_one] <;> ring

/-- **C115 (partial).** Rounding does not change where a matrix is cut: for limits from which the axis is resolved, the slice in floating
point is that of exact arithmetic, whatever the rounding is.  Missing: limits so far below the axis that its bins have the same rounded
distance (`C115_far_fails`) and infinite limits (`C115_infinite_fails`). -/
theorem C115_bounds_partial (fl : ℚ → ℚ) (u : ℚ) (h : Rounding fl u) (u0 : 0 ≤ u) (hu : u ≤ 1 / 100) (E : List ℚ) (lo hi : ℚ) (hE : E ≠ [])
    (hs : E.Pairwise (· < ·)) (h1 : Resolved u E lo) (h2 : Resolved u E hi) (minIncl maxIncl : Bool) :
    cutBoundsF fl E (some (.fin lo)) (some (.fin hi)) minIncl maxIncl = cutBounds E (some lo) (some hi) minIncl maxIncl := by
  obtain ⟨i, hi1, hi2, -⟩ := C05_index_closest E lo hE (hs.imp le_of_lt)
  obtain ⟨j, hj1, hj2, -⟩ := C05_index_closest E hi hE (hs.imp le_of_lt)
  have el := count_unique (fun k => E.getD k 0 < lo)
    (by have := (indexF_between h u0 hu hE hs h1).1; split_ifs <;> omega) (by have := hi2.1; split_ifs <;> omega)
    (lowF_bound h u0 hu hE hs h1) (low_bound hs hi2)
  have eh := count_unique (fun k => E.getD k 0 ≤ hi)
    (by have := (indexF_between h u0 hu hE hs h2).1; split_ifs <;> omega) (by have := hj2.1; split_ifs <;> omega)
    (highF_bound h u0 hu hE hs h2) (high_bound hs hj2)
  simp only [cutBoundsF, cutBounds, limitOr, orElseE, bind, Except.bind, pure, Except.pure, hi1, hj1, if_neg hE, cutLowF_fin, cutHighF_fin, el, eh]
  by_cases c1 : E.getD i 0 < lo <;> by_cases c2 : hi < E.getD j 0 <;> cases minIncl <;> cases maxIncl <;>
    simp only [gt_iff_lt, c1, c2, if_true, if_false, Bool.false_eq_true, Nat.cast_add, Nat.cast_one, sub_add_cancel, add_sub_cancel_right]

/-- **C115 (partial).** The same for matrices. -/
theorem C115_cut_partial (fl : ℚ → ℚ) (u : ℚ) (h : Rounding fl u) (u0 : 0 ≤ u) (hu : u ≤ 1 / 100) (m : Mat) (axis : ℕ) (lo hi : ℚ)
    (hE : (if axis = 0 then m.Eg else m.Ex) ≠ []) (hs : (if axis = 0 then m.Eg else m.Ex).Pairwise (· < ·))
    (h1 : Resolved u (if axis = 0 then m.Eg else m.Ex) lo) (h2 : Resolved u (if axis = 0 then m.Eg else m.Ex) hi) (minIncl maxIncl : Bool) :
    m.cutF fl axis (some (.fin lo)) (some (.fin hi)) minIncl maxIncl = m.cut axis (some lo) (some hi) minIncl maxIncl := by
  unfold Mat.cutF Mat.cut
  dsimp only
  rw [C115_bounds_partial fl u h u0 hu _ lo hi hE hs h1 h2 minIncl maxIncl]
  rfl

/-- Limits on the axis or above its first bin are resolved if no bin is much narrower than the one below it; limits below the axis if they
are not too far away. -/
theorem resolved_of {u : ℚ} (u0 : 0 ≤ u) {E : List ℚ} {e : ℚ}
    (hw : ∀ k, k + 2 < E.length → 8 * u * (E.getD (k + 1) 0 - E.getD k 0) ≤ E.getD (k + 2) 0 - E.getD (k + 1) 0)
    (h0 : 1 < E.length → 8 * u * (E.getD 0 0 - e) ≤ E.getD 1 0 - E.getD 0 0) : Resolved u E e := by
  intro k hk hek hlow
  rcases Nat.eq_zero_or_pos k with rfl | hpos
  · exact h0 (by omega)
  · obtain ⟨j, rfl⟩ : ∃ j, k = j + 1 := ⟨k - 1, by omega⟩
    have := hlow j (by omega)
    have h2 := hw j (by omega)
    have : 8 * u * (E.getD (j + 1) 0 - e) ≤ 8 * u * (E.getD (j + 1) 0 - E.getD j 0) := mul_le_mul_of_nonneg_left (by linarith) (by positivity)
    linarith

/-- Non-vacuity: an axis of five bins of 0.1 MeV in doubles and limits in between. -/
example : Resolved (1 / 2 ^ 53) [0, dbl (1 / 10), dbl (2 / 10), dbl (3 / 10), dbl (4 / 10)] (dbl (15 / 100)) ∧
    cutBoundsF dbl [0, dbl (1 / 10), dbl (2 / 10), dbl (3 / 10), dbl (4 / 10)] (some (.fin (dbl (15 / 100)))) none true true = .ok (2, 5) := by
  refine ⟨resolved_of (by norm_num) ?_ (fun _ => by decide +kernel), by decide +kernel⟩
  intro k hk
  have : k < 3 := by
    simp only [List.length_cons, List.length_nil] at hk
    omega
  interval_cases k <;> decide +kernel

/-- **C115, fails.** A lower limit far below the axis cuts away everything but the last bin: all distances are the same double. -/
theorem C115_far_fails : cutBoundsF dbl (grid 0 100 50) (some (.fin (-10 ^ 20))) none true true = .ok (49, 50) ∧
    cutBounds (grid 0 100 50) (some (-10 ^ 20)) none true true = .ok (0, 50) := by
  constructor <;> decide +kernel

theorem pySlice_last (l : List ℚ) (h : l ≠ []) : pySlice l ((l.length - 1 : ℕ) : ℤ) (((l.length - 1 : ℕ) : ℤ) + 1) = [l.getD (l.length - 1) 0] := by
  have hpos : 0 < l.length := List.length_pos_iff.2 h
  unfold pySlice pyIdx
  rw [if_neg (by omega), if_neg (by omega)]
  have e1 : min (((l.length - 1 : ℕ) : ℤ) + 1).toNat l.length = l.length := by omega
  have e2 : min ((l.length - 1 : ℕ) : ℤ).toNat l.length = l.length - 1 := by omega
  rw [e1, e2, List.take_length, List.drop_length_sub_one h, List.getLast_eq_getElem, List.getD_eq_getElem l 0 (by omega)]

/-- **C115, fails.** `Emin=-inf` leaves only the last bin, on every axis and with every rounding, in matrices and in vectors. -/
theorem C115_infinite_fails (fl : ℚ → ℚ) (E : List ℚ) (hE : E ≠ []) :
    cutBoundsF fl E (some .ninf) (some .pinf) true true = .ok ((E.length : ℤ) - 1, (E.length : ℤ)) ∧
    ∀ (values : List ℚ) (units : String), values.length = E.length →
      (⟨E, values, none, units⟩ : Vec ℚ).cutF fl (some .ninf) (some .pinf) = .ok ⟨[E.getD (E.length - 1) 0], [values.getD (E.length - 1) 0], none, units⟩ := by
  have hpos : 0 < E.length := List.length_pos_iff.2 hE
  constructor
  · have hl : cutLowF fl E .ninf true = (E.length : ℤ) - 1 := by
      show (if false = true then ((E.length - 1 : ℕ) : ℤ) + 1 else ((E.length - 1 : ℕ) : ℤ)) = _
      rw [if_neg (by simp)]
      omega
    have hh : cutHighF fl E .pinf true = (E.length : ℤ) := by
      show ((if false = true then ((E.length - 1 : ℕ) : ℤ) - 1 else ((E.length - 1 : ℕ) : ℤ))) + 1 = _
      rw [if_neg (by simp)]
      omega
    simp only [cutBoundsF, limitOr, bind, Except.bind, pure, Except.pure, if_neg hE, hl, hh]
  · intro values units hv
    simp only [Vec.cutF, limitOr, bind, Except.bind, pure, Except.pure, if_neg hE]
    simp only [indexNum, Option.map_none]
    have hv' : values ≠ [] := by
      rintro rfl
      simp at hv
      omega
    rw [pySlice_last E hE]
    have := pySlice_last values hv'
    rw [hv] at this
    rw [this]

/-- **C115.** An infinite upper limit cuts nothing away. -/
theorem C115_upper (fl : ℚ → ℚ) (u : ℚ) (h : Rounding fl u) (u0 : 0 ≤ u) (hu : u ≤ 1 / 100) (E : List ℚ) (lo : ℚ) (hE : E ≠ []) (hs : E.Pairwise (· < ·))
    (h1 : Resolved u E lo) : ∃ a : ℕ, cutBoundsF fl E (some (.fin lo)) (some .pinf) true true = .ok ((a : ℤ), (E.length : ℤ)) ∧ ∀ k < E.length, lo ≤ E.getD k 0 ↔ a ≤ k := by
  have hpos : 0 < E.length := List.length_pos_iff.2 hE
  refine ⟨if E.getD (indexF fl E lo) 0 < lo then indexF fl E lo + 1 else indexF fl E lo, ?_, ?_⟩
  · have hh : cutHighF fl E .pinf true = (E.length : ℤ) := by
      show ((if false = true then ((E.length - 1 : ℕ) : ℤ) - 1 else ((E.length - 1 : ℕ) : ℤ))) + 1 = _
      rw [if_neg (by simp)]
      omega
    simp only [cutBoundsF, limitOr, bind, Except.bind, pure, Except.pure, if_neg hE, cutLowF_fin, hh, if_true]
  · intro k hk
    rw [← not_lt, lowF_bound h u0 hu hE hs h1 k hk, not_lt]

/-! ### Vectors -/

/-- **C115.** A vector is cut at bins that are closest to the limits up to a relative `8u`. -/
theorem C115_vector (fl : ℚ → ℚ) (u : ℚ) (h : Rounding fl u) (u0 : 0 ≤ u) (hu : u ≤ 1 / 100) (v : Vec ℚ) (lo hi : ℚ) (hE : v.E ≠ []) (hs : v.E.Pairwise (· ≤ ·)) :
    ∃ a b : ℕ, a < v.E.length ∧ b < v.E.length ∧
      (∀ j < v.E.length, |v.E.getD a 0 - lo| ≤ (1 + 8 * u) * |v.E.getD j 0 - lo|) ∧ (∀ j < v.E.length, |v.E.getD b 0 - hi| ≤ (1 + 8 * u) * |v.E.getD j 0 - hi|) ∧
      v.cutF fl (some (.fin lo)) (some (.fin hi)) = .ok ⟨(v.E.take (b + 1)).drop a, (v.values.take (b + 1)).drop a, v.std.map fun s => (s.take (b + 1)).drop a, v.units⟩ := by
  obtain ⟨a1, a2⟩ := C115_closest fl u h u0 hu v.E lo hE hs
  obtain ⟨b1, b2⟩ := C115_closest fl u h u0 hu v.E hi hE hs
  refine ⟨_, _, a1, b1, a2, b2, ?_⟩
  have sl : ∀ (l : List ℚ) (a b : ℕ), pySlice l (a : ℤ) ((b : ℤ) + 1) = (l.take (b + 1)).drop a := by
    intro l a b
    unfold pySlice pyIdx
    rw [if_neg (by omega), if_neg (by omega)]
    have e1 : ((b : ℤ) + 1).toNat = b + 1 := by omega
    rw [e1, Int.toNat_natCast]
    have e3 : l.take (min (b + 1) l.length) = l.take (b + 1) := by
      rcases Nat.le_total (b + 1) l.length with hc | hc
      · rw [min_eq_left hc]
      · rw [min_eq_right hc, List.take_length, List.take_of_length_le hc]
    rw [e3]
    rcases Nat.le_total a l.length with hc | hc
    · rw [min_eq_left hc]
    · rw [min_eq_right hc, List.drop_eq_nil_of_le (by rw [List.length_take]; omega), List.drop_eq_nil_of_le (by rw [List.length_take]; omega)]
  simp only [Vec.cutF, limitOr, bind, Except.bind, pure, Except.pure, if_neg hE, indexNum, sl]

example : (⟨[0, 100, 200, 300], [1, 2, 3, 4], none, "keV"⟩ : Vec ℚ).cutF dbl (some (.fin 120)) (some (.fin 210)) = .ok ⟨[100, 200], [2, 3], none, "keV"⟩ := by decide +kernel

/-! ### The trapezoidal cut -/

/-- Where nothing is rounded the mask is the exact one. -/
theorem maskDiagF_eq (fl : ℚ → ℚ) (m : Mat) (shift : List (Option ℚ)) (h : ∀ ex ∈ m.Ex, ∀ s, some s ∈ shift → fl (ex + s) = ex + s) :
    maskDiagF fl m shift = maskDiag m shift := by
  unfold maskDiagF maskDiag
  congr 1
  apply List.ext_getElem (by simp)
  intro i hi1 hi2
  simp only [List.getElem_zipWith]
  apply List.ext_getElem (by simp)
  intro j hj1 hj2
  simp only [List.getElem_zipWith, List.getElem_zip]
  have hj : j < shift.length := by
    simp only [List.length_zipWith, List.length_zip] at hj1
    omega
  cases hs : shift[j] with
  | none => rfl
  | some s =>
    have hi : i < m.Ex.length := by
      simp only [List.length_zipWith] at hi1
      omega
    have := h m.Ex[i] (List.getElem_mem hi) s (hs ▸ List.getElem_mem hj)
    simp only [this]

/-- The rounded mask of a fixed shift applied to the rectangle. -/
theorem trapezoidF_core (fl : ℚ → ℚ) (m : Mat) (exMin exMax egMin g : ℚ) (hm : RegularMat m) :
    ∃ m1 m2, m.cut 1 (some exMin) (some exMax) true true = .ok m1 ∧ m1.Eg = m.Eg ∧ m1.cut 0 (some egMin) (some g) true true = .ok m2 ∧
      ∀ d : ℚ, IsTrapezoid m (maskDiagF fl m2 (m2.Eg.map fun _ => some d)) exMin exMax egMin g (fun ex eg => decide (eg < fl (ex + d))) := by
  obtain ⟨hc, hEx, hEg, hsx, hsg⟩ := hm
  obtain ⟨m1, e1, g1, x1, z1, l1, w1, -, -, H⟩ := rect_cut m exMin exMax hc hEx hEg hsx hsg
  obtain ⟨m2, e2, x2, g2, v2, s2, t2⟩ := H egMin g
  refine ⟨m1, m2, e1, g1, e2, fun d => ⟨by rw [← x1, ← x2]; rfl, g2, ?_, ?_, s2, t2⟩⟩
  · show m2.Ex.zip (List.zipWith _ m2.Ex m2.values) = _
    rw [zip_zipWith_eq, ← z1, x2, v2, List.zip_map_right (l₁ := m1.Ex), List.map_map]
    apply List.map_congr_left
    intro p hp
    have hr : p.2.length = m.Eg.length := w1 _ (List.of_mem_zip hp).2
    simp only [Function.comp, Prod.map_fst, Prod.map_snd, id, Prod.mk.injEq, true_and]
    rw [g2, zip_map_map, zipWith_filter_zip _ _ hr (fun e => decide (egMin ≤ e ∧ e ≤ g))]
    apply List.map_congr_left
    intro q _
    by_cases h : q.1 < fl (p.1 + d)
    · simp [h]
    · simp [h, not_lt.mp h]
  · show (List.zipWith _ m2.Ex m2.values).length = m2.Ex.length
    rw [List.length_zipWith, v2, List.length_map, l1, x2, min_self]

/-- **C115 (partial).** The trapezoidal cut in floating point has the axes of the exact cut (C77), and which entries it keeps differs only
in a band around the diagonal of relative width `3u`.  Missing: the diagonal itself (`C115_trapezoid_fails`). -/
theorem C115_trapezoid_partial (fl : ℚ → ℚ) (u : ℚ) (h : Rounding fl u) (u0 : 0 ≤ u) (hu : u ≤ 1 / 100) (m : Mat) (exMin exMax egMin g : ℚ) (hm : RegularMat m)
    (hg : g ≤ exMax) (r1 : Resolved u m.Ex exMin) (r2 : Resolved u m.Ex exMax) (r3 : Resolved u m.Eg egMin) (r4 : Resolved u m.Eg g) :
    ∃ t keep, m.trapezoidF fl exMin exMax egMin (some g) = .ok t ∧ IsTrapezoid m t exMin exMax egMin g keep ∧
      ∀ ex eg, 3 * u * (|ex| + (exMax - g)) < |eg - ex - (g - exMax)| → keep ex eg = decide (eg - ex < g - exMax) := by
  obtain ⟨m1, m2, e1, g1, e2, H⟩ := trapezoidF_core fl m exMin exMax egMin g hm
  obtain ⟨hc, hEx, hEg, hsx, hsg⟩ := hm
  have c1 : m.cutF fl 1 (some (.fin exMin)) (some (.fin exMax)) true true = .ok m1 := by
    rw [C115_cut_partial fl u h u0 hu m 1 exMin exMax (by simpa using hEx) (by simpa using hsx) (by simpa using r1) (by simpa using r2), e1]
  have c2 : m1.cutF fl 0 (some (.fin egMin)) (some (.fin g)) true true = .ok m2 := by
    rw [C115_cut_partial fl u h u0 hu m1 0 egMin g (by simpa [g1] using hEg) (by simpa [g1] using hsg) (by simpa [g1] using r3) (by simpa [g1] using r4), e2]
  have hrel := h.rel (g - exMax)
  rw [abs_of_nonpos (by linarith : g - exMax ≤ 0)] at hrel
  have hd : |fl (g - exMax) - (g - exMax)| ≤ u * (exMax - g) := by
    have e : u * (exMax - g) = u * -(g - exMax) := by ring
    rw [e]; exact hrel
  have hub : u * (exMax - g) ≤ (exMax - g) / 100 := by nlinarith
  have hneg : ¬ 0 < fl (g - exMax) := by
    have := (abs_le.1 hd).2
    intro h0
    by_cases hz : g = exMax
    · subst hz
      simp at this
      linarith [show fl (g - g) = fl 0 by rw [sub_self]]
    · have : g < exMax := lt_of_le_of_ne hg hz
      linarith
  refine ⟨_, _, ?_, H (fl (g - exMax)), ?_⟩
  · simp only [Mat.trapezoidF, bind, Except.bind, pure, Except.pure, c1, c2, diagShift, if_neg hneg]
  · intro ex eg hband
    set d := fl (g - exMax) with hdd
    have h2 := h.rel (ex + d)
    have h3 : |ex + d| ≤ |ex| + (1 + u) * (exMax - g) := by
      have a1 := abs_add_le ex d
      have a2 : |d| ≤ |d - (g - exMax)| + |g - exMax| := by
        have := abs_add_le (d - (g - exMax)) (g - exMax)
        rwa [sub_add_cancel] at this
      rw [abs_of_nonpos (by linarith : g - exMax ≤ 0)] at a2
      linarith
    have h4 : |fl (ex + d) - (ex + (g - exMax))| ≤ 3 * u * (|ex| + (exMax - g)) := by
      have a1 := abs_add_le (fl (ex + d) - (ex + d)) (d - (g - exMax))
      have e : fl (ex + d) - (ex + d) + (d - (g - exMax)) = fl (ex + d) - (ex + (g - exMax)) := by ring
      rw [e] at a1
      have a2 := mul_le_mul_of_nonneg_left h3 u0
      have a3 : 0 ≤ u * |ex| := by positivity
      have a4 : 0 ≤ u * (exMax - g) := mul_nonneg u0 (by linarith)
      have a5 : u * (u * (exMax - g)) ≤ 1 * (u * (exMax - g)) := mul_le_mul_of_nonneg_right (by linarith) a4
      have e2 : u * (|ex| + (1 + u) * (exMax - g)) = u * |ex| + u * (exMax - g) + u * (u * (exMax - g)) := by ring
      linarith
    have h5 := abs_le.1 h4
    apply decide_eq_decide.2
    constructor
    · intro hk
      rcases lt_or_ge (eg - ex - (g - exMax)) 0 with hc | hc
      · linarith
      · rw [abs_of_nonneg hc] at hband
        linarith
    · intro hk
      rw [abs_of_neg (by linarith : eg - ex - (g - exMax) < 0)] at hband
      linarith

/-- **C115.** In whole numbers such as keV nothing is rounded: on increasing axes of integers of at most 49 binary digits the trapezoidal cut
in doubles is the exact one, also with the automatic gamma limit. -/
theorem C115_trapezoid_whole (m : Mat) (exMin exMax egMin : ℤ) (egMax : Option ℤ) (hm : RegularMat m)
    (hx : ∀ e ∈ m.Ex, ∃ k : ℤ, e = k ∧ |k| ≤ 2 ^ 48) (hy : ∀ e ∈ m.Eg, ∃ k : ℤ, e = k ∧ |k| ≤ 2 ^ 48)
    (h1 : |exMin| ≤ 2 ^ 48) (h2 : |exMax| ≤ 2 ^ 48) (h3 : |egMin| ≤ 2 ^ 48) (h4 : ∀ g ∈ egMax, |g| ≤ 2 ^ 48) :
    m.trapezoidF dbl exMin exMax egMin (egMax.map fun g => (g : ℚ)) = m.trapezoid exMin exMax egMin (egMax.map fun g => (g : ℚ)) := by
  have res : ∀ E : List ℚ, E.Pairwise (· < ·) → (∀ e ∈ E, ∃ k : ℤ, e = k ∧ |k| ≤ 2 ^ 48) → ∀ e : ℤ, |e| ≤ 2 ^ 48 → Resolved (1 / 2 ^ 53) E e := by
    intro E hs hE e he k hk hek _
    rw [List.getD_eq_getElem E 0 hk, List.getD_eq_getElem E 0 (by omega : k < E.length)]
    obtain ⟨a, ha, ha'⟩ := hE _ (List.getElem_mem (by omega : k < E.length))
    obtain ⟨b, hb, hb'⟩ := hE _ (List.getElem_mem hk)
    have hlt : E[k] < E[k + 1] := List.pairwise_iff_getElem.1 hs k (k + 1) (by omega) hk (by omega)
    rw [ha, hb] at hlt ⊢
    have hab : a + 1 ≤ b := by exact_mod_cast hlt
    have hab' : (a : ℚ) + 1 ≤ b := by exact_mod_cast hab
    have hae : a - e ≤ 2 ^ 49 := by
      have := (abs_le.1 ha').2
      have := (abs_le.1 he).1
      omega
    have hae' : (a : ℚ) - e ≤ 2 ^ 49 := by exact_mod_cast hae
    linarith
  obtain ⟨hc, hEx, hEg, hsx, hsg⟩ := hm
  have c1 : m.cutF dbl 1 (some (.fin exMin)) (some (.fin exMax)) true true = m.cut 1 (some (exMin : ℚ)) (some (exMax : ℚ)) true true :=
    C115_cut_partial dbl _ dbl_rounding (by norm_num) (by norm_num) m 1 exMin exMax (by simpa using hEx) (by simpa using hsx)
      (by simpa using res m.Ex hsx hx exMin h1) (by simpa using res m.Ex hsx hx exMax h2) true true
  obtain ⟨m1, e1, g1, x1, -, -, -, -, -, H⟩ := rect_cut m exMin exMax hc hEx hEg hsx hsg
  have key : ∀ g : ℤ, |g| ≤ 2 ^ 48 → m.trapezoidF dbl exMin exMax egMin (some (g : ℚ)) = m.trapezoid exMin exMax egMin (some (g : ℚ)) ∧
      (autoEgMax m1 = .ok (g : ℚ) → m.trapezoidF dbl exMin exMax egMin none = m.trapezoid exMin exMax egMin none) := by
    intro g hg
    obtain ⟨m2, e2, x2, g2, -, -, -⟩ := H egMin g
    have c2 : m1.cutF dbl 0 (some (.fin egMin)) (some (.fin g)) true true = .ok m2 := by
      rw [C115_cut_partial dbl _ dbl_rounding (by norm_num) (by norm_num) m1 0 egMin g (by simpa [g1] using hEg) (by simpa [g1] using hsg)
        (by simpa [g1] using res m.Eg hsg hy egMin h3) (by simpa [g1] using res m.Eg hsg hy g hg), e2]
    have b1 := abs_le.1 hg
    have b2 := abs_le.1 h2
    have d1 : dbl ((g : ℚ) - exMax) = (g : ℚ) - exMax := by
      have := dbl_int (g - exMax) (abs_le.2 ⟨by omega, by omega⟩)
      push_cast at this
      exact this
    have d2 : ∀ s, diagShift m2 ((g : ℚ) - exMax) = .ok s → maskDiagF dbl m2 s = maskDiag m2 s := by
      intro s hs
      apply maskDiagF_eq
      intro ex hex r hr
      unfold diagShift at hs
      split_ifs at hs with q1 q2
      · cases hs
        have hz : ∀ l : List ℚ, (List.zipWith (fun a b => a - b) l l).map
            (fun b => if b = 0 then none else some ((⌈((g : ℚ) - exMax) / b⌉ : ℤ) * b : ℚ)) = l.map fun _ => none := by
          intro l
          induction l with
          | nil => rfl
          | cons a l ih => simp
        unfold meshEg at hr
        rw [hz] at hr
        simp at hr
      · cases hs
        obtain ⟨_, -, hr⟩ := List.mem_map.1 hr
        cases hr
        rw [x2, x1] at hex
        obtain ⟨k, hk, hk'⟩ := hx ex (List.mem_of_mem_filter hex)
        have b3 := abs_le.1 hk'
        have := dbl_int (k + (g - exMax)) (abs_le.2 ⟨by omega, by omega⟩)
        push_cast at this
        rw [hk]
        exact this
    constructor
    · simp only [Mat.trapezoidF, Mat.trapezoid, bind, Except.bind, pure, Except.pure, c1, e1, c2, e2, d1]
      cases hs : diagShift m2 ((g : ℚ) - exMax) with
      | error e => rfl
      | ok s => simp only [d2 s hs]
    · intro ha
      simp only [Mat.trapezoidF, Mat.trapezoid, bind, Except.bind, pure, Except.pure, c1, e1, ha, c2, e2, d1]
      cases hs : diagShift m2 ((g : ℚ) - exMax) with
      | error e => rfl
      | ok s => simp only [d2 s hs]
  cases egMax with
  | some g => exact (key g (h4 g rfl)).1
  | none =>
    cases ha : autoEgMax m1 with
    | error e =>
      simp only [Mat.trapezoidF, Mat.trapezoid, bind, Except.bind, c1, e1, ha]
      rfl
    | ok q =>
      have hq : q ∈ m.Eg := by
        unfold autoEgMax at ha
        split at ha
        · cases ha
        · split at ha
          · cases ha
          · split_ifs at ha with hk
            cases ha
            rw [g1] at hk ⊢
            rw [List.getD_eq_getElem m.Eg 0 hk]
            exact List.getElem_mem hk
      obtain ⟨g, rfl, hg⟩ := hy q hq
      exact (key g hg).2 ha

/-- Non-vacuity: a cut in keV with the automatic limit. -/
example : (Mat.trapezoidF dbl ⟨[[1, 0, 0], [2, 3, 0], [4, 5, 6]], [0, 100, 200], [0, 100, 200], none, none⟩ 100 200 0 none).map (fun t => (t.values, t.Eg, t.Ex))
    = .ok ([[2, 0, 0], [4, 5, 0]], [0, 100, 200], [100, 200]) := by decide +kernel

/-- A square matrix of ones on the MeV axis 0, 0.1, …, 0.9, in doubles. -/
def mevOnes : Mat :=
  { values := List.replicate 10 (List.replicate 10 1), Eg := (List.range 10).map fun k : ℕ => dbl ((k : ℚ) / 10), Ex := (List.range 10).map fun k : ℕ => dbl ((k : ℚ) / 10), std := none, state := none }

/-- **C115, fails.** On a MeV axis the diagonal is ragged: with `Ex_max=0.9` and `Eg_max=0.8` the exact cut of the decimal numbers is zero on the
diagonal `Eg = Ex - 0.1`, in doubles four of its nine entries are kept; with `Ex_max=0.8` and `Eg_max=0.3` the corner itself is kept. -/
theorem C115_trapezoid_fails :
    (mevOnes.trapezoidF dbl 0 (dbl (9 / 10)) 0 (some (dbl (8 / 10)))).map (fun t => (List.range 9).map fun k => at2 t.values (k + 1) k) = .ok [1, 1, 0, 1, 0, 0, 0, 1, 0] ∧
    (mevOnes.trapezoidF dbl 0 (dbl (8 / 10)) 0 (some (dbl (3 / 10)))).map (fun t => at2 t.values 8 3) = .ok 1 := by
  constructor <;> decide +kernel

end Ompy
