import Verif.UnitRounding
import Verif.RoundingProps

/-!
# Properties of the units of energy in floating point (C121)
-/

namespace Ompy

/-! ### More about the rounding of doubles -/

/-- The nearest integer with ties to even is the only one of its kind. -/
theorem round_unique {t : ℚ} {M : ℤ} (h : |(M : ℚ) - t| ≤ 1 / 2) (he : |(M : ℚ) - t| = 1 / 2 → M % 2 = 0) :
    roundHalfEven t = M := by
  have f1 := Int.floor_le t
  have f2 := Int.lt_floor_add_one t
  obtain ⟨h1, h2⟩ := abs_le.1 h
  have c1 : ⌊t⌋ ≤ M := by
    have : ((⌊t⌋ : ℤ) : ℚ) < ((M + 1 : ℤ) : ℚ) := by push_cast; linarith
    have : ⌊t⌋ < M + 1 := by exact_mod_cast this
    omega
  have c2 : M ≤ ⌊t⌋ + 1 := by
    have : ((M : ℤ) : ℚ) < ((⌊t⌋ + 2 : ℤ) : ℚ) := by push_cast; linarith
    have : M < ⌊t⌋ + 2 := by exact_mod_cast this
    omega
  have c : M = ⌊t⌋ ∨ M = ⌊t⌋ + 1 := by omega
  unfold roundHalfEven
  rcases c with c | c
  · have cq : (M : ℚ) = (⌊t⌋ : ℚ) := by exact_mod_cast c
    rcases lt_trichotomy (t - ⌊t⌋) (1 / 2) with g | g | g
    · rw [if_pos g, c]
    · rw [if_neg (by linarith), if_neg (by linarith), if_pos, c]
      rw [← c]
      apply he
      rw [cq, abs_sub_comm, abs_of_nonneg (by linarith), g]
    · exfalso
      linarith
  · have cq : (M : ℚ) = (⌊t⌋ : ℚ) + 1 := by rw [c]; push_cast; ring
    rcases lt_trichotomy (t - ⌊t⌋) (1 / 2) with g | g | g
    · exfalso
      linarith
    · have hM : M % 2 = 0 := by
        apply he
        rw [cq, abs_of_nonneg (by linarith)]
        linarith
      rw [if_neg (by linarith), if_neg (by linarith), if_neg (by omega), c]
    · rw [if_neg (by linarith), if_pos g, c]

/-- Ties go to even numbers. -/
theorem round_tie {t : ℚ} (h : |(roundHalfEven t : ℚ) - t| = 1 / 2) : roundHalfEven t % 2 = 0 := by
  have f1 := Int.floor_le t
  have f2 := Int.lt_floor_add_one t
  unfold roundHalfEven at *
  rcases lt_trichotomy (t - ⌊t⌋) (1 / 2) with g | g | g
  · rw [if_pos g] at h
    rw [abs_sub_comm, abs_of_nonneg (by linarith)] at h
    linarith
  · rw [if_neg (by linarith), if_neg (by linarith)]
    split_ifs with e
    · exact e
    · omega
  · rw [if_neg (by linarith), if_pos g] at h
    push_cast at h
    rw [abs_of_nonneg (by linarith)] at h
    linarith

theorem round_neg (t : ℚ) : roundHalfEven (-t) = -roundHalfEven t := by
  have e : |((-roundHalfEven t : ℤ) : ℚ) - -t| = |(roundHalfEven t : ℚ) - t| := by
    push_cast
    rw [← abs_neg]
    congr 1
    ring
  apply round_unique
  · rw [e]
    exact roundHalfEven_near t
  · intro h
    rw [e] at h
    have := round_tie h
    omega

/-- A number and its mirror image at the rounded number have the same rounding. -/
theorem round_mirror (t : ℚ) : roundHalfEven (2 * (roundHalfEven t : ℚ) - t) = roundHalfEven t := by
  have e : |((roundHalfEven t : ℤ) : ℚ) - (2 * (roundHalfEven t : ℚ) - t)| = |(roundHalfEven t : ℚ) - t| := by
    rw [← abs_neg]
    congr 1
    ring
  apply round_unique
  · rw [e]
    exact roundHalfEven_near t
  · intro h
    rw [e] at h
    exact round_tie h

/-- No integer is nearer. -/
theorem round_nearest (t : ℚ) (j : ℤ) : |(roundHalfEven t : ℚ) - t| ≤ |(j : ℚ) - t| := by
  by_cases h : roundHalfEven t = j
  · rw [h]
  · have h1 := roundHalfEven_near t
    have : (1 : ℚ) ≤ |((roundHalfEven t - j : ℤ) : ℚ)| := by
      have : (1 : ℤ) ≤ |roundHalfEven t - j| := Int.one_le_abs (by omega)
      exact_mod_cast this
    have tri : |((roundHalfEven t - j : ℤ) : ℚ)| ≤ |(roundHalfEven t : ℚ) - t| + |(j : ℚ) - t| := by
      rw [abs_sub_comm (j : ℚ) t]
      refine le_trans (le_of_eq ?_) (abs_add_le _ _)
      push_cast
      congr 1
      ring
    linarith

theorem dbl_zero : dbl 0 = 0 := by simp [dbl]

theorem dbl_odd (q : ℚ) : dbl (-q) = -dbl q := by
  unfold dbl
  by_cases h : q = 0
  · simp [h]
  · rw [if_neg (neg_ne_zero.2 h), if_neg h, abs_neg, neg_div, round_neg]
    push_cast
    ring

theorem log_unique {q : ℚ} {z : ℤ} (h0 : 0 < q) (h1 : (2 : ℚ) ^ z ≤ q) (h2 : q < (2 : ℚ) ^ (z + 1)) :
    Int.log 2 q = z := by
  have a : z ≤ Int.log 2 q := (Int.zpow_le_iff_le_log (b := 2) (by norm_num) h0).1 (by exact_mod_cast h1)
  have b : Int.log 2 q < z + 1 := (Int.lt_zpow_iff_log_lt (b := 2) (by norm_num) h0).1 (by exact_mod_cast h2)
  omega

/-- The double of a positive number. -/
theorem dbl_of_pos {q : ℚ} (h : 0 < q) :
    dbl q = (roundHalfEven (q / (2 : ℚ) ^ (Int.log 2 q - 52)) : ℚ) * (2 : ℚ) ^ (Int.log 2 q - 52) := by
  unfold dbl
  rw [if_neg h.ne', abs_of_pos h]

theorem dbl_of_log {q : ℚ} {z : ℤ} (h : 0 < q) (hz : Int.log 2 q = z) :
    dbl q = (roundHalfEven (q / (2 : ℚ) ^ (z - 52)) : ℚ) * (2 : ℚ) ^ (z - 52) := by
  rw [dbl_of_pos h, hz]

/-- Rounding commutes with powers of two. -/
theorem dbl_scale (q : ℚ) (z : ℤ) : dbl ((2 : ℚ) ^ z * q) = (2 : ℚ) ^ z * dbl q := by
  have key : ∀ q : ℚ, 0 < q → dbl ((2 : ℚ) ^ z * q) = (2 : ℚ) ^ z * dbl q := by
    intro q h
    have p0 : (0 : ℚ) < (2 : ℚ) ^ z := by positivity
    have l1 := log_le h.ne'
    have l2 := lt_log q
    rw [abs_of_pos h] at l1 l2
    have hl : Int.log 2 ((2 : ℚ) ^ z * q) = z + Int.log 2 q := by
      apply log_unique (by positivity)
      · rw [zpow_add₀ (by norm_num)]
        exact mul_le_mul_of_nonneg_left l1 p0.le
      · rw [show z + Int.log 2 q + 1 = z + (Int.log 2 q + 1) by ring, zpow_add₀ (by norm_num)]
        exact mul_lt_mul_of_pos_left l2 p0
    rw [dbl_of_log (by positivity) hl, dbl_of_pos h,
      show z + Int.log 2 q - 52 = z + (Int.log 2 q - 52) by ring, zpow_add₀ (by norm_num),
      mul_div_mul_left _ _ p0.ne']
    ring
  rcases lt_trichotomy q 0 with h | rfl | h
  · have := key (-q) (by linarith)
    rw [mul_neg, dbl_odd, dbl_odd] at this
    linarith
  · simp [dbl]
  · exact key q h

theorem dbl_two_pow (z : ℤ) : dbl ((2 : ℚ) ^ z) = (2 : ℚ) ^ z := by
  have := C111_double_exact 1 z (by norm_num)
  simpa using this

/-- The rounded number is a double. -/
theorem dbl_dbl (q : ℚ) : dbl (dbl q) = dbl q := by
  by_cases h : q = 0
  · simp [h, dbl]
  have hu := ulp_pos q
  have e : dbl q = (roundHalfEven (q / (2 : ℚ) ^ (Int.log 2 |q| - 52)) : ℚ) * (2 : ℚ) ^ (Int.log 2 |q| - 52) := by
    unfold dbl
    rw [if_neg h]
  have h1 := log_le h
  have h2 := lt_log q
  rw [e]
  apply C111_double_exact
  rw [ulp_hi] at h2
  generalize (2 : ℚ) ^ (Int.log 2 |q| - 52) = u at *
  obtain ⟨h3, h4⟩ := abs_lt.1 h2
  rw [abs_le]
  constructor
  · apply le_round_of_le
    rw [le_div_iff₀ hu]
    push_cast
    norm_num
    linarith
  · apply round_le_of_le
    rw [div_le_iff₀ hu]
    push_cast
    norm_num
    linarith

/-- **C121.** No double is nearer to a number than the rounded one. -/
theorem C121_double_nearest (t x : ℚ) (hx : dbl x = x) : |dbl t - t| ≤ |x - t| := by
  have key : ∀ t x : ℚ, 0 < t → dbl x = x → |dbl t - t| ≤ |x - t| := by
    intro t x ht hx
    have l1 := log_le ht.ne'
    rw [abs_of_pos ht] at l1
    have hu : (0 : ℚ) < (2 : ℚ) ^ (Int.log 2 t - 52) := by positivity
    have mult : ∀ j : ℤ, |dbl t - t| ≤ |(j : ℚ) * (2 : ℚ) ^ (Int.log 2 t - 52) - t| := by
      intro j
      rw [dbl_of_pos ht]
      have f : ∀ a : ℚ, a * (2 : ℚ) ^ (Int.log 2 t - 52) - t =
          (a - t / (2 : ℚ) ^ (Int.log 2 t - 52)) * (2 : ℚ) ^ (Int.log 2 t - 52) := by
        intro a
        field_simp
      rw [f, f, abs_mul, abs_mul]
      exact mul_le_mul_of_nonneg_right (round_nearest _ j) (abs_nonneg _)
    have low : x < (2 : ℚ) ^ Int.log 2 t → |dbl t - t| ≤ |x - t| := by
      intro h
      have := mult 4503599627370496
      push_cast at this
      rw [← ulp_lo] at this
      refine this.trans ?_
      rw [abs_sub_comm, abs_of_nonneg (by linarith), abs_sub_comm, abs_of_nonneg (by linarith)]
      linarith
    by_cases hx0 : x ≤ 0
    · exact low (lt_of_le_of_lt hx0 (by positivity))
    · rw [not_le] at hx0
      have l2 := lt_log x
      rw [abs_of_pos hx0] at l2
      by_cases hl : Int.log 2 x < Int.log 2 t
      · apply low
        refine l2.trans_le ?_
        exact zpow_le_zpow_right₀ (by norm_num) (by omega)
      · rw [not_lt] at hl
        obtain ⟨n, hn⟩ := Int.le.dest hl
        have hj : x = ((roundHalfEven (x / (2 : ℚ) ^ (Int.log 2 x - 52)) * 2 ^ n : ℤ) : ℚ) *
            (2 : ℚ) ^ (Int.log 2 t - 52) := by
          conv_lhs => rw [← hx, dbl_of_pos hx0]
          have : (2 : ℚ) ^ (Int.log 2 x - 52) = (2 : ℚ) ^ n * (2 : ℚ) ^ (Int.log 2 t - 52) := by
            rw [← zpow_natCast, ← zpow_add₀ (by norm_num)]
            congr 1
            omega
          push_cast
          rw [this]
          ring
        have := mult (roundHalfEven (x / (2 : ℚ) ^ (Int.log 2 x - 52)) * 2 ^ n)
        rw [← hj] at this
        exact this
  rcases lt_trichotomy t 0 with h | rfl | h
  · have := key (-t) (-x) (by linarith) (by rw [dbl_odd, hx])
    rw [dbl_odd, show -dbl t - -t = -(dbl t - t) by ring, show -x - -t = -(x - t) by ring, abs_neg, abs_neg] at this
    exact this
  · rw [dbl_zero]
    simp
  · exact key t x h hx

/-- A number and its mirror image at the double have the same double, unless that is a power of two. -/
theorem dbl_mirror {p : ℚ} (hp : 0 < p) (hn : ∀ z : ℤ, dbl p ≠ (2 : ℚ) ^ z) : dbl (2 * dbl p - p) = dbl p := by
  have l1 := log_le hp.ne'
  have l2 := lt_log p
  rw [abs_of_pos hp] at l1 l2
  have hn1 := hn (Int.log 2 p)
  have hn2 := hn (Int.log 2 p + 1)
  have e := dbl_of_pos hp
  have hu : (0 : ℚ) < (2 : ℚ) ^ (Int.log 2 p - 52) := by positivity
  have near := roundHalfEven_near (p / (2 : ℚ) ^ (Int.log 2 p - 52))
  rw [ulp_lo] at l1 hn1
  rw [ulp_hi] at l2 hn2
  have hM := round_mirror (p / (2 : ℚ) ^ (Int.log 2 p - 52))
  set U := (2 : ℚ) ^ (Int.log 2 p - 52) with hU
  set M := roundHalfEven (p / U) with hMd
  rw [e] at hn1 hn2
  have m1 : (4503599627370496 : ℤ) ≤ M := le_round_of_le (by rw [le_div_iff₀ hu]; push_cast; exact l1)
  have m2 : M ≤ (9007199254740992 : ℤ) := round_le_of_le (by rw [div_le_iff₀ hu]; push_cast; exact l2.le)
  have m3 : M ≠ 4503599627370496 := by
    intro h
    apply hn1
    rw [h]
    push_cast
    rfl
  have m4 : M ≠ 9007199254740992 := by
    intro h
    apply hn2
    rw [h]
    push_cast
    rfl
  have m5 : (4503599627370497 : ℚ) ≤ M := by
    have : (4503599627370497 : ℤ) ≤ M := by omega
    exact_mod_cast this
  have m6 : (M : ℚ) ≤ 9007199254740991 := by
    have : M ≤ (9007199254740991 : ℤ) := by omega
    exact_mod_cast this
  obtain ⟨n1, n2⟩ := abs_le.1 near
  have hq : 2 * dbl p - p = (2 * (M : ℚ) - p / U) * U := by
    rw [e]
    field_simp
  have q0 : 0 < 2 * dbl p - p := by
    rw [hq]
    apply mul_pos _ hu
    linarith
  have hl : Int.log 2 (2 * dbl p - p) = Int.log 2 p := by
    apply log_unique q0
    · rw [ulp_lo, ← hU, hq]
      apply mul_le_mul_of_nonneg_right _ hu.le
      linarith
    · rw [ulp_hi, ← hU, hq]
      apply mul_lt_mul_of_pos_right _ hu
      linarith
  rw [dbl_of_log q0 hl, ← hU, hq, mul_div_assoc, div_self hu.ne', mul_one, hM, e]

/-- Scale a double, round, scale back, round: scaling and rounding once more gives the same. -/
theorem dbl_cycle {s x : ℚ} (hs : 0 < s) (hx : 0 < x) (dx : dbl x = x)
    (hy : (∀ z : ℤ, dbl (s * x) ≠ (2 : ℚ) ^ z) ∨ dbl (s * dbl (dbl (s * x) / s)) = dbl (s * x)) :
    dbl (s * dbl (dbl (s * x) / s)) = dbl (s * x) := by
  rcases hy with hy | hy
  · have p0 : 0 < s * x := mul_pos hs hx
    have mir := dbl_mirror p0 hy
    have near := C121_double_nearest (dbl (s * x) / s) x dx
    have near' : |s * dbl (dbl (s * x) / s) - dbl (s * x)| ≤ |s * x - dbl (s * x)| := by
      have := mul_le_mul_of_nonneg_left near hs.le
      rw [← abs_of_pos hs, ← abs_mul, ← abs_mul, abs_of_pos hs] at this
      have f : ∀ a : ℚ, s * (a - dbl (s * x) / s) = s * a - dbl (s * x) := by
        intro a
        field_simp
      rw [f, f] at this
      exact this
    generalize hy' : dbl (s * x) = y at *
    generalize dbl (y / s) = x' at *
    rcases le_total (s * x) y with h | h
    · rw [abs_sub_comm (s * x), abs_of_nonneg (sub_nonneg.2 h)] at near'
      obtain ⟨a, b⟩ := abs_le.1 near'
      have c1 := C111_double_mono (show s * x ≤ s * x' by linarith)
      have c2 := C111_double_mono (show s * x' ≤ 2 * y - s * x by linarith)
      rw [hy'] at c1
      rw [mir] at c2
      exact le_antisymm c2 c1
    · rw [abs_of_nonneg (sub_nonneg.2 h)] at near'
      obtain ⟨a, b⟩ := abs_le.1 near'
      have c1 := C111_double_mono (show s * x' ≤ s * x by linarith)
      have c2 := C111_double_mono (show 2 * y - s * x ≤ s * x' by linarith)
      rw [hy'] at c1
      rw [mir] at c2
      exact le_antisymm c1 c2
  · exact hy

/-- **C121.** An energy in keV that is converted to MeV, back to keV and to MeV again has the same value in MeV. -/
theorem C121_MeV_stable (x : ℚ) (dx : dbl x = x) : dbl (dbl (dbl (x / 1000) * 1000) / 1000) = dbl (x / 1000) := by
  have key : ∀ x : ℚ, 0 < x → dbl x = x → dbl (dbl (dbl (x / 1000) * 1000) / 1000) = dbl (x / 1000) := by
    intro x hx dx
    have := dbl_cycle (s := 1 / 1000) (by norm_num) hx dx (by
      by_cases h : ∃ z : ℤ, dbl (1 / 1000 * x) = (2 : ℚ) ^ z
      · right
        obtain ⟨z, hz⟩ := h
        rw [hz, show (2 : ℚ) ^ z / (1 / 1000) = ((1000 : ℤ) : ℚ) * (2 : ℚ) ^ z by push_cast; ring,
          C111_double_exact 1000 z (by norm_num)]
        push_cast
        rw [show (1 : ℚ) / 1000 * (1000 * (2 : ℚ) ^ z) = (2 : ℚ) ^ z by ring, dbl_two_pow]
      · left
        intro z hz
        exact h ⟨z, hz⟩)
    rw [show (1 : ℚ) / 1000 * x = x / 1000 by ring] at this
    rw [show ∀ y : ℚ, y / (1 / 1000) = y * 1000 by intro y; ring] at this
    rw [show ∀ y : ℚ, 1 / 1000 * y = y / 1000 by intro y; ring] at this
    exact this
  rcases lt_trichotomy x 0 with h | rfl | h
  · have := key (-x) (by linarith) (by rw [dbl_odd, dx])
    rw [neg_div, dbl_odd, neg_mul, dbl_odd, neg_div, dbl_odd] at this
    exact neg_injective this
  · simp [dbl]
  · exact key x h dx

/-- **C121.** An energy in MeV that is converted to keV, back to MeV and to keV again has the same value in keV. -/
theorem C121_keV_stable (x : ℚ) (dx : dbl x = x) : dbl (dbl (dbl (x * 1000) / 1000) * 1000) = dbl (x * 1000) := by
  have one : dbl (1000 * dbl (1 / 1000)) = 1 := by decide +kernel
  have key : ∀ x : ℚ, 0 < x → dbl x = x → dbl (dbl (dbl (x * 1000) / 1000) * 1000) = dbl (x * 1000) := by
    intro x hx dx
    have := dbl_cycle (s := 1000) (by norm_num) hx dx (by
      by_cases h : ∃ z : ℤ, dbl (1000 * x) = (2 : ℚ) ^ z
      · right
        obtain ⟨z, hz⟩ := h
        rw [hz, show (2 : ℚ) ^ z / 1000 = (2 : ℚ) ^ z * (1 / 1000) by ring, dbl_scale,
          show (1000 : ℚ) * ((2 : ℚ) ^ z * dbl (1 / 1000)) = (2 : ℚ) ^ z * (1000 * dbl (1 / 1000)) by ring,
          dbl_scale, one, mul_one]
      · left
        intro z hz
        exact h ⟨z, hz⟩)
    rw [mul_comm 1000 x, mul_comm (1000 : ℚ)] at this
    exact this
  rcases lt_trichotomy x 0 with h | rfl | h
  · have := key (-x) (by linarith) (by rw [dbl_odd, dx])
    rw [neg_mul, dbl_odd, neg_div, dbl_odd, neg_mul, dbl_odd] at this
    exact neg_injective this
  · simp [dbl]
  · exact key x h dx

/-! ### Vectors -/

/-- **C121.** What the conversions do: nothing in the right units, a refusal for other units, and otherwise every
energy is divided or multiplied by 1000 and rounded once; contents and uncertainties stay. -/
theorem C121_convert {α : Type} (fl : ℚ → ℚ) (v : Vec α) :
    (v.units = "MeV" → v.toMeVF fl = .ok v ∧
      v.toKeVF fl = .ok ⟨v.E.map fun e => fl (e * 1000), v.values, v.std, "keV"⟩) ∧
    (v.units = "keV" → v.toKeVF fl = .ok v ∧
      v.toMeVF fl = .ok ⟨v.E.map fun e => fl (e / 1000), v.values, v.std, "MeV"⟩) ∧
    (v.units ≠ "MeV" → v.units ≠ "keV" →
      v.toMeVF fl = .error .notImplemented ∧ v.toKeVF fl = .error .notImplemented) := by
  refine ⟨fun h => ?_, fun h => ?_, fun h1 h2 => ?_⟩
  · simp [Vec.toMeVF, Vec.toKeVF, h]
  · simp [Vec.toMeVF, Vec.toKeVF, h]
  · simp [Vec.toMeVF, Vec.toKeVF, h1, h2]

/-- **C121.** What is written: the vector in the units asked for, and nothing for other units. -/
theorem C121_saved {α : Type} (fl : ℚ → ℚ) (v : Vec α) (units : String) :
    saveUnitsF fl v "keV" = v.toKeVF fl ∧ saveUnitsF fl v "MeV" = v.toMeVF fl ∧ saveUnitsF fl v "same" = .ok v ∧
    (units ≠ "keV" → units ≠ "MeV" → units ≠ "same" → saveUnitsF fl v units = .error .notImplemented) := by
  refine ⟨by simp [saveUnitsF], by simp [saveUnitsF], by simp [saveUnitsF], fun h1 h2 h3 => ?_⟩
  simp [saveUnitsF, h1, h2, h3]

/-- **C121.** Without rounding these are the conversions of C10. -/
theorem C121_exact {α : Type} (v : Vec α) : v.toMeVF id = v.toMeV ∧ v.toKeVF id = v.toKeV := by
  constructor <;> rfl

theorem rel_twice {fl : ℚ → ℚ} {u : ℚ} (R : Rounding fl u) (s : ℚ) (hs : 0 < s) (x : ℚ) :
    |fl (fl (s * x) / s) - x| ≤ ((1 + u) ^ 2 - 1) * |x| := by
  have u0 : 0 ≤ u := by
    have := R.rel 1
    have := (abs_nonneg _).trans this
    simpa using this
  have h1 := R.rel (s * x)
  have h2 := R.rel (fl (s * x) / s)
  have a1 : |fl (s * x) / s - x| ≤ u * |x| := by
    have e : fl (s * x) / s - x = (fl (s * x) - s * x) / s := by field_simp
    rw [e, abs_div, abs_of_pos hs, div_le_iff₀ hs]
    rw [abs_mul, abs_of_pos hs] at h1
    linarith
  have a2 : |fl (s * x) / s| ≤ (1 + u) * |x| := by
    have : |fl (s * x) / s| ≤ |fl (s * x) / s - x| + |x| := by
      refine le_trans (le_of_eq ?_) (abs_add_le _ _)
      congr 1
      ring
    linarith
  have a3 : |fl (fl (s * x) / s) - x| ≤ |fl (fl (s * x) / s) - fl (s * x) / s| + |fl (s * x) / s - x| := by
    refine le_trans (le_of_eq ?_) (abs_add_le _ _)
    congr 1
    ring
  have a4 := mul_le_mul_of_nonneg_left a2 u0
  nlinarith

/-- **C121.** There and back again: every energy moves by at most two roundings, relative to its size, in either
direction; all else is as before. -/
theorem C121_round_trip {α : Type} {fl : ℚ → ℚ} {u : ℚ} (R : Rounding fl u) (v w x : Vec α) :
    ((v.units = "keV" → v.toMeVF fl = .ok w → w.toKeVF fl = .ok x →
      x.E.length = v.E.length ∧ x.values = v.values ∧ x.std = v.std ∧ x.units = v.units ∧
      ∀ i, |x.E.getD i 0 - v.E.getD i 0| ≤ ((1 + u) ^ 2 - 1) * |v.E.getD i 0|) ∧
    (v.units = "MeV" → v.toKeVF fl = .ok w → w.toMeVF fl = .ok x →
      x.E.length = v.E.length ∧ x.values = v.values ∧ x.std = v.std ∧ x.units = v.units ∧
      ∀ i, |x.E.getD i 0 - v.E.getD i 0| ≤ ((1 + u) ^ 2 - 1) * |v.E.getD i 0|)) := by
  have main : ∀ (s : ℚ), 0 < s → ∀ (l : List ℚ) (f : ℚ → ℚ), (∀ e, f e = fl (fl (s * e) / s)) → ∀ i,
      |(l.map f).getD i 0 - l.getD i 0| ≤ ((1 + u) ^ 2 - 1) * |l.getD i 0| := by
    intro s hs l f hf i
    by_cases h : i < l.length
    · rw [List.getD_eq_getElem (l.map f) 0 (by simpa using h), List.getD_eq_getElem l 0 h, List.getElem_map, hf]
      exact rel_twice R s hs _
    · rw [List.getD_eq_default (l.map f) 0 (by simpa using h), List.getD_eq_default l 0 (by simpa using h)]
      simp
  constructor
  · intro h hw hx
    rw [((C121_convert fl v).2.1 h).2] at hw
    injection hw with hw
    subst hw
    rw [((C121_convert fl (⟨v.E.map fun e => fl (e / 1000), v.values, v.std, "MeV"⟩ : Vec α)).1 rfl).2] at hx
    injection hx with hx
    subst hx
    refine ⟨by simp, rfl, rfl, h.symm, ?_⟩
    rw [List.map_map]
    apply main (1 / 1000) (by norm_num)
    intro e
    show fl (fl (e / 1000) * 1000) = _
    rw [show (1 : ℚ) / 1000 * e = e / 1000 by ring]
    congr 1
    ring
  · intro h hw hx
    rw [((C121_convert fl v).1 h).2] at hw
    injection hw with hw
    subst hw
    rw [((C121_convert fl (⟨v.E.map fun e => fl (e * 1000), v.values, v.std, "keV"⟩ : Vec α)).2.1 rfl).2] at hx
    injection hx with hx
    subst hx
    refine ⟨by simp, rfl, rfl, h.symm, ?_⟩
    rw [List.map_map]
    apply main 1000 (by norm_num)
    intro e
    show fl (fl (e * 1000) / 1000) = _
    rw [mul_comm]

/-- **C121.** An ordered axis stays ordered, though neighbouring energies can fall together. -/
theorem C121_order {α : Type} {fl : ℚ → ℚ} (hm : Monotone fl) (v w : Vec α) (h : v.E.Pairwise (· ≤ ·))
    (hw : v.toMeVF fl = .ok w ∨ v.toKeVF fl = .ok w) : w.E.Pairwise (· ≤ ·) := by
  have main : ∀ f : ℚ → ℚ, Monotone f → (v.E.map f).Pairwise (· ≤ ·) := by
    intro f hf
    rw [List.pairwise_map]
    exact h.imp fun hab => hf hab
  by_cases h1 : v.units = "MeV"
  · rw [((C121_convert fl v).1 h1).1, ((C121_convert fl v).1 h1).2] at hw
    rcases hw with hw | hw <;> injection hw with hw <;> subst hw
    · exact h
    · exact main _ fun a b hab => hm (by linarith)
  · by_cases h2 : v.units = "keV"
    · rw [((C121_convert fl v).2.1 h2).1, ((C121_convert fl v).2.1 h2).2] at hw
      rcases hw with hw | hw <;> injection hw with hw <;> subst hw
      · exact main _ fun a b hab => hm (by linarith)
      · exact h
    · rw [((C121_convert fl v).2.2 h1 h2).1, ((C121_convert fl v).2.2 h1 h2).2] at hw
      simp at hw

/-- **C121.** Energies in keV survive the way to MeV and back if they are multiples of 125 keV. -/
theorem C121_round_trip_partial {α : Type} (v w x : Vec α) (hu : v.units = "keV")
    (hE : ∀ e ∈ v.E, ∃ k : ℤ, |k| ≤ 2 ^ 46 ∧ e = 125 * k) (hw : v.toMeVF dbl = .ok w) (hx : w.toKeVF dbl = .ok x) :
    x = v ∧ w.E = v.E.map (· / 1000) := by
  rw [((C121_convert dbl v).2.1 hu).2] at hw
  injection hw with hw
  subst hw
  rw [((C121_convert dbl (⟨v.E.map fun e => dbl (e / 1000), v.values, v.std, "MeV"⟩ : Vec α)).1 rfl).2] at hx
  injection hx with hx
  have a1 : ∀ e ∈ v.E, dbl (e / 1000) = e / 1000 := by
    intro e he
    obtain ⟨k, hk, rfl⟩ := hE e he
    have := C111_double_exact k (-3) (hk.trans (by norm_num))
    rw [show (125 : ℚ) * k / 1000 = k * (2 : ℚ) ^ (-3 : ℤ) by norm_num; ring]
    exact this
  have a2 : ∀ e ∈ v.E, dbl e = e := by
    intro e he
    obtain ⟨k, hk, rfl⟩ := hE e he
    have := C111_double_exact (125 * k) 0 (by
      rw [abs_mul]
      norm_num at *
      linarith)
    simpa using this
  have a3 : (v.E.map fun e => dbl (e / 1000)) = v.E.map (· / 1000) := List.map_congr_left a1
  constructor
  · subst hx
    cases v with
    | mk E values std units =>
      simp only at hu
      subst hu
      have : (List.map (fun e => dbl (e * 1000)) (List.map (fun e => dbl (e / 1000)) E)) = E := by
        rw [a3, List.map_map]
        conv_rhs => rw [← List.map_id E]
        apply List.map_congr_left
        intro e he
        show dbl (e / 1000 * 1000) = e
        rw [show e / 1000 * 1000 = e by ring]
        exact a2 e he
      rw [this]
  · exact a3

/-- **C121, fails in general.** 1001 keV in MeV and back are not 1001 keV any more. -/
theorem C121_round_trip_fails :
    dbl (dbl (1001 / 1000) * 1000) < 1001 ∧
    ∃ w : Vec ℚ, (⟨[1000, 1001], [1, 2], none, "keV"⟩ : Vec ℚ).toMeVF dbl = .ok w ∧
      w.toKeVF dbl ≠ .ok ⟨[1000, 1001], [1, 2], none, "keV"⟩ := by
  have key : dbl (dbl (1001 / 1000) * 1000) < 1001 := by decide +kernel
  refine ⟨key, _, ((C121_convert dbl _).2.1 rfl).2, ?_⟩
  rw [((C121_convert dbl _).1 rfl).2]
  intro h
  injection h with h
  injection h with h
  simp only [List.map_cons, List.map_nil, List.cons.injEq] at h
  rw [h.2.1] at key
  exact lt_irrefl _ key

/-- **C121, fails in general.** Levels on the energies of a level density in keV are written to a file after a
normalisation has brought them to MeV; what is read back is refused for another level density on the same energies. -/
theorem C121_levels_fails {F : Type} (load : F → ℚ → Except Err (Vec ℚ)) (s : Levels F) :
    ∃ d m k : Vec ℚ, d.units = "keV" ∧ d.toMeVF dbl = .ok m ∧ saveUnitsF dbl m "keV" = .ok k ∧ k.units = "keV" ∧
      (s.step load d.E (.vec d)).2 = .ok () ∧ (s.step load d.E (.vec k)).2 = .error .valueError := by
  refine ⟨⟨[1000, 1001], [1, 2], none, "keV"⟩, _, _, rfl, ((C121_convert dbl _).2.1 rfl).2,
    (C121_saved dbl _ "").1.trans ((C121_convert dbl _).1 rfl).2, rfl, ?_, ?_⟩
  · simp [Levels.step]
  · have key : dbl (dbl (1001 / 1000) * 1000) ≠ 1001 := ne_of_lt C121_round_trip_fails.1
    simp [Levels.step, key]

/-- **C121.** The energies do not drift: however often a vector of doubles is converted, its energies are those it had
at first, or those after the first conversion, or those after the second. -/
theorem C121_no_drift {α : Type} (v : Vec α) (hd : ∀ e ∈ v.E, dbl e = e) (ops : List UnitOp) (hu : v.units = "keV" ∨ v.units = "MeV") :
    ∃ w x, ((v.units = "keV" → v.toMeVF dbl = .ok w ∧ w.toKeVF dbl = .ok x) ∧
        (v.units = "MeV" → v.toKeVF dbl = .ok w ∧ w.toMeVF dbl = .ok x)) ∧
      (unitHistory dbl v ops = .ok v ∨ unitHistory dbl v ops = .ok w ∨ unitHistory dbl v ops = .ok x) := by
  rcases hu with hu | hu
  · refine ⟨_, _, ⟨fun _ => ⟨((C121_convert dbl v).2.1 hu).2, ((C121_convert dbl _).1 rfl).2⟩,
      fun h => absurd (hu.symm.trans h) (by decide)⟩, ?_⟩
    set w : Vec α := ⟨v.E.map fun e => dbl (e / 1000), v.values, v.std, "MeV"⟩ with hw
    set x : Vec α := ⟨w.E.map fun e => dbl (e * 1000), w.values, w.std, "keV"⟩ with hx
    have vm : v.toMeVF dbl = .ok w := ((C121_convert dbl v).2.1 hu).2
    have vk : v.toKeVF dbl = .ok v := ((C121_convert dbl v).2.1 hu).1
    have wm : w.toMeVF dbl = .ok w := ((C121_convert dbl w).1 rfl).1
    have wk : w.toKeVF dbl = .ok x := ((C121_convert dbl w).1 rfl).2
    have xk : x.toKeVF dbl = .ok x := ((C121_convert dbl x).2.1 rfl).1
    have xm : x.toMeVF dbl = .ok w := by
      rw [((C121_convert dbl x).2.1 rfl).2]
      have : (x.E.map fun e => dbl (e / 1000)) = w.E := by
        rw [hx, hw]
        simp only [List.map_map]
        apply List.map_congr_left
        intro e he
        exact C121_MeV_stable e (hd e he)
      rw [this]
    have main : ∀ ops : List UnitOp, ∀ a : Vec α, (a = v ∨ a = w ∨ a = x) →
        unitHistory dbl a ops = .ok v ∨ unitHistory dbl a ops = .ok w ∨ unitHistory dbl a ops = .ok x := by
      intro ops
      induction ops with
      | nil =>
        intro a ha
        rcases ha with rfl | rfl | rfl
        · exact Or.inl rfl
        · exact Or.inr (Or.inl rfl)
        · exact Or.inr (Or.inr rfl)
      | cons op r ih =>
        intro a ha
        have step : ∃ b, op.run dbl a = .ok b ∧ (b = v ∨ b = w ∨ b = x) := by
          rcases ha with rfl | rfl | rfl <;> cases op
          · exact ⟨_, vm, by tauto⟩
          · exact ⟨_, vk, by tauto⟩
          · exact ⟨_, wm, by tauto⟩
          · exact ⟨_, wk, by tauto⟩
          · exact ⟨_, xm, by tauto⟩
          · exact ⟨_, xk, by tauto⟩
        obtain ⟨b, hb, hb'⟩ := step
        have : unitHistory dbl a (op :: r) = unitHistory dbl b r := by
          show (op.run dbl a >>= fun w => unitHistory dbl w r) = _
          rw [hb]
          rfl
        rw [this]
        exact ih b hb'
    exact main ops v (Or.inl rfl)
  · refine ⟨_, _, ⟨fun h => absurd (hu.symm.trans h) (by decide),
      fun _ => ⟨((C121_convert dbl v).1 hu).2, ((C121_convert dbl _).2.1 rfl).2⟩⟩, ?_⟩
    set w : Vec α := ⟨v.E.map fun e => dbl (e * 1000), v.values, v.std, "keV"⟩ with hw
    set x : Vec α := ⟨w.E.map fun e => dbl (e / 1000), w.values, w.std, "MeV"⟩ with hx
    have vm : v.toMeVF dbl = .ok v := ((C121_convert dbl v).1 hu).1
    have vk : v.toKeVF dbl = .ok w := ((C121_convert dbl v).1 hu).2
    have wm : w.toMeVF dbl = .ok x := ((C121_convert dbl w).2.1 rfl).2
    have wk : w.toKeVF dbl = .ok w := ((C121_convert dbl w).2.1 rfl).1
    have xm : x.toMeVF dbl = .ok x := ((C121_convert dbl x).1 rfl).1
    have xk : x.toKeVF dbl = .ok w := by
      rw [((C121_convert dbl x).1 rfl).2]
      have : (x.E.map fun e => dbl (e * 1000)) = w.E := by
        rw [hx, hw]
        simp only [List.map_map]
        apply List.map_congr_left
        intro e he
        exact C121_keV_stable e (hd e he)
      rw [this]
    have main : ∀ ops : List UnitOp, ∀ a : Vec α, (a = v ∨ a = w ∨ a = x) →
        unitHistory dbl a ops = .ok v ∨ unitHistory dbl a ops = .ok w ∨ unitHistory dbl a ops = .ok x := by
      intro ops
      induction ops with
      | nil =>
        intro a ha
        rcases ha with rfl | rfl | rfl
        · exact Or.inl rfl
        · exact Or.inr (Or.inl rfl)
        · exact Or.inr (Or.inr rfl)
      | cons op r ih =>
        intro a ha
        have step : ∃ b, op.run dbl a = .ok b ∧ (b = v ∨ b = w ∨ b = x) := by
          rcases ha with rfl | rfl | rfl <;> cases op
          · exact ⟨_, vm, by tauto⟩
          · exact ⟨_, vk, by tauto⟩
          · exact ⟨_, wm, by tauto⟩
          · exact ⟨_, wk, by tauto⟩
          · exact ⟨_, xm, by tauto⟩
          · exact ⟨_, xk, by tauto⟩
        obtain ⟨b, hb, hb'⟩ := step
        have : unitHistory dbl a (op :: r) = unitHistory dbl b r := by
          show (op.run dbl a >>= fun w => unitHistory dbl w r) = _
          rw [hb]
          rfl
        rw [this]
        exact ih b hb'
    exact main ops v (Or.inl rfl)

/-- Examples: 1001 keV is a double, 1.001 MeV is stable, and 2000 keV survive the round trip. -/
example : dbl 1001 = 1001 ∧ dbl (1001 / 1000) ≠ 1001 / 1000 ∧
    dbl (dbl (dbl (1001 / 1000) * 1000) / 1000) = dbl (1001 / 1000) ∧ dbl (dbl (2000 / 1000) * 1000) = 2000 := by
  decide +kernel

end Ompy
