import Verif.Printf
import Verif.LibraryProps
import Verif.ResponseDirProps
import Mathlib.Tactic.FieldSimp
import Mathlib.Tactic.Positivity
import Mathlib.Tactic.Linarith

/-!
# C98: numbers in text files are read as they were printed, to the digits printed
-/

namespace Ompy

/-! ## Rounding -/

theorem roundHalfEven_mono (a b : ℚ) (h : a ≤ b) : roundHalfEven a ≤ roundHalfEven b := by
  rcases h.eq_or_lt with rfl | h
  · exact le_rfl
  have hf : ⌊a⌋ ≤ ⌊b⌋ := Int.floor_le_floor h.le
  have ha := Int.floor_le a
  have ha' := Int.lt_floor_add_one a
  have hb := Int.floor_le b
  rcases hf.eq_or_lt with he | hl
  · unfold roundHalfEven
    rw [← he]
    split_ifs <;> first | omega | (exfalso; linarith)
  · have h1 : roundHalfEven a ≤ ⌊a⌋ + 1 := by unfold roundHalfEven; split_ifs <;> omega
    have h2 : ⌊b⌋ ≤ roundHalfEven b := by unfold roundHalfEven; split_ifs <;> omega
    omega

/-- The decimal exponent, the scaled number and the integer it is rounded to. -/
theorem scaled (p : ℕ) (x : ℚ) (hx : x ≠ 0) : ∃ m : ℕ, (roundHalfEven (|x| * (10 : ℚ) ^ ((p : ℤ) - Int.log 10 |x|))) = (m : ℤ) ∧
    10 ^ p ≤ m ∧ m ≤ 10 ^ (p + 1) ∧ |(m : ℚ) - |x| * (10 : ℚ) ^ ((p : ℤ) - Int.log 10 |x|)| ≤ 1 / 2 ∧
    (10 : ℚ) ^ Int.log 10 |x| ≤ |x| ∧ |x| < (10 : ℚ) ^ (Int.log 10 |x| + 1) := by
  have hpos : 0 < |x| := abs_pos.2 hx
  have h1 : (10 : ℚ) ^ Int.log 10 |x| ≤ |x| := by
    have := Int.zpow_log_le_self (b := 10) (by norm_num) hpos
    exact_mod_cast this
  have h2 : |x| < (10 : ℚ) ^ (Int.log 10 |x| + 1) := by
    have := Int.lt_zpow_succ_log_self (b := 10) (by norm_num) |x|
    exact_mod_cast this
  set e := Int.log 10 |x|
  set y := |x| * (10 : ℚ) ^ ((p : ℤ) - e) with hy
  have t : (0 : ℚ) < 10 ^ ((p : ℤ) - e) := by positivity
  have y1 : ((10 ^ p : ℕ) : ℤ) ≤ roundHalfEven y := by
    have : (((10 ^ p : ℕ) : ℤ) : ℚ) ≤ y := by
      calc (((10 ^ p : ℕ) : ℤ) : ℚ) = (10 : ℚ) ^ e * 10 ^ ((p : ℤ) - e) := by
            rw [← zpow_add₀ (by norm_num : (10 : ℚ) ≠ 0)]; push_cast; rw [← zpow_natCast]; congr 1; ring
        _ ≤ y := mul_le_mul_of_nonneg_right h1 t.le
    have := roundHalfEven_mono _ _ this
    rwa [roundHalfEven_int] at this
  have y2 : roundHalfEven y ≤ ((10 ^ (p + 1) : ℕ) : ℤ) := by
    have : y ≤ (((10 ^ (p + 1) : ℕ) : ℤ) : ℚ) := by
      calc y ≤ (10 : ℚ) ^ (e + 1) * 10 ^ ((p : ℤ) - e) := mul_le_mul_of_nonneg_right h2.le t.le
        _ = (((10 ^ (p + 1) : ℕ) : ℤ) : ℚ) := by
            rw [← zpow_add₀ (by norm_num : (10 : ℚ) ≠ 0)]; push_cast; rw [← zpow_natCast]; congr 1; push_cast; ring
    have := roundHalfEven_mono _ _ this
    rwa [roundHalfEven_int] at this
  have h0 : 0 ≤ roundHalfEven y := le_trans (by positivity) y1
  refine ⟨(roundHalfEven y).toNat, ?_, ?_, ?_, ?_, h1, h2⟩
  · rw [Int.toNat_of_nonneg h0]
  · exact (Int.le_toNat h0).2 y1
  · exact Int.toNat_le.2 y2
  · have : (((roundHalfEven y).toNat : ℕ) : ℚ) = ((roundHalfEven y : ℤ) : ℚ) := by
      rw [← Int.cast_natCast, Int.toNat_of_nonneg h0]
    rw [this]
    exact roundHalfEven_near y

/-- What the mantissa and the exponent are. -/
theorem eParts_spec (p : ℕ) (x : ℚ) (hx : x ≠ 0) : 10 ^ p ≤ (eParts p x).1 ∧ (eParts p x).1 < 10 ^ (p + 1) ∧
    |((eParts p x).1 : ℚ) * (10 : ℚ) ^ ((eParts p x).2 - p) - (|x|)| ≤ 1 / 2 * (10 : ℚ) ^ (Int.log 10 |x| - p) ∧
    (10 : ℚ) ^ Int.log 10 |x| ≤ |x| ∧ |x| < (10 : ℚ) ^ (Int.log 10 |x| + 1) := by
  obtain ⟨m, hm, m1, m2, m3, l1, l2⟩ := scaled p x hx
  set e := Int.log 10 |x| with he
  have h10 : (10 : ℚ) ≠ 0 := by norm_num
  have t : (0 : ℚ) < 10 ^ (e - (p : ℤ)) := by positivity
  have hback : |x| = |x| * (10 : ℚ) ^ ((p : ℤ) - e) * 10 ^ (e - (p : ℤ)) := by
    rw [mul_assoc, ← zpow_add₀ h10]; simp
  have herr : |(m : ℚ) * 10 ^ (e - (p : ℤ)) - (|x|)| ≤ 1 / 2 * (10 : ℚ) ^ (e - (p : ℤ)) := by
    have : (m : ℚ) * 10 ^ (e - (p : ℤ)) - (|x|) = ((m : ℚ) - |x| * (10 : ℚ) ^ ((p : ℤ) - e)) * 10 ^ (e - (p : ℤ)) := by
      rw [sub_mul, ← hback]
    rw [this, abs_mul, abs_of_pos t]
    exact mul_le_mul_of_nonneg_right m3 t.le
  have hu : eParts p x = if m = 10 ^ (p + 1) then (10 ^ p, e + 1) else (m, e) := by
    unfold eParts
    rw [if_neg hx]
    simp only [hm, Int.toNat_natCast, ← he]
  by_cases hc : m = 10 ^ (p + 1)
  · rw [if_pos hc] at hu
    rw [hu]
    refine ⟨le_rfl, Nat.pow_lt_pow_right (by norm_num) (by omega), ?_, l1, l2⟩
    have : ((10 ^ p : ℕ) : ℚ) * 10 ^ (e + 1 - (p : ℤ)) = (m : ℚ) * 10 ^ (e - (p : ℤ)) := by
      rw [hc, show e + 1 - (p : ℤ) = (e - p) + 1 by ring, zpow_add₀ h10, pow_succ]
      push_cast
      ring
    simp only [this]
    exact herr
  · rw [if_neg hc] at hu
    rw [hu]
    exact ⟨m1, lt_of_le_of_ne m2 hc, herr, l1, l2⟩

theorem sigRound_abs (p : ℕ) (x : ℚ) : |sigRound p x| = ((eParts p x).1 : ℚ) * (10 : ℚ) ^ ((eParts p x).2 - p) := by
  unfold sigRound
  have : (0 : ℚ) ≤ ((eParts p x).1 : ℚ) * (10 : ℚ) ^ ((eParts p x).2 - (p : ℤ)) := by positivity
  by_cases h : x < 0
  · rw [if_pos h, mul_assoc, neg_one_mul, abs_neg, abs_of_nonneg this]
  · rw [if_neg h, one_mul, abs_of_nonneg this]

theorem sigRound_zero (p : ℕ) : sigRound p 0 = 0 := by
  unfold sigRound eParts
  simp

/-- **C98.** The number printed with `p` digits behind the point differs from the number by at most half a unit of the last digit: relatively by at most
`10^-p / 2`. -/
theorem C98_digits (p : ℕ) (x : ℚ) : |sigRound p x - x| ≤ 1 / 2 * (10 : ℚ) ^ (-(p : ℤ)) * |x| := by
  by_cases hx : x = 0
  · subst hx; rw [sigRound_zero]; simp
  obtain ⟨-, -, h3, h4, -⟩ := eParts_spec p x hx
  have hle : |sigRound p x - x| ≤ 1 / 2 * (10 : ℚ) ^ (Int.log 10 |x| - p) := by
    refine le_trans (le_of_eq ?_) h3
    unfold sigRound
    by_cases h : x < 0
    · rw [if_pos h, abs_of_neg h, ← abs_neg]; congr 1; ring
    · rw [if_neg h, abs_of_nonneg (not_lt.1 h), one_mul]
  refine hle.trans ?_
  rw [sub_eq_add_neg, zpow_add₀ (by norm_num : (10 : ℚ) ≠ 0), mul_assoc, mul_comm (_ ^ (-(p : ℤ))) |x|]
  have : (0 : ℚ) < 10 ^ (-(p : ℤ)) := by positivity
  nlinarith [mul_le_mul_of_nonneg_right h4 this.le]

/-- **C98.** Zero, sign: 0 is printed as 0, and only 0 is; positive numbers stay positive, negative ones negative. -/
theorem C98_sign (p : ℕ) (x : ℚ) : (sigRound p x = 0 ↔ x = 0) ∧ (0 < sigRound p x ↔ 0 < x) ∧ (sigRound p x < 0 ↔ x < 0) := by
  by_cases hx : x = 0
  · subst hx; rw [sigRound_zero]; simp
  obtain ⟨h1, -, -, -, -⟩ := eParts_spec p x hx
  have hm : (0 : ℚ) < ((eParts p x).1 : ℚ) := by
    have : 0 < (eParts p x).1 := lt_of_lt_of_le (by positivity) h1
    exact_mod_cast this
  have hp : (0 : ℚ) < ((eParts p x).1 : ℚ) * (10 : ℚ) ^ ((eParts p x).2 - (p : ℤ)) := by positivity
  unfold sigRound
  by_cases h : x < 0
  · rw [if_pos h]
    refine ⟨⟨fun hh => ?_, fun hh => absurd hh hx⟩, ⟨fun hh => ?_, fun hh => ?_⟩, ⟨fun _ => h, fun _ => ?_⟩⟩ <;> nlinarith
  · rw [if_neg h]
    have h' : 0 < x := lt_of_le_of_ne (not_lt.1 h) (Ne.symm hx)
    refine ⟨⟨fun hh => ?_, fun hh => absurd hh hx⟩, ⟨fun hh => h', fun hh => ?_⟩, ⟨fun hh => ?_, fun hh => ?_⟩⟩ <;> nlinarith

theorem log_of_digits (p m : ℕ) (e : ℤ) (h1 : 10 ^ p ≤ m) (h2 : m < 10 ^ (p + 1)) : Int.log 10 ((m : ℚ) * (10 : ℚ) ^ (e - p)) = e := by
  have h10 : (10 : ℚ) ≠ 0 := by norm_num
  have t : (0 : ℚ) < 10 ^ (e - (p : ℤ)) := by positivity
  have hm : (0 : ℚ) < m := by
    have : 0 < m := lt_of_lt_of_le (by positivity) h1
    exact_mod_cast this
  have hp : (0 : ℚ) < (m : ℚ) * (10 : ℚ) ^ (e - (p : ℤ)) := by positivity
  have a : e ≤ Int.log 10 ((m : ℚ) * (10 : ℚ) ^ (e - p)) := by
    refine (Int.zpow_le_iff_le_log (by norm_num) hp).1 ?_
    push_cast
    calc (10 : ℚ) ^ e = 10 ^ p * 10 ^ (e - (p : ℤ)) := by rw [← zpow_natCast, ← zpow_add₀ h10]; congr 1; ring
      _ ≤ _ := mul_le_mul_of_nonneg_right (by exact_mod_cast h1) t.le
  have b : Int.log 10 ((m : ℚ) * (10 : ℚ) ^ (e - p)) < e + 1 := by
    refine (Int.lt_zpow_iff_log_lt (by norm_num) hp).1 ?_
    push_cast
    calc (m : ℚ) * 10 ^ (e - (p : ℤ)) < 10 ^ (p + 1) * 10 ^ (e - (p : ℤ)) := mul_lt_mul_of_pos_right (by exact_mod_cast h2) t
      _ = _ := by rw [← zpow_natCast, ← zpow_add₀ h10]; congr 1; push_cast; ring
  omega

/-- **C98.** What was read is printed as before: printing rounds only once. -/
theorem C98_again (p : ℕ) (x : ℚ) : sigRound p (sigRound p x) = sigRound p x ∧ eParts p (sigRound p x) = eParts p x := by
  have key : eParts p (sigRound p x) = eParts p x := by
    by_cases hx : x = 0
    · subst hx; rw [sigRound_zero]
    · obtain ⟨h1, h2, -, -, -⟩ := eParts_spec p x hx
      have hne : sigRound p x ≠ 0 := fun h => hx ((C98_sign p x).1.1 h)
      have hl : Int.log 10 |sigRound p x| = (eParts p x).2 := by rw [sigRound_abs]; exact log_of_digits p _ _ h1 h2
      have hm : |sigRound p x| * (10 : ℚ) ^ ((p : ℤ) - (eParts p x).2) = (((eParts p x).1 : ℤ) : ℚ) := by
        rw [sigRound_abs, mul_assoc, ← zpow_add₀ (by norm_num : (10 : ℚ) ≠ 0)]
        simp
      conv_lhs => unfold eParts
      rw [if_neg hne]
      simp only [hl, hm, roundHalfEven_int, Int.toNat_natCast]
      rw [if_neg (by omega)]
  refine ⟨?_, key⟩
  have hs : (sigRound p x < 0) = (x < 0) := propext (C98_sign p x).2.2
  have hu : ∀ z, sigRound p z = (if z < 0 then -1 else 1) * ((eParts p z).1 : ℚ) * (10 : ℚ) ^ ((eParts p z).2 - (p : ℤ)) := fun _ => rfl
  rw [hu (sigRound p x), key]
  simp only [hs]
  exact (hu x).symm

theorem sigRound_neg (p : ℕ) (x : ℚ) : sigRound p (-x) = -sigRound p x := by
  have he : eParts p (-x) = eParts p x := by
    unfold eParts
    simp only [neg_eq_zero, abs_neg]
  unfold sigRound
  rw [he]
  rcases lt_trichotomy x 0 with h | h | h
  · rw [if_neg (by linarith), if_pos h]; ring
  · subst h; simp [eParts]
  · rw [if_pos (by linarith), if_neg (by linarith)]; ring

theorem sigRound_pos_mono (p : ℕ) (x y : ℚ) (hx : 0 < x) (h : x ≤ y) : sigRound p x ≤ sigRound p y := by
  have hy : 0 < y := lt_of_lt_of_le hx h
  have h10 : (10 : ℚ) ≠ 0 := by norm_num
  -- the value as the rounded integer times the power of ten
  have val : ∀ z : ℚ, 0 < z → ∃ m : ℕ, roundHalfEven (z * (10 : ℚ) ^ ((p : ℤ) - Int.log 10 z)) = (m : ℤ) ∧ 10 ^ p ≤ m ∧ m ≤ 10 ^ (p + 1) ∧
      sigRound p z = (m : ℚ) * 10 ^ (Int.log 10 z - (p : ℤ)) := by
    intro z hz
    obtain ⟨m, hm, m1, m2, -, -, -⟩ := scaled p z hz.ne'
    rw [abs_of_pos hz] at hm
    refine ⟨m, hm, m1, m2, ?_⟩
    have hu : eParts p z = if m = 10 ^ (p + 1) then (10 ^ p, Int.log 10 z + 1) else (m, Int.log 10 z) := by
      unfold eParts
      rw [if_neg hz.ne']
      simp only [abs_of_pos hz, hm, Int.toNat_natCast]
    unfold sigRound
    rw [hu, if_neg (not_lt.2 hz.le), one_mul]
    by_cases hc : m = 10 ^ (p + 1)
    · rw [if_pos hc, hc]
      simp only
      rw [show Int.log 10 z + 1 - (p : ℤ) = (Int.log 10 z - p) + 1 by ring, zpow_add₀ h10, pow_succ]
      push_cast
      ring
    · rw [if_neg hc]
  obtain ⟨m, hm, -, m2, em⟩ := val x hx
  obtain ⟨n, hn, n1, -, en⟩ := val y hy
  have hl : Int.log 10 x ≤ Int.log 10 y := Int.log_mono_right hx h
  rw [em, en]
  rcases hl.eq_or_lt with he | hl
  · rw [he] at hm ⊢
    have t : (0 : ℚ) < 10 ^ ((p : ℤ) - Int.log 10 y) := by positivity
    have := roundHalfEven_mono _ _ (mul_le_mul_of_nonneg_right h t.le)
    rw [hm, hn] at this
    have : (m : ℚ) ≤ n := by exact_mod_cast this
    exact mul_le_mul_of_nonneg_right this (by positivity)
  · calc (m : ℚ) * 10 ^ (Int.log 10 x - (p : ℤ)) ≤ 10 ^ (p + 1) * 10 ^ (Int.log 10 x - (p : ℤ)) :=
        mul_le_mul_of_nonneg_right (by exact_mod_cast m2) (by positivity)
      _ = 10 ^ (Int.log 10 x + 1) := by rw [← zpow_natCast, ← zpow_add₀ h10]; congr 1; push_cast; ring
      _ ≤ 10 ^ (Int.log 10 y) := zpow_le_zpow_right₀ (by norm_num) (by omega)
      _ = 10 ^ p * 10 ^ (Int.log 10 y - (p : ℤ)) := by rw [← zpow_natCast, ← zpow_add₀ h10]; congr 1; ring
      _ ≤ (n : ℚ) * 10 ^ (Int.log 10 y - (p : ℤ)) := mul_le_mul_of_nonneg_right (by exact_mod_cast n1) (by positivity)

/-- **C98.** Printing keeps the order: ascending energies stay ascending (though neighbours may become equal). -/
theorem C98_order (p : ℕ) (x y : ℚ) (h : x ≤ y) : sigRound p x ≤ sigRound p y := by
  rcases lt_trichotomy x 0 with hx | hx | hx
  · rcases lt_or_ge y 0 with hy | hy
    · have := sigRound_pos_mono p (-y) (-x) (by linarith) (by linarith)
      rw [sigRound_neg, sigRound_neg] at this
      linarith
    · have h1 := (C98_sign p x).2.2.2 hx
      have h2 : 0 ≤ sigRound p y := not_lt.1 fun hc => not_lt.2 hy ((C98_sign p y).2.2.1 hc)
      linarith
  · subst hx
    rw [sigRound_zero]
    exact not_lt.1 fun hc => not_lt.2 h ((C98_sign p y).2.2.1 hc)
  · exact sigRound_pos_mono p x y hx h

/-- **C98.** With the 18 digits of `np.savetxt` a floating point number is recovered exactly: among numbers that differ from each other by at least one part in `2^53`,
the one closest to what is printed is the number itself. -/
theorem C98_exact (x : ℚ) (hx : x ≠ 0) (y : ℚ) (hy : |x| / 2 ^ 53 ≤ |y - x|) : |sigRound 18 x - x| < |sigRound 18 x - y| := by
  have h1 := C98_digits 18 x
  have hp : 0 < |x| := abs_pos.2 hx
  have h2 : |sigRound 18 x - x| < |x| / 2 ^ 54 := by
    refine lt_of_le_of_lt h1 ?_
    have : |x| / 2 ^ 54 = 1 / 2 ^ 54 * |x| := by ring
    rw [this]
    refine mul_lt_mul_of_pos_right ?_ hp
    norm_num
  have h3 : |y - x| ≤ |sigRound 18 x - x| + |sigRound 18 x - y| := by
    calc |y - x| = |(sigRound 18 x - x) - (sigRound 18 x - y)| := by congr 1; ring
      _ ≤ _ := abs_sub _ _
  have : |x| / 2 ^ 53 = 2 * (|x| / 2 ^ 54) := by ring
  linarith

/-! ## Digits -/

theorem digit_roundtrip (d : ℕ) (h : d < 10) : digitV (digitC d) = some d := by
  interval_cases d <;> rfl

theorem digit_mem (n m : ℕ) (c : Char) (h : c ∈ padDigits n m) : ∃ d < 10, c = digitC d := by
  induction n generalizing m with
  | zero => cases h
  | succ n ih =>
    rcases List.mem_append.1 h with h | h
    · exact ih _ h
    · exact ⟨m % 10, Nat.mod_lt _ (by norm_num), List.mem_singleton.1 h⟩

/-- Only digits. -/
theorem digit_ne (d : ℕ) (h : d < 10) : digitC d ≠ ' ' ∧ digitC d ≠ '\n' ∧ digitC d ≠ '\r' ∧ digitC d ≠ ',' ∧ digitC d ≠ '.' ∧ digitC d ≠ '#' ∧
    digitC d ≠ '-' ∧ digitC d ≠ '+' ∧ isE (digitC d) = false := by
  interval_cases d <;> decide

theorem pad_length (n m : ℕ) : (padDigits n m).length = n := by
  induction n generalizing m with
  | zero => rfl
  | succ n ih => simp [padDigits, ih]

theorem readDigits_append (acc : ℕ) (a b : List Char) : readDigits acc (a ++ b) = (readDigits acc a).bind fun n => readDigits n b := by
  induction a generalizing acc with
  | nil => rfl
  | cons c cs ih =>
    simp only [List.cons_append, readDigits]
    cases digitV c with
    | none => rfl
    | some d => simp [ih]

theorem readDigits_pad (n m acc : ℕ) (h : m < 10 ^ n) : readDigits acc (padDigits n m) = some (acc * 10 ^ n + m) := by
  induction n generalizing m acc with
  | zero => simp at h; subst h; simp [padDigits, readDigits]
  | succ n ih =>
    have h' : m / 10 < 10 ^ n := by
      rw [Nat.div_lt_iff_lt_mul (by norm_num)]
      calc m < 10 ^ (n + 1) := h
        _ = 10 ^ n * 10 := pow_succ _ _
    simp only [padDigits]
    rw [readDigits_append, ih _ _ h']
    simp only [Option.bind_some, readDigits, digit_roundtrip _ (Nat.mod_lt m (by norm_num))]
    congr 1
    have := Nat.div_add_mod m 10
    rw [pow_succ]
    nlinarith

theorem takeWhile_all {α : Type} (q : α → Bool) (a : List α) (c : α) (b : List α) (h : ∀ x ∈ a, q x = true) (hc : q c = false) :
    (a ++ c :: b).takeWhile q = a ∧ (a ++ c :: b).dropWhile q = c :: b := by
  induction a with
  | nil => simp [hc]
  | cons x xs ih =>
    have hx := h x List.mem_cons_self
    obtain ⟨i1, i2⟩ := ih fun z hz => h z (List.mem_cons_of_mem _ hz)
    simp [hx, i1, i2]

theorem exp_fits (n : ℕ) : n < 10 ^ expWidth n := by
  refine lt_of_lt_of_le (Nat.lt_pow_succ_log_self (b := 10) (by norm_num) n) ?_
  exact Nat.pow_le_pow_right (by norm_num) (le_max_right _ _)

theorem readSign_digit (s : List Char) (h : ∀ c, s.head? = some c → ∃ d < 10, c = digitC d) : readSign s = (false, s) := by
  cases s with
  | nil => rfl
  | cons c cs =>
    obtain ⟨d, hd, rfl⟩ := h c rfl
    obtain ⟨-, -, -, -, -, -, h1, h2, -⟩ := digit_ne d hd
    unfold readSign
    split
    · rename_i heq; exact absurd (List.cons.inj heq).1 h1
    · rename_i heq; exact absurd (List.cons.inj heq).1 h2
    · rfl

theorem readExp_print (e : ℤ) : readExp ((if e < 0 then ['-'] else ['+']) ++ padDigits (expWidth e.natAbs) e.natAbs) = some e := by
  have hne : padDigits (expWidth e.natAbs) e.natAbs ≠ [] := by
    intro h
    have := pad_length (expWidth e.natAbs) e.natAbs
    rw [h] at this
    simp only [expWidth, List.length_nil] at this
    omega
  have hr := readDigits_pad (expWidth e.natAbs) e.natAbs 0 (exp_fits _)
  simp only [zero_mul, zero_add] at hr
  by_cases h : e < 0
  · rw [if_pos h]
    unfold readExp
    simp only [List.singleton_append, readSign, if_neg hne, hr, Option.map_some, if_true, Option.some.injEq]
    omega
  · rw [if_neg h]
    unfold readExp
    simp only [List.singleton_append, readSign, if_neg hne, hr, Option.map_some, Option.some.injEq]
    simp
    omega

theorem readMantissa_print (p m : ℕ) (h : m < 10 ^ (p + 1)) :
    readMantissa (padDigits 1 (m / 10 ^ p) ++ ['.'] ++ padDigits p (m % 10 ^ p)) = some (m, p) := by
  have hd : m / 10 ^ p < 10 := by
    rw [Nat.div_lt_iff_lt_mul (by positivity)]
    calc m < 10 ^ (p + 1) := h
      _ = 10 * 10 ^ p := by ring
  have hq : ∀ x ∈ padDigits 1 (m / 10 ^ p), (decide (x ≠ '.')) = true := by
    intro x hx
    obtain ⟨d, hd, rfl⟩ := digit_mem _ _ _ hx
    simpa using (digit_ne d hd).2.2.2.2.1
  obtain ⟨t1, t2⟩ := takeWhile_all (fun c => decide (c ≠ '.')) (padDigits 1 (m / 10 ^ p)) '.' (padDigits p (m % 10 ^ p)) hq (by simp)
  have hs : padDigits 1 (m / 10 ^ p) ++ ['.'] ++ padDigits p (m % 10 ^ p) = padDigits 1 (m / 10 ^ p) ++ '.' :: padDigits p (m % 10 ^ p) := by simp
  unfold readMantissa
  rw [hs]
  simp only [t1, t2, List.drop_succ_cons, List.drop_zero]
  rw [if_neg (by simp [padDigits]), readDigits_append, readDigits_pad 1 _ 0 (by simpa using hd)]
  simp only [zero_mul, zero_add, Option.bind_some]
  rw [readDigits_pad p _ _ (Nat.mod_lt _ (by positivity)), pad_length]
  simp only [Option.map_some, Option.some.injEq, Prod.mk.injEq, and_true]
  rw [mul_comm]
  exact Nat.div_add_mod m (10 ^ p)

/-- The characters of a printed number. -/
theorem printL_mem (l : Char) (p : ℕ) (x : ℚ) (c : Char) (h : c ∈ printL l p x) : (∃ d < 10, c = digitC d) ∨ c = '-' ∨ c = '+' ∨ c = '.' ∨ c = l := by
  unfold printL at h
  simp only [List.mem_append] at h
  rcases h with ((((((h | h) | h) | h) | h) | h) | h)
  · split_ifs at h
    · simp at h; exact Or.inr (Or.inl h)
    · cases h
  · exact Or.inl (digit_mem _ _ _ h)
  · simp at h; exact Or.inr (Or.inr (Or.inr (Or.inl h)))
  · exact Or.inl (digit_mem _ _ _ h)
  · simp at h; exact Or.inr (Or.inr (Or.inr (Or.inr h)))
  · split_ifs at h
    · simp at h; exact Or.inr (Or.inl h)
    · simp at h; exact Or.inr (Or.inr (Or.inl h))
  · exact Or.inl (digit_mem _ _ _ h)

/-- **C98.** A printed number contains no blank, no line end, no comma and no `#`: columns and lines of a file cannot run together or be taken for comments. -/
theorem C98_no_separator (l : Char) (hl : l = 'E' ∨ l = 'e') (p : ℕ) (x : ℚ) : ' ' ∉ printL l p x ∧ '\n' ∉ printL l p x ∧ '\r' ∉ printL l p x ∧ ',' ∉ printL l p x ∧ '#' ∉ printL l p x ∧ printL l p x ≠ [] := by
  have key : ∀ c, c ∈ printL l p x → c ≠ ' ' ∧ c ≠ '\n' ∧ c ≠ '\r' ∧ c ≠ ',' ∧ c ≠ '#' := by
    intro c hc
    rcases printL_mem l p x c hc with ⟨d, hd, rfl⟩ | rfl | rfl | rfl | rfl
    · obtain ⟨a, b, c, d, -, e, -⟩ := digit_ne d hd
      exact ⟨a, b, c, d, e⟩
    all_goals first | decide | (rcases hl with rfl | rfl <;> decide)
  refine ⟨fun h => (key _ h).1 rfl, fun h => (key _ h).2.1 rfl, fun h => (key _ h).2.2.1 rfl, fun h => (key _ h).2.2.2.1 rfl,
    fun h => (key _ h).2.2.2.2 rfl, ?_⟩
  unfold printL
  simp [padDigits]

theorem dropWhile_blanks (k : ℕ) (s : List Char) (h : ∀ c, s.head? = some c → c ≠ ' ') :
    (List.replicate k ' ' ++ s).dropWhile (· = ' ') = s := by
  induction k with
  | zero =>
    cases s with
    | nil => rfl
    | cons c cs => simp [h c rfl]
  | succ k ih => simp [List.replicate_succ, ih]

theorem strip_pad (k l : ℕ) (s : List Char) (h : ' ' ∉ s) : stripC (List.replicate k ' ' ++ s ++ List.replicate l ' ') = s := by
  unfold stripC
  cases s with
  | nil =>
    have : ∀ n : ℕ, (List.replicate n ' ').dropWhile (· = ' ') = [] := fun n => by
      have := dropWhile_blanks n [] (by simp)
      simpa using this
    rw [List.append_nil, ← List.replicate_add, this]
    rfl
  | cons c cs =>
    have h1 : ∀ d, (c :: cs ++ List.replicate l ' ').head? = some d → d ≠ ' ' := by
      intro d hd
      simp at hd
      subst hd
      intro hh
      exact h (hh ▸ List.mem_cons_self)
    rw [List.append_assoc, dropWhile_blanks k _ h1, List.reverse_append, List.reverse_replicate, dropWhile_blanks l _ ?_, List.reverse_reverse]
    intro d hd hh
    have : d ∈ (c :: cs).reverse := List.mem_of_mem_head? hd
    exact h (hh ▸ List.mem_reverse.1 this)

theorem readSign_print (neg : Bool) (s : List Char) (h : ∀ c, s.head? = some c → ∃ d < 10, c = digitC d) :
    readSign ((if neg then ['-'] else []) ++ s) = (neg, s) := by
  cases neg
  · simpa using readSign_digit s h
  · rfl

/-- A printed number with blanks around is read as the number printed. -/
theorem read_padded (c : Char) (hc : c = 'E' ∨ c = 'e') (k l p : ℕ) (x : ℚ) : readFloat (List.replicate k ' ' ++ printL c p x ++ List.replicate l ' ') = some (sigRound p x) := by
  unfold readFloat
  rw [strip_pad k l _ (C98_no_separator c hc p x).1]
  have hb : (eParts p x).1 < 10 ^ (p + 1) := by
    by_cases hx : x = 0
    · subst hx; simp [eParts]
    · exact (eParts_spec p x hx).2.1
  set d := eParts p x with hd
  have hform : printL c p x = (if decide (x < 0) then ['-'] else []) ++ ((padDigits 1 (d.1 / 10 ^ p) ++ ['.'] ++ padDigits p (d.1 % 10 ^ p)) ++
      c :: ((if d.2 < 0 then ['-'] else ['+']) ++ padDigits (expWidth d.2.natAbs) d.2.natAbs)) := by
    unfold printL
    simp only [decide_eq_true_eq, ← hd]
    simp
  have hsign : readSign (printL c p x) = (decide (x < 0), (padDigits 1 (d.1 / 10 ^ p) ++ ['.'] ++ padDigits p (d.1 % 10 ^ p)) ++
      c :: ((if d.2 < 0 then ['-'] else ['+']) ++ padDigits (expWidth d.2.natAbs) d.2.natAbs)) := by
    rw [hform]
    refine readSign_print _ _ ?_
    intro b hb'
    simp [padDigits] at hb'
    exact ⟨d.1 / 10 ^ p % 10, Nat.mod_lt _ (by norm_num), hb'.symm⟩
  have hq : ∀ c ∈ padDigits 1 (d.1 / 10 ^ p) ++ ['.'] ++ padDigits p (d.1 % 10 ^ p), (!isE c) = true := by
    intro c hc
    simp only [List.mem_append, List.mem_singleton] at hc
    rcases hc with (hc | rfl) | hc
    · obtain ⟨q, hq, rfl⟩ := digit_mem _ _ _ hc
      simp [(digit_ne q hq).2.2.2.2.2.2.2.2]
    · decide
    · obtain ⟨q, hq, rfl⟩ := digit_mem _ _ _ hc
      simp [(digit_ne q hq).2.2.2.2.2.2.2.2]
  obtain ⟨t1, t2⟩ := takeWhile_all (fun c => !isE c) _ c ((if d.2 < 0 then ['-'] else ['+']) ++ padDigits (expWidth d.2.natAbs) d.2.natAbs) hq (by rcases hc with rfl | rfl <;> decide)
  simp only [hsign, t1, t2, readMantissa_print p d.1 hb, Option.bind_some, List.drop_succ_cons, List.drop_zero]
  rw [if_neg (List.cons_ne_nil _ _), readExp_print]
  simp only [Option.map_some, decide_eq_true_eq]
  rfl

/-- **C98.** Reading a number that was printed, with blanks in front of it or behind it, gives the number printed; in particular the text tells the number. -/
theorem C98_read (l : Char) (hl : l = 'E' ∨ l = 'e') (w p : ℕ) (x y : ℚ) : readFloat (printL l p x) = some (sigRound p x) ∧
    readFloat (printLeft w p x) = some (sigRound p x) ∧ readFloat (printRight w p x) = some (sigRound p x) ∧
    (printL l p x = printL l p y ↔ sigRound p x = sigRound p y) := by
  have h0 : ∀ z, readFloat (printL l p z) = some (sigRound p z) := fun z => by simpa using read_padded l hl 0 0 p z
  refine ⟨h0 x, ?_, ?_, ?_⟩
  · simpa [printLeft, printE] using read_padded 'E' (Or.inl rfl) 0 (w - (printE p x).length) p x
  · simpa [printRight, printE] using read_padded 'E' (Or.inl rfl) (w - (printE p x).length) 0 p x
  · constructor
    · intro h
      have := h0 x
      rw [h, h0 y] at this
      exact (Option.some.inj this).symm
    · intro h
      have e : eParts p x = eParts p y := by rw [← (C98_again p x).2, h, (C98_again p y).2]
      have s : (x < 0) = (y < 0) := propext (by rw [← (C98_sign p x).2.2, h, (C98_sign p y).2.2])
      unfold printL
      simp only [e, s]

example : printE 6 (1234567891 / 1000) = "1.234568E+06".toList ∧ readFloat "1.234568E+06".toList = some 1234568 := by
  constructor <;> decide +kernel

example : printE 3 (99996 / 10) = "1.000E+04".toList ∧ printE 8 (-1 / 3000) = "-3.33333333E-04".toList := by
  constructor <;> decide +kernel

end Ompy
