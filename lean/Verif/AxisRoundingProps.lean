import Verif.AxisRounding
import Verif.LibraryProps
import Verif.MatrixProps
import Verif.RhoSigChiFitProps
import Verif.DiagRoundingProps

/-!
# Properties of calibrations, bin edges and limits in floating point (C128)
-/

namespace Ompy

theorem calib_stop {fl : ℚ → ℚ} {u : ℚ} (hfl : Rounding fl u) (hu : 0 ≤ u) (hu1 : u ≤ 1 / 100) (a0 a1 : ℚ) (m : ℕ) :
    |fl (a0 + fl (a1 * m)) - (a0 + a1 * m)| ≤ 21 / 10 * u * (|a0| + |a1| * m) := by
  have M0 : 0 ≤ |a0| + |a1| * m := by positivity
  have am : |a1 * m| = |a1| * m := by rw [abs_mul, abs_of_nonneg (Nat.cast_nonneg (α := ℚ) m)]
  have uM := mul_le_mul_of_nonneg_right hu1 M0
  have a00 := abs_nonneg a0
  have e1 : |fl (a1 * m) - a1 * m| ≤ 0 + u * (|a0| + |a1| * m) :=
    round_step hfl hu (by simp) (by rw [am]; linarith)
  refine (round_step hfl hu (e := u * (|a0| + |a1| * m)) (B := 11 / 10 * (|a0| + |a1| * m)) ?_ ?_).trans (by linarith)
  · rw [add_sub_add_left_eq_sub]
    linarith
  · have : a0 + fl (a1 * m) = a0 + a1 * m + (fl (a1 * m) - a1 * m) := by ring
    rw [this]
    refine (abs_add_le _ _).trans ?_
    have := abs_add_le a0 (a1 * m)
    linarith

/-- **C128.** A calibration gives the energies up to seven roundings of the largest number involved; the first is the
given one. -/
theorem C128_calibration {fl : ℚ → ℚ} {u : ℚ} (hfl : Rounding fl u) (hu : 0 ≤ u) (hu1 : u ≤ 1 / 100) (a0 a1 : ℚ)
    (h0 : fl a0 = a0) (n : ℕ) : ∃ E, eArrayF fl a0 a1 (some n) none = .ok E ∧ E.length = n ∧
      (∀ i < n, |E.getD i 0 - (a0 + a1 * i)| ≤ 7 * u * (|a0| + |a1| * (n - 1 : ℕ))) ∧ (2 ≤ n → E.getD 0 0 = a0) := by
  refine ⟨linspaceF fl a0 (fl (a0 + fl (a1 * (((n : ℤ) : ℚ) - 1)))) n, ?_, linspaceF_length _ _ _ _, ?_, ?_⟩
  · show calibAxisF fl a0 a1 n = _
    rw [calibAxisF, if_neg (by omega), Int.toNat_natCast]
  · intro i hi
    obtain ⟨m, rfl⟩ : ∃ m, n = m + 1 := ⟨n - 1, by omega⟩
    have hm : (((m + 1 : ℕ) : ℤ) : ℚ) - 1 = m := by push_cast; ring
    rw [hm, Nat.add_sub_cancel]
    have st := calib_stop hfl hu hu1 a0 a1 m
    have M0 : 0 ≤ |a0| + |a1| * m := by positivity
    have u0M : 0 ≤ u * (|a0| + |a1| * m) := mul_nonneg hu M0
    by_cases m0 : m = 0
    · subst m0
      have : i = 0 := by omega
      subst this
      simp only [linspaceF, zero_add, if_true, List.getD_cons_zero]
      push_cast
      simp only [mul_zero, add_zero, sub_self, abs_zero]
      positivity
    have mp : (0 : ℚ) < m := by exact_mod_cast Nat.pos_of_ne_zero m0
    have e0 : (linspaceF fl a0 (fl (a0 + fl (a1 * m))) (m + 1)).getD i 0 = if i + 1 = m + 1 then fl (a0 + fl (a1 * m))
        else fl (fl (fl (fl (fl (a0 + fl (a1 * m)) - a0) / (((m + 1 : ℕ) : ℚ) - 1)) * (i : ℚ)) + a0) := by
      unfold linspaceF
      rw [if_neg (by omega), getD_map_range _ hi]
    have hm1 : ((m + 1 : ℕ) : ℚ) - 1 = m := by push_cast; ring
    rw [e0, hm1]
    by_cases hl : i + 1 = m + 1
    · rw [if_pos hl]
      have : i = m := by omega
      subst this
      linarith
    · rw [if_neg hl]
      have him : (i : ℚ) ≤ m := by exact_mod_cast (show i ≤ m by omega)
      have i0 : (0 : ℚ) ≤ i := Nat.cast_nonneg i
      have am : |a1 * m| = |a1| * m := by rw [abs_mul, abs_of_pos mp]
      have a00 := abs_nonneg a0
      have b0 := abs_nonneg a1
      generalize fl (a0 + fl (a1 * m)) = S at *
      set M := |a0| + |a1| * m with hM
      have uM : u * M ≤ 1 / 100 * M := mul_le_mul_of_nonneg_right hu1 M0
      have aM : |a1 * m| ≤ M := by rw [am]; linarith
      have sa : |S - a0 - a1 * m| ≤ 21 / 10 * u * M := by
        rw [show S - a0 - a1 * m = S - (a0 + a1 * m) by ring]
        exact st
      have near : ∀ {x y e B : ℚ}, |x - y| ≤ e → |y| ≤ B → |x| ≤ B + e := by
        intro x y e B h1 h2
        have : x = (x - y) + y := by ring
        rw [this]
        exact (abs_add_le _ _).trans (by linarith)
      have d1 := round_step hfl hu sa (near sa aM)
      have d2 : |fl (S - a0) - a1 * m| ≤ 32 / 10 * u * M := d1.trans (by nlinarith)
      generalize fl (S - a0) = D at *
      have s1 : |D / m - a1| ≤ 32 / 10 * u * M / m := by
        have : D / m - a1 = (D - a1 * m) / m := by field_simp
        rw [this, abs_div, abs_of_pos mp]
        exact div_le_div_of_nonneg_right d2 mp.le
      have s2 := round_step hfl hu s1 (near s1 (B := M / m) (by rw [le_div_iff₀ mp, ← abs_of_pos mp, ← abs_mul]; exact aM))
      have s3 : |fl (D / m) * i - a1 * i| ≤ 43 / 10 * u * M := by
        rw [← sub_mul, abs_mul, abs_of_nonneg i0]
        have k1 : |fl (D / m) - a1| * i ≤ (32 / 10 * u * M / m + u * (M / m + 32 / 10 * u * M / m)) * m :=
          mul_le_mul s2 him i0 ((abs_nonneg _).trans s2)
        refine k1.trans ?_
        have : (32 / 10 * u * M / m + u * (M / m + 32 / 10 * u * M / m)) * m = 32 / 10 * u * M + u * (M + 32 / 10 * u * M) := by
          field_simp
        rw [this]
        nlinarith
      have ai : |a1 * i| ≤ |a1| * m := by
        rw [abs_mul, abs_of_nonneg i0]
        exact mul_le_mul_of_nonneg_left him b0
      have s4 := round_step hfl hu s3 (near s3 (B := M) (by linarith))
      have s5 : |fl (fl (D / m) * i) + a0 - (a0 + a1 * i)| ≤ 54 / 10 * u * M := by
        rw [show fl (fl (D / m) * i) + a0 - (a0 + a1 * i) = fl (fl (D / m) * i) - a1 * i by ring]
        refine s4.trans ?_
        nlinarith
      have s6 := round_step hfl hu s5 (near s5 (B := M) ((abs_add_le _ _).trans (by linarith)))
      refine s6.trans ?_
      nlinarith
  · intro hn
    unfold linspaceF
    rw [if_neg (by omega), getD_map_range _ (by omega), if_neg (by omega)]
    rw [Nat.cast_zero, mul_zero, hfl.zero, zero_add, h0]

/-- **C128.** Calibrations by whole multiples of a power of two below `2^53` of it are exact in double precision. -/
theorem C128_whole (z A B : ℤ) (n : ℕ) (hb : |A| + |B| * (n - 1 : ℕ) ≤ 2 ^ 53) :
    eArrayF dbl ((2 : ℚ) ^ z * A) ((2 : ℚ) ^ z * B) (some n) none =
      .ok ((List.range n).map fun i : ℕ => (2 : ℚ) ^ z * A + (2 : ℚ) ^ z * B * i) := by
  show calibAxisF dbl _ _ n = _
  rw [calibAxisF, if_neg (by omega), Int.toNat_natCast]
  congr 1
  have A0 := abs_nonneg A
  have B0 := abs_nonneg B
  have bnd : ∀ {k : ℕ}, k ≤ n - 1 → |B * k| ≤ |B| * (n - 1 : ℕ) := by
    intro k hk
    rw [abs_mul, abs_of_nonneg (Int.natCast_nonneg k)]
    exact mul_le_mul_of_nonneg_left (by exact_mod_cast hk) B0
  have scaled : ∀ {k : ℕ}, k ≤ n - 1 → dbl ((2 : ℚ) ^ z * B * k) = (2 : ℚ) ^ z * B * k := by
    intro k hk
    have := dbl_scaled_int z (B * k) (by linarith [bnd hk])
    push_cast at this
    rw [mul_assoc]
    exact this
  have added : ∀ {k : ℕ}, k ≤ n - 1 → dbl ((2 : ℚ) ^ z * A + (2 : ℚ) ^ z * B * k) = (2 : ℚ) ^ z * A + (2 : ℚ) ^ z * B * k := by
    intro k hk
    have := dbl_scaled_int z (A + B * k) ((abs_add_le _ _).trans (by linarith [bnd hk]))
    push_cast at this
    rw [show (2 : ℚ) ^ z * A + (2 : ℚ) ^ z * B * k = (2 : ℚ) ^ z * (A + B * k) by ring]
    exact this
  rcases Nat.lt_or_ge n 2 with hn | hn
  · rcases Nat.lt_or_ge n 1 with h0 | h0
    · have : n = 0 := by omega
      subst this
      rfl
    · have : n = 1 := by omega
      subst this
      simp [linspaceF]
  · obtain ⟨m, rfl⟩ : ∃ m, n = m + 1 := ⟨n - 1, by omega⟩
    have hm : (((m + 1 : ℕ) : ℤ) : ℚ) - 1 = m := by push_cast; ring
    have hm1 : ((m + 1 : ℕ) : ℚ) - 1 = m := by push_cast; ring
    have mp : (m : ℚ) ≠ 0 := by
      have : m ≠ 0 := by omega
      exact_mod_cast this
    rw [hm, scaled (k := m) (by omega), added (k := m) (by omega)]
    unfold linspaceF
    rw [if_neg (by omega)]
    apply List.map_congr_left
    intro k hk
    rw [List.mem_range] at hk
    by_cases hl : k + 1 = m + 1
    · rw [if_pos hl]
      have : k = m := by omega
      rw [this]
    · rw [if_neg hl, hm1, add_sub_cancel_left, scaled (k := m) (by omega), mul_div_assoc, div_self mp, mul_one]
      have b1 : dbl ((2 : ℚ) ^ z * B) = (2 : ℚ) ^ z * B := by
        have := scaled (k := 1) (by omega)
        simpa using this
      rw [b1, scaled (k := k) (by omega), add_comm, added (k := k) (by omega)]

/-- **C128.** If the largest energy is given, the last bin is the one closest to it, up to a fiftieth of a bin: the
documented `E_array[-1] >= E_max - a1` holds with rounding. -/
theorem C128_emax {fl : ℚ → ℚ} {u : ℚ} (hfl : Rounding fl u) (hu : 0 ≤ u) (hu1 : u ≤ 1 / 100) {a0 a1 e R : ℚ}
    (ha : 0 < a1) (he : a0 ≤ e) (hR : |a0| + (e - a0) ≤ R * a1) (hsm : u * (R + 1) ≤ 1 / 1000) :
    ∃ E n, eArrayF fl a0 a1 none (some e) = .ok E ∧ E.length = n + 1 ∧ |E.getD n 0 - e| ≤ (1 / 2 + 1 / 50) * a1 ∧
      e - a1 ≤ E.getD n 0 := by
  have y0 : 0 ≤ (e - a0) / a1 := div_nonneg (by linarith) ha.le
  have a00 := abs_nonneg a0
  have R0 : 0 ≤ R := by
    by_contra h
    have := mul_neg_of_neg_of_pos (not_le.1 h) ha
    linarith
  have yR : (e - a0) / a1 ≤ R := by
    rw [div_le_iff₀ ha]
    linarith
  have uy : u * ((e - a0) / a1) ≤ 1 / 1000 := le_trans (mul_le_mul_of_nonneg_left (by linarith) hu) hsm
  have q1 : |fl (fl (e - a0) / a1) - (e - a0) / a1| ≤ 1 / 250 := by
    have d : |fl (e - a0) / a1 - (e - a0) / a1| ≤ u * ((e - a0) / a1) := by
      rw [← sub_div, abs_div, abs_of_pos ha, ← mul_div_assoc]
      refine div_le_div_of_nonneg_right ?_ ha.le
      have := hfl.rel (e - a0)
      rwa [abs_of_nonneg (by linarith : 0 ≤ e - a0)] at this
    have b : |fl (e - a0) / a1| ≤ (e - a0) / a1 + u * ((e - a0) / a1) := by
      have : fl (e - a0) / a1 = (fl (e - a0) / a1 - (e - a0) / a1) + (e - a0) / a1 := by ring
      rw [this]
      refine (abs_add_le _ _).trans ?_
      rw [abs_of_nonneg y0]
      linarith
    refine (round_step hfl hu d b).trans ?_
    nlinarith
  have rn := roundHalfEven_near (fl (fl (e - a0) / a1))
  set q := fl (fl (e - a0) / a1) with hq
  set k := roundHalfEven q with hk
  rw [abs_le] at q1 rn
  have k0 : 0 ≤ k := by
    have : ((-1 : ℤ) : ℚ) < k := by
      push_cast
      linarith
    have := Int.cast_lt.1 this
    omega
  obtain ⟨n, hn⟩ : ∃ n : ℕ, k = n := ⟨k.toNat, (Int.toNat_of_nonneg k0).symm⟩
  have nq : (k : ℚ) = n := by rw [hn]; rfl
  rw [nq] at rn
  have st := calib_stop hfl hu hu1 a0 a1 n
  have nR : (n : ℚ) ≤ R + 1 := by linarith
  have M : |a0| + |a1| * n ≤ (R + 1) * a1 := by
    rw [abs_of_pos ha]
    have e1 : (n : ℚ) * a1 ≤ ((e - a0) / a1 + 1) * a1 := mul_le_mul_of_nonneg_right (by linarith) ha.le
    rw [add_mul, div_mul_cancel₀ _ ha.ne'] at e1
    linarith
  have last : (linspaceF fl a0 (fl (a0 + fl (a1 * n))) (n + 1)).getD n 0 = fl (a0 + fl (a1 * n)) ∨
      (n = 0 ∧ (linspaceF fl a0 (fl (a0 + fl (a1 * n))) (n + 1)).getD n 0 = a0) := by
    by_cases n0 : n = 0
    · subst n0
      exact Or.inr ⟨rfl, by simp [linspaceF]⟩
    · left
      unfold linspaceF
      rw [if_neg (by omega), getD_map_range _ (by omega), if_pos rfl]
  have ry : e = a0 + a1 * ((e - a0) / a1) := by field_simp; ring
  have main : |(linspaceF fl a0 (fl (a0 + fl (a1 * n))) (n + 1)).getD n 0 - e| ≤ (1 / 2 + 1 / 50) * a1 := by
    have near : |a0 + a1 * n - e| ≤ (1 / 2 + 1 / 250) * a1 := by
      rw [show a0 + a1 * n - e = (n - (e - a0) / a1) * a1 by field_simp; ring, abs_mul, abs_of_pos ha]
      refine mul_le_mul_of_nonneg_right ?_ ha.le
      rw [abs_le]
      constructor <;> linarith
    rcases last with h | ⟨h0, h⟩
    · rw [h]
      have uM : u * (|a0| + |a1| * n) ≤ 1 / 1000 * a1 := by
        refine (mul_le_mul_of_nonneg_left M hu).trans ?_
        rw [← mul_assoc]
        exact mul_le_mul_of_nonneg_right hsm ha.le
      rw [show fl (a0 + fl (a1 * n)) - e = (fl (a0 + fl (a1 * n)) - (a0 + a1 * n)) + (a0 + a1 * n - e) by ring]
      refine (abs_add_le _ _).trans ?_
      linarith
    · rw [h]
      rw [h0, Nat.cast_zero, mul_zero, add_zero] at near
      linarith
  refine ⟨linspaceF fl a0 (fl (a0 + fl (a1 * n))) (n + 1), n, ?_, linspaceF_length _ _ _ _, main, ?_⟩
  · show (if a1 = 0 then _ else _) = _
    rw [if_neg ha.ne', ← hq, ← hk, hn, calibAxisF, if_neg (by omega)]
    have e1 : (((n : ℤ) + 1 : ℤ) : ℚ) - 1 = n := by push_cast; ring
    have e2 : ((n : ℤ) + 1).toNat = n + 1 := by omega
    rw [e1, e2]
  · have := (abs_le.1 main).1
    linarith

/-- **C128.** Both or none of the number of bins and the largest energy, a negative number of bins, and a zero bin width
are errors. -/
theorem C128_calibration_errors (fl : ℚ → ℚ) (a0 a1 e : ℚ) (n : ℤ) :
    eArrayF fl a0 a1 (some n) (some e) = .error .valueError ∧ eArrayF fl a0 a1 none none = .error .valueError ∧
    (n < 0 → eArrayF fl a0 a1 (some n) none = .error .valueError) ∧ eArrayF fl a0 0 none (some e) = .error .undefined := by
  refine ⟨rfl, rfl, fun h => ?_, ?_⟩
  · show calibAxisF fl a0 a1 n = _
    rw [calibAxisF, if_pos h]
  · simp [eArrayF]

example : eArrayF dbl 5 10 (some 4) none = .ok [5, 15, 25, 35] := by
  have := C128_whole 0 5 10 4 (by decide)
  norm_num [List.range_succ] at this ⊢
  exact this

example : ∃ E n, eArrayF dbl 5 10 none (some 33) = .ok E ∧ E.length = n + 1 ∧ |E.getD n 0 - 33| ≤ (1 / 2 + 1 / 50) * 10 ∧
    33 - 10 ≤ E.getD n 0 :=
  C128_emax dbl_rounding (by norm_num) (by norm_num) (R := 4) (by norm_num) (by norm_num) (by norm_num) (by norm_num)

/-- Half a bin width is right up to the rounding of two energies. -/
lemma halfBinF_near {fl : ℚ → ℚ} {u : ℚ} (hfl : Rounding fl u) (hu : 0 ≤ u) {a b D e B : ℚ}
    (h : |(b - a) - 2 * D| ≤ 2 * e) (hB : |b - a| ≤ 2 * B) :
    |fl (fl (b - a) / 2) - D| ≤ e + u * B + u * (B + u * B) := by
  have s1 := round_step hfl hu h hB
  have s1' := round_step hfl hu (x := b - a) (y := b - a) (e := 0) (by simp) hB
  have s2 : |fl (b - a) / 2 - D| ≤ e + u * B := by
    rw [show fl (b - a) / 2 - D = (fl (b - a) - 2 * D) / 2 by ring, abs_div, abs_of_pos (by norm_num : (0:ℚ) < 2)]
    linarith
  refine round_step hfl hu s2 ?_
  rw [abs_div, abs_of_pos (by norm_num : (0:ℚ) < 2)]
  have : |fl (b - a)| ≤ |fl (b - a) - (b - a)| + |b - a| := by
    have := abs_add_le (fl (b - a) - (b - a)) (b - a)
    rwa [sub_add_cancel] at this
  linarith

/-- Down by half a bin and up again, with rounding. -/
def roundTripF (fl : ℚ → ℚ) (a b e : ℚ) : ℚ :=
  let d := fl (fl (b - a) / 2)
  fl (fl (e - d) + fl (fl (fl (b - d) - fl (a - d)) / 2))

lemma roundTripF_near {fl : ℚ → ℚ} {u : ℚ} (hfl : Rounding fl u) (hu : 0 ≤ u) (hu1 : u ≤ 1 / 1000) {a b e M : ℚ}
    (ha : |a| ≤ M) (hb : |b| ≤ M) (he : |e| ≤ M) : |roundTripF fl a b e - e| ≤ 10 * u * M := by
  have M0 : 0 ≤ M := (abs_nonneg a).trans ha
  have uM : 0 ≤ u * M := mul_nonneg hu M0
  have uM1 : u * M ≤ M / 1000 := by nlinarith
  have uuM : u * (u * M) ≤ u * M / 1000 := by nlinarith
  have ba : |b - a| ≤ 2 * M := (abs_sub _ _).trans (by linarith)
  have d1 := halfBinF_near hfl hu (a := a) (b := b) (D := (b - a) / 2) (e := 0) (B := M)
    (by rw [show b - a - 2 * ((b - a) / 2) = 0 by ring]; simp) ba
  unfold roundTripF
  set d := fl (fl (b - a) / 2) with hd
  have D0 : |(b - a) / 2| ≤ M := by
    rw [abs_div, abs_of_pos (by norm_num : (0:ℚ) < 2)]
    linarith
  have d2 : |d - (b - a) / 2| ≤ 201 / 100 * (u * M) := by linarith
  have dM : |d| ≤ 101 / 100 * M := by
    have := abs_add_le (d - (b - a) / 2) ((b - a) / 2)
    rw [sub_add_cancel] at this
    linarith
  have low : ∀ {x : ℚ}, |x| ≤ M → |fl (x - d) - (x - d)| ≤ 201 / 100 * (u * M) := by
    intro x hx
    have := round_step hfl hu (x := x - d) (y := x - d) (e := 0) (B := 201 / 100 * M) (by simp)
      ((abs_sub _ _).trans (by linarith))
    linarith
  have la := low ha
  have lb := low hb
  have le := low he
  have diff : |fl (b - d) - fl (a - d) - (b - a)| ≤ 402 / 100 * (u * M) := by
    rw [show fl (b - d) - fl (a - d) - (b - a) = (fl (b - d) - (b - d)) - (fl (a - d) - (a - d)) by ring]
    refine (abs_sub _ _).trans ?_
    linarith
  have dB : |fl (b - d) - fl (a - d)| ≤ 2 * (101 / 100 * M) := by
    have := abs_add_le (fl (b - d) - fl (a - d) - (b - a)) (b - a)
    rw [sub_add_cancel] at this
    linarith
  have d3 := halfBinF_near hfl hu (a := fl (a - d)) (b := fl (b - d)) (D := (b - a) / 2) (e := 201 / 100 * (u * M))
    (B := 101 / 100 * M) (by rw [show 2 * ((b - a) / 2) = b - a by ring]; linarith) dB
  set d' := fl (fl (fl (b - d) - fl (a - d)) / 2) with hd'
  have d4 : |d' - (b - a) / 2| ≤ 41 / 10 * (u * M) := by nlinarith
  have tot : |fl (e - d) + d' - e| ≤ 83 / 10 * (u * M) := by
    rw [show fl (e - d) + d' - e = (fl (e - d) - (e - d)) + ((d' - (b - a) / 2) - (d - (b - a) / 2)) by ring]
    refine (abs_add_le _ _).trans ?_
    have := abs_sub (d' - (b - a) / 2) (d - (b - a) / 2)
    linarith
  have big : |fl (e - d) + d'| ≤ 11 / 10 * M := by
    have := abs_add_le (fl (e - d) + d' - e) e
    rw [sub_add_cancel] at this
    linarith
  have := round_step hfl hu tot big
  linarith

lemma plotAxesF_eq (fl : ℚ → ℚ) (m : Mat) (a b : ℚ) (lx : List ℚ) (c d : ℚ) (lg : List ℚ) (hx : m.Ex = a :: b :: lx)
    (hg : m.Eg = c :: d :: lg) :
    m.plotAxesF fl = .ok { m with Ex := m.Ex.map (roundTripF fl a b), Eg := m.Eg.map (roundTripF fl c d) } := by
  unfold Mat.plotAxesF Mat.toLowerBinF Mat.toMidBinF
  simp only [hx, hg, halfBinF, bind, Except.bind, pure, Except.pure, List.map_cons, List.map_map]
  rfl

/-- **C128.** Drawing a matrix moves its bins down by half a bin and up again. With rounding the energies come back up
to the rounding of ten of them; the values and the rest are untouched. -/
theorem C128_plot_partial {fl : ℚ → ℚ} {u : ℚ} (hfl : Rounding fl u) (hu : 0 ≤ u) (hu1 : u ≤ 1 / 1000) (m : Mat) {M : ℚ}
    (hx2 : 2 ≤ m.Ex.length) (hg2 : 2 ≤ m.Eg.length) (hx : ∀ e ∈ m.Ex, |e| ≤ M) (hg : ∀ e ∈ m.Eg, |e| ≤ M) :
    ∃ m', m.plotAxesF fl = .ok m' ∧ m'.values = m.values ∧ m'.std = m.std ∧ m'.state = m.state ∧
      List.Forall₂ (fun e e' => |e' - e| ≤ 10 * u * M) m.Ex m'.Ex ∧
      List.Forall₂ (fun e e' => |e' - e| ≤ 10 * u * M) m.Eg m'.Eg := by
  have two : ∀ {l : List ℚ}, 2 ≤ l.length → ∃ a b t, l = a :: b :: t := by
    intro l hl
    match l, hl with
    | a :: b :: t, _ => exact ⟨a, b, t, rfl⟩
  obtain ⟨a, b, lx, ex⟩ := two hx2
  obtain ⟨c, d, lg, eg⟩ := two hg2
  refine ⟨_, plotAxesF_eq fl m a b lx c d lg ex eg, rfl, rfl, rfl, ?_, ?_⟩
  · rw [List.forall₂_map_right_iff, List.forall₂_same]
    intro e he
    exact roundTripF_near hfl hu hu1 (hx a (by simp [ex])) (hx b (by simp [ex])) (hx e he)
  · rw [List.forall₂_map_right_iff, List.forall₂_same]
    intro e he
    exact roundTripF_near hfl hu hu1 (hg c (by simp [eg])) (hg d (by simp [eg])) (hg e he)

lemma roundTripF_whole (z A B C : ℤ) (ha : |A| ≤ 2 ^ 51) (hb : |B| ≤ 2 ^ 51) (hc : |C| ≤ 2 ^ 51) :
    roundTripF dbl ((2 : ℚ) ^ z * (2 * A)) ((2 : ℚ) ^ z * (2 * B)) ((2 : ℚ) ^ z * (2 * C)) = (2 : ℚ) ^ z * (2 * C) := by
  rw [abs_le] at ha hb hc
  have ex : ∀ k : ℤ, |k| ≤ 2 ^ 53 → ∀ x : ℚ, x = (2 : ℚ) ^ z * k → dbl x = x := by
    rintro k hk x rfl
    exact dbl_scaled_int z k hk
  unfold roundTripF
  have e1 := ex (2 * B - 2 * A) (by rw [abs_le]; constructor <;> linarith)
    ((2 : ℚ) ^ z * (2 * B) - (2 : ℚ) ^ z * (2 * A)) (by push_cast; ring)
  have e2 := ex (B - A) (by rw [abs_le]; constructor <;> linarith)
    (((2 : ℚ) ^ z * (2 * B) - (2 : ℚ) ^ z * (2 * A)) / 2) (by push_cast; ring)
  rw [e1, e2]
  have low : ∀ X : ℤ, -2 ^ 51 ≤ X → X ≤ 2 ^ 51 →
      dbl ((2 : ℚ) ^ z * (2 * X) - ((2 : ℚ) ^ z * (2 * B) - (2 : ℚ) ^ z * (2 * A)) / 2) =
        (2 : ℚ) ^ z * (2 * X) - ((2 : ℚ) ^ z * (2 * B) - (2 : ℚ) ^ z * (2 * A)) / 2 := by
    intro X h1 h2
    exact ex (2 * X - (B - A)) (by rw [abs_le]; constructor <;> linarith) _ (by push_cast; ring)
  dsimp only
  rw [low A ha.1 ha.2, low B hb.1 hb.2, low C hc.1 hc.2, sub_sub_sub_cancel_right, e1, e2, sub_add_cancel]
  exact ex (2 * C) (by rw [abs_le]; constructor <;> linarith) _ (by push_cast; ring)

/-- **C128.** A matrix with energies that are even multiples of a power of two, up to `2^52` of it, is drawn without
changing its axes. -/
theorem C128_plot_whole (m : Mat) (z w : ℤ) (X G : List ℤ) (hx2 : 2 ≤ X.length) (hg2 : 2 ≤ G.length)
    (hX : m.Ex = X.map fun k : ℤ => (2 : ℚ) ^ z * (2 * k)) (hG : m.Eg = G.map fun k : ℤ => (2 : ℚ) ^ w * (2 * k))
    (hx : ∀ k ∈ X, |k| ≤ 2 ^ 51) (hg : ∀ k ∈ G, |k| ≤ 2 ^ 51) : m.plotAxesF dbl = .ok m := by
  match X, hx2 with
  | a :: b :: lx, _ =>
    match G, hg2 with
    | c :: d :: lg, _ =>
      rw [plotAxesF_eq dbl m _ _ _ _ _ _ (by rw [hX]; rfl) (by rw [hG]; rfl)]
      have fx : m.Ex.map (roundTripF dbl ((2 : ℚ) ^ z * (2 * a)) ((2 : ℚ) ^ z * (2 * b))) = m.Ex := by
        rw [hX, List.map_map]
        apply List.map_congr_left
        intro k hk
        exact roundTripF_whole z a b k (hx a (by simp)) (hx b (by simp)) (hx k hk)
      have fg : m.Eg.map (roundTripF dbl ((2 : ℚ) ^ w * (2 * c)) ((2 : ℚ) ^ w * (2 * d))) = m.Eg := by
        rw [hG, List.map_map]
        apply List.map_congr_left
        intro k hk
        exact roundTripF_whole w c d k (hg c (by simp)) (hg d (by simp)) (hg k hk)
      rw [fx, fg]

/-- **C128.** Axes with fewer than two bins cannot be moved. -/
theorem C128_plot_short (fl : ℚ → ℚ) (m : Mat) (h : m.Ex.length < 2 ∨ m.Eg.length < 2) :
    m.toLowerBinF fl = .error .indexError ∧ m.toMidBinF fl = .error .indexError ∧
      m.plotAxesF fl = .error .indexError := by
  have short : ∀ {l : List ℚ}, l.length < 2 → halfBinF fl l = .error .indexError := by
    intro l hl
    match l, hl with
    | [], _ => rfl
    | [a], _ => rfl
  have anyH : ∀ l : List ℚ, halfBinF fl l = .error .indexError ∨ ∃ d, halfBinF fl l = .ok d := by
    intro l
    match l with
    | [] => exact Or.inl rfl
    | [a] => exact Or.inl rfl
    | a :: b :: t => exact Or.inr ⟨_, rfl⟩
  have low : m.toLowerBinF fl = .error .indexError := by
    unfold Mat.toLowerBinF
    rcases h with h | h
    · rw [short h]; rfl
    · rcases anyH m.Ex with e | ⟨d, e⟩
      · rw [e]; rfl
      · rw [e, short h]; rfl
  refine ⟨low, ?_, ?_⟩
  · unfold Mat.toMidBinF
    rcases h with h | h
    · rw [short h]; rfl
    · rcases anyH m.Ex with e | ⟨d, e⟩
      · rw [e]; rfl
      · rw [e, short h]; rfl
  · unfold Mat.plotAxesF
    rw [low]
    rfl

/-- **C128.** Drawing a matrix changes it: the axis `0.1, 0.2, 0.3` does not come back. -/
theorem C128_plot_fails :
    let E := [dbl (1 / 10), dbl (1 / 5), dbl (3 / 10)]
    let m : Mat := ⟨[[1, 1, 1], [1, 1, 1], [1, 1, 1]], E, E, none, none⟩
    ∃ m', m.plotAxesF dbl = .ok m' ∧ m'.Eg ≠ m.Eg := by
  intro E m
  refine ⟨_, plotAxesF_eq dbl m _ _ _ _ _ _ rfl rfl, ?_⟩
  show List.map _ E ≠ E
  decide +kernel

example : ∃ m', (⟨[[1, 2], [3, 4]], [1, 2], [1, 2], none, none⟩ : Mat).plotAxesF dbl = .ok m' ∧ m'.values = [[1, 2], [3, 4]] := by
  obtain ⟨m', h, hv, -⟩ := C128_plot_partial dbl_rounding (by norm_num) (by norm_num)
    ⟨[[1, 2], [3, 4]], [1, 2], [1, 2], none, none⟩ (M := 2) (by simp) (by simp) (by simp) (by simp)
  exact ⟨m', h, hv⟩

example : (⟨[[1, 2], [3, 4]], [1, 2], [2, 4], none, none⟩ : Mat).plotAxesF dbl =
    .ok ⟨[[1, 2], [3, 4]], [1, 2], [2, 4], none, none⟩ :=
  C128_plot_whole _ 0 (-1) [1, 2] [1, 2] (by simp) (by simp) (by norm_num) (by norm_num) (by decide) (by decide)

/-- The quotient of `find_limits` with rounding. -/
lemma quotF_near {fl : ℚ → ℚ} {u : ℚ} (hfl : Rounding fl u) (hu : 0 ≤ u) (hu1 : u ≤ 1 / 1000) {gain shift E : ℚ}
    (hg : 0 < gain) (hs : u * |E - shift| ≤ gain / 300) :
    |fl (fl (E - shift) / gain) - (E - shift) / gain| < 1 / 100 := by
  have r0 : u * (|E - shift| / gain) ≤ 1 / 300 := by
    rw [← mul_div_assoc, div_le_iff₀ hg]
    linarith
  have d : |fl (E - shift) / gain - (E - shift) / gain| ≤ u * (|E - shift| / gain) := by
    rw [← sub_div, abs_div, abs_of_pos hg, ← mul_div_assoc]
    exact div_le_div_of_nonneg_right (hfl.rel _) hg.le
  have b : |fl (E - shift) / gain| ≤ |E - shift| / gain + u * (|E - shift| / gain) := by
    have := abs_add_le (fl (E - shift) / gain - (E - shift) / gain) ((E - shift) / gain)
    rw [sub_add_cancel, abs_div (E - shift), abs_of_pos hg] at this
    linarith
  refine (round_step hfl hu d b).trans_lt ?_
  have p : 0 ≤ |E - shift| / gain := div_nonneg (abs_nonneg _) hg.le
  nlinarith

/-- **C128.** With rounding the limits select every bin that lies inside the asked energies by a hundredth of a bin, and
no bin that lies outside by as much. -/
theorem C128_limits_partial {fl : ℚ → ℚ} {u : ℚ} (hfl : Rounding fl u) (hu : 0 ≤ u) (hu1 : u ≤ 1 / 1000)
    {gain shift ExMin ExMax EgMin : ℚ} (hg : 0 < gain) (h1 : u * |ExMin - shift| ≤ gain / 300)
    (h2 : u * |ExMax - shift| ≤ gain / 300) (h3 : u * |EgMin - shift| ≤ gain / 300) (i : ℤ) :
    let l := findLimitsF fl gain shift ExMin ExMax EgMin
    let E := shift + gain * i
    (ExMin + gain / 100 ≤ E ∧ E ≤ ExMax - gain / 100 → l.1 ≤ i ∧ i < l.2.1) ∧
    (l.1 ≤ i ∧ i < l.2.1 → ExMin - gain / 100 ≤ E ∧ E ≤ ExMax + gain / 100) ∧
    (EgMin + gain / 100 ≤ E → l.2.2.1 ≤ i) ∧ (l.2.2.1 ≤ i → EgMin - gain / 100 ≤ E) := by
  have q1 := abs_lt.1 (quotF_near hfl hu hu1 hg h1)
  have q2 := abs_lt.1 (quotF_near hfl hu hu1 hg h2)
  have q3 := abs_lt.1 (quotF_near hfl hu hu1 hg h3)
  have up : ∀ {x : ℚ}, x + gain / 100 ≤ shift + gain * i → (x - shift) / gain + 1 / 100 ≤ i := by
    intro x hx
    rw [div_add' _ _ _ hg.ne', div_le_iff₀ hg]
    linarith
  have up' : ∀ {x : ℚ}, (x - shift) / gain - 1 / 100 ≤ i → x - gain / 100 ≤ shift + gain * i := by
    intro x hx
    rw [div_sub' hg.ne', div_le_iff₀ hg] at hx
    linarith
  have dn : ∀ {x : ℚ}, shift + gain * i ≤ x - gain / 100 → (i : ℚ) ≤ (x - shift) / gain - 1 / 100 := by
    intro x hx
    rw [div_sub' hg.ne', le_div_iff₀ hg]
    linarith
  have dn' : ∀ {x : ℚ}, (i : ℚ) ≤ (x - shift) / gain + 1 / 100 → shift + gain * i ≤ x + gain / 100 := by
    intro x hx
    rw [div_add' _ _ _ hg.ne', le_div_iff₀ hg] at hx
    linarith
  simp only [findLimitsF, Int.ceil_le, Int.lt_add_one_iff, Int.le_floor]
  refine ⟨fun h => ⟨?_, ?_⟩, fun h => ⟨up' ?_, dn' ?_⟩, fun h => ?_, fun h => up' ?_⟩
  · linarith [up h.1, q1.2]
  · linarith [dn h.2, q2.1]
  · linarith [h.1, q1.1]
  · linarith [h.2, q2.2]
  · linarith [up h, q3.2]
  · linarith [h, q3.1]

/-- **C128.** The offset of the energies in bins, with rounding. -/
theorem C128_offset {fl : ℚ → ℚ} {u : ℚ} (hfl : Rounding fl u) (hu : 0 ≤ u) (hu1 : u ≤ 1 / 1000)
    {gain shift ExMin ExMax EgMin : ℚ} (hg : 0 < gain) (hs : u * |shift| ≤ gain / 300) :
    |((findLimitsF fl gain shift ExMin ExMax EgMin).2.2.2 : ℚ) - (|shift / gain|)| ≤ 1 / 2 + 1 / 100 := by
  have r0 : u * |shift / gain| ≤ 1 / 300 := by
    rw [abs_div, abs_of_pos hg, ← mul_div_assoc, div_le_iff₀ hg]
    linarith
  have p0 := abs_nonneg (shift / gain)
  have f0 := abs_nonneg (fl (shift / gain))
  have d1 : |(|fl (shift / gain)|) - (|shift / gain|)| ≤ 1 / 300 :=
    (abs_abs_sub_abs_le _ _).trans ((hfl.rel _).trans r0)
  have d2 : |(|fl (shift / gain)| + 1 / 2) - (|shift / gain| + 1 / 2)| ≤ 1 / 300 := by
    rwa [add_sub_add_right_eq_sub]
  have b : |(|fl (shift / gain)| + 1 / 2)| ≤ |shift / gain| + 1 := by
    rw [abs_of_nonneg (by linarith)]
    linarith [(abs_le.1 d1).2]
  have d3 := round_step hfl hu d2 b
  have d4 : 1 / 300 + u * (|shift / gain| + 1) ≤ 1 / 100 := by linarith
  have d5 := abs_le.1 (d3.trans d4)
  have y0 : 0 ≤ fl (|fl (shift / gain)| + 1 / 2) := by linarith [d5.1]
  show |((truncZ (fl (|fl (shift / gain)| + 1 / 2)) : ℤ) : ℚ) - _| ≤ _
  rw [truncZ_of_nonneg y0]
  have f1 := Int.floor_le (fl (|fl (shift / gain)| + 1 / 2))
  have f2 := Int.lt_floor_add_one (fl (|fl (shift / gain)| + 1 / 2))
  rw [abs_le]
  constructor <;> linarith [d5.1, d5.2]

/-- Rounding a quotient of whole numbers does not move it over or onto a whole number. -/
lemma dbl_quot (x : ℤ) {g : ℤ} (hg : 0 < g) (hx : |x| < 2 ^ 53) :
    ⌈dbl ((x : ℚ) / g)⌉ = ⌈(x : ℚ) / g⌉ ∧ ⌊dbl ((x : ℚ) / g)⌋ = ⌊(x : ℚ) / g⌋ := by
  have gq : (0 : ℚ) < g := by exact_mod_cast hg
  have g1 : (1 : ℚ) ≤ g := by exact_mod_cast hg
  have xq : |(x : ℚ)| < 2 ^ 53 := by exact_mod_cast hx
  have err : |dbl ((x : ℚ) / g) - (x : ℚ) / g| < 1 / g := by
    refine (dbl_rounding.rel _).trans_lt ?_
    rw [abs_div, abs_of_pos gq, ← mul_div_assoc]
    refine div_lt_div_of_pos_right ?_ gq
    linarith
  have sm : |(x : ℚ) / g| < 2 ^ 53 := by
    rw [abs_div, abs_of_pos gq, div_lt_iff₀ gq]
    nlinarith
  have sm' := abs_lt.1 sm
  rw [abs_lt] at err
  have keep : ∀ n : ℤ, |n| ≤ 2 ^ 53 → dbl (n : ℚ) = n := fun n hn => dbl_int n hn
  constructor
  · rw [Int.ceil_eq_iff]
    have c1 := Int.le_ceil ((x : ℚ) / g)
    have c2 := Int.ceil_lt_add_one ((x : ℚ) / g)
    set n := ⌈(x : ℚ) / g⌉ with hn
    have nb : |n| ≤ 2 ^ 53 := by
      have h1 : n ≤ 2 ^ 53 := Int.ceil_le.2 (by push_cast; linarith)
      have h2 : ((-2 ^ 53 : ℤ) : ℚ) ≤ n := by push_cast; linarith
      exact abs_le.2 ⟨Int.cast_le.1 h2, h1⟩
    refine ⟨?_, ?_⟩
    · have step : ((n - 1 : ℤ) : ℚ) + 1 / g ≤ (x : ℚ) / g := by
        have : (n - 1) * g < x := by
          have : ((n : ℚ) - 1) < (x : ℚ) / g := by linarith
          rw [lt_div_iff₀ gq] at this
          exact_mod_cast this
        have : (n - 1) * g + 1 ≤ x := this
        rw [le_div_iff₀ gq, add_mul, div_mul_cancel₀ _ gq.ne']
        exact_mod_cast this
      push_cast at step
      linarith [err.1]
    · rw [← keep n nb]
      exact dbl_rounding.mono c1
  · rw [Int.floor_eq_iff]
    have c1 := Int.floor_le ((x : ℚ) / g)
    have c2 := Int.lt_floor_add_one ((x : ℚ) / g)
    set n := ⌊(x : ℚ) / g⌋ with hn
    have nb : |n| ≤ 2 ^ 53 := by
      have h1 : -2 ^ 53 ≤ n := Int.le_floor.2 (by push_cast; linarith)
      have h2 : (n : ℚ) ≤ ((2 ^ 53 : ℤ) : ℚ) := by push_cast; linarith
      exact abs_le.2 ⟨h1, Int.cast_le.1 h2⟩
    refine ⟨?_, ?_⟩
    · rw [← keep n nb]
      exact dbl_rounding.mono c1
    · have step : (x : ℚ) / g ≤ ((n + 1 : ℤ) : ℚ) - 1 / g := by
        have : x < (n + 1) * g := by
          rw [div_lt_iff₀ gq] at c2
          exact_mod_cast c2
        have : x ≤ (n + 1) * g - 1 := by omega
        rw [div_le_iff₀ gq, sub_mul, div_mul_cancel₀ _ gq.ne']
        exact_mod_cast this
      push_cast at step
      linarith [err.2]

/-- **C128.** For whole multiples of a power of two the limits in double precision are the exact ones, so that the
bins between the asked energies, both included, are selected. -/
theorem C128_limits_whole (z : ℤ) {g s a b c : ℤ} (hg : 0 < g) (ha : |a - s| < 2 ^ 53) (hb : |b - s| < 2 ^ 53)
    (hc : |c - s| < 2 ^ 53) (i : ℤ) :
    let q := fun k : ℤ => (2 : ℚ) ^ z * k
    let l := findLimitsF dbl (q g) (q s) (q a) (q b) (q c)
    ((l.1 ≤ i ∧ i < l.2.1) ↔ (q a ≤ q s + q g * i ∧ q s + q g * i ≤ q b)) ∧ (l.2.2.1 ≤ i ↔ q c ≤ q s + q g * i) := by
  intro q l
  have z0 : (0 : ℚ) < (2 : ℚ) ^ z := zpow_pos (by norm_num) z
  have gq : (0 : ℚ) < g := by exact_mod_cast hg
  have red : ∀ x : ℤ, |x - s| < 2 ^ 53 → dbl (q x - q s) / q g = ((x - s : ℤ) : ℚ) / g := by
    intro x hx
    have e : q x - q s = (2 : ℚ) ^ z * ((x - s : ℤ) : ℚ) := by
      simp only [q]
      push_cast
      ring
    rw [e, dbl_scaled_int z _ hx.le]
    simp only [q]
    rw [mul_div_mul_left _ _ z0.ne']
  have exact : ∀ x : ℤ, ((x - s : ℤ) : ℚ) / g = (q x - q s) / q g := by
    intro x
    simp only [q]
    rw [← mul_sub, mul_div_mul_left _ _ z0.ne']
    push_cast
    rfl
  have e1 : l.1 = (findLimits (q g) (q s) (q a) (q b) (q c)).1 := by
    show ⌈dbl (dbl (q a - q s) / q g)⌉ = ⌈(q a - q s) / q g⌉
    rw [red a ha, (dbl_quot _ hg ha).1, exact]
  have e2 : l.2.1 = (findLimits (q g) (q s) (q a) (q b) (q c)).2.1 := by
    show ⌊dbl (dbl (q b - q s) / q g)⌋ + 1 = ⌊(q b - q s) / q g⌋ + 1
    rw [red b hb, (dbl_quot _ hg hb).2, exact]
  have e3 : l.2.2.1 = (findLimits (q g) (q s) (q a) (q b) (q c)).2.2.1 := by
    show ⌈dbl (dbl (q c - q s) / q g)⌉ = ⌈(q c - q s) / q g⌉
    rw [red c hc, (dbl_quot _ hg hc).1, exact]
  rw [e1, e2, e3]
  exact C58_limits (q g) (q s) (q a) (q b) (q c) (mul_pos z0 gq) i

/-- **C128.** On the axis `0, 0.1, 0.2, 0.3` in double precision the upper limit `0.3`, the energy of bin 3, selects
only the bins 0, 1 and 2. -/
theorem C128_limits_fails :
    let E := [0, dbl (1 / 10), dbl (2 / 10), dbl (3 / 10)]
    let l := findLimitsF dbl (dbl (E.getD 1 0 - E.getD 0 0)) (E.getD 0 0) 0 (dbl (3 / 10)) 0
    E.getD 3 0 = dbl (3 / 10) ∧ ¬ (l.1 ≤ 3 ∧ 3 < l.2.1) ∧ l.2.1 = 3 := by
  decide +kernel

example (i : ℤ) : ((findLimitsF dbl 100 50 250 850 150).1 ≤ i ∧ i < (findLimitsF dbl 100 50 250 850 150).2.1) ↔
    ((250 : ℚ) ≤ 50 + 100 * i ∧ (50 : ℚ) + 100 * i ≤ 850) := by
  have := (C128_limits_whole 0 (g := 100) (s := 50) (a := 250) (b := 850) (c := 150) (by norm_num) (by norm_num)
    (by norm_num) (by norm_num) i).1
  norm_num at this ⊢
  exact this

end Ompy
