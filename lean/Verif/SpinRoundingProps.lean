import Verif.SpinRounding
import Verif.SpinProps
import Verif.SumRoundingProps

/-!
# C149: spin distribution, D0 and the level density at Sn with rounded numbers
-/

namespace Ompy

/-- Specification: the logarithms of two numbers that are not negative differ by at most `d`. -/
def LogNear (d : ℝ) (x y : ℝ) : Prop := Real.exp (-d) * x ≤ y ∧ Real.exp (-d) * y ≤ x

namespace LogNear

theorem mono {d e x y : ℝ} (h : LogNear d x y) (hx : 0 ≤ x) (hy : 0 ≤ y) (hde : d ≤ e) : LogNear e x y := by
  have : Real.exp (-e) ≤ Real.exp (-d) := Real.exp_le_exp.2 (by linarith)
  exact ⟨(mul_le_mul_of_nonneg_right this hx).trans h.1, (mul_le_mul_of_nonneg_right this hy).trans h.2⟩

theorem nonneg {d x y : ℝ} (h : LogNear d x y) (hx : 0 ≤ x) : 0 ≤ y :=
  (mul_nonneg (Real.exp_pos _).le hx).trans h.1

theorem pos {d x y : ℝ} (h : LogNear d x y) (hx : 0 < x) : 0 < y := (mul_pos (Real.exp_pos _) hx).trans_le h.1

theorem trans {d e x y z : ℝ} (h : LogNear d x y) (h' : LogNear e y z) : LogNear (d + e) x z := by
  have e1 : Real.exp (-(d + e)) = Real.exp (-e) * Real.exp (-d) := by rw [← Real.exp_add]; ring_nf
  constructor
  · rw [e1, mul_assoc]
    exact (mul_le_mul_of_nonneg_left h.1 (Real.exp_pos _).le).trans h'.1
  · rw [e1, mul_comm (Real.exp (-e)), mul_assoc]
    exact (mul_le_mul_of_nonneg_left h'.2 (Real.exp_pos _).le).trans h.2

theorem add {d x y x' y' : ℝ} (h : LogNear d x y) (h' : LogNear d x' y') : LogNear d (x + x') (y + y') :=
  ⟨by rw [mul_add]; exact add_le_add h.1 h'.1, by rw [mul_add]; exact add_le_add h.2 h'.2⟩

theorem mul {d e x y x' y' : ℝ} (h : LogNear d x y) (h' : LogNear e x' y') (hx : 0 ≤ x) (hx' : 0 ≤ x') :
    LogNear (d + e) (x * x') (y * y') := by
  have hy := h.nonneg hx
  have hy' := h'.nonneg hx'
  have e1 : Real.exp (-(d + e)) = Real.exp (-d) * Real.exp (-e) := by rw [← Real.exp_add]; ring_nf
  constructor
  · calc Real.exp (-(d + e)) * (x * x') = (Real.exp (-d) * x) * (Real.exp (-e) * x') := by rw [e1]; ring
      _ ≤ y * y' := mul_le_mul h.1 h'.1 (mul_nonneg (Real.exp_pos _).le hx') hy
  · calc Real.exp (-(d + e)) * (y * y') = (Real.exp (-d) * y) * (Real.exp (-e) * y') := by rw [e1]; ring
      _ ≤ x * x' := mul_le_mul h.2 h'.2 (mul_nonneg (Real.exp_pos _).le hy') hx

theorem inv {d x y : ℝ} (h : LogNear d x y) (hx : 0 < x) : LogNear d (1 / x) (1 / y) := by
  have hy := h.pos hx
  constructor
  · rw [mul_one_div, div_le_div_iff₀ hx hy, one_mul]; exact h.2
  · rw [mul_one_div, div_le_div_iff₀ hy hx, one_mul]; exact h.1

/-- In plain terms: the relative difference is at most `exp d - 1`. -/
theorem rel {d x y : ℝ} (h : LogNear d x y) (hx : 0 ≤ x) : |y - x| ≤ (Real.exp d - 1) * x := by
  have p := Real.exp_pos d
  have e1 : Real.exp d * Real.exp (-d) = 1 := by rw [← Real.exp_add]; simp
  have h2 : y ≤ Real.exp d * x := by
    have := mul_le_mul_of_nonneg_left h.2 p.le
    rwa [← mul_assoc, e1, one_mul] at this
  have h1 : x - (Real.exp d - 1) * x ≤ Real.exp (-d) * x := by
    have q : 2 - Real.exp d ≤ Real.exp (-d) := by
      have := sq_nonneg (Real.exp d - 1)
      have hq := Real.exp_pos (-d)
      nlinarith
    calc x - (Real.exp d - 1) * x = (2 - Real.exp d) * x := by ring
      _ ≤ _ := mul_le_mul_of_nonneg_right q hx
  rw [abs_le]
  constructor <;> linarith [h.1]

end LogNear

/-- What one rounding can do to a logarithm. -/
noncomputable def lamU (u : ℚ) : ℝ := -Real.log (1 - (u : ℝ))

theorem lamU_nonneg {u : ℚ} (hu : 0 ≤ u) (hu1 : u < 1) : 0 ≤ lamU u := by
  have h0 : (0 : ℝ) ≤ u := by exact_mod_cast hu
  have h1 : (u : ℝ) < 1 := by exact_mod_cast hu1
  exact neg_nonneg.2 (Real.log_nonpos (by linarith) (by linarith))

theorem exp_lamU {u : ℚ} (hu1 : u < 1) (k : ℕ) : Real.exp (-(k * lamU u)) = (1 - (u : ℝ)) ^ k := by
  have h1 : (u : ℝ) < 1 := by exact_mod_cast hu1
  unfold lamU
  rw [mul_neg, neg_neg, Real.exp_nat_mul, Real.exp_log (by linarith)]

theorem Within.logNear {u : ℚ} (hu1 : u < 1) {k : ℕ} {x y : ℚ} (h : Within u k x y) :
    LogNear (k * lamU u) (x : ℝ) (y : ℝ) := by
  unfold LogNear
  rw [exp_lamU hu1]
  exact ⟨by exact_mod_cast h.1, by exact_mod_cast h.2⟩

/-- Specification: the computed exponential function is right up to `c` roundings where it is used. -/
def ExpNear (ex : ℚ → ℚ) (u : ℚ) (c : ℕ) : Prop := ∀ x : ℚ, x ≤ 0 → LogNear (c * lamU u) (Real.exp x) (ex x)

/-- There are such functions. -/
theorem expNear_exists (u : ℚ) (hu : 0 < u) (hu1 : u < 1) : ∃ ex, ExpNear ex u 1 := by
  have h0 : (0 : ℝ) < u := by exact_mod_cast hu
  have h1 : (u : ℝ) < 1 := by exact_mod_cast hu1
  have hq : ∀ x : ℚ, ∃ q : ℚ, (1 - (u : ℝ)) * Real.exp x < q ∧ (q : ℝ) < Real.exp x := fun x =>
    exists_rat_btwn (by nlinarith [Real.exp_pos (x : ℝ)])
  choose ex hex using hq
  refine ⟨ex, fun x _ => ?_⟩
  unfold LogNear
  rw [exp_lamU hu1, pow_one]
  obtain ⟨a, b⟩ := hex x
  refine ⟨a.le, ?_⟩
  have : 0 < (ex x : ℝ) := (mul_pos (by linarith) (Real.exp_pos (x : ℝ))).trans a
  nlinarith

theorem Rounding.mirror {fl : ℚ → ℚ} {u : ℚ} (h : Rounding fl u) : Rounding (fun q => -fl (-q)) u where
  mono := fun a b hab => neg_le_neg (h.mono (neg_le_neg hab))
  rel := fun q => by
    have := h.rel (-q)
    rw [abs_neg] at this
    calc |(-fl (-q)) - q| = |fl (-q) - -q| := by rw [← abs_neg]; ring_nf
      _ ≤ _ := this

/-- The exponent of the distribution. -/
noncomputable def spinArg (sigma2 J : ℝ) : ℝ := (J + 1 / 2) ^ 2 / (2 * sigma2)

/-- What the roundings can do to the logarithm of the distribution. -/
noncomputable def spinErr (u : ℚ) (c : ℕ) (sigma2 J : ℝ) : ℝ :=
  (5 + c : ℕ) * lamU u + spinArg sigma2 J * (((1 - (u : ℝ)) ^ 5)⁻¹ - 1)

/-- **C149.** The spin distribution with rounding exists for every positive spin-cut, is positive, and its logarithm differs from
the exact one by at most `5 + c` roundings and the exponent times five roundings. -/
theorem C149_spin (fl ex : ℚ → ℚ) (u : ℚ) (hfl : Rounding fl u) (hu : 0 ≤ u) (hu1 : u < 1) (c : ℕ) (hex : ExpNear ex u c)
    (sigma2 J : ℚ) (hs : 0 < sigma2) (hJ : 0 ≤ J) :
    ∃ x y, spinDist sigma2 J = .ok x ∧ spinDistF fl ex sigma2 J = .ok y ∧ 0 < x ∧
      LogNear (spinErr u c sigma2 J) x y := by
  have hfm := hfl.mirror
  have pos2 : 0 < 2 * sigma2 := by linarith
  have w2 : Within u 1 (2 * sigma2) (fl (2 * sigma2)) := Within.rounded hu hu1 hfl pos2.le
  have p2 : 0 < fl (2 * sigma2) := (w2.pos_iff hu1).1 pos2
  have ne : fl (2 * sigma2) ≠ 0 := p2.ne'
  have ner : (2 * (sigma2 : ℝ)) ≠ 0 := by
    have : (0 : ℝ) < sigma2 := by exact_mod_cast hs
    positivity
  unfold spinDist spinDistF
  rw [if_neg ner, if_neg ne]
  refine ⟨_, _, rfl, rfl, ?_, ?_⟩
  · have h1 : (0 : ℝ) < sigma2 := by exact_mod_cast hs
    have h2 : (0 : ℝ) ≤ J := by exact_mod_cast hJ
    positivity
  -- the factor
  have wJ : Within u 1 (2 * J) (fl (2 * J)) := Within.rounded hu hu1 hfl (by linarith)
  have w1 : Within u 1 (2 * J + 1) (fl (2 * J) + 1) :=
    wJ.add (Within.mono hu hu1 (Within.refl' 1) zero_le_one (Nat.zero_le 1))
  have n1 : 0 ≤ fl (2 * J) + 1 := w1.nonneg hu1 (by linarith)
  have w1' := w1.trans (l := 1) hu1 (Within.rounded hu hu1 hfl n1)
  have w3 := Within.div hu1 w1' w2 (by linarith : 0 ≤ 2 * J + 1) pos2
  have n3 := w3.nonneg hu1 (by positivity : 0 ≤ (2 * J + 1) / (2 * sigma2))
  have w4 := w3.trans (l := 1) hu1 (Within.rounded hu hu1 hfl n3)
  -- the exponent
  have wh : Within u 1 (J + 1 / 2) (fl (J + 1 / 2)) := Within.rounded hu hu1 hfl (by linarith)
  have wsq : Within u 2 ((J + 1 / 2) ^ 2) (fl (J + 1 / 2) ^ 2) := by
    rw [pow_two, pow_two]
    exact Within.mul hu1 wh wh (by linarith) (by linarith)
  have wsq' := wsq.trans (l := 1) hu1 (Within.rounded hu hu1 hfl (by positivity))
  have wq := Within.div hu1 wsq' w2 (by positivity) pos2
  have nq := wq.nonneg hu1 (by positivity)
  have wb := wq.trans (l := 1) hu1 (Within.rounded hu hu1 hfm nq)
  set b : ℚ := fl (-fl (fl (J + 1 / 2) ^ 2) / fl (2 * sigma2)) with hb
  have wb' : Within u 5 ((J + 1 / 2) ^ 2 / (2 * sigma2)) (-b) := by
    have : -b = -fl (-(fl (fl (J + 1 / 2) ^ 2) / fl (2 * sigma2))) := by rw [hb, neg_div]
    rw [this]
    exact wb
  have nb : 0 ≤ -b := wb'.nonneg hu1 (by positivity)
  -- the exponential function
  have ha : ((((J + 1 / 2) ^ 2 / (2 * sigma2) : ℚ)) : ℝ) = spinArg sigma2 J := by
    unfold spinArg; push_cast; ring
  have a0 : 0 ≤ spinArg sigma2 J := by rw [← ha]; exact_mod_cast (by positivity : (0 : ℚ) ≤ (J + 1 / 2) ^ 2 / (2 * sigma2))
  have hr1 : (0 : ℝ) < 1 - (u : ℝ) := by
    have : (u : ℝ) < 1 := by exact_mod_cast hu1
    linarith
  have hr2 : 1 - (u : ℝ) ≤ 1 := by
    have : (0 : ℝ) ≤ u := by exact_mod_cast hu
    linarith
  have hp : (0 : ℝ) < (1 - (u : ℝ)) ^ 5 := pow_pos hr1 5
  have hp1 : (1 - (u : ℝ)) ^ 5 ≤ 1 := pow_le_one₀ hr1.le hr2
  have b1 : (1 - (u : ℝ)) ^ 5 * spinArg sigma2 J ≤ -(b : ℝ) := by
    rw [← ha]; exact_mod_cast wb'.1
  have b2 : (1 - (u : ℝ)) ^ 5 * (-(b : ℝ)) ≤ spinArg sigma2 J := by
    rw [← ha]; exact_mod_cast wb'.2
  set P := (1 - (u : ℝ)) ^ 5 with hP
  have inv1 : 1 ≤ P⁻¹ := (one_le_inv₀ hp).2 hp1
  have b3 : -(b : ℝ) ≤ spinArg sigma2 J * P⁻¹ := by
    rw [← div_eq_mul_inv, le_div_iff₀ hp, mul_comm]; exact b2
  have twoP : 2 - P⁻¹ ≤ P := by
    have h := sq_nonneg (P - 1)
    have hPi : P * P⁻¹ = 1 := mul_inv_cancel₀ hp.ne'
    have hi : 0 < P⁻¹ := inv_pos.2 hp
    nlinarith
  have eN : LogNear (spinArg sigma2 J * (P⁻¹ - 1)) (Real.exp (-spinArg sigma2 J)) (Real.exp (b : ℝ)) := by
    unfold LogNear
    rw [← Real.exp_add, ← Real.exp_add, Real.exp_le_exp, Real.exp_le_exp]
    constructor
    · nlinarith
    · nlinarith [mul_le_mul_of_nonneg_left twoP a0]
  have eN' := eN.trans (hex b (by linarith))
  have m := LogNear.mul (Within.logNear hu1 w4) eN' (by exact_mod_cast (by positivity : (0 : ℚ) ≤ (2 * J + 1) / (2 * sigma2)))
    (Real.exp_pos _).le
  have n4 : 0 ≤ fl (fl (fl (2 * J) + 1) / fl (2 * sigma2)) * ex b := by
    have h1 : 0 ≤ fl (fl (fl (2 * J) + 1) / fl (2 * sigma2)) := w4.nonneg hu1 (by positivity)
    have h2 : (0 : ℝ) ≤ ex b := (hex b (by linarith)).nonneg (Real.exp_pos _).le
    exact mul_nonneg h1 (by exact_mod_cast h2)
  have fin := m.trans (e := (1 : ℕ) * lamU u) (z := ((fl (fl (fl (fl (2 * J) + 1) / fl (2 * sigma2)) * ex b) : ℚ) : ℝ)) (by
    have := Within.logNear hu1 (Within.rounded hu hu1 hfl n4)
    push_cast at this ⊢
    exact this)
  have hx : (2 * (J : ℝ) + 1) / (2 * sigma2) * Real.exp (-((J : ℝ) + 1 / 2) ^ 2 / (2 * sigma2)) =
      (((2 * J + 1) / (2 * sigma2) : ℚ) : ℝ) * Real.exp (-spinArg sigma2 J) := by
    unfold spinArg; push_cast; rw [neg_div]
  rw [hx]
  have hd : spinErr u c sigma2 J = ((1 + 1 + 1 + 1 : ℕ) : ℝ) * lamU u + (spinArg sigma2 J * (P⁻¹ - 1) + c * lamU u) +
      (1 : ℕ) * lamU u := by
    unfold spinErr; push_cast; ring
  rw [hd]
  exact fin

example : ∃ ex, ExpNear ex (1 / 2 ^ 53) 1 ∧ ∃ x y, spinDist (12 : ℚ) (7 / 2 : ℚ) = .ok x ∧
    spinDistF dbl ex 12 (7 / 2) = .ok y ∧ 0 < x ∧ LogNear (spinErr (1 / 2 ^ 53) 1 (12 : ℚ) (7 / 2 : ℚ)) x y := by
  obtain ⟨ex, h⟩ := expNear_exists (1 / 2 ^ 53) (by norm_num) (by norm_num)
  exact ⟨ex, h, C149_spin dbl ex _ dbl_rounding (by norm_num) (by norm_num) 1 h 12 (7 / 2) (by norm_num) (by norm_num)⟩

/-! ### D0 and the level density at Sn -/

/-- What the roundings after the sum do. -/
theorem recipF_within {fl : ℚ → ℚ} {u : ℚ} (hfl : Rounding fl u) (hu : 0 ≤ u) (hu1 : u < 1) {s x c : ℚ} (hs : 0 < s)
    (hx : 0 < x) (hc : 0 < c) : ∃ y, recipF fl (fl (fl (s * x) * c)) = .ok y ∧ Within u 3 (1 / (s * x * c)) y ∧ 0 < y := by
  have w1 : Within u 1 (s * x) (fl (s * x)) := Within.rounded hu hu1 hfl (by positivity)
  have w2 : Within u 1 (s * x * c) (fl (s * x) * c) := by
    have := Within.mul hu1 w1 (Within.refl' (u := u) c) (by positivity) hc.le
    simpa using this
  have w3 := w2.trans (l := 1) hu1 (Within.rounded hu hu1 hfl (w2.nonneg hu1 (by positivity)))
  have p3 := (w3.pos_iff hu1).1 (by positivity)
  have w4 := w3.inv hu1 (by positivity : 0 < s * x * c)
  rw [← one_div, ← one_div] at w4
  have w5 := w4.trans (l := 1) hu1 (Within.rounded hu hu1 hfl (by positivity))
  refine ⟨_, ?_, w5, (w5.pos_iff hu1).1 (by positivity)⟩
  unfold recipF
  rw [if_neg p3.ne']

/-- **C149.** D0 converted to a level density and back is the same up to six roundings, whatever the spin distribution, if the
computed sum over the two spins is positive. -/
theorem C149_round_trip (fl : ℚ → ℚ) (u : ℚ) (hfl : Rounding fl u) (hu : 0 ≤ u) (hu1 : u < 1) (g : ℚ → Except Err ℚ)
    (D0 Jt s : ℚ) (hD : 0 < D0) (hs : halfSumF fl g Jt = .ok s) (h0 : 0 < s) :
    ∃ nld D, nldSnF fl g D0 Jt = .ok nld ∧ 0 < nld ∧ spacingF fl g nld Jt = .ok D ∧ Within u 6 D0 D := by
  have hc : 0 < fl (1 / 1000000) := (Within.pos_iff hu1 (Within.rounded hu hu1 hfl (by norm_num))).1 (by norm_num)
  obtain ⟨nld, e1, w1, p1⟩ := recipF_within hfl hu hu1 h0 hD hc
  obtain ⟨D, e2, w2, -⟩ := recipF_within hfl hu hu1 h0 p1 hc
  refine ⟨nld, D, ?_, p1, ?_, ?_⟩
  · unfold nldSnF; rw [hs]; exact e1
  · unfold spacingF; rw [hs]; exact e2
  · have m : Within u 3 (s * (1 / (s * D0 * fl (1 / 1000000))) * fl (1 / 1000000)) (s * nld * fl (1 / 1000000)) := by
      have a := Within.mul hu1 (Within.refl' (u := u) s) w1 h0.le (by positivity)
      have b := Within.mul hu1 a (Within.refl' (u := u) (fl (1 / 1000000))) (by positivity) hc.le
      simpa using b
    have e : s * (1 / (s * D0 * fl (1 / 1000000))) * fl (1 / 1000000) = 1 / D0 := by
      field_simp
    rw [e] at m
    have m' := m.inv hu1 (by positivity)
    rw [one_div, inv_inv, ← one_div] at m'
    exact m'.trans hu1 w2

/-- **C149, for doubles.** The relative error of the way back and forth is at most `6 · 2⁻⁵³`. -/
theorem C149_double (g : ℚ → Except Err ℚ) (D0 Jt s : ℚ) (hD : 0 < D0) (hs : halfSumF dbl g Jt = .ok s) (h0 : 0 < s) :
    ∃ nld D, nldSnF dbl g D0 Jt = .ok nld ∧ spacingF dbl g nld Jt = .ok D ∧ |D - D0| ≤ 6 / 2 ^ 53 * max D0 D := by
  obtain ⟨nld, D, h1, -, h2, h3⟩ := C149_round_trip dbl _ dbl_rounding (by norm_num) (by norm_num) g D0 Jt s hD hs h0
  refine ⟨nld, D, h1, h2, ?_⟩
  have := h3.abs_sub_le (by norm_num) (by norm_num) hD.le
  calc |D - D0| ≤ _ := this
    _ = _ := by push_cast; ring

example : halfSumF dbl (fun _ => .ok (1 / 4)) (7 / 2) = .ok (1 / 4) := by decide +kernel

/-- **C149, exactly the same it is not:** a spacing of 7 eV becomes another one. -/
theorem C149_same_fails : ∃ nld D, nldSnF dbl (fun _ => .ok (1 / 4)) 7 (7 / 2) = .ok nld ∧
    spacingF dbl (fun _ => .ok (1 / 4)) nld (7 / 2) = .ok D ∧ D < 7 := by
  refine ⟨4908534052571429 / 8589934592, 7881299347898367 / 1125899906842624, ?_⟩
  decide +kernel

/-- **C149.** A larger spacing never gives a larger level density, also with rounding. -/
theorem C149_antitone (fl : ℚ → ℚ) (u : ℚ) (hfl : Rounding fl u) (hu : 0 ≤ u) (hu1 : u < 1) (g : ℚ → Except Err ℚ)
    (D D' Jt s : ℚ) (hD : 0 < D) (hDD : D ≤ D') (hs : halfSumF fl g Jt = .ok s) (h0 : 0 < s) :
    ∃ n n', nldSnF fl g D Jt = .ok n ∧ nldSnF fl g D' Jt = .ok n' ∧ n' ≤ n := by
  have hc : 0 < fl (1 / 1000000) := (Within.pos_iff hu1 (Within.rounded hu hu1 hfl (by norm_num))).1 (by norm_num)
  have pp : ∀ x, 0 < x → 0 < fl x := fun x hx => (Within.pos_iff hu1 (Within.rounded hu hu1 hfl hx.le)).1 hx
  have p1 : 0 < fl (fl (s * D) * fl (1 / 1000000)) := pp _ (mul_pos (pp _ (mul_pos h0 hD)) hc)
  have p2 : 0 < fl (fl (s * D') * fl (1 / 1000000)) := pp _ (mul_pos (pp _ (mul_pos h0 (hD.trans_le hDD))) hc)
  refine ⟨fl (1 / fl (fl (s * D) * fl (1 / 1000000))), fl (1 / fl (fl (s * D') * fl (1 / 1000000))), ?_, ?_, ?_⟩
  · unfold nldSnF recipF; rw [hs]; exact if_neg p1.ne'
  · unfold nldSnF recipF; rw [hs]; exact if_neg p2.ne'
  · apply hfl.mono
    apply one_div_le_one_div_of_le p1
    apply hfl.mono
    apply mul_le_mul_of_nonneg_right _ hc.le
    exact hfl.mono (mul_le_mul_of_nonneg_left hDD h0.le)

/-- **C149.** The level density at Sn from D0 with rounding: it exists, and its logarithm differs from the exact one by at most
`11 + c` roundings and the larger exponent times five roundings. -/
theorem C149_density (fl ex : ℚ → ℚ) (u : ℚ) (hfl : Rounding fl u) (hu : 0 ≤ u) (hu1 : u < 1) (c : ℕ) (hex : ExpNear ex u c)
    (sigma2 D0 Jt : ℚ) (hs : 0 < sigma2) (hD : 0 < D0) (hJ : Jt = 0 ∨ 1 / 2 ≤ Jt) (hp : fl (Jt + 1 / 2) = Jt + 1 / 2)
    (hm : fl (Jt - 1 / 2) = Jt - 1 / 2) :
    ∃ x y, nldSnFromD0 (spinDist sigma2) D0 Jt = .ok x ∧ nldSnF fl (spinDistF fl ex sigma2) D0 Jt = .ok y ∧ 0 < x ∧
      LogNear (spinErr u c sigma2 ((Jt : ℝ) + 1 / 2) + 6 * lamU u) x y := by
  have l0 := lamU_nonneg hu hu1
  have hsr : (0 : ℝ) < sigma2 := by exact_mod_cast hs
  have hDr : (0 : ℝ) < D0 := by exact_mod_cast hD
  have J0 : 0 ≤ Jt := by rcases hJ with h | h <;> linarith
  have hinv : (0 : ℝ) ≤ ((1 - (u : ℝ)) ^ 5)⁻¹ - 1 := by
    have h1 : (u : ℝ) < 1 := by exact_mod_cast hu1
    have h0 : (0 : ℝ) ≤ u := by exact_mod_cast hu
    have := (one_le_inv₀ (pow_pos (by linarith : (0 : ℝ) < 1 - u) 5)).2 (pow_le_one₀ (by linarith) (by linarith))
    linarith
  set d := spinErr u c sigma2 ((Jt : ℝ) + 1 / 2) with hd
  -- the sum over the spins
  have half : ∃ s t, spinHalfSum (spinDist sigma2) Jt = .ok s ∧ halfSumF fl (spinDistF fl ex sigma2) Jt = .ok t ∧ 0 < s ∧
      LogNear (d + 2 * lamU u) s (t : ℝ) := by
    obtain ⟨x1, y1, a1, b1, p1, n1⟩ := C149_spin fl ex u hfl hu hu1 c hex sigma2 (Jt + 1 / 2) hs (by linarith)
    have c1 : ((Jt + 1 / 2 : ℚ) : ℝ) = (Jt : ℝ) + 1 / 2 := by push_cast; ring
    rw [c1] at a1 n1
    have y1r : (0 : ℝ) ≤ y1 := n1.nonneg p1.le
    have y1' : 0 ≤ y1 := by exact_mod_cast y1r
    by_cases hz : Jt = 0
    · refine ⟨1 / 2 * x1, fl (1 / 2 * y1), ?_, ?_, by positivity, ?_⟩
      · unfold spinHalfSum
        rw [if_pos (by exact_mod_cast hz), a1]; rfl
      · unfold halfSumF
        rw [if_pos hz, hp, b1]; rfl
      · have m := LogNear.mul (d := 0) (x := 1 / 2) (y := 1 / 2) (by simp [LogNear]) n1 (by norm_num) p1.le
        have r := Within.logNear hu1 (Within.rounded hu hu1 hfl (by positivity : 0 ≤ 1 / 2 * y1))
        have t := m.trans (z := ((fl (1 / 2 * y1) : ℚ) : ℝ)) (by push_cast at r ⊢; exact r)
        have hn : (0 : ℝ) ≤ ((fl (1 / 2 * y1) : ℚ) : ℝ) := t.nonneg (by positivity)
        exact t.mono (by positivity) hn (by linarith)
    · have hJ' : 1 / 2 ≤ Jt := hJ.resolve_left hz
      obtain ⟨x2, y2, a2, b2, p2, n2⟩ := C149_spin fl ex u hfl hu hu1 c hex sigma2 (Jt - 1 / 2) hs (by linarith)
      have c2 : ((Jt - 1 / 2 : ℚ) : ℝ) = (Jt : ℝ) - 1 / 2 := by push_cast; ring
      rw [c2] at a2 n2
      have y2r : (0 : ℝ) ≤ y2 := n2.nonneg p2.le
      have y2' : 0 ≤ y2 := by exact_mod_cast y2r
      have hle : spinErr u c sigma2 ((Jt : ℝ) - 1 / 2) ≤ d := by
        rw [hd]
        unfold spinErr spinArg
        have hj : (1 / 2 : ℝ) ≤ Jt := by
          have : ((1 / 2 : ℚ) : ℝ) ≤ Jt := by exact_mod_cast hJ'
          push_cast at this
          linarith
        have : ((Jt : ℝ) - 1 / 2 + 1 / 2) ^ 2 / (2 * sigma2) ≤ ((Jt : ℝ) + 1 / 2 + 1 / 2) ^ 2 / (2 * sigma2) := by
          apply div_le_div_of_nonneg_right _ (by positivity)
          apply pow_le_pow_left₀ (by linarith); linarith
        have := mul_le_mul_of_nonneg_right this hinv
        linarith
      have n2' := n2.mono p2.le y2r hle
      have sm := n2'.add n1
      have r1 := Within.logNear hu1 (Within.rounded hu hu1 hfl (by positivity : 0 ≤ y2 + y1))
      have t1 := sm.trans (z := ((fl (y2 + y1) : ℚ) : ℝ)) (by push_cast at r1 ⊢; exact r1)
      have f0 : 0 ≤ fl (y2 + y1) := Within.nonneg hu1 (Within.rounded hu hu1 hfl (by positivity)) (by positivity)
      have m := LogNear.mul (d := 0) (x := 1 / 2) (y := 1 / 2) (by simp [LogNear]) t1 (by norm_num) (by positivity)
      have r2 := Within.logNear hu1 (Within.rounded hu hu1 hfl (by positivity : 0 ≤ 1 / 2 * fl (y2 + y1)))
      have t := m.trans (z := ((fl (1 / 2 * fl (y2 + y1)) : ℚ) : ℝ)) (by push_cast at r2 ⊢; exact r2)
      refine ⟨1 / 2 * (x2 + x1), fl (1 / 2 * fl (y2 + y1)), ?_, ?_, by positivity, ?_⟩
      · unfold spinHalfSum
        rw [if_neg (by exact_mod_cast hz), a2, a1]; rfl
      · unfold halfSumF
        rw [if_neg hz, hm, hp, b2, b1]; rfl
      · convert t using 1
        ring
  obtain ⟨s, t, e1, e2, s0, n⟩ := half
  have t0r : (0 : ℝ) < t := n.pos s0
  have t0 : 0 < t := by exact_mod_cast t0r
  have wc : Within u 1 (1 / 1000000) (fl (1 / 1000000)) := Within.rounded hu hu1 hfl (by norm_num)
  have hc : 0 < fl (1 / 1000000) := (Within.pos_iff hu1 wc).1 (by norm_num)
  obtain ⟨y, e3, w, -⟩ := recipF_within hfl hu hu1 t0 hD hc
  refine ⟨1 / (s * D0 * (1 / 1000000)), y, ?_, ?_, by positivity, ?_⟩
  · unfold nldSnFromD0
    rw [e1]
    show recip _ = _
    unfold recip
    rw [if_neg (by positivity)]
  · unfold nldSnF; rw [e2]; exact e3
  · have m1 := LogNear.mul n (d := d + 2 * lamU u) (e := 0) (x' := (D0 : ℝ)) (y' := (D0 : ℝ)) (by simp [LogNear]) s0.le hDr.le
    have m2 := LogNear.mul m1 (Within.logNear hu1 wc) (by positivity) (by norm_num)
    have m3 := m2.inv (by push_cast; positivity)
    have m4 := m3.trans (e := (3 : ℕ) * lamU u) (z := (y : ℝ)) (by
      have := Within.logNear hu1 w
      push_cast at this ⊢
      exact this)
    have e4 : (1 : ℝ) / (s * D0 * (1 / 1000000)) = 1 / (s * D0 * ((1 / 1000000 : ℚ) : ℝ)) := by push_cast; ring
    rw [e4]
    convert m4 using 1
    push_cast; ring

example : dbl (7 / 2 + 1 / 2) = 7 / 2 + 1 / 2 ∧ dbl (7 / 2 - 1 / 2) = 7 / 2 - 1 / 2 ∧ dbl (0 - 1 / 2) = 0 - 1 / 2 := by
  decide +kernel

/-- **C149.** The sum over the accessible spins with rounding: it is refused for the same arguments, and it is the exact sum up to
as many roundings as there are terms. -/
theorem C149_spin_sum (fl : ℚ → ℚ) (u : ℚ) (hfl : Rounding fl u) (hu : 0 ≤ u) (hu1 : u < 1) (g : ℚ → ℚ) (hg : ∀ j, 0 ≤ g j)
    (J L : ℚ) (hJ : 0 ≤ J) (hL : 0 ≤ L) :
    ∃ x, spinSumF fl g J L = .ok x ∧
      Within u (spinPairs J L).length ((spinPairs J L).map fun p => g p.2).sum x ∧
      spinSumFresh (fun j => (g j : ℝ)) J L = .ok ((((spinPairs J L).map fun p => g p.2).sum : ℚ) : ℝ) := by
  refine ⟨loopSum fl ((spinPairs J L).map fun p => g p.2), ?_, ?_, ?_⟩
  · unfold spinSumF; rw [if_neg (by simp [hJ, hL])]
  · have := (Summation.spec hfl hu hu1 (C117_loop fl) (r := (spinPairs J L).map fun p => g p.2) (by
      intro x hx
      obtain ⟨p, -, rfl⟩ := List.mem_map.1 hx
      exact hg _)).1
    simpa using this
  · unfold spinSumFresh
    rw [if_neg (by simp [hJ, hL])]
    congr 1
    have : ∀ (l : List (ℚ × ℚ)) (a : ℚ), l.foldl (fun (acc : ℝ) p => acc + (g p.2 : ℝ)) (a : ℝ) =
        ((a + (l.map fun p => g p.2).sum : ℚ) : ℝ) := by
      intro l
      induction l with
      | nil => intro a; simp
      | cons p l ih =>
        intro a
        rw [List.foldl_cons, List.map_cons, List.sum_cons, ← add_assoc, ← ih (a + g p.2)]
        push_cast; rfl
    have := this (spinPairs J L) 0
    simpa using this

/-- **C149.** Negative spins are refused. -/
theorem C149_spin_sum_refused (fl g : ℚ → ℚ) (J L : ℚ) (h : J < 0 ∨ L < 0) : spinSumF fl g J L = .error .assertion := by
  unfold spinSumF
  rw [if_pos]
  rintro ⟨h1, h2⟩
  rcases h with h | h <;> linarith

example : spinSumF dbl (fun j => 1 / (j + 1)) 1 0 = .ok (loopSum dbl [2 / 3, 2 / 5, 2 / 3, 2 / 5, 2 / 7]) ∧
    (spinPairs 1 0).length = 5 := by decide +kernel

end Ompy
