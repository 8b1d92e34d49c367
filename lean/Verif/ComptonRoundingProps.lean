import Verif.ComptonRounding
import Verif.InterpRoundingProps

/-!
# C152: Compton kinematics and the fan method with rounded numbers
-/

namespace Ompy

theorem Within.factor {u : ℚ} (hu : 0 ≤ u) (hu1 : u < 1) {k : ℕ} {x y : ℚ} (h : Within u k x y) (hx : 0 ≤ x) : Factor u k x y := by
  have p : (0 : ℚ) < (1 - u) ^ k := pow_pos (by linarith) k
  have hy := h.nonneg hu1 hx
  rcases hx.eq_or_lt with e | e
  · have h2 := h.2
    rw [← e] at h2 ⊢
    have : y = 0 := le_antisymm (by nlinarith) hy
    have p1 : (1 - u) ^ k ≤ 1 := pow_le_one₀ (by linarith) (by linarith)
    exact ⟨1, p1, by linarith, by rw [this, mul_zero]⟩
  · refine ⟨y / x, ?_, ?_, by field_simp⟩
    · rw [le_div_iff₀ e]; exact h.1
    · rw [← mul_div_assoc, div_le_one e]; exact h.2

theorem comptonDenF_within {fl : ℚ → ℚ} {u : ℚ} (hfl : Rounding fl u) (hu : 0 ≤ u) (hu1 : u < 1) {Eg c : ℚ} (hE : 0 ≤ Eg) (hc : c ≤ 1) :
    Within u 4 (1 + Eg / 511 * (1 - c)) (comptonDenF fl Eg c) := by
  have h1 : Within u 1 (Eg / 511) (fl (Eg / 511)) := Within.rounded hu hu1 hfl (by positivity)
  have h2 : Within u 1 (1 - c) (fl (1 - c)) := Within.rounded hu hu1 hfl (by linarith)
  have q : (0 : ℚ) ≤ Eg / 511 * (1 - c) := mul_nonneg (by positivity) (by linarith)
  have h3 := h1.mul hu1 h2 (by positivity) (by linarith)
  have h4 := h3.trans hu1 (Within.rounded hu hu1 hfl (h3.nonneg hu1 q))
  have h5 := ((Within.refl' (u := u) 1).mono hu hu1 (by norm_num) (show 0 ≤ 3 by omega)).add h4
  have h6 := h5.trans hu1 (Within.rounded hu hu1 hfl (h5.nonneg hu1 (by linarith)))
  exact h6

/-- **C152.** The derivative of the electron energy is right up to thirteen roundings: nothing cancels. -/
theorem C152_derivative {fl : ℚ → ℚ} {u : ℚ} (hfl : Rounding fl u) (hu : 0 ≤ u) (hu1 : u < 1) {Eg c s : ℚ} (hE : 0 ≤ Eg) (hc : c ≤ 1)
    (hs : 0 ≤ s) :
    Within u 13 (Eg * Eg / 511 * s / (1 + Eg / 511 * (1 - c)) ^ 2) (dEdThetaF fl Eg c s) := by
  have hd := comptonDenF_within hfl hu hu1 hE hc
  have q : (0 : ℚ) ≤ Eg / 511 * (1 - c) := mul_nonneg (by positivity) (by linarith)
  have hp : 0 < 1 + Eg / 511 * (1 - c) := by linarith
  have h1 : Within u 1 (Eg * Eg) (fl (Eg * Eg)) := Within.rounded hu hu1 hfl (by positivity)
  have h2 := h1.div hu1 (Within.refl' (u := u) 511) (by positivity) (by norm_num)
  have h3 := h2.trans hu1 (Within.rounded hu hu1 hfl (h2.nonneg hu1 (by positivity)))
  have h4 := h3.mul hu1 (Within.refl' (u := u) s) (by positivity) hs
  have h5 := h4.trans hu1 (Within.rounded hu hu1 hfl (h4.nonneg hu1 (by positivity)))
  have h6 := hd.mul hu1 hd hp.le hp.le
  have h7 := h6.trans hu1 (Within.rounded hu hu1 hfl (h6.nonneg hu1 (by positivity)))
  have h8 := h5.div hu1 h7 (by positivity) (by positivity)
  have h9 := h8.trans hu1 (Within.rounded hu hu1 hfl (h8.nonneg hu1 (by positivity)))
  rw [sq]
  exact h9

example : dEdThetaF dbl 1000 (1 / 2) (7 / 8) ≠ 0 ∧
    |dEdThetaF dbl 1000 (1 / 2) (7 / 8) - 1000 * 1000 / 511 * (7 / 8) / (1 + 1000 / 511 * (1 - 1 / 2)) ^ 2| ≤ 1 / 2 ^ 40 := by
  decide +kernel

/-- **C152.** For an energy without rounding error the electron energy lies between zero and the energy of the gamma ray, and it grows
with the angle (it does not fall when the cosine falls). -/
theorem C152_order {fl : ℚ → ℚ} {u : ℚ} (hfl : Rounding fl u) (h1 : fl 1 = 1) {Eg c c' : ℚ} (hE : 0 ≤ Eg) (hr : fl Eg = Eg)
    (hc : c ≤ 1) (hcc : c' ≤ c) :
    0 ≤ eComptonF fl Eg c ∧ eComptonF fl Eg c ≤ eComptonF fl Eg c' ∧ eComptonF fl Eg c' ≤ Eg := by
  have z : fl 0 = 0 := by simpa using hfl.rel 0
  have pos : ∀ {q : ℚ}, 0 ≤ q → 0 ≤ fl q := fun h => by rw [← z]; exact hfl.mono h
  have den : ∀ {a : ℚ}, a ≤ 1 → 1 ≤ comptonDenF fl Eg a := by
    intro a ha
    have := pos (mul_nonneg (pos (show (0 : ℚ) ≤ Eg / 511 by positivity)) (pos (show (0 : ℚ) ≤ 1 - a by linarith)))
    rw [← h1]
    apply hfl.mono
    linarith
  unfold eComptonF
  split_ifs with h
  · have d := den hc
    have d' := den (hcc.trans hc)
    have dd : comptonDenF fl Eg c ≤ comptonDenF fl Eg c' := by
      apply hfl.mono
      have := hfl.mono (mul_le_mul_of_nonneg_left (hfl.mono (show 1 - c ≤ 1 - c' by linarith)) (pos (show (0 : ℚ) ≤ Eg / 511 by positivity)))
      linarith
    refine ⟨?_, ?_, ?_⟩
    · apply pos
      have := hfl.mono (div_le_self hE d)
      rw [hr] at this
      linarith
    · apply hfl.mono
      have := hfl.mono (div_le_div_of_nonneg_left hE (by linarith) dd)
      linarith
    · conv_rhs => rw [← hr]
      apply hfl.mono
      have := pos (show (0 : ℚ) ≤ Eg / comptonDenF fl Eg c' from div_nonneg hE (by linarith))
      linarith
  · exact ⟨hE, le_rfl, le_rfl⟩

example : dbl 1 = 1 ∧ dbl 1000 = 1000 ∧ 0 < eComptonF dbl 1000 (1 / 2) ∧ eComptonF dbl 1000 (1 / 2) < eComptonF dbl 1000 (-1) ∧
    eComptonF dbl 1000 (-1) < 1000 := by decide +kernel

/-- **C152.** The electron energy is right to an absolute error of one rounding of itself and five of the scattered energy. -/
theorem C152_electron {fl : ℚ → ℚ} {u : ℚ} (hfl : Rounding fl u) (hu : 0 ≤ u) (hu1 : u < 1) {Eg c : ℚ} (hE : fl (1 / 10) < Eg) (h0 : 0 ≤ Eg)
    (hc : c ≤ 1) :
    |eComptonF fl Eg c - (Eg - Eg / (1 + Eg / 511 * (1 - c)))| ≤
      u * (Eg - Eg / (1 + Eg / 511 * (1 - c))) + (1 + u) * (1 / (1 - u) ^ 5 - 1) * (Eg / (1 + Eg / 511 * (1 - c))) := by
  have hd := comptonDenF_within hfl hu hu1 h0 hc
  have q : (0 : ℚ) ≤ Eg / 511 * (1 - c) := mul_nonneg (by positivity) (by linarith)
  have hp : 1 ≤ 1 + Eg / 511 * (1 - c) := by linarith
  have h1 := (Within.refl' (u := u) Eg).div hu1 hd h0 (by linarith)
  have h2 := h1.trans hu1 (Within.rounded hu hu1 hfl (h1.nonneg hu1 (by positivity)))
  have hS : (0 : ℚ) ≤ Eg / (1 + Eg / 511 * (1 - c)) := by positivity
  have hle := div_le_self h0 hp
  have b := (h2.factor hu hu1 hS).abs_sub hu1
  rw [abs_of_nonneg hS] at b
  unfold eComptonF
  rw [if_pos hE]
  have hE5 : 1 / (1 - u) ^ 5 - 1 = excess u 5 := by unfold excess; rw [one_div]
  rw [hE5]
  change |fl (Eg / comptonDenF fl Eg c) - _| ≤ excess u 5 * _ at b
  set S := Eg / (1 + Eg / 511 * (1 - c))
  set S' := fl (Eg / comptonDenF fl Eg c)
  have a1 := hfl.rel (Eg - S')
  have a2 : |Eg - S'| ≤ (Eg - S) + |S' - S| := by
    have : Eg - S' = (Eg - S) + -(S' - S) := by ring
    rw [this]
    refine (abs_add_le _ _).trans ?_
    rw [abs_neg, abs_of_nonneg (show 0 ≤ Eg - S by linarith)]
  have a3 : |fl (Eg - S') - (Eg - S)| ≤ |fl (Eg - S') - (Eg - S')| + |S' - S| := by
    have : fl (Eg - S') - (Eg - S) = (fl (Eg - S') - (Eg - S')) + -(S' - S) := by ring
    rw [this]
    refine (abs_add_le _ _).trans ?_
    rw [abs_neg]
  nlinarith [mul_le_mul_of_nonneg_left a2 hu]

example : dbl (1 / 10) < 1000 ∧ |eComptonF dbl 1000 (-1) - (1000 - 1000 / (1 + 1000 / 511 * (1 - -1)))| ≤ 1 / 2 ^ 43 ∧
    eComptonF dbl 1000 (-1) ≠ 1000 - 1000 / (1 + 1000 / 511 * (1 - -1)) := by decide +kernel

/-- **C152.** The relative error is not small for small angles: the electron energy can come out as zero for an angle above zero. -/
theorem C152_relative_fails :
    dbl (1 - 1 / 2 ^ 53) = 1 - 1 / 2 ^ 53 ∧ eComptonF dbl 500 (1 - 1 / 2 ^ 53) = 0 ∧
      0 < (500 : ℚ) - 500 / (1 + 500 / 511 * (1 - (1 - 1 / 2 ^ 53))) := by decide +kernel

/-- **C152.** Below the Compton edge by four roundings, the argument of `arccos` lies between -1 and 1, so that an angle is found. -/
theorem C152_angle_partial {fl : ℚ → ℚ} {u : ℚ} (hfl : Rounding fl u) (hu : 0 ≤ u) (hu1 : u < 1) (h1 : fl 1 = 1) (hm : fl (-1) = -1) {E Ei : ℚ}
    (hE : 0 < E) (h0 : 0 ≤ Ei) (hi : Ei ≤ (1 - u) ^ 4 * (E - E / (1 + E / 511 * 2))) :
    -1 ≤ fanCosF fl E Ei ∧ fanCosF fl E Ei ≤ 1 := by
  have hp : (0 : ℚ) < 1 + E / 511 * 2 := by positivity
  have hpow : (1 - u) ^ 4 ≤ 1 := pow_le_one₀ (by linarith) (by linarith)
  have p0 : (0 : ℚ) < (1 - u) ^ 4 := pow_pos (by linarith) 4
  set Ec := E - E / (1 + E / 511 * 2) with hEc
  have hS : 0 < E / (1 + E / 511 * 2) := by positivity
  have hEc0 : 0 ≤ Ec := by
    have := div_le_self hE.le (show (1 : ℚ) ≤ 1 + E / 511 * 2 by linarith [show (0 : ℚ) ≤ E / 511 * 2 by positivity])
    rw [hEc]; linarith
  have hiE : Ei ≤ Ec := hi.trans (by nlinarith)
  have hlt : Ei < E := by rw [hEc] at hiE; linarith
  have hd0 : 0 < E / 511 * (E - Ei) := mul_pos (by positivity) (by linarith)
  have w1 : Within u 1 (E / 511) (fl (E / 511)) := Within.rounded hu hu1 hfl (by positivity)
  have w2 : Within u 1 (E - Ei) (fl (E - Ei)) := Within.rounded hu hu1 hfl (by linarith)
  have w3 := w1.mul hu1 w2 (by positivity) (by linarith)
  have w4 := w3.trans hu1 (Within.rounded hu hu1 hfl (w3.nonneg hu1 hd0.le))
  have w5 := (Within.refl' (u := u) Ei).div hu1 w4 h0 hd0
  have w6 := w5.trans hu1 (Within.rounded hu hu1 hfl (w5.nonneg hu1 (by positivity)))
  have hz : Ei / (E / 511 * (E - Ei)) ≤ (1 - u) ^ 4 * 2 := by
    rw [div_le_iff₀ hd0]
    have e1 : Ec = 2 * (E / 511 * (E - Ec)) := by
      rw [hEc]
      field_simp
      ring
    have e2 : E / 511 * (E - Ec) ≤ E / 511 * (E - Ei) := mul_le_mul_of_nonneg_left (by linarith) (by positivity)
    nlinarith
  have hz2 : fl (Ei / fl (fl (E / 511) * fl (E - Ei))) ≤ 2 := by
    have := w6.2
    change (1 - u) ^ 4 * _ ≤ _ at this
    nlinarith
  have hz0 : 0 ≤ fl (Ei / fl (fl (E / 511) * fl (E - Ei))) := w6.nonneg hu1 (by positivity)
  unfold fanCosF
  simp only
  have hne : fl (fl (E / 511) * fl (E - Ei)) ≠ 0 := ((w4.pos_iff hu1).1 hd0).ne'
  rw [if_neg hne]
  constructor
  · conv_lhs => rw [← hm]
    apply hfl.mono
    linarith
  · conv_rhs => rw [← h1]
    apply hfl.mono
    linarith

example : dbl (-1) = -1 ∧ fanCosF dbl 1000 700 < 0 ∧ -1 < fanCosF dbl 1000 700 ∧
    (700 : ℚ) ≤ (1 - 1 / 2 ^ 53) ^ 4 * (1000 - 1000 / (1 + 1000 / 511 * 2)) := by decide +kernel

/-- **C152.** At the computed Compton edge itself the argument can be below -1, and `arccos` gives NaN. -/
theorem C152_angle_fails :
    dbl 500 = 500 ∧ fanCosF dbl 500 (eComptonF dbl 500 (-1)) = -1 - 1 / 2 ^ 50 ∧
      eComptonF dbl 500 (-1) = 2910685976905361 / 2 ^ 43 := by decide +kernel

theorem linInterpF_bound {fl : ℚ → ℚ} {u : ℚ} (hfl : Rounding fl u) (hu : 0 ≤ u) (hu1 : u < 1) (x x0 y0 x1 y1 : ℚ) :
    |linInterpF fl x x0 y0 x1 y1 - onLine x0 y0 x1 y1 x| ≤
      u * |onLine x0 y0 x1 y1 x| + (1 + u) * excess u 5 * |onLine x0 y0 x1 y1 x - y0| := by
  have r := Factor.rounded hfl hu1
  set P := (x - x0) / (x1 - x0) * (y1 - y0) with hP
  have hL : onLine x0 y0 x1 y1 x = y0 + P := rfl
  have hQ : Factor u 5 P (fl (fl (fl (y1 - y0) * fl (x - x0)) / fl (x1 - x0))) := by
    have h1 := ((r (y1 - y0)).mul hu1 (r (x - x0))).trans hu1 (r _)
    have h2 := h1.mul hu1 ((r (x1 - x0)).inv hu1)
    rw [← div_eq_mul_inv, ← div_eq_mul_inv] at h2
    have h3 := h2.trans hu1 (r _)
    have : (y1 - y0) * (x - x0) / (x1 - x0) = P := by rw [hP]; ring
    rwa [this] at h3
  have hb := hQ.abs_sub hu1
  unfold linInterpF
  set Q := fl (fl (fl (y1 - y0) * fl (x - x0)) / fl (x1 - x0))
  rw [hL]
  have a1 := hfl.rel (y0 + Q)
  have a2 : |y0 + Q| ≤ |y0 + P| + |Q - P| := by
    have : y0 + Q = (y0 + P) + (Q - P) := by ring
    rw [this]
    exact abs_add_le _ _
  have a3 : |fl (y0 + Q) - (y0 + P)| ≤ |fl (y0 + Q) - (y0 + Q)| + |Q - P| := by
    have : fl (y0 + Q) - (y0 + P) = (fl (y0 + Q) - (y0 + Q)) + (Q - P) := by ring
    rw [this]
    exact abs_add_le _ _
  have e : y0 + P - y0 = P := by ring
  rw [e]
  nlinarith [mul_le_mul_of_nonneg_left a2 hu]

/-- Exact derivative of the electron energy by the angle. -/
def dEExact (Eg c s : ℚ) : ℚ := Eg * Eg / 511 * s / (1 + Eg / 511 * (1 - c)) ^ 2

/-- The error of the interpolation in the fan method. -/
def fanB (u : ℚ) : ℚ := (u + (1 + u) * excess u 5) * (1 + excess u 14) + excess u 14

/-- **C152.** An entry of the fan method differs from the exact formula for the same angle and the same counts by at most
`(excess u 14 * (1 + B) + B) M / dE`, with `M` the larger of the two corrected counts. -/
theorem C152_fan {fl : ℚ → ℚ} {u : ℚ} (hfl : Rounding fl u) (hu : 0 ≤ u) (hu1 : u < 1) {E Elow Ehigh c1 c2 c s M : ℚ}
    (hlow : 0 ≤ Elow) (h1 : Elow ≤ E) (h2 : E ≤ Ehigh) (hlt : Elow < Ehigh) (hE : 0 < E) (hc1 : 0 ≤ c1) (hc2 : 0 ≤ c2) (hc : c ≤ 1) (hs : 0 < s)
    (hM1 : c1 * dEExact Elow c s ≤ M) (hM2 : c2 * dEExact Ehigh c s ≤ M) :
    |fanEntryF fl E Elow Ehigh c1 c2 c s -
        (c1 * dEExact Elow c s + (E - Elow) / (Ehigh - Elow) * (c2 * dEExact Ehigh c s - c1 * dEExact Elow c s)) / dEExact E c s| ≤
      (excess u 14 * (1 + fanB u) + fanB u) * (M / dEExact E c s) := by
  have den : ∀ {e : ℚ}, 0 ≤ e → 0 < 1 + e / 511 * (1 - c) := fun he => by
    have : (0 : ℚ) ≤ _ / 511 * (1 - c) := mul_nonneg (div_nonneg he (by norm_num)) (show 0 ≤ 1 - c by linarith)
    linarith
  have dpos : ∀ {e : ℚ}, 0 ≤ e → 0 ≤ dEExact e c s := fun he => by
    have := den he
    unfold dEExact
    positivity
  have hD : 0 < dEExact E c s := by
    have := den hE.le
    unfold dEExact
    positivity
  have hhigh : 0 ≤ Ehigh := by linarith
  have y1 : 0 ≤ c1 * dEExact Elow c s := mul_nonneg hc1 (dpos hlow)
  have y2 : 0 ≤ c2 * dEExact Ehigh c s := mul_nonneg hc2 (dpos hhigh)
  have hM : 0 ≤ M := y1.trans hM1
  have e5 := excess_nonneg hu hu1 5
  have e14 := excess_nonneg hu hu1 14
  have cnt : ∀ {n e : ℚ}, 0 ≤ n → 0 ≤ e → Within u 14 (n * dEExact e c s) (fl (n * dEdThetaF fl e c s)) := by
    intro n e hn he
    have w := (Within.refl' (u := u) n).mul hu1 (C152_derivative hfl hu hu1 he hc hs.le) hn (dpos he)
    have := w.trans hu1 (Within.rounded hu hu1 hfl (w.nonneg hu1 (mul_nonneg hn (dpos he))))
    exact this
  have w1 := cnt hc1 hlow
  have w2 := cnt hc2 hhigh
  have wD : Within u 13 (dEExact E c s) (dEdThetaF fl E c s) := C152_derivative hfl hu hu1 hE.le hc hs.le
  unfold fanEntryF
  simp only
  set a := c1 * dEExact Elow c s
  set b := c2 * dEExact Ehigh c s
  set a' := fl (c1 * dEdThetaF fl Elow c s)
  set b' := fl (c2 * dEdThetaF fl Ehigh c s)
  set D := dEExact E c s
  set D' := dEdThetaF fl E c s
  have ha' := w1.nonneg hu1 y1
  have hb' := w2.nonneg hu1 y2
  have cap : ∀ {q q' : ℚ}, 0 ≤ q → q ≤ M → Within u 14 q q' → q' ≤ M * (1 + excess u 14) := by
    intro q q' hq hqM w
    have := (abs_le.1 ((w.factor hu hu1 hq).abs_sub hu1)).2
    rw [abs_of_nonneg hq] at this
    nlinarith
  -- the line through the computed points
  set t := (E - Elow) / (Ehigh - Elow) with ht
  have hd : 0 < Ehigh - Elow := by linarith
  have t0 : 0 ≤ t := div_nonneg (by linarith) hd.le
  have t1 : t ≤ 1 := by rw [ht, div_le_one hd]; linarith
  have wl : Within u 14 (a + t * (b - a)) (a' + t * (b' - a')) := by
    have s1 : Within u 14 ((1 - t) * a) ((1 - t) * a') := by
      have := (Within.refl' (u := u) (1 - t)).mul hu1 w1 (by linarith) y1
      rwa [Nat.zero_add] at this
    have s2 : Within u 14 (t * b) (t * b') := by
      have := (Within.refl' (u := u) t).mul hu1 w2 t0 y2
      rwa [Nat.zero_add] at this
    have := s1.add s2
    have f1 : (1 - t) * a + t * b = a + t * (b - a) := by ring
    have f2 : (1 - t) * a' + t * b' = a' + t * (b' - a') := by ring
    rwa [f1, f2] at this
  have hL0 : 0 ≤ a + t * (b - a) := by nlinarith [mul_nonneg t0 y2, mul_nonneg (sub_nonneg.2 t1) y1]
  have hLM : a + t * (b - a) ≤ M := by nlinarith [mul_nonneg t0 (sub_nonneg.2 hM2), mul_nonneg (sub_nonneg.2 t1) (sub_nonneg.2 hM1)]
  have bl := (wl.factor hu hu1 hL0).abs_sub hu1
  rw [abs_of_nonneg hL0] at bl
  have rng := onLine_range (x := E) hlt h1 h2 ha' (cap y1 hM1 w1) hb' (cap y2 hM2 w2)
  have hon : onLine Elow a' Ehigh b' E = a' + t * (b' - a') := rfl
  have li := linInterpF_bound hfl hu hu1 E Elow a' Ehigh b'
  rw [hon] at rng li
  set L := a + t * (b - a)
  set L1 := a' + t * (b' - a')
  set L' := linInterpF fl E Elow a' Ehigh b'
  have hM' : 0 ≤ M * (1 + excess u 14) := mul_nonneg hM (by linarith)
  have li2 : |L' - L1| ≤ (u + (1 + u) * excess u 5) * (M * (1 + excess u 14)) := by
    refine li.trans ?_
    rw [add_mul u]
    exact add_le_add (mul_le_mul_of_nonneg_left rng.1 hu) (mul_le_mul_of_nonneg_left rng.2 (mul_nonneg (show (0 : ℚ) ≤ 1 + u by linarith) e5))
  have hB : |L' - L| ≤ fanB u * M := by
    have : L' - L = (L' - L1) + (L1 - L) := by ring
    rw [this]
    refine (abs_add_le _ _).trans ?_
    have := mul_le_mul_of_nonneg_left hLM e14
    unfold fanB
    nlinarith
  have hL'M : |L'| ≤ (1 + fanB u) * M := by
    have : L' = L + (L' - L) := by ring
    rw [this]
    refine (abs_add_le _ _).trans ?_
    rw [abs_of_nonneg hL0]
    linarith
  have fq : Factor u 14 (L' / D) (fl (L' / D')) := by
    have f1 : Factor u 13 (L' / D) (L' / D') := by
      have := (show Factor u 0 L' L' from ⟨1, by simp, by simp, by ring⟩).mul hu1 ((wD.factor hu hu1 hD.le).inv hu1)
      rw [Nat.zero_add] at this
      rwa [div_eq_mul_inv, div_eq_mul_inv]
    exact f1.trans hu1 (Factor.rounded hfl hu1 _)
  have bq := fq.abs_sub hu1
  have fin : |fl (L' / D') - L / D| ≤ (excess u 14 * (1 + fanB u) + fanB u) * (M / D) := by
    have e1 : fl (L' / D') - L / D = (fl (L' / D') - L' / D) + (L' - L) / D := by ring
    have e2 : |L' / D| = |L'| / D := by rw [abs_div, abs_of_pos hD]
    have e3 : |(L' - L) / D| ≤ fanB u * (M / D) := by
      rw [abs_div, abs_of_pos hD, ← mul_div_assoc]
      exact div_le_div_of_nonneg_right hB hD.le
    have e4 : |L'| / D ≤ (1 + fanB u) * (M / D) := by
      rw [← mul_div_assoc]
      exact div_le_div_of_nonneg_right hL'M hD.le
    rw [e1]
    refine (abs_add_le _ _).trans ?_
    rw [e2] at bq
    have := mul_le_mul_of_nonneg_left e4 e14
    nlinarith
  have hLD : 0 ≤ L / D := div_nonneg hL0 hD.le
  rcases le_total 0 (fl (L' / D')) with h | h
  · rw [max_eq_right h]; exact fin
  · rw [max_eq_left h]
    refine le_trans ?_ fin
    rw [abs_sub_comm, sub_zero, abs_of_nonneg hLD, abs_sub_comm, abs_of_nonneg (by linarith)]
    linarith

/-- **C152.** No entry of the fan method is negative, for all inputs. -/
theorem C152_fan_nonneg (fl : ℚ → ℚ) (E Elow Ehigh c1 c2 c s : ℚ) : 0 ≤ fanEntryF fl E Elow Ehigh c1 c2 c s := le_max_left _ _

example : fanEntryF dbl 1200 900 1100 3 0 (1 / 2) (7 / 8) = 0 ∧
    linInterpF dbl 1200 900 (dbl (3 * dEdThetaF dbl 900 (1 / 2) (7 / 8))) 1100 0 < 0 := by decide +kernel

/-- **C152.** In double precision the entry is right to `36/2^53` of the larger corrected count. -/
theorem C152_fan_double {E Elow Ehigh c1 c2 c s M : ℚ}
    (hlow : 0 ≤ Elow) (h1 : Elow ≤ E) (h2 : E ≤ Ehigh) (hlt : Elow < Ehigh) (hE : 0 < E) (hc1 : 0 ≤ c1) (hc2 : 0 ≤ c2) (hc : c ≤ 1) (hs : 0 < s)
    (hM1 : c1 * dEExact Elow c s ≤ M) (hM2 : c2 * dEExact Ehigh c s ≤ M) :
    |fanEntryF dbl E Elow Ehigh c1 c2 c s -
        (c1 * dEExact Elow c s + (E - Elow) / (Ehigh - Elow) * (c2 * dEExact Ehigh c s - c1 * dEExact Elow c s)) / dEExact E c s| ≤
      36 / 2 ^ 53 * (M / dEExact E c s) := by
  refine (C152_fan dbl_rounding (by norm_num) (by norm_num) hlow h1 h2 hlt hE hc1 hc2 hc hs hM1 hM2).trans ?_
  apply mul_le_mul_of_nonneg_right
  · unfold fanB excess
    norm_num
  · have hd : (0 : ℚ) < 1 + Elow / 511 * (1 - c) := by
      have : (0 : ℚ) ≤ Elow / 511 * (1 - c) := mul_nonneg (by positivity) (by linarith)
      linarith
    have hd' : (0 : ℚ) < 1 + E / 511 * (1 - c) := by
      have : (0 : ℚ) ≤ E / 511 * (1 - c) := mul_nonneg (by positivity) (by linarith)
      linarith
    have hM : 0 ≤ M := le_trans (by unfold dEExact; positivity) hM1
    unfold dEExact
    positivity

example : dEExact 900 (1 / 2) (7 / 8) * 3 ≤ 3000 ∧ dEExact 1100 (1 / 2) (7 / 8) * 5 ≤ 3000 ∧ 3 < fanEntryF dbl 1000 900 1100 3 5 (1 / 2) (7 / 8) ∧
    fanEntryF dbl 1000 900 1100 3 5 (1 / 2) (7 / 8) < 5 := by decide +kernel

/-- **C152.** Without rounding these are the formulas of C44, for every angle with a rational sine and cosine. -/
theorem C152_exact (Eg c s : ℚ) (theta : ℝ) (hc : Real.cos theta = c) (hs : Real.sin theta = s) :
    ((eComptonF id Eg c : ℚ) : ℝ) = eCompton Eg theta ∧ ((dEdThetaF id Eg c s : ℚ) : ℝ) = dEdTheta Eg theta ∧
      (∀ E Ei : ℚ, Real.arccos ((fanCosF id E Ei : ℚ) : ℝ) = fanAngle E Ei) ∧
      ∀ x x0 y0 x1 y1 : ℚ, linInterpF id x x0 y0 x1 y1 = linInterp x x0 y0 x1 y1 := by
  refine ⟨?_, ?_, ?_, ?_⟩
  · unfold eComptonF eCompton comptonDenF
    rw [hc]
    have h : (id (1 / 10 : ℚ) < Eg) ↔ ((1 / 10 : ℝ) < (Eg : ℝ)) := by
      rw [show ((1 / 10 : ℝ)) = (((1 / 10 : ℚ)) : ℝ) by norm_num, Rat.cast_lt]
      rfl
    by_cases h' : id (1 / 10 : ℚ) < Eg
    · rw [if_pos h', if_pos (h.1 h')]
      simp only [id]
      push_cast
      ring
    · rw [if_neg h', if_neg (fun q => h' (h.2 q))]
  · unfold dEdThetaF dEdTheta comptonDenF
    rw [hc, hs]
    simp only [id]
    push_cast
    rw [sq]
  · intro E Ei
    unfold fanCosF fanAngle
    simp only [id]
    congr 1
    by_cases h : E / 511 * (E - Ei) = 0
    · have h' : (E : ℝ) / 511 * ((E : ℝ) - Ei) = 0 := by exact_mod_cast congrArg (fun q : ℚ => (q : ℝ)) h
      rw [if_pos h, if_pos h']
      simp
    · have h' : ¬ (E : ℝ) / 511 * ((E : ℝ) - Ei) = 0 := by
        intro q
        apply h
        exact_mod_cast q
      rw [if_neg h, if_neg h']
      push_cast
      rfl
  · intro x x0 y0 x1 y1
    unfold linInterpF linInterp
    simp only [id]

example : Real.cos Real.pi = ((-1 : ℚ) : ℝ) ∧ Real.sin Real.pi = ((0 : ℚ) : ℝ) ∧ eComptonF id 511 (-1) = 1022 / 3 := by
  refine ⟨by simp, by simp, by norm_num [eComptonF, comptonDenF]⟩

end Ompy
