import Verif.TransformRounding
import Verif.UnitRoundingProps
import Mathlib.Analysis.SpecialFunctions.Exp

/-!
# Properties of `Vector.transform` in floating point (C122)
-/

namespace Ompy

/-- Specification: `a` is `b` up to a relative error of `K - 1`. -/
def Rel (K a b : ℝ) : Prop := |a - b| ≤ (K - 1) * |b|

theorem Rel.refl (a : ℝ) : Rel 1 a a := by simp [Rel]

theorem Rel.weaken {K L a b : ℝ} (h : Rel K a b) (hk : K ≤ L) : Rel L a b :=
  le_trans h (mul_le_mul_of_nonneg_right (by linarith) (abs_nonneg b))

theorem Rel.abs_le {K a b : ℝ} (h : Rel K a b) : |a| ≤ K * |b| := by
  have : |a| ≤ |a - b| + |b| := by
    refine le_trans (le_of_eq ?_) (abs_add_le _ _)
    congr 1
    ring
  unfold Rel at h
  linarith

theorem Rel.trans {K L a b c : ℝ} (hK : 1 ≤ K) (h : Rel K a b) (g : Rel L b c) : Rel (K * L) a c := by
  have h1 := g.abs_le
  have h2 : |a - c| ≤ |a - b| + |b - c| := by
    refine le_trans (le_of_eq ?_) (abs_add_le _ _)
    congr 1
    ring
  have h3 := mul_le_mul_of_nonneg_left h1 (by linarith : 0 ≤ K - 1)
  unfold Rel at *
  linarith

theorem Rel.mul {K L a b c d : ℝ} (hK : 1 ≤ K) (h : Rel K a b) (g : Rel L c d) : Rel (K * L) (a * c) (b * d) := by
  have h1 := g.abs_le
  unfold Rel at *
  have e : a * c - b * d = (a - b) * c + b * (c - d) := by ring
  rw [e, abs_mul b d]
  refine (abs_add_le _ _).trans ?_
  rw [abs_mul, abs_mul]
  have a1 : |a - b| * |c| ≤ ((K - 1) * |b|) * (L * |d|) :=
    mul_le_mul h h1 (abs_nonneg _) (mul_nonneg (by linarith) (abs_nonneg _))
  have a2 : |b| * |c - d| ≤ |b| * ((L - 1) * |d|) := mul_le_mul_of_nonneg_left g (abs_nonneg _)
  nlinarith

theorem rounding_nonneg {fl : ℚ → ℚ} {u : ℚ} (R : Rounding fl u) : 0 ≤ u := by
  have := R.rel 1
  have := (abs_nonneg _).trans this
  simpa using this

theorem rounding_rel {fl : ℚ → ℚ} {u : ℚ} (R : Rounding fl u) (q : ℚ) : Rel (1 + (u : ℝ)) (fl q : ℝ) q := by
  have := R.rel q
  have : (((|fl q - q| : ℚ)) : ℝ) ≤ ((u * |q| : ℚ) : ℝ) := by exact_mod_cast this
  push_cast at this
  unfold Rel
  linarith

theorem abs_exp_sub_one (y : ℝ) : |Real.exp y - 1| ≤ Real.exp |y| - 1 := by
  rcases le_total 0 y with h | h
  · rw [abs_of_nonneg h, abs_of_nonneg]
    have := Real.one_le_exp h
    linarith
  · rw [abs_of_nonpos h, abs_of_nonpos (by have := Real.exp_le_one_iff.2 h; linarith)]
    have h1 := Real.exp_pos y
    have h2 : Real.exp y * Real.exp (-y) = 1 := by rw [← Real.exp_add]; simp
    nlinarith [sq_nonneg (Real.exp y - 1), sq_nonneg (Real.exp (-y) - 1), Real.exp_pos (-y),
      Real.add_one_le_exp y, Real.add_one_le_exp (-y)]

/-- Specification: a computed exponential function with relative error `ue`. -/
def GoodExp (ex : ℚ → ℚ) (ue : ℝ) : Prop := ∀ q : ℚ, Rel (1 + ue) (ex q : ℝ) (Real.exp q)

/-- The factor of the error of one transformation at the energy `e`. -/
noncomputable def stepError (u ue : ℝ) (alpha e : ℚ) : ℝ :=
  (1 + u) ^ 2 * (1 + ue) * Real.exp (u * |(alpha : ℝ) * (e : ℝ)|)

theorem goodExp_nonneg {ex : ℚ → ℚ} {ue : ℝ} (h : GoodExp ex ue) : 0 ≤ ue := by
  have := h 0
  unfold Rel at this
  have := (abs_nonneg _).trans this
  simpa using this

theorem stepError_ge {u ue : ℝ} (hu : 0 ≤ u) (hue : 0 ≤ ue) (alpha e : ℚ) : 1 ≤ stepError u ue alpha e := by
  unfold stepError
  have h1 : 1 ≤ Real.exp (u * |(alpha : ℝ) * (e : ℝ)|) := Real.one_le_exp (by positivity)
  have h2 : (1 : ℝ) ≤ (1 + u) ^ 2 := by nlinarith
  have h3 : (1 : ℝ) ≤ (1 + u) ^ 2 * (1 + ue) := by nlinarith
  nlinarith

/-- **C122.** The value of a bin is the exact `const * value * exp(alpha E)` up to three roundings and the error of the
rounded exponent, which grows with `|alpha E|`. -/
theorem C122_value {fl ex : ℚ → ℚ} {u : ℚ} {ue : ℝ} (R : Rounding fl u) (X : GoodExp ex ue) (const alpha x e : ℚ) :
    Rel (stepError u ue alpha e) (transformValue fl ex const alpha x e : ℝ)
      ((const : ℝ) * x * Real.exp ((alpha : ℝ) * e)) := by
  have u0 : (0 : ℝ) ≤ u := by exact_mod_cast rounding_nonneg R
  have ue0 := goodExp_nonneg X
  have h1 := rounding_rel R (const * x)
  have h2 := rounding_rel R (alpha * e)
  have h3 := X (fl (alpha * e))
  have h4 := rounding_rel R (fl (const * x) * ex (fl (alpha * e)))
  push_cast at h1 h2 h4
  have h5 : Rel (Real.exp (u * |(alpha : ℝ) * (e : ℝ)|)) (Real.exp (fl (alpha * e) : ℝ)) (Real.exp ((alpha : ℝ) * e)) := by
    unfold Rel at *
    rw [abs_of_pos (Real.exp_pos _)]
    have e1 : Real.exp (fl (alpha * e) : ℝ) - Real.exp ((alpha : ℝ) * e) =
        (Real.exp ((fl (alpha * e) : ℝ) - (alpha : ℝ) * e) - 1) * Real.exp ((alpha : ℝ) * e) := by
      rw [sub_mul, ← Real.exp_add]
      simp
    rw [e1, abs_mul, abs_of_pos (Real.exp_pos ((alpha : ℝ) * e))]
    apply mul_le_mul_of_nonneg_right _ (Real.exp_pos _).le
    refine (abs_exp_sub_one _).trans ?_
    have : |(fl (alpha * e) : ℝ) - (alpha : ℝ) * e| ≤ u * |(alpha : ℝ) * (e : ℝ)| := by linarith
    have := Real.exp_le_exp.2 this
    linarith
  have h6 := h3.trans (by linarith) h5
  have h7 := h1.mul (by linarith) h6
  have h8 := h4.trans (by linarith) h7
  unfold transformValue
  convert h8 using 1
  unfold stepError
  ring

/-- **C122.** The relative uncertainty of a bin is kept up to two roundings. -/
theorem C122_std {fl : ℚ → ℚ} {u : ℚ} (R : Rounding fl u) (x t s : ℚ) (hx : x ≠ 0) (ht : t ≠ 0) :
    ∃ s', transformStd fl x t (some s) = some s' ∧ |s' / t - s / x| ≤ ((1 + u) ^ 2 - 1) * |s / x| := by
  refine ⟨fl (fl (s / x) * t), by simp [transformStd, hx], ?_⟩
  have u0 := rounding_nonneg R
  have h1 := R.rel (s / x)
  have h2 := R.rel (fl (s / x) * t)
  have ht' := abs_pos.2 ht
  have a1 : |fl (fl (s / x) * t) / t - fl (s / x)| ≤ u * |fl (s / x)| := by
    have e : fl (fl (s / x) * t) / t - fl (s / x) = (fl (fl (s / x) * t) - fl (s / x) * t) / t := by field_simp
    rw [e, abs_div, div_le_iff₀ ht']
    rw [abs_mul] at h2
    linarith
  have a2 : |fl (s / x)| ≤ (1 + u) * |s / x| := by
    have : |fl (s / x)| ≤ |fl (s / x) - s / x| + |s / x| := by
      refine le_trans (le_of_eq ?_) (abs_add_le _ _)
      congr 1
      ring
    linarith
  have a3 : |fl (fl (s / x) * t) / t - s / x| ≤ |fl (fl (s / x) * t) / t - fl (s / x)| + |fl (s / x) - s / x| := by
    refine le_trans (le_of_eq ?_) (abs_add_le _ _)
    congr 1
    ring
  have a4 := mul_le_mul_of_nonneg_left a2 u0
  nlinarith

theorem rounding_zero {fl : ℚ → ℚ} {u : ℚ} (R : Rounding fl u) : fl 0 = 0 := by
  have := R.rel 0
  simpa using this

theorem rounding_ne {fl : ℚ → ℚ} {u : ℚ} (R : Rounding fl u) (hu : u < 1) {q : ℚ} (hq : q ≠ 0) : fl q ≠ 0 := by
  intro h
  have := R.rel q
  rw [h, zero_sub, abs_neg] at this
  have h0 := abs_pos.2 hq
  nlinarith

/-- **C122.** Bins are empty afterwards exactly if they were empty before or the constant is zero; no bin changes sign
under a positive constant. -/
theorem C122_sign {fl ex : ℚ → ℚ} {u : ℚ} (R : Rounding fl u) (hu : u < 1) (hex : ∀ q, 0 < ex q)
    (const alpha x e : ℚ) :
    (transformValue fl ex const alpha x e = 0 ↔ const = 0 ∨ x = 0) ∧
    (0 < const → 0 < x → 0 < transformValue fl ex const alpha x e) ∧
    (0 < const → x < 0 → transformValue fl ex const alpha x e < 0) := by
  have h0 : transformValue fl ex const alpha x e = 0 ↔ const = 0 ∨ x = 0 := by
    unfold transformValue
    constructor
    · intro h
      by_contra hc
      rw [not_or] at hc
      exact rounding_ne R hu (mul_ne_zero (rounding_ne R hu (mul_ne_zero hc.1 hc.2)) (hex _).ne') h
    · intro h
      have : const * x = 0 := by rcases h with h | h <;> simp [h]
      rw [this, rounding_zero R, zero_mul, rounding_zero R]
  refine ⟨h0, fun hc hx => ?_, fun hc hx => ?_⟩
  · have a : 0 ≤ fl (const * x) := by
      have := R.mono (mul_pos hc hx).le
      rwa [rounding_zero R] at this
    have b : 0 ≤ transformValue fl ex const alpha x e := by
      have := R.mono (mul_nonneg a (hex (fl (alpha * e))).le)
      rwa [rounding_zero R] at this
    exact lt_of_le_of_ne b fun h => by
      rcases h0.1 h.symm with h | h
      · exact hc.ne' h
      · exact hx.ne' h
  · have a : fl (const * x) ≤ 0 := by
      have := R.mono (mul_neg_of_pos_of_neg hc hx).le
      rwa [rounding_zero R] at this
    have b : transformValue fl ex const alpha x e ≤ 0 := by
      have := R.mono (mul_nonpos_of_nonpos_of_nonneg a (hex (fl (alpha * e))).le)
      rwa [rounding_zero R] at this
    exact lt_of_le_of_ne b fun h => by
      rcases h0.1 h with h | h
      · exact hc.ne' h
      · exact hx.ne h

/-- **C122.** More in a bin stays more, and a larger constant gives more. -/
theorem C122_mono {fl ex : ℚ → ℚ} (hm : Monotone fl) (h0 : fl 0 = 0) (hex : ∀ q, 0 ≤ ex q) (alpha e : ℚ) :
    (∀ const x y, 0 ≤ const → x ≤ y → transformValue fl ex const alpha x e ≤ transformValue fl ex const alpha y e) ∧
    (∀ c c' x, 0 ≤ x → c ≤ c' → transformValue fl ex c alpha x e ≤ transformValue fl ex c' alpha x e) := by
  constructor
  · intro const x y hc hxy
    exact hm (mul_le_mul_of_nonneg_right (hm (mul_le_mul_of_nonneg_left hxy hc)) (hex _))
  · intro c c' x hx hc
    exact hm (mul_le_mul_of_nonneg_right (hm (mul_le_mul_of_nonneg_right hc hx)) (hex _))

/-- **C122.** The defaults change no value that is a double. -/
theorem C122_identity {fl ex : ℚ → ℚ} (h0 : fl 0 = 0) (he : ex 0 = 1) (x e : ℚ) (hx : fl x = x) :
    transformValue fl ex 1 0 x e = x := by
  unfold transformValue
  rw [zero_mul, h0, he, one_mul, hx, mul_one, hx]

/-- **C122.** Shape: energies, units and number of bins stay; bin by bin the values and uncertainties are as above. -/
theorem C122_bins (fl ex : ℚ → ℚ) (v : TVec) (const alpha : ℚ) (hE : v.values.length = v.E.length)
    (hs : ∀ s, v.std = some s → s.length = v.E.length) :
    (v.transformF fl ex const alpha).E = v.E ∧ (v.transformF fl ex const alpha).units = v.units ∧
    (v.transformF fl ex const alpha).values.length = v.E.length ∧
    (∀ i, i < v.E.length → (v.transformF fl ex const alpha).values.getD i 0 =
      transformValue fl ex const alpha (v.values.getD i 0) (v.E.getD i 0)) ∧
    ((v.transformF fl ex const alpha).std = none ↔ v.std = none) ∧
    (∀ s, v.std = some s → ∃ s', (v.transformF fl ex const alpha).std = some s' ∧ s'.length = v.E.length ∧
      ∀ i, i < v.E.length → s'.getD i none =
        transformStd fl (v.values.getD i 0) ((v.transformF fl ex const alpha).values.getD i 0) (s.getD i none)) := by
  have lv : (v.transformF fl ex const alpha).values.length = v.E.length := by
    simp [TVec.transformF, hE]
  refine ⟨rfl, rfl, lv, ?_, ?_, ?_⟩
  · intro i hi
    rw [List.getD_eq_getElem (v.transformF fl ex const alpha).values 0 (by omega),
      List.getD_eq_getElem v.values 0 (by omega), List.getD_eq_getElem v.E 0 hi]
    simp [TVec.transformF]
  · simp [TVec.transformF]
  · intro s h
    have ls := hs s h
    refine ⟨List.zipWith (fun (p : ℚ × ℚ) r => transformStd fl p.1 p.2 r)
      (v.values.zip (v.transformF fl ex const alpha).values) s, ?_, ?_, ?_⟩
    · simp [TVec.transformF, h]
    · simp [lv, hE, ls]
    · intro i hi
      rw [List.getD_eq_getElem (List.zipWith _ _ s) none (by simp [lv, hE, ls, hi]),
        List.getD_eq_getElem v.values 0 (by omega), List.getD_eq_getElem s none (by omega),
        List.getD_eq_getElem (v.transformF fl ex const alpha).values 0 (by omega)]
      simp

/-- The exact value of a bin after several transformations. -/
noncomputable def exactHistory (e : ℚ) (x : ℝ) : List (ℚ × ℚ) → ℝ
  | [] => x
  | p :: r => exactHistory e ((p.1 : ℝ) * x * Real.exp ((p.2 : ℝ) * e)) r

/-- The error of several transformations. -/
noncomputable def historyError (u ue : ℝ) (e : ℚ) : List (ℚ × ℚ) → ℝ
  | [] => 1
  | p :: r => stepError u ue p.2 e * historyError u ue e r

theorem historyError_ge {u ue : ℝ} (hu : 0 ≤ u) (hue : 0 ≤ ue) (e : ℚ) (l : List (ℚ × ℚ)) :
    1 ≤ historyError u ue e l := by
  induction l with
  | nil => exact le_rfl
  | cons p r ih =>
    have := stepError_ge hu hue p.2 e
    unfold historyError
    nlinarith

theorem exactHistory_scale (e : ℚ) (l : List (ℚ × ℚ)) : ∀ x : ℝ, exactHistory e x l = x * exactHistory e 1 l := by
  induction l with
  | nil => intro x; simp [exactHistory]
  | cons p r ih =>
    intro x
    unfold exactHistory
    rw [ih, ih ((p.1 : ℝ) * 1 * Real.exp ((p.2 : ℝ) * e))]
    ring

/-- The product of constants and the sum of exponents. -/
theorem exactHistory_closed (e : ℚ) (x : ℝ) (l : List (ℚ × ℚ)) :
    exactHistory e x l = (l.map fun p => (p.1 : ℝ)).prod * x * Real.exp ((l.map fun p => (p.2 : ℝ)).sum * e) := by
  induction l generalizing x with
  | nil => simp [exactHistory]
  | cons p r ih =>
    unfold exactHistory
    rw [ih, List.map_cons, List.map_cons, List.prod_cons, List.sum_cons, add_mul, Real.exp_add]
    ring

/-- **C122.** However many transformations, the value of a bin is `c * value * exp(a E)` for the product `c` of the
constants and the sum `a` of the exponents, up to the product of the errors of the single ones. -/
theorem C122_history {fl ex : ℚ → ℚ} {u : ℚ} {ue : ℝ} (R : Rounding fl u) (X : GoodExp ex ue) (v : TVec)
    (hE : v.values.length = v.E.length) (hs : ∀ s, v.std = some s → s.length = v.E.length) (l : List (ℚ × ℚ))
    (i : ℕ) (hi : i < v.E.length) :
    (v.transformsF fl ex l).E = v.E ∧
    Rel (historyError u ue (v.E.getD i 0) l) ((v.transformsF fl ex l).values.getD i 0 : ℝ)
      ((l.map fun p => (p.1 : ℝ)).prod * (v.values.getD i 0 : ℝ) *
        Real.exp ((l.map fun p => (p.2 : ℝ)).sum * (v.E.getD i 0 : ℝ))) := by
  have u0 : (0 : ℝ) ≤ u := by exact_mod_cast rounding_nonneg R
  have ue0 := goodExp_nonneg X
  rw [← exactHistory_closed]
  induction l generalizing v with
  | nil => exact ⟨rfl, Rel.refl _⟩
  | cons p r ih =>
    obtain ⟨b1, _, b3, b4, b5, b6⟩ := C122_bins fl ex v p.1 p.2 hE hs
    have hs' : ∀ s, (v.transformF fl ex p.1 p.2).std = some s → s.length = (v.transformF fl ex p.1 p.2).E.length := by
      intro s h
      cases hv : v.std with
      | none => rw [b5.2 hv] at h; cases h
      | some s0 =>
        obtain ⟨s', q1, q2, _⟩ := b6 s0 hv
        rw [q1] at h
        injection h with h
        rw [← h, q2, b1]
    obtain ⟨i1, i2⟩ := ih (v.transformF fl ex p.1 p.2) (by rw [b3, b1]) hs' (by rw [b1]; exact hi)
    refine ⟨i1.trans b1, ?_⟩
    have step := C122_value R X p.1 p.2 (v.values.getD i 0) (v.E.getD i 0)
    rw [b1, b4 i hi, exactHistory_scale] at i2
    unfold exactHistory historyError
    rw [exactHistory_scale, mul_comm (stepError _ _ _ _)]
    show Rel _ ((TVec.transformsF fl ex (v.transformF fl ex p.1 p.2) r).values.getD i 0 : ℝ) _
    have : Rel (1 * stepError u ue p.2 (v.E.getD i 0)) (exactHistory (v.E.getD i 0) 1 r *
        (transformValue fl ex p.1 p.2 (v.values.getD i 0) (v.E.getD i 0) : ℝ))
        (exactHistory (v.E.getD i 0) 1 r *
          ((p.1 : ℝ) * (v.values.getD i 0 : ℝ) * Real.exp ((p.2 : ℝ) * (v.E.getD i 0 : ℝ)))) :=
      Rel.mul le_rfl (Rel.refl _) step
    rw [one_mul, mul_comm (exactHistory _ _ _), mul_comm (exactHistory _ _ _)] at this
    exact i2.trans (historyError_ge u0 ue0 _ _) this

/-- **C122.** However many transformations with constants other than zero, the relative uncertainty of a filled bin is
kept up to two roundings for each. -/
theorem C122_history_std {fl ex : ℚ → ℚ} {u : ℚ} (R : Rounding fl u) (hu : u < 1) (hex : ∀ q, 0 < ex q) (v : TVec)
    (hE : v.values.length = v.E.length) (s : List (Option ℚ)) (hs : v.std = some s) (hl : s.length = v.E.length)
    (l : List (ℚ × ℚ)) (hc : ∀ p ∈ l, p.1 ≠ 0) (i : ℕ) (hi : i < v.E.length) (hx : v.values.getD i 0 ≠ 0) (a : ℚ)
    (ha : s.getD i none = some a) :
    (v.transformsF fl ex l).values.getD i 0 ≠ 0 ∧
    ∃ s' a', (v.transformsF fl ex l).std = some s' ∧ s'.length = v.E.length ∧ s'.getD i none = some a' ∧
      Rel ((1 + (u : ℝ)) ^ (2 * l.length)) ((a' / (v.transformsF fl ex l).values.getD i 0 : ℚ) : ℝ)
        ((a / v.values.getD i 0 : ℚ) : ℝ) := by
  have u0 : (0 : ℝ) ≤ u := by exact_mod_cast rounding_nonneg R
  induction l generalizing v s a with
  | nil => exact ⟨hx, s, a, hs, hl, ha, by simpa [TVec.transformsF] using Rel.refl _⟩
  | cons p r ih =>
    obtain ⟨b1, _, b3, b4, b5, b6⟩ := C122_bins fl ex v p.1 p.2 hE
      (fun s0 h => by rw [hs] at h; injection h with h; rw [← h, hl])
    obtain ⟨s1, q1, q2, q3⟩ := b6 s hs
    have t0 : (v.transformF fl ex p.1 p.2).values.getD i 0 ≠ 0 := by
      rw [b4 i hi]
      intro h
      rcases (C122_sign R hu hex p.1 p.2 (v.values.getD i 0) (v.E.getD i 0)).1.1 h with h | h
      · exact hc p (by simp) h
      · exact hx h
    have q := q3 i hi
    rw [ha] at q
    obtain ⟨a1, e1, e2⟩ := C122_std R (v.values.getD i 0) ((v.transformF fl ex p.1 p.2).values.getD i 0) a hx t0
    rw [e1] at q
    obtain ⟨r0, s2, a2, r1, r2, r3, r4⟩ := ih (v.transformF fl ex p.1 p.2) (by rw [b3, b1]) s1 q1 (by rw [q2, b1])
      (fun p' h => hc p' (by simp [h])) (by rw [b1]; exact hi) t0 a1 q
    refine ⟨r0, s2, a2, r1, r2.trans (by rw [b1]), r3, ?_⟩
    have step : Rel ((1 + (u : ℝ)) ^ 2) ((a1 / (v.transformF fl ex p.1 p.2).values.getD i 0 : ℚ) : ℝ)
        ((a / v.values.getD i 0 : ℚ) : ℝ) := by
      unfold Rel
      have : ((|a1 / (v.transformF fl ex p.1 p.2).values.getD i 0 - a / v.values.getD i 0| : ℚ) : ℝ) ≤
          ((((1 + u) ^ 2 - 1) * |a / v.values.getD i 0| : ℚ) : ℝ) := by exact_mod_cast e2
      simpa using this
    have := r4.trans (one_le_pow₀ (by linarith)) step
    rw [← pow_add] at this
    exact this

/-- **C122, fails in general.** The defaults, which keep all values, change the uncertainty of a bin, and take the
uncertainty of an empty bin away. -/
theorem C122_identity_fails (ex : ℚ → ℚ) (he : ex 0 = 1) :
    ∃ s', (⟨[1, 2], [49, 0], some [some 1, some 1], "MeV"⟩ : TVec).transformF dbl ex 1 0 =
      ⟨[1, 2], [49, 0], some [some s', none], "MeV"⟩ ∧ s' < 1 := by
  have d49 : dbl 49 = 49 := by decide +kernel
  have v1 : transformValue dbl ex 1 0 49 1 = 49 := C122_identity dbl_zero he 49 1 d49
  have v2 : transformValue dbl ex 1 0 0 2 = 0 := C122_identity dbl_zero he 0 2 dbl_zero
  refine ⟨dbl (dbl (1 / 49) * 49), ?_, by decide +kernel⟩
  simp [TVec.transformF, v1, v2, transformStd]

/-- **C122, fails in general.** Multiplying by 3 and by the double of 1/3 does not give the values back, although the
exact product of the two constants rounds to one. -/
theorem C122_inverse_fails (ex : ℚ → ℚ) (he : ex 0 = 1) :
    dbl (3 * dbl (1 / 3)) = 1 ∧
    ∃ x, dbl x = x ∧ transformValue dbl ex (dbl (1 / 3)) 0 (transformValue dbl ex 3 0 x 1) 1 ≠ x := by
  refine ⟨by decide +kernel, dbl (3 / 10), by decide +kernel, ?_⟩
  unfold transformValue
  rw [zero_mul, dbl_zero, he, mul_one, mul_one]
  decide +kernel

/-- There are exponential functions as asked for. -/
theorem goodExp_exists {ue : ℝ} (h : 0 < ue) : ∃ ex : ℚ → ℚ, GoodExp ex ue ∧ (∀ q, 0 < ex q) ∧ ex 0 = 1 := by
  have pick : ∀ q : ℚ, ∃ r : ℚ, Rel (1 + ue) (r : ℝ) (Real.exp q) ∧ 0 < r := by
    intro q
    have p0 := Real.exp_pos (q : ℝ)
    obtain ⟨r, h1, h2⟩ := exists_rat_btwn (show Real.exp q < Real.exp q * (1 + ue) by nlinarith)
    refine ⟨r, ?_, by exact_mod_cast p0.trans h1⟩
    unfold Rel
    rw [abs_of_pos p0, abs_of_nonneg (by linarith)]
    linarith
  choose f hf using pick
  refine ⟨fun q => if q = 0 then 1 else f q, fun q => ?_, fun q => ?_, by simp⟩
  · by_cases hq : q = 0
    · subst hq
      simp [Rel, h.le]
    · simp only [if_neg hq]
      exact (hf q).1
  · by_cases hq : q = 0
    · simp [hq]
    · simp only [if_neg hq]
      exact (hf q).2

/-- Examples: the rounding of doubles is as asked for, and two transformations of one bin. -/
example : Rounding dbl (1 / 2 ^ 53) ∧ (1 : ℚ) / 2 ^ 53 < 1 ∧ dbl 49 = 49 ∧
    (⟨[1], [2], some [some 1], "MeV"⟩ : TVec).transformsF dbl (fun _ => 1) [(3, 0), (2, 1)] =
      ⟨[1], [12], some [some 6], "MeV"⟩ := by
  refine ⟨dbl_rounding, by norm_num, by decide +kernel, ?_⟩
  have e1 : dbl (dbl (3 * 2) * 1) = 6 := by decide +kernel
  have e2 : dbl (dbl (2 * 6) * 1) = 12 := by decide +kernel
  have e3 : dbl (dbl (1 / 2) * 6) = 3 := by decide +kernel
  have e4 : dbl (dbl (1 / 2) * 12) = 6 := by decide +kernel
  simp only [TVec.transformsF, TVec.transformF, transformValue, transformStd, List.zipWith_cons_cons,
    List.zipWith_nil_left, List.zip_cons_cons, List.zip_nil_left, Option.map_some, e1, e2]
  norm_num [e3, e4]

end Ompy
