import Verif.NldLikeRounding
import Verif.NldLike
import Verif.ErrorRoundingProps
import Verif.ComptonRoundingProps
import Verif.LogInterpRoundingProps

/-!
# C155: the likelihood of the level density normalisation with rounded numbers
-/

namespace Ompy

/-- **C155.** The constant temperature level density is the exact one up to a factor whose exponent is the error of the exponential function, one
rounding and the error of the exponent, which grows with the exponent. -/
theorem C155_model {fl ex : ℚ → ℚ} {u : ℚ} {b : ℝ} (hfl : Rounding fl u) (hu : 0 ≤ u) (hu1 : u < 1) (hex : ExpFun ex b) (T Eshift e : ℚ) :
    (T = 0 → constTemperatureF fl ex T Eshift e = .error .undefined) ∧
      (0 < T → ∃ r, constTemperatureF fl ex T Eshift e = .ok r ∧ 0 < r ∧
        LogNear (((1 / (1 - u) ^ 2 - 1 : ℚ) : ℝ) * |((e : ℝ) - Eshift) / T| + b + lamU u) (Real.exp (((e : ℝ) - Eshift) / T) / T) r) := by
  refine ⟨fun h => by simp [constTemperatureF, h], fun h => ⟨_, by simp only [constTemperatureF, if_neg h.ne']; rfl, ?_⟩⟩
  set q := (e - Eshift) / T with hq
  set p := fl (fl (e - Eshift) / T) with hp
  have hT : (0 : ℝ) < T := by exact_mod_cast h
  have qr : ((e : ℝ) - Eshift) / T = (q : ℝ) := by rw [hq]; push_cast; ring
  have f1 : Factor u 2 q p := by
    have a := Factor.rounded hfl hu1 (e - Eshift)
    have a' : Factor u 1 q (fl (e - Eshift) / T) := by
      obtain ⟨t, t1, t2, t3⟩ := a
      exact ⟨t, t1, t2, by rw [t3, hq]; ring⟩
    exact a'.trans hu1 (Factor.rounded hfl hu1 _)
  have f2 := f1.abs_sub hu1
  have f3 : |(p : ℝ) - q| ≤ ((1 / (1 - u) ^ 2 - 1 : ℚ) : ℝ) * |(q : ℝ)| := by
    have hE : (1 / (1 - u) ^ 2 - 1 : ℚ) = excess u 2 := by unfold excess; rw [one_div]
    rw [hE]
    exact_mod_cast f2
  have n1 := (LogNear.exp_shift f3).chain (hex p)
  have pe : (0 : ℝ) < ex p := n1.pos (Real.exp_pos _)
  have pe' : (0 : ℚ) < ex p := by exact_mod_cast pe
  have n2 : LogNear (((1 / (1 - u) ^ 2 - 1 : ℚ) : ℝ) * |(q : ℝ)| + b) (Real.exp q / T) ((ex p / T : ℚ) : ℝ) := by
    push_cast at n1 ⊢
    constructor
    · rw [← mul_div_assoc]; exact div_le_div_of_nonneg_right n1.1 hT.le
    · rw [← mul_div_assoc]; exact div_le_div_of_nonneg_right n1.2 hT.le
  have n3 := Within.logNear hu1 (Within.rounded hu hu1 hfl (show 0 ≤ ex p / T from (div_pos pe' h).le))
  rw [Nat.cast_one, one_mul] at n3
  have n4 := n2.chain n3
  rw [qr]
  refine ⟨?_, n4⟩
  have : (0 : ℝ) < ((fl (ex p / T) : ℚ) : ℝ) := n4.pos (div_pos (Real.exp_pos _) hT)
  exact_mod_cast this

/-- **C155.** The exact value is the one of the model of C64. -/
theorem C155_model_exact (T Eshift e : ℚ) (h : T ≠ 0) :
    constTemperature e T Eshift = .ok (Real.exp (((e : ℝ) - Eshift) / T) / T) := by
  have : (T : ℝ) ≠ 0 := by exact_mod_cast h
  simp [constTemperature, this]

/-- **C155.** With an exponential function that keeps the order and a positive temperature the computed level density rises with the energy and
falls with the energy shift. -/
theorem C155_model_rises {fl ex : ℚ → ℚ} {u : ℚ} (hfl : Rounding fl u) (hex : Monotone ex) (T Eshift Eshift' e e' r r' : ℚ) (h : 0 < T)
    (he : e ≤ e') (hs : Eshift' ≤ Eshift) (hr : constTemperatureF fl ex T Eshift e = .ok r)
    (hr' : constTemperatureF fl ex T Eshift' e' = .ok r') : r ≤ r' := by
  simp only [constTemperatureF, if_neg h.ne', Except.ok.injEq] at hr hr'
  rw [← hr, ← hr']
  exact hfl.mono (div_le_div_of_nonneg_right (hex (hfl.mono (div_le_div_of_nonneg_right (hfl.mono (by linarith)) h.le))) h.le)

example : (∃ ex, ExpFun ex (2 / 2 ^ 53)) ∧ Monotone (fun q : ℚ => q + 1) ∧
    constTemperatureF dbl (fun q => q + 1) 2 1 4 = .ok (5 / 4) ∧ constTemperatureF dbl (fun q => q + 1) 2 (1 / 2) 5 = .ok (13 / 8) := by
  refine ⟨expFun_exists _ (by norm_num), fun a b h => by show a + 1 ≤ b + 1; linarith, ?_, ?_⟩ <;> decide +kernel

/-- **C155.** The term of the level density at the separation energy has five roundings. -/
theorem C155_sn {fl : ℚ → ℚ} {u : ℚ} (hfl : Rounding fl u) (hu1 : u < 1) (n s m : ℚ) :
    (s = 0 → errSnF fl n s m = .error .undefined) ∧
      (s ≠ 0 → ∃ r, errSnF fl n s m = .ok r ∧ |r - ((n - m) / s) ^ 2| ≤ (1 / (1 - u) ^ 5 - 1) * ((n - m) / s) ^ 2) := by
  refine ⟨fun h => by simp [errSnF, h], fun h => ⟨_, by simp only [errSnF, if_neg h]; rfl, ?_⟩⟩
  have a' : Factor u 1 ((n - m) / s) (fl (n - m) / s) := by
    obtain ⟨t, t1, t2, t3⟩ := Factor.rounded hfl hu1 (n - m)
    exact ⟨t, t1, t2, by rw [t3]; ring⟩
  have a := a'.trans hu1 (Factor.rounded hfl hu1 _)
  have c := (a.mul hu1 a).trans hu1 (Factor.rounded hfl hu1 _)
  have d := c.abs_sub hu1
  rw [abs_of_nonneg (mul_self_nonneg ((n - m) / s)), ← sq ((n - m) / s)] at d
  have hE : (1 / (1 - u) ^ 5 - 1 : ℚ) = excess u 5 := by unfold excess; rw [one_div]
  rw [hE]
  exact d

example : errSnF dbl 5 2 1 = .ok 4 ∧ errSnF dbl 5 3 1 = .ok (dbl (dbl (4 / 3) * dbl (4 / 3))) ∧ errSnF dbl 5 0 1 = .error .undefined := by decide +kernel

theorem Summation.signed {fl : ℚ → ℚ} {u : ℚ} (hfl : Rounding fl u) (hu : 0 ≤ u) {D : ℕ → ℕ} {sum : List ℚ → ℚ} (hs : Summation fl D sum)
    (l : List ℚ) : |sum l - l.sum| ≤ ((1 + u) ^ D l.length - 1) * (l.map abs).sum := by
  obtain ⟨o, ⟨k, p⟩, hd, hv⟩ := hs l
  have h := C117_sum_signed fl u hfl hu o
  have s1 : o.leaves.sum = l.sum := by rw [p.sum_eq, List.sum_append, List.sum_replicate, nsmul_zero, zero_add]
  have s2 : (o.leaves.map abs).sum = (l.map abs).sum := by
    rw [(p.map abs).sum_eq, List.map_append, List.sum_append, List.map_replicate, abs_zero, List.sum_replicate, nsmul_zero, zero_add]
  rw [s1, s2, ← hv] at h
  refine h.trans (mul_le_mul_of_nonneg_right ?_ (List.sum_nonneg ?_))
  · linarith [pow_le_pow_right₀ (show (1 : ℚ) ≤ 1 + u by linarith) hd]
  · intro x hx
    obtain ⟨y, _, rfl⟩ := List.mem_map.1 hx
    exact abs_nonneg y

theorem log_list {lg : ℚ → ℚ} {a : ℚ} (hlg : LogFun lg a) : ∀ s : List ℚ, (∀ x ∈ s, 0 < x) →
    |(((s.map lg).sum : ℚ) : ℝ) - (s.map fun x : ℚ => Real.log x).sum| ≤ a * (s.map fun x : ℚ => |Real.log x|).sum ∧
      ((((s.map lg).map abs).sum : ℚ) : ℝ) ≤ (1 + a) * (s.map fun x : ℚ => |Real.log x|).sum := by
  intro s
  induction s with
  | nil => intro _; simp
  | cons x xs ih =>
    intro h
    obtain ⟨i1, i2⟩ := ih fun y hy => h y (List.mem_cons_of_mem _ hy)
    have hx := hlg x (h x List.mem_cons_self)
    simp only [List.map_cons, List.sum_cons]
    rw [Rat.cast_add, Rat.cast_add, Rat.cast_abs]
    constructor
    · have e : ∀ p q r t : ℝ, p + q - (r + t) = (p - r) + (q - t) := fun p q r t => by ring
      rw [e]
      refine (abs_add_le _ _).trans ?_
      linarith
    · have := abs_sub_abs_le_abs_sub (lg x : ℝ) (Real.log x)
      linarith

/-- **C155.** The sum of the logarithms: a relative error of the sum of their sizes; zero or negative uncertainties leave no number. -/
theorem C155_logs {fl lg : ℚ → ℚ} {u a : ℚ} (hfl : Rounding fl u) (hu : 0 ≤ u) (hlg : LogFun lg a) {D : ℕ → ℕ}
    {sum : List ℚ → ℚ} (hs : Summation fl D sum) (s : List ℚ) :
    ((∃ x ∈ s, x ≤ 0) → logStdsF lg sum s = .error .undefined) ∧
      ((∀ x ∈ s, 0 < x) → ∃ r, logStdsF lg sum s = .ok r ∧
        |(r : ℝ) - (s.map fun x : ℚ => Real.log x).sum| ≤ ((1 + u : ℝ) ^ D s.length * (1 + a) - 1) * (s.map fun x : ℚ => |Real.log x|).sum) := by
  constructor
  · rintro ⟨x, hx, h⟩
    unfold logStdsF
    rw [if_neg]
    exact fun hc => absurd (hc x hx) (not_lt.2 h)
  · intro h
    refine ⟨_, by unfold logStdsF; rw [if_pos h], ?_⟩
    obtain ⟨h1, h2⟩ := log_list hlg s h
    have h3 := Summation.signed hfl hu hs (s.map lg)
    rw [List.length_map] at h3
    have h3' : |((sum (s.map lg) : ℚ) : ℝ) - (((s.map lg).sum : ℚ) : ℝ)| ≤ ((1 + u : ℝ) ^ D s.length - 1) * ((((s.map lg).map abs).sum : ℚ) : ℝ) := by
      exact_mod_cast h3
    have one : (1 : ℝ) ≤ (1 + u : ℝ) ^ D s.length := one_le_pow₀ (by have : (0 : ℝ) ≤ u := by exact_mod_cast hu
                                                                     linarith)
    have h4 := mul_le_mul_of_nonneg_left h2 (sub_nonneg.2 one)
    have e : ((sum (s.map lg) : ℚ) : ℝ) - (s.map fun x : ℚ => Real.log x).sum =
        (((sum (s.map lg) : ℚ) : ℝ) - (((s.map lg).sum : ℚ) : ℝ)) + ((((s.map lg).sum : ℚ) : ℝ) - (s.map fun x : ℚ => Real.log x).sum) := by ring
    rw [e]
    refine (abs_add_le _ _).trans ?_
    nlinarith

/-- **C155.** The returned number is minus one half of the sum of the five terms, with four roundings of the sizes of the terms. -/
theorem C155_sum {fl : ℚ → ℚ} {u : ℚ} (hfl : Rounding fl u) (hu : 0 ≤ u) (p q r s t : ℚ) :
    |lnlikeSumF fl p q r s t - -(1 / 2) * (p + q + r + (s + t))| ≤ ((1 + u) ^ 4 - 1) * (|p| + |q| + |r| + (|s| + |t|)) / 2 := by
  have h := C117_sum_signed fl u hfl hu (.add (.add (.add (.leaf p) (.leaf q)) (.leaf r)) (.add (.leaf s) (.leaf t)))
  simp only [SumOrder.val, SumOrder.leaves, SumOrder.depth, List.map_append, List.sum_append, List.map_cons, List.map_nil, List.sum_cons,
    List.sum_nil, add_zero] at h
  norm_num at h
  unfold lnlikeSumF
  set S := fl (fl (fl (p + q) + r) + fl (s + t)) with hS
  set W := |p| + |q| + |r| + (|s| + |t|) with hW
  have g := hfl.rel (-(1 / 2) * S)
  rw [abs_mul, show |(-(1 / 2) : ℚ)| = 1 / 2 by norm_num] at g
  have sz : |p + q + r + (s + t)| ≤ W := by
    refine (abs_add_le _ _).trans (add_le_add ((abs_add_le _ _).trans (add_le_add (abs_add_le _ _) le_rfl)) (abs_add_le _ _))
  have tri : |S| ≤ W + ((1 + u) ^ 3 - 1) * W := by
    have := abs_sub_abs_le_abs_sub S (p + q + r + (s + t))
    linarith
  have e : fl (-(1 / 2) * S) - -(1 / 2) * (p + q + r + (s + t)) = (fl (-(1 / 2) * S) - -(1 / 2) * S) + -(1 / 2) * (S - (p + q + r + (s + t))) := by ring
  rw [e]
  refine (abs_add_le _ _).trans ?_
  rw [abs_mul, show |(-(1 / 2) : ℚ)| = 1 / 2 by norm_num]
  have k := mul_le_mul_of_nonneg_left tri hu
  have : (1 + u) ^ 4 = (1 + u) ^ 3 * (1 + u) := by ring
  rw [this]
  nlinarith

example : lnlikeSumF dbl 1 2 3 (-4) 5 = -(7 / 2) ∧ lnlikeSumF dbl (1 / 10) 2 3 (-4) 5 ≠ -(1 / 2) * (1 / 10 + 2 + 3 + (-4 + 5)) := by decide +kernel

/-- The sum of squares and the sizes of the logarithms: what the error of the likelihood is measured by. -/
noncomputable def likeSize (chiLow chiHigh sn : ℚ) (sLow sHigh : List ℚ) : ℝ :=
  chiLow + chiHigh + sn + ((sLow.map fun x : ℚ => |Real.log x|).sum + (sHigh.map fun x : ℚ => |Real.log x|).sum)

/-- The likelihood of C64 without rounding, from its sums of squares and uncertainties. -/
noncomputable def likeExact (chiLow chiHigh sn : ℚ) (sLow sHigh : List ℚ) : ℝ :=
  -(1 / 2) * (chiLow + chiHigh + sn + ((sLow.map fun x : ℚ => Real.log x).sum + (sHigh.map fun x : ℚ => Real.log x).sum))

theorem nldLnlikeF_parts (fl ex lg : ℚ → ℚ) (sum : List ℚ → ℚ) (close : ℚ → ℚ → Bool) (eLow vLow sLow eHigh vHigh sHigh : List ℚ)
    (discrete : Vec ℚ) (Sn nldSn stdSn T Eshift r : ℚ) :
    nldLnlikeF fl ex lg sum close eLow vLow sLow eHigh vHigh sHigh discrete Sn nldSn stdSn T Eshift = .ok r ↔
      ∃ errLow expected errHigh atSn errSn lnLow lnHigh,
        Vec.errorF fl sum close ⟨eLow, vLow, some sLow, "MeV"⟩ discrete none = .ok errLow ∧
        eHigh.mapM (constTemperatureF fl ex T Eshift) = .ok expected ∧
        Vec.errorF fl sum close ⟨eHigh, vHigh, some sHigh, "MeV"⟩ ⟨eHigh, expected, none, "MeV"⟩ none = .ok errHigh ∧
        constTemperatureF fl ex T Eshift Sn = .ok atSn ∧ errSnF fl nldSn stdSn atSn = .ok errSn ∧
        logStdsF lg sum sLow = .ok lnLow ∧ logStdsF lg sum sHigh = .ok lnHigh ∧ r = lnlikeSumF fl errLow errHigh errSn lnLow lnHigh := by
  have step : ∀ {α β : Type} (x : Except Err α) (f : α → Except Err β) (y : β), (x >>= f) = .ok y ↔ ∃ a, x = .ok a ∧ f a = .ok y := by
    intro α β x f y
    cases x with
    | error e => simp [bind, Except.bind]
    | ok a => simp [bind, Except.bind]
  unfold nldLnlikeF
  simp only [step]
  constructor
  · rintro ⟨a, ha, b, hb, c, hc, d, hd, e, he, f, hf, g, hg, h⟩
    exact ⟨a, b, c, d, e, f, g, ha, hb, hc, hd, he, hf, hg, (Except.ok.inj h).symm⟩
  · rintro ⟨a, b, c, d, e, f, g, ha, hb, hc, hd, he, hf, hg, h⟩
    exact ⟨a, ha, b, hb, c, hc, d, hd, e, he, f, hf, g, hg, by rw [h]; rfl⟩

theorem constTemperatureF_mapM {fl ex : ℚ → ℚ} {T : ℚ} (h : T ≠ 0) (Eshift : ℚ) (l : List ℚ) :
    l.mapM (constTemperatureF fl ex T Eshift) = .ok (l.map fun e => fl (ex (fl (fl (e - Eshift) / T)) / T)) := by
  induction l with
  | nil => rfl
  | cons a as ih =>
    rw [List.mapM_cons, ih]
    simp [constTemperatureF, h, bind, Except.bind, pure, Except.pure]

/-- **C155.** A number comes out exactly when the lower part has the bins of the known levels, the upper part is complete with bins that compare
equal to themselves, temperature and uncertainty at the separation energy are not 0, and all uncertainties are positive. -/
theorem C155_domain (fl ex lg : ℚ → ℚ) (sum : List ℚ → ℚ) (close : ℚ → ℚ → Bool) (eLow vLow sLow eHigh vHigh sHigh : List ℚ)
    (discrete : Vec ℚ) (Sn nldSn stdSn T Eshift : ℚ) :
    (∃ r, nldLnlikeF fl ex lg sum close eLow vLow sLow eHigh vHigh sHigh discrete Sn nldSn stdSn T Eshift = .ok r) ↔
      BinsAgree close ⟨eLow, vLow, some sLow, "MeV"⟩ discrete ∧ vHigh.length = eHigh.length ∧
        (∀ k < eHigh.length, close (eHigh.getD k 0) (eHigh.getD k 0) = true) ∧ T ≠ 0 ∧ stdSn ≠ 0 ∧ ∀ s ∈ sLow ++ sHigh, 0 < s := by
  have hE : ∀ (v w : Vec ℚ), (∃ x, v.errorF fl sum close w none = .ok x) ↔ BinsAgree close v w := by
    intro v w
    rw [← bins_iff]
    unfold Vec.errorF
    split_ifs with h
    · simp [h]
    · simp [h]
  have hL : ∀ s : List ℚ, (∃ x, logStdsF lg sum s = .ok x) ↔ ∀ x ∈ s, 0 < x := by
    intro s
    unfold logStdsF
    split_ifs with h
    · exact ⟨fun _ => h, fun _ => ⟨_, rfl⟩⟩
    · exact ⟨fun ⟨x, hx⟩ => (by cases hx), fun hc => absurd hc h⟩
  simp only [nldLnlikeF_parts]
  constructor
  · rintro ⟨r, a, b, c, d, e, f, g, ha, hb, hc, hd, he, hf, hg, h⟩
    have hT : T ≠ 0 := by
      intro h0
      rw [constTemperatureF, if_pos h0] at hd
      cases hd
    have hstd : stdSn ≠ 0 := by
      intro h0
      rw [errSnF, if_pos h0] at he
      cases he
    rw [constTemperatureF_mapM hT] at hb
    cases hb
    have h2 := (hE _ _).1 ⟨c, hc⟩
    refine ⟨(hE _ _).1 ⟨a, ha⟩, ?_, h2.2.2, hT, hstd, ?_⟩
    · have := h2.1
      simpa using this
    · intro s hs
      rcases List.mem_append.1 hs with h' | h'
      · exact (hL _).1 ⟨f, hf⟩ s h'
      · exact (hL _).1 ⟨g, hg⟩ s h'
  · rintro ⟨h1, h2, h3, hT, hstd, hs⟩
    obtain ⟨a, ha⟩ := (hE _ _).2 h1
    obtain ⟨c, hc⟩ := (hE ⟨eHigh, vHigh, some sHigh, "MeV"⟩
      ⟨eHigh, eHigh.map fun e => fl (ex (fl (fl (e - Eshift) / T)) / T), none, "MeV"⟩).2 ⟨by simpa using h2, rfl, h3⟩
    obtain ⟨f, hf⟩ := (hL sLow).2 fun s h => hs s (List.mem_append_left _ h)
    obtain ⟨g, hg⟩ := (hL sHigh).2 fun s h => hs s (List.mem_append_right _ h)
    exact ⟨_, a, _, c, _, _, f, g, ha, constTemperatureF_mapM hT _ _, hc, by rw [constTemperatureF, if_neg hT], by rw [errSnF, if_neg hstd], hf, hg, rfl⟩

/-- **C155.** The likelihood is the exact one of the computed model values, with an error relative to its size: the sums of squares plus the
absolute values of the logarithms.  `κ` bounds the errors of the sums. -/
theorem C155_lnlike {fl ex lg : ℚ → ℚ} {u a : ℚ} (hfl : Rounding fl u) (hu : 0 ≤ u) (hu1 : u < 1) (hlg : LogFun lg a) {D : ℕ → ℕ}
    {sum : List ℚ → ℚ} (hs : Summation fl D sum) (close : ℚ → ℚ → Bool) (eLow vLow sLow eHigh vHigh sHigh : List ℚ)
    (discrete : Vec ℚ) (Sn nldSn stdSn T Eshift : ℚ) {κ : ℝ}
    (k1 : ((1 / (1 - u) ^ (6 + D vLow.length) - 1 : ℚ) : ℝ) ≤ κ) (k2 : ((1 / (1 - u) ^ (6 + D vHigh.length) - 1 : ℚ) : ℝ) ≤ κ)
    (k3 : (1 + u : ℝ) ^ D sLow.length * (1 + a) - 1 ≤ κ) (k4 : (1 + u : ℝ) ^ D sHigh.length * (1 + a) - 1 ≤ κ)
    (r : ℚ) (h : nldLnlikeF fl ex lg sum close eLow vLow sLow eHigh vHigh sHigh discrete Sn nldSn stdSn T Eshift = .ok r) :
    ∃ (expected : List ℚ) (atSn : ℚ), eHigh.mapM (constTemperatureF fl ex T Eshift) = .ok expected ∧
      constTemperatureF fl ex T Eshift Sn = .ok atSn ∧
      |(r : ℝ) - likeExact ((List.range vLow.length).map (chiEntry vLow discrete.values (some sLow) none)).sum
          ((List.range vHigh.length).map (chiEntry vHigh expected (some sHigh) none)).sum (((nldSn - atSn) / stdSn) ^ 2) sLow sHigh| ≤
        ((1 + u) ^ 4 * (1 + κ) - 1) *
          likeSize ((List.range vLow.length).map (chiEntry vLow discrete.values (some sLow) none)).sum
            ((List.range vHigh.length).map (chiEntry vHigh expected (some sHigh) none)).sum (((nldSn - atSn) / stdSn) ^ 2) sLow sHigh / 2 := by
  have dom := (C155_domain fl ex lg sum close eLow vLow sLow eHigh vHigh sHigh discrete Sn nldSn stdSn T Eshift).1 ⟨r, h⟩
  obtain ⟨_, _, _, _, hstd, hpos⟩ := dom
  obtain ⟨el, expected, eh, atSn, es, ll, lh, h1, h2, h3, h4, h5, h6, h7, rfl⟩ := (nldLnlikeF_parts ..).1 h
  refine ⟨expected, atSn, h2, h4, ?_⟩
  have hu' : (0 : ℝ) ≤ u := by exact_mod_cast hu
  have chi : ∀ (e v s : List ℚ) (w : Vec ℚ) (x : ℚ), Vec.errorF fl sum close ⟨e, v, some s, "MeV"⟩ w none = .ok x →
      ((1 / (1 - u) ^ (6 + D v.length) - 1 : ℚ) : ℝ) ≤ κ →
      0 ≤ ((List.range v.length).map (chiEntry v w.values (some s) none)).sum ∧
      |(x : ℝ) - (((List.range v.length).map (chiEntry v w.values (some s) none)).sum : ℚ)| ≤
        κ * (((List.range v.length).map (chiEntry v w.values (some s) none)).sum : ℚ) := by
    intro e v s w x hx hk
    have c := C153_chi hfl hu hu1 hs close ⟨e, v, some s, "MeV"⟩ w none
    have hb : BinsAgree close ⟨e, v, some s, "MeV"⟩ w := by
      by_contra hn
      rw [c.1 hn] at hx
      cases hx
    obtain ⟨y, hy, hw⟩ := c.2 hb
    rw [hx] at hy
    cases hy
    have n0 : 0 ≤ ((List.range v.length).map (chiEntry v w.values (some s) none)).sum := by
      refine List.sum_nonneg ?_
      intro y hy
      obtain ⟨k, _, rfl⟩ := List.mem_map.1 hy
      exact chiEntry_nonneg _ _ _ _ _
    refine ⟨n0, ?_⟩
    have f := (Within.factor hu hu1 hw n0).abs_sub hu1
    rw [abs_of_nonneg n0] at f
    have hE : (1 / (1 - u) ^ (6 + D v.length) - 1 : ℚ) = excess u (6 + D v.length) := by unfold excess; rw [one_div]
    rw [hE] at hk
    have f' : |(x : ℝ) - (((List.range v.length).map (chiEntry v w.values (some s) none)).sum : ℚ)| ≤
        ((excess u (6 + D v.length) : ℚ) : ℝ) * (((List.range v.length).map (chiEntry v w.values (some s) none)).sum : ℚ) := by
      exact_mod_cast f
    exact f'.trans (mul_le_mul_of_nonneg_right hk (by exact_mod_cast n0))
  obtain ⟨n1, b1⟩ := chi _ _ _ _ _ h1 k1
  obtain ⟨n2, b2⟩ := chi _ _ _ _ _ h3 k2
  set X := ((List.range vLow.length).map (chiEntry vLow discrete.values (some sLow) none)).sum with hX
  set Y := ((List.range vHigh.length).map (chiEntry vHigh expected (some sHigh) none)).sum with hY
  set Z := ((nldSn - atSn) / stdSn) ^ 2 with hZ
  have n3 : 0 ≤ Z := sq_nonneg _
  have b3 : |(es : ℝ) - (Z : ℚ)| ≤ κ * (Z : ℚ) := by
    obtain ⟨x, hx, hb⟩ := (C155_sn hfl hu1 nldSn stdSn atSn).2 hstd
    rw [h5] at hx
    cases hx
    have p5 : (1 / (1 - u) ^ 5 - 1 : ℚ) ≤ 1 / (1 - u) ^ (6 + D vLow.length) - 1 := by
      have p := pow_pos (show (0 : ℚ) < 1 - u by linarith) (6 + D vLow.length)
      have q : (1 - u) ^ (6 + D vLow.length) ≤ (1 - u) ^ 5 := pow_le_pow_of_le_one (by linarith) (by linarith) (by omega)
      linarith [one_div_le_one_div_of_le p q]
    have p5' : (((1 / (1 - u) ^ 5 - 1 : ℚ)) : ℝ) ≤ κ := le_trans (by exact_mod_cast p5) k1
    have hb' : |(es : ℝ) - (Z : ℚ)| ≤ (((1 / (1 - u) ^ 5 - 1 : ℚ)) : ℝ) * (Z : ℚ) := by exact_mod_cast hb
    exact hb'.trans (mul_le_mul_of_nonneg_right p5' (by exact_mod_cast n3))
  have absl : ∀ s : List ℚ, 0 ≤ (s.map fun x : ℚ => |Real.log x|).sum ∧ |(s.map fun x : ℚ => Real.log x).sum| ≤ (s.map fun x : ℚ => |Real.log x|).sum := by
    intro s
    induction s with
    | nil => simp
    | cons x xs ih =>
      simp only [List.map_cons, List.sum_cons]
      exact ⟨by linarith [abs_nonneg (Real.log (x : ℝ)), ih.1], (abs_add_le _ _).trans (by linarith [ih.2])⟩
  have logs : ∀ (s : List ℚ) (x : ℚ), logStdsF lg sum s = .ok x → (∀ y ∈ s, 0 < y) → (1 + u : ℝ) ^ D s.length * (1 + a) - 1 ≤ κ →
      |(x : ℝ) - (s.map fun x : ℚ => Real.log x).sum| ≤ κ * (s.map fun x : ℚ => |Real.log x|).sum := by
    intro s x hx hp hk
    obtain ⟨y, hy, hb⟩ := (C155_logs hfl hu hlg hs s).2 hp
    rw [hx] at hy
    cases hy
    exact hb.trans (mul_le_mul_of_nonneg_right hk (absl s).1)
  have b4 := logs _ _ h6 (fun s h' => hpos s (List.mem_append_left _ h')) k3
  have b5 := logs _ _ h7 (fun s h' => hpos s (List.mem_append_right _ h')) k4
  have l1 := absl sLow
  have l2 := absl sHigh
  unfold likeExact likeSize
  set P := (sLow.map fun x : ℚ => Real.log x).sum
  set Q := (sHigh.map fun x : ℚ => Real.log x).sum
  set P' := (sLow.map fun x : ℚ => |Real.log x|).sum
  set Q' := (sHigh.map fun x : ℚ => |Real.log x|).sum
  have n1' : (0 : ℝ) ≤ X := by exact_mod_cast n1
  have n2' : (0 : ℝ) ≤ Y := by exact_mod_cast n2
  have n3' : (0 : ℝ) ≤ Z := by exact_mod_cast n3
  have main := C155_sum hfl hu el eh es ll lh
  have main' : |((lnlikeSumF fl el eh es ll lh : ℚ) : ℝ) - -(1 / 2) * ((el : ℝ) + eh + es + (ll + lh))| ≤
      ((1 + u : ℝ) ^ 4 - 1) * (|(el : ℝ)| + |(eh : ℝ)| + |(es : ℝ)| + (|(ll : ℝ)| + |(lh : ℝ)|)) / 2 := by
    have := (Rat.cast_le (K := ℝ)).2 main
    push_cast at this
    exact this
  have c1 : |(el : ℝ)| ≤ (1 + κ) * X := by have := abs_sub_abs_le_abs_sub (el : ℝ) X; rw [abs_of_nonneg n1'] at this; linarith
  have c2 : |(eh : ℝ)| ≤ (1 + κ) * Y := by have := abs_sub_abs_le_abs_sub (eh : ℝ) Y; rw [abs_of_nonneg n2'] at this; linarith
  have c3 : |(es : ℝ)| ≤ (1 + κ) * Z := by have := abs_sub_abs_le_abs_sub (es : ℝ) Z; rw [abs_of_nonneg n3'] at this; linarith
  have c4 : |(ll : ℝ)| ≤ (1 + κ) * P' := by have := abs_sub_abs_le_abs_sub (ll : ℝ) P; linarith [l1.2]
  have c5 : |(lh : ℝ)| ≤ (1 + κ) * Q' := by have := abs_sub_abs_le_abs_sub (lh : ℝ) Q; linarith [l2.2]
  have c : |(el : ℝ)| + |(eh : ℝ)| + |(es : ℝ)| + (|(ll : ℝ)| + |(lh : ℝ)|) ≤ (1 + κ) * ((X : ℝ) + Y + Z + (P' + Q')) := by linarith
  have one : (1 : ℝ) ≤ (1 + u : ℝ) ^ 4 := one_le_pow₀ (by linarith)
  have c' := mul_le_mul_of_nonneg_left c (sub_nonneg.2 one)
  have d : |((el : ℝ) + eh + es + (ll + lh)) - ((X : ℝ) + Y + Z + (P + Q))| ≤ κ * ((X : ℝ) + Y + Z + (P' + Q')) := by
    rw [abs_le] at b1 b2 b3 b4 b5 ⊢
    constructor <;> linarith [b1.1, b1.2, b2.1, b2.2, b3.1, b3.2, b4.1, b4.2, b5.1, b5.2]
  rw [abs_le] at main' d ⊢
  constructor <;> linarith [main'.1, main'.2, d.1, d.2]

/-- **C155.** In doubles, with numpy's sums and a logarithm right to two roundings, spectra with less than `2^21` bins: the likelihood is right to
`29/2^53` of its size. -/
theorem C155_double {ex lg : ℚ → ℚ} (hlg : LogFun lg (2 / 2 ^ 53)) (close : ℚ → ℚ → Bool) (eLow vLow sLow eHigh vHigh sHigh : List ℚ)
    (discrete : Vec ℚ) (Sn nldSn stdSn T Eshift : ℚ) (m1 : vLow.length < 2 ^ 21) (m2 : vHigh.length < 2 ^ 21)
    (m3 : sLow.length = vLow.length) (m4 : sHigh.length = vHigh.length)
    (r : ℚ) (h : nldLnlikeF dbl ex lg (npSum dbl) close eLow vLow sLow eHigh vHigh sHigh discrete Sn nldSn stdSn T Eshift = .ok r) :
    ∃ (expected : List ℚ) (atSn : ℚ), eHigh.mapM (constTemperatureF dbl ex T Eshift) = .ok expected ∧
      constTemperatureF dbl ex T Eshift Sn = .ok atSn ∧
      |(r : ℝ) - likeExact ((List.range vLow.length).map (chiEntry vLow discrete.values (some sLow) none)).sum
          ((List.range vHigh.length).map (chiEntry vHigh expected (some sHigh) none)).sum (((nldSn - atSn) / stdSn) ^ 2) sLow sHigh| ≤
        29 / 2 ^ 53 *
          likeSize ((List.range vLow.length).map (chiEntry vLow discrete.values (some sLow) none)).sum
            ((List.range vHigh.length).map (chiEntry vHigh expected (some sHigh) none)).sum (((nldSn - atSn) / stdSn) ^ 2) sLow sHigh := by
  have lb : ∀ n : ℕ, n < 2 ^ 21 → 26 + Nat.log 2 n ≤ 46 := by
    intro n hn
    have := Nat.log_lt_of_lt_pow' (b := 2) (x := 21) (by norm_num) hn
    omega
  have c1 : ∀ n : ℕ, n < 2 ^ 21 → ((1 / (1 - 1 / 2 ^ 53) ^ (6 + (26 + Nat.log 2 n)) - 1 : ℚ) : ℝ) ≤ 53 / 2 ^ 53 := by
    intro n hn
    have p : (1 / (1 - 1 / 2 ^ 53) ^ (6 + (26 + Nat.log 2 n)) : ℚ) ≤ 1 / (1 - 1 / 2 ^ 53) ^ 52 :=
      one_div_le_one_div_of_le (by norm_num) (pow_le_pow_of_le_one (by norm_num) (by norm_num) (by have := lb n hn; omega))
    have q : (1 / (1 - 1 / 2 ^ 53) ^ 52 : ℚ) ≤ 1 + 53 / 2 ^ 53 := by norm_num
    have : (1 / (1 - 1 / 2 ^ 53) ^ (6 + (26 + Nat.log 2 n)) - 1 : ℚ) ≤ 53 / 2 ^ 53 := by linarith
    have := (Rat.cast_le (K := ℝ)).2 this
    refine this.trans ?_
    norm_num
  have c2 : ∀ n : ℕ, n < 2 ^ 21 → (1 + ((1 / 2 ^ 53 : ℚ) : ℝ)) ^ (26 + Nat.log 2 n) * (1 + ((2 / 2 ^ 53 : ℚ) : ℝ)) - 1 ≤ 53 / 2 ^ 53 := by
    intro n hn
    have p : (1 + ((1 / 2 ^ 53 : ℚ) : ℝ)) ^ (26 + Nat.log 2 n) ≤ (1 + ((1 / 2 ^ 53 : ℚ) : ℝ)) ^ 46 :=
      pow_le_pow_right₀ (by norm_num) (lb n hn)
    have q : (1 + ((1 / 2 ^ 53 : ℚ) : ℝ)) ^ 46 ≤ 1 + 47 / 2 ^ 53 := by norm_num
    have q' := p.trans q
    have := mul_le_mul_of_nonneg_right q' (show (0 : ℝ) ≤ 1 + ((2 / 2 ^ 53 : ℚ) : ℝ) by norm_num)
    refine (sub_le_sub_right this 1).trans ?_
    norm_num
  obtain ⟨e, s, h1, h2, h3⟩ := C155_lnlike dbl_rounding (by norm_num) (by norm_num) hlg (C117_numpy dbl) close eLow vLow sLow eHigh vHigh
    sHigh discrete Sn nldSn stdSn T Eshift (κ := 53 / 2 ^ 53) (c1 _ m1) (c1 _ m2) (c2 _ (m3 ▸ m1)) (c2 _ (m4 ▸ m2)) r h
  refine ⟨e, s, h1, h2, h3.trans ?_⟩
  rw [mul_div_right_comm]
  refine mul_le_mul_of_nonneg_right (by norm_num) ?_
  have z1 : ∀ v w s : List ℚ, (0 : ℝ) ≤ (((List.range v.length).map (chiEntry v w (some s) none)).sum : ℚ) := by
    intro v w s
    have : 0 ≤ ((List.range v.length).map (chiEntry v w (some s) none)).sum := by
      refine List.sum_nonneg ?_
      intro y hy
      obtain ⟨k, _, rfl⟩ := List.mem_map.1 hy
      exact chiEntry_nonneg _ _ _ _ _
    exact_mod_cast this
  have z2 : ∀ s : List ℚ, 0 ≤ (s.map fun x : ℚ => |Real.log x|).sum := by
    intro s
    refine List.sum_nonneg ?_
    intro y hy
    obtain ⟨k, _, rfl⟩ := List.mem_map.1 hy
    exact abs_nonneg _
  have z3 : (0 : ℝ) ≤ ((((nldSn - s) / stdSn) ^ 2 : ℚ) : ℝ) := by exact_mod_cast sq_nonneg ((nldSn - s) / stdSn)
  unfold likeSize
  linarith [z1 vLow discrete.values sLow, z1 vHigh e sHigh, z2 sLow, z2 sHigh]

/-- Functions that stand in for the exponential function and the logarithm in the example. -/
example : (∃ lg, LogFun lg (2 / 2 ^ 53)) ∧
    nldLnlikeF dbl (fun q => q + 1) (fun q => q - 1) (npSum dbl) (fun a b => decide (a = b)) [1, 2] [3, 5] [1, 2] [4, 6] [1, 2] [1, 1 / 2]
      ⟨[1, 2], [2, 7], none, "MeV"⟩ 8 3 (1 / 2) 2 2 = .ok (-(15 / 4)) ∧
    nldLnlikeF dbl (fun q => q + 1) (fun q => q - 1) (npSum dbl) (fun a b => decide (a = b)) [1, 2] [3, 5] [1, 2] [4, 6] [1, 2] [1, 0]
      ⟨[1, 2], [2, 7], none, "MeV"⟩ 8 3 (1 / 2) 2 2 = .error .undefined := by
  refine ⟨logFun_exists _ (by norm_num), ?_, ?_⟩ <;> decide +kernel

theorem errorF_id (close : ℚ → ℚ → Bool) (v w : Vec ℚ) (h : BinsAgree close v w) :
    v.errorF id List.sum close w none = .ok ((List.range v.values.length).map (chiEntry v.values w.values v.std none)).sum := by
  unfold Vec.errorF
  rw [if_pos ((bins_iff close v w).2 h)]
  congr 1
  congr 1
  refine List.map_congr_left fun k _ => ?_
  have hid : Rounding id 0 := ⟨fun a b h => h, fun x => by simp⟩
  have := chiTermF_within hid le_rfl (by norm_num) v.values w.values v.std none k
  simp only [Within, sub_zero, one_pow, one_mul] at this
  exact le_antisymm this.2 this.1

/-- **C155.** `likeExact` is the likelihood of the model of C64, when the transformed level densities and the model values are the given numbers. -/
theorem C155_exact (close : ℚ → ℚ → Bool) (a : NldArgs) (A alpha T Eshift : ℝ) (low high discrete : Vec ℚ) (sLow sHigh expected : List ℚ)
    (nldSn stdSn atSn : ℚ) (h1 : a.low.transform (fun q : ℚ => (q : ℝ)) Real.exp A alpha = low.real)
    (h2 : a.high.transform (fun q : ℚ => (q : ℝ)) Real.exp A alpha = high.real) (h3 : a.discrete = discrete.real)
    (hl : low.std = some sLow) (hh : high.std = some sHigh) (ll : sLow.length = low.values.length) (lh : sHigh.length = high.values.length)
    (h4 : (high.E.mapM fun e => a.model e T Eshift) = .ok (expected.map fun q : ℚ => (q : ℝ))) (h5 : a.model a.Sn T Eshift = .ok (atSn : ℝ))
    (h6 : a.nldSn = ((nldSn : ℝ), (stdSn : ℝ))) (h7 : stdSn ≠ 0) (hp : ∀ s ∈ sLow ++ sHigh, 0 < s)
    (b1 : BinsAgree close low discrete) (b2 : BinsAgree close high ⟨high.E, expected, none, "keV"⟩) :
    nldLnlike close a A alpha T Eshift = .ok
      (likeExact ((List.range low.values.length).map (chiEntry low.values discrete.values (some sLow) none)).sum
        ((List.range high.values.length).map (chiEntry high.values expected (some sHigh) none)).sum (((nldSn - atSn) / stdSn) ^ 2) sLow sHigh) := by
  have e1 : low.real.error close discrete.real none =
      .ok ((((List.range low.values.length).map (chiEntry low.values discrete.values (some sLow) none)).sum : ℚ) : ℝ) := by
    have := C153_exact close low discrete none (fun s hs => by rw [hl] at hs; cases hs; exact ll) (fun s hs => by cases hs)
    rw [errorF_id close low discrete b1, hl] at this
    simpa [Except.map] using this
  have e2 : high.real.error close ⟨high.real.E, expected.map fun q : ℚ => (q : ℝ), none, "keV"⟩ none =
      .ok ((((List.range high.values.length).map (chiEntry high.values expected (some sHigh) none)).sum : ℚ) : ℝ) := by
    have := C153_exact close high ⟨high.E, expected, none, "keV"⟩ none (fun s hs => by rw [hh] at hs; cases hs; exact lh) (fun s hs => by cases hs)
    rw [errorF_id close high _ b2, hh] at this
    simpa [Except.map, Vec.real, Vec.real.toReal] using this
  have lg : ∀ s : List ℚ, (∀ x ∈ s, 0 < x) → logStds (some (s.map fun q : ℚ => (q : ℝ))) = .ok (s.map fun x : ℚ => Real.log x).sum := by
    intro s hs
    unfold logStds
    dsimp only
    rw [if_pos]
    · rw [List.map_map]; rfl
    · intro x hx
      obtain ⟨y, hy, rfl⟩ := List.mem_map.1 hx
      exact_mod_cast hs y hy
  have g1 : low.real.std = some (sLow.map fun q : ℚ => (q : ℝ)) := by simp [Vec.real, Vec.real.toReal, hl]
  have g2 : high.real.std = some (sHigh.map fun q : ℚ => (q : ℝ)) := by simp [Vec.real, Vec.real.toReal, hh]
  have g3 : high.real.E = high.E := rfl
  have st : (stdSn : ℝ) ≠ 0 := by exact_mod_cast h7
  unfold nldLnlike
  simp only [h1, h2, h3, e1, g3, h4, h5, h6, g1, g2]
  rw [g3] at e2
  simp only [bind, Except.bind, e2, if_neg st, lg sLow (fun s h => hp s (List.mem_append_left _ h)),
    lg sHigh (fun s h => hp s (List.mem_append_right _ h)), pure, Except.pure]
  unfold likeExact
  push_cast
  rfl

/-- The hypotheses can be met: no change by the transformation, and a model with rational values. -/
example : ∃ a : NldArgs, nldLnlike (fun p q => decide (p = q)) a 1 0 2 0 = .ok (likeExact 1 4 9 [2] [1]) := by
  let low : Vec ℚ := ⟨[1], [3], some [2], "MeV"⟩
  let high : Vec ℚ := ⟨[4], [5], some [1], "MeV"⟩
  let known : Vec ℚ := ⟨[1], [1], none, "MeV"⟩
  refine ⟨⟨low.real, high.real, known.real, fun e _ _ => .ok ((e : ℝ) - 1), 7, ((9 : ℚ), (1 : ℚ))⟩, ?_⟩
  have h := C155_exact (fun p q => decide (p = q))
    ⟨low.real, high.real, known.real, fun e _ _ => .ok ((e : ℝ) - 1), 7, ((9 : ℚ), (1 : ℚ))⟩ 1 0 2 0 low high known [2] [1] [3] 9 1 6
    (by simp [low, Vec.transform, Vec.real, Vec.real.toReal]) (by simp [high, Vec.transform, Vec.real, Vec.real.toReal]) rfl rfl rfl rfl rfl
    (by simp [high, bind, Except.bind, pure, Except.pure]; norm_num) (by norm_num) (by norm_num) (by norm_num) (by decide)
    ⟨rfl, rfl, by decide +kernel⟩ ⟨rfl, rfl, by decide +kernel⟩
  have v1 : ((List.range low.values.length).map (chiEntry low.values known.values (some [2]) none)).sum = 1 := by decide +kernel
  have v2 : ((List.range high.values.length).map (chiEntry high.values [3] (some [1]) none)).sum = 4 := by decide +kernel
  rw [h, v1, v2]
  norm_num

end Ompy
