import Verif.Spin

/-!
# Spin distribution, D0 conversion and the spin sum (C46, C47, C62)
-/

namespace Ompy

/-! ## D0 and the level density at Sn -/

/-- The spin distribution as published: `g(J) = (2J+1)/(2σ²) exp(-(J+1/2)²/(2σ²))`. -/
noncomputable def gSpec (s J : ℝ) : ℝ := (2 * J + 1) / (2 * s) * Real.exp (-(J + 1 / 2) ^ 2 / (2 * s))

theorem spinDist_eq {s : ℝ} (h : s ≠ 0) (J : ℝ) : spinDist s J = .ok (gSpec s J) := by
  unfold spinDist gSpec
  rw [if_neg (by simpa using h)]

theorem gSpec_pos {s J : ℝ} (h : 0 < s) (hJ : -1 / 2 < J) : 0 < gSpec s J := by
  unfold gSpec
  have : 0 < 2 * J + 1 := by linarith
  positivity

theorem gSpec_minus_half (s : ℝ) : gSpec s (-(1 / 2)) = 0 := by
  unfold gSpec
  norm_num

/-- `summe` is the mean of the two spin values, in both branches. -/
theorem spinHalfSum_eq (model : String) (pars : SPars) (intEx : Bool) (Sn s Jt : ℝ)
    (hs : getSigma2 model pars intEx Sn = .ok s) (hpos : 0 < s) :
    spinHalfSum (fun J => distribution model pars intEx Sn J) Jt =
      .ok ((gSpec s (Jt - 1 / 2) + gSpec s (Jt + 1 / 2)) / 2) := by
  have hd : ∀ J, distribution model pars intEx Sn J = .ok (gSpec s J) := by
    intro J
    unfold distribution
    rw [hs]
    exact spinDist_eq hpos.ne' J
  unfold spinHalfSum
  by_cases h : Jt = 0
  · subst h
    rw [if_pos rfl, zero_sub, gSpec_minus_half]
    simp only [hd, bind, Except.bind, pure, Except.pure]
    congr 1
    ring
  · rw [if_neg h]
    simp only [hd, bind, Except.bind, pure, Except.pure]
    congr 1
    ring

theorem spinHalf_pos {s Jt : ℝ} (hpos : 0 < s) (hJ : 0 ≤ Jt) :
    0 < (gSpec s (Jt - 1 / 2) + gSpec s (Jt + 1 / 2)) / 2 := by
  have h1 : 0 < gSpec s (Jt + 1 / 2) := gSpec_pos hpos (by linarith)
  have h2 : 0 ≤ gSpec s (Jt - 1 / 2) := by
    rcases hJ.lt_or_eq with h | h
    · exact (gSpec_pos hpos (by linarith)).le
    · rw [← h, zero_sub, gSpec_minus_half]
  linarith

/-- C46: the level density from D0 is positive and satisfies `1/D0 = nld (g(J-1/2) + g(J+1/2))/2` with
D0 converted from eV to MeV; for target spin 0 the term of spin -1/2 vanishes. -/
theorem C46_relation (model : String) (pars : SPars) (intEx : Bool) (Sn s D0 Jt : ℝ)
    (hs : getSigma2 model pars intEx Sn = .ok s) (hpos : 0 < s) (hJ : 0 ≤ Jt) (hD : 0 < D0) :
    ∃ nld, nldSnFromD0 (fun J => distribution model pars intEx Sn J) D0 Jt = .ok nld ∧ 0 < nld ∧
      1 / (D0 / 10 ^ 6) = nld * ((gSpec s (Jt - 1 / 2) + gSpec s (Jt + 1 / 2)) / 2) := by
  have hp := spinHalf_pos hpos hJ
  set S := (gSpec s (Jt - 1 / 2) + gSpec s (Jt + 1 / 2)) / 2
  refine ⟨1 / (S * D0 * (1 / 1000000)), ?_, by positivity, by field_simp; norm_num⟩
  unfold nldSnFromD0
  rw [spinHalfSum_eq model pars intEx Sn s Jt hs hpos]
  simp only [bind, Except.bind, recip]
  rw [if_neg (by positivity)]

/-- C46: the two conversions are inverse to each other. -/
theorem C46_inverse (model : String) (pars : SPars) (intEx : Bool) (Sn s Jt x : ℝ)
    (hs : getSigma2 model pars intEx Sn = .ok s) (hpos : 0 < s) (hJ : 0 ≤ Jt) (hx : 0 < x) :
    (∃ nld, nldSnFromD0 (fun J => distribution model pars intEx Sn J) x Jt = .ok nld ∧ 0 < nld ∧
      D0FromNldSn (fun J => distribution model pars intEx Sn J) nld Jt = .ok x) ∧
    (∃ D0, D0FromNldSn (fun J => distribution model pars intEx Sn J) x Jt = .ok D0 ∧ 0 < D0 ∧
      nldSnFromD0 (fun J => distribution model pars intEx Sn J) D0 Jt = .ok x) := by
  have hp := spinHalf_pos hpos hJ
  have key : ∀ y : ℝ, 0 < y → ∀ S : ℝ, 0 < S → recip (S * y * (1 / 1000000)) =
      .ok (1 / (S * y * (1 / 1000000))) := by
    intro y hy S hS
    unfold recip
    rw [if_neg (by positivity)]
  unfold nldSnFromD0 D0FromNldSn
  rw [spinHalfSum_eq model pars intEx Sn s Jt hs hpos]
  simp only [bind, Except.bind]
  set S := (gSpec s (Jt - 1 / 2) + gSpec s (Jt + 1 / 2)) / 2
  have hv : 0 < 1 / (S * x * (1 / 1000000)) := by positivity
  have hb : 1 / (S * (1 / (S * x * (1 / 1000000))) * (1 / 1000000)) = x := by field_simp
  constructor
  · exact ⟨_, key x hx S hp, hv, by rw [key _ hv S hp, hb]⟩
  · exact ⟨_, key x hx S hp, hv, by rw [key _ hv S hp, hb]⟩

/-- C46: the conversion is strictly decreasing: a smaller spacing is a larger density. -/
theorem C46_monotone (model : String) (pars : SPars) (intEx : Bool) (Sn s Jt x y : ℝ)
    (hs : getSigma2 model pars intEx Sn = .ok s) (hpos : 0 < s) (hJ : 0 ≤ Jt) (hx : 0 < x) (hxy : x < y)
    (a b : ℝ) (ha : nldSnFromD0 (fun J => distribution model pars intEx Sn J) x Jt = .ok a)
    (hb : nldSnFromD0 (fun J => distribution model pars intEx Sn J) y Jt = .ok b) : b < a := by
  have hp := spinHalf_pos hpos hJ
  unfold nldSnFromD0 at ha hb
  rw [spinHalfSum_eq model pars intEx Sn s Jt hs hpos] at ha hb
  simp only [bind, Except.bind] at ha hb
  set S := (gSpec s (Jt - 1 / 2) + gSpec s (Jt + 1 / 2)) / 2
  unfold recip at ha hb
  split_ifs at ha hb
  injection ha with ha
  injection hb with hb
  rw [← ha, ← hb]
  apply one_div_lt_one_div_of_lt (by positivity)
  have : S * x < S * y := by nlinarith
  nlinarith

/-- Parameters of the constant spin-cut. -/
def constPars (x : ℝ) : SPars := fun n => if n = "sigma" then some (.num x) else none

/-- The hypotheses of C46 can be met. -/
example : getSigma2 "const" (constPars 3) false 7 = .ok 9 ∧ (0 : ℝ) < 9 := by
  refine ⟨?_, by norm_num⟩
  simp [getSigma2, hasAll, constPars, SPars.num, gconst, bind, Except.bind, pure, Except.pure]
  norm_num

/-! ## The spin-cut models -/

theorem eeff_nonneg (e : ℝ) : 0 ≤ eeff e := by
  unfold eeff
  split_ifs with h
  · exact le_rfl
  · exact not_lt.1 h

theorem gEB05_pos {mass NLDa : ℝ} (hm : 0 < mass) (ha : 0 < NLDa) (Eshift Ex : ℝ) :
    ∃ s, gEB05 mass NLDa Eshift Ex = .ok s ∧ 0 < s := by
  unfold gEB05
  have h1 := eeff_nonneg (Ex - Eshift)
  have h2 : 0 ≤ 1 + 4 * NLDa * eeff (Ex - Eshift) := by positivity
  rw [if_neg (by
    push Not
    exact ⟨by positivity, h2⟩)]
  refine ⟨_, rfl, ?_⟩
  have := Real.sqrt_nonneg (1 + 4 * NLDa * eeff (Ex - Eshift))
  have hp : 0 < mass ^ ((5 : ℝ) / 3) := Real.rpow_pos_of_pos hm _
  have h3 : 0 < 1 + Real.sqrt (1 + 4 * NLDa * eeff (Ex - Eshift)) := by linarith
  positivity

/-- C62: the spin-cut of EB05 does not decrease with energy. -/
theorem C62_EB05_monotone (mass NLDa Eshift E1 E2 s1 s2 : ℝ) (hm : 0 < mass) (ha : 0 < NLDa)
    (hE : E1 ≤ E2) (h1 : gEB05 mass NLDa Eshift E1 = .ok s1) (h2 : gEB05 mass NLDa Eshift E2 = .ok s2) :
    s1 ≤ s2 := by
  unfold gEB05 at h1 h2
  split_ifs at h1 h2
  injection h1 with h1
  injection h2 with h2
  rw [← h1, ← h2]
  have he : eeff (E1 - Eshift) ≤ eeff (E2 - Eshift) := by
    unfold eeff
    split_ifs <;> linarith
  have hs : Real.sqrt (1 + 4 * NLDa * eeff (E1 - Eshift)) ≤
      Real.sqrt (1 + 4 * NLDa * eeff (E2 - Eshift)) := by
    apply Real.sqrt_le_sqrt
    nlinarith
  have hp : 0 < mass ^ ((5 : ℝ) / 3) := Real.rpow_pos_of_pos hm _
  gcongr

/-- Linear interpolation between two points stays between them and keeps the end values outside. -/
theorem interpTwo_between {x0 y0 x1 y1 x : ℝ} (h : x0 < x1) :
    ∃ s, interpTwo x0 y0 x1 y1 y0 y1 x = .ok s ∧ min y0 y1 ≤ s ∧ s ≤ max y0 y1 ∧
      (x ≤ x0 → s = y0) ∧ (x1 ≤ x → s = y1) := by
  unfold interpTwo
  simp only [min_eq_left h.le, max_eq_right h.le]
  by_cases h1 : x < x0
  · rw [if_pos h1]
    exact ⟨y0, rfl, min_le_left _ _, le_max_left _ _, fun _ => rfl, fun h2 => by linarith⟩
  · rw [if_neg h1]
    by_cases h2 : x1 < x
    · rw [if_pos h2]
      exact ⟨y1, rfl, min_le_right _ _, le_max_right _ _, fun h3 => by linarith, fun _ => rfl⟩
    · rw [if_neg h2, if_neg h.ne]
      push Not at h1 h2
      have hd : 0 < x1 - x0 := by linarith
      set t := (x - x0) / (x1 - x0) with ht
      have ht0 : 0 ≤ t := div_nonneg (by linarith) hd.le
      have ht1 : t ≤ 1 := by rw [ht, div_le_one hd]; linarith
      have hv : y0 + (y1 - y0) / (x1 - x0) * (x - x0) = y0 + (y1 - y0) * t := by
        rw [ht]; field_simp
      rw [hv]
      refine ⟨_, rfl, ?_, ?_, ?_, ?_⟩
      · rcases le_total y0 y1 with hy | hy
        · rw [min_eq_left hy]; nlinarith
        · rw [min_eq_right hy]; nlinarith
      · rcases le_total y0 y1 with hy | hy
        · rw [max_eq_right hy]; nlinarith
        · rw [max_eq_left hy]; nlinarith
      · intro h3
        have : x = x0 := le_antisymm h3 h1
        rw [ht, this]; simp
      · intro h3
        have : x = x1 := le_antisymm h2 h3
        rw [ht, this, div_self hd.ne']; ring

/-- C62: the interpolated spin-cut lies between the two given values, is the discrete one below the
discrete energy and the one at Sn from there on. -/
theorem C62_disc_sigmaSn (disc sn : ℝ × ℝ) (h : disc.1 < sn.1) (hd : 0 < disc.2) (hs : 0 < sn.2) (Ex : ℝ) :
    ∃ s, gDiscSn disc sn Ex = .ok s ∧ 0 < s ∧ min disc.2 sn.2 ≤ s ∧ s ≤ max disc.2 sn.2 ∧
      (Ex ≤ disc.1 → s = disc.2) ∧ (sn.1 ≤ Ex → s = sn.2) := by
  obtain ⟨s, h1, h2, h3, h4, h5⟩ := interpTwo_between (y0 := disc.2) (y1 := sn.2) (x := Ex) h
  exact ⟨s, h1, lt_of_lt_of_le (lt_min hd hs) h2, h2, h3, h4, h5⟩

/-- C62: with the discrete value below Sn and EB05 above, the spin-cut is positive, and at Sn the two
pieces have the same value. -/
theorem C62_disc_EB05 (mass NLDa Eshift Sn : ℝ) (disc : ℝ × ℝ) (hm : 0 < mass) (ha : 0 < NLDa)
    (h : disc.1 < Sn) (hd : 0 < disc.2) (Ex : ℝ) :
    ∃ sSn s, gEB05 mass NLDa Eshift Sn = .ok sSn ∧ gDiscEB05 mass NLDa Eshift Sn disc Ex = .ok s ∧
      0 < s ∧ (Ex ≤ disc.1 → s = disc.2) ∧ (Ex = Sn → s = sSn) ∧
      (Ex ≤ Sn → min disc.2 sSn ≤ s ∧ s ≤ max disc.2 sSn) ∧
      (Sn ≤ Ex → gEB05 mass NLDa Eshift Ex = .ok s) ∧
      ∃ left, interpTwo disc.1 disc.2 Sn sSn disc.2 sSn Sn = .ok left ∧ left = sSn := by
  obtain ⟨sSn, g1, g2⟩ := gEB05_pos hm ha Eshift Sn
  obtain ⟨e, e1, e2⟩ := gEB05_pos hm ha Eshift Ex
  obtain ⟨t, t1, t2, t3, t4, t5⟩ := interpTwo_between (y0 := disc.2) (y1 := sSn) (x := Ex) h
  obtain ⟨t', t1', -, -, -, t5'⟩ := interpTwo_between (y0 := disc.2) (y1 := sSn) (x := Sn) h
  refine ⟨sSn, if Ex < Sn then t else e, g1, ?_, ?_, ?_, ?_, ?_, ?_, t', t1', t5' le_rfl⟩
  · unfold gDiscEB05
    simp only [bind, Except.bind, pure, Except.pure]
    rw [g1]
    simp only
    rw [t1]
    simp only
    rw [e1]
  · split_ifs
    · exact lt_of_lt_of_le (lt_min hd g2) t2
    · exact e2
  · intro hE
    rw [if_pos (by linarith)]
    exact t4 hE
  · intro hE
    rw [if_neg (by linarith)]
    rw [hE, g1] at e1
    injection e1 with e1
    exact e1.symm
  · intro hE
    rcases hE.lt_or_eq with hE | hE
    · rw [if_pos hE]; exact ⟨t2, t3⟩
    · rw [if_neg (by linarith)]
      rw [hE, g1] at e1
      injection e1 with e1
      rw [← e1]
      exact ⟨min_le_right _ _, le_max_right _ _⟩
  · intro hE
    rw [if_neg (by linarith)]
    exact e1

/-- C62: every model with positive parameters gives a positive spin-cut, for the empirical formula
only above half the pairing energy. -/
theorem C62_positive_partial (model : String) (pars : SPars) (Ex : ℝ)
    (h : (model = "const" ∧ ∃ x, pars "sigma" = some (.num x) ∧ 0 < x) ∨
      (model = "EB05" ∧ ∃ m a e, pars "mass" = some (.num m) ∧ pars "NLDa" = some (.num a) ∧
        pars "Eshift" = some (.num e) ∧ 0 < m ∧ 0 < a) ∨
      (model = "EB09_CT" ∧ ∃ m, pars "mass" = some (.num m) ∧ 0 < m) ∨
      (model = "EB09_emp" ∧ ∃ m p, pars "mass" = some (.num m) ∧ pars "Pa_prime" = some (.num p) ∧
        0 < m ∧ p / 2 < Ex)) :
    ∃ s, getSigma2 model pars false Ex = .ok s ∧ 0 < s := by
  rcases h with ⟨rfl, x, h1, h2⟩ | ⟨rfl, m, a, e, h1, h2, h3, h4, h5⟩ | ⟨rfl, m, h1, h2⟩ |
    ⟨rfl, m, p, h1, h2, h3, h4⟩
  · refine ⟨x ^ 2, ?_, by positivity⟩
    simp [getSigma2, hasAll, SPars.num, gconst, bind, Except.bind, pure, Except.pure, h1]
  · obtain ⟨s, s1, s2⟩ := gEB05_pos h4 h5 e Ex
    refine ⟨s, ?_, s2⟩
    simp [getSigma2, hasAll, SPars.num, bind, Except.bind, h1, h2, h3, s1]
  · refine ⟨gEB09CT m, ?_, ?_⟩
    · simp [getSigma2, hasAll, SPars.num, bind, Except.bind, pure, Except.pure, h1]
    · unfold gEB09CT
      have := Real.rpow_pos_of_pos h2 ((29 : ℝ) / 100)
      positivity
  · refine ⟨gEB09emp m p Ex, ?_, ?_⟩
    · simp [getSigma2, hasAll, SPars.num, bind, Except.bind, pure, Except.pure, h1, h2]
    · unfold gEB09emp
      have h5 := Real.rpow_pos_of_pos h3 ((675 : ℝ) / 1000)
      have h6 : 0 < eeff (Ex - 1 / 2 * p) := by
        unfold eeff
        rw [if_neg (by linarith)]
        linarith
      have h7 := Real.rpow_pos_of_pos h6 ((312 : ℝ) / 1000)
      positivity

/-- C62 fails for the empirical formula: at or below half the pairing energy the spin-cut is 0, and the
distribution divides by it for every spin. -/
theorem C62_emp_fails (mass Pa Ex J : ℝ) (h : Ex ≤ Pa / 2) (pars : SPars)
    (h1 : pars "mass" = some (.num mass)) (h2 : pars "Pa_prime" = some (.num Pa)) :
    getSigma2 "EB09_emp" pars false Ex = .ok 0 ∧
      distribution "EB09_emp" pars false Ex J = .error .undefined := by
  have h3 : getSigma2 "EB09_emp" pars false Ex = .ok 0 := by
    have : gEB09emp mass Pa Ex = 0 := by
      unfold gEB09emp
      have h6 : eeff (Ex - 1 / 2 * Pa) = 0 := by
        unfold eeff
        split_ifs with h7 <;> linarith
      rw [h6, Real.zero_rpow (by norm_num)]
      ring
    simp [getSigma2, hasAll, SPars.num, bind, Except.bind, pure, Except.pure, h1, h2, this]
  refine ⟨h3, ?_⟩
  unfold distribution
  rw [h3]
  simp [bind, Except.bind, spinDist]

/-- C62 fails for an energy given as an integer: the constant spin-cut is truncated, so σ = 0.9 at an
integer energy gives 0 and no distribution. -/
theorem C62_integer_fails (Ex J : ℝ) :
    getSigma2 "const" (constPars (9 / 10)) true Ex = .ok 0 ∧
    getSigma2 "const" (constPars (9 / 10)) false Ex = .ok (81 / 100) ∧
    distribution "const" (constPars (9 / 10)) true Ex J = .error .undefined := by
  have h0 : truncRe ((9 / 10 : ℝ) ^ 2) = 0 := by
    unfold truncRe
    rw [if_pos (by positivity), Int.floor_eq_zero_iff]
    constructor <;> norm_num
  have h1 : getSigma2 "const" (constPars (9 / 10)) true Ex = .ok 0 := by
    simp [getSigma2, hasAll, constPars, SPars.num, gconst, bind, Except.bind, pure, Except.pure, h0]
  refine ⟨h1, ?_, ?_⟩
  · simp [getSigma2, hasAll, constPars, SPars.num, gconst, bind, Except.bind, pure, Except.pure]
    norm_num
  · unfold distribution
    rw [h1]
    simp [bind, Except.bind, spinDist]

/-- C62: a model that is not one of the six names, and any model with a missing parameter, raises
`TypeError`. -/
theorem C62_refuses (model : String) (pars : SPars) (intEx : Bool) (Ex J : ℝ)
    (h : model ∉ ["const", "EB05", "EB09_CT", "EB09_emp", "Disc_and_EB05", "Disc_and_sigmaSn"] ∨
      ∃ req, (model, req) ∈ [("const", ["sigma"]), ("EB05", ["mass", "NLDa", "Eshift"]),
        ("EB09_CT", ["mass"]), ("EB09_emp", ["mass", "Pa_prime"]),
        ("Disc_and_EB05", ["mass", "NLDa", "Eshift", "Sn", "sigma2_disc"]),
        ("Disc_and_sigmaSn", ["sigma2_disc", "sigma2_Sn"])] ∧ ∃ n ∈ req, pars n = none) :
    distribution model pars intEx Ex J = .error .typeError := by
  have hs : getSigma2 model pars intEx Ex = .error .typeError := by
    rcases h with h | ⟨req, h1, n, h2, h3⟩
    · simp only [List.mem_cons, List.not_mem_nil, or_false, not_or] at h
      obtain ⟨a1, a2, a3, a4, a5, a6⟩ := h
      unfold getSigma2
      rw [if_neg a1, if_neg a2, if_neg a3, if_neg a4, if_neg a5, if_neg a6]
    · have hall : hasAll pars req = false := by
        unfold hasAll
        rw [List.all_eq_false]
        exact ⟨n, h2, by simp [h3]⟩
      simp only [List.mem_cons, List.not_mem_nil, or_false, Prod.mk.injEq] at h1
      rcases h1 with ⟨rfl, rfl⟩ | ⟨rfl, rfl⟩ | ⟨rfl, rfl⟩ | ⟨rfl, rfl⟩ | ⟨rfl, rfl⟩ | ⟨rfl, rfl⟩ <;>
        simp [getSigma2, hall]
  unfold distribution
  rw [hs]
  rfl

/-! ## The spin sum -/

/-- Triangle condition of angular momentum coupling. -/
def Triangle (a b c : ℚ) : Prop := |a - b| ≤ c ∧ c ≤ a + b ∧ ∃ k : ℤ, a + b - c = k

/-- The spins reached from a target of spin `J` by a neutron with orbital momentum `L`. -/
def Couples (J L r : ℚ) : Prop := ∃ I, Triangle J (1 / 2) I ∧ Triangle I L r

theorem mem_arange_one (a b x : ℚ) : x ∈ arange a b 1 ↔ ∃ k : ℕ, x = a + k ∧ x < b := by
  unfold arange
  rw [List.mem_map]
  constructor
  · rintro ⟨k, hk, rfl⟩
    rw [List.mem_range, Int.lt_toNat, Int.lt_ceil] at hk
    refine ⟨k, by ring, ?_⟩
    have : (k : ℚ) < (b - a) / 1 := by exact_mod_cast hk
    rw [div_one] at this
    linarith
  · rintro ⟨k, rfl, hk⟩
    refine ⟨k, ?_, by ring⟩
    rw [List.mem_range, Int.lt_toNat, Int.lt_ceil]
    push_cast
    rw [div_one]
    linarith

theorem arange_one_nodup (a b : ℚ) : (arange a b 1).Nodup := by
  unfold arange
  apply List.Nodup.map _ List.nodup_range
  intro x y h
  simpa using h

/-- The triangle condition in units of one half. -/
def Tri2 (a b c : ℤ) : Prop := a - b ≤ c ∧ b - a ≤ c ∧ c ≤ a + b ∧ ∃ k, a + b - c = 2 * k

theorem triangle_iff (a b c : ℤ) :
    Triangle ((a : ℚ) / 2) ((b : ℚ) / 2) ((c : ℚ) / 2) ↔ Tri2 a b c := by
  unfold Triangle Tri2
  rw [abs_le]
  constructor
  · rintro ⟨⟨h1, h2⟩, h3, k, hk⟩
    refine ⟨?_, ?_, ?_, k, ?_⟩
    · have : (a : ℚ) - b ≤ c := by linarith
      exact_mod_cast this
    · have : (b : ℚ) - a ≤ c := by linarith
      exact_mod_cast this
    · have : (c : ℚ) ≤ a + b := by linarith
      exact_mod_cast this
    · have : (a : ℚ) + b - c = 2 * k := by linarith
      exact_mod_cast this
  · rintro ⟨h1, h2, h3, k, hk⟩
    have h1' : (a : ℚ) - b ≤ c := by exact_mod_cast h1
    have h2' : (b : ℚ) - a ≤ c := by exact_mod_cast h2
    have h3' : (c : ℚ) ≤ a + b := by exact_mod_cast h3
    have hk' : (a : ℚ) + b - c = 2 * k := by exact_mod_cast hk
    exact ⟨⟨by linarith, by linarith⟩, by linarith, k, by linarith⟩

theorem triangle_half {a b : ℤ} {c : ℚ} (h : Triangle ((a : ℚ) / 2) ((b : ℚ) / 2) c) :
    ∃ g : ℤ, c = (g : ℚ) / 2 := by
  obtain ⟨-, -, k, hk⟩ := h
  exact ⟨a + b - 2 * k, by push_cast; linarith⟩

/-- The residual spins of the outer loop are those allowed by coupling. -/
theorem mem_jres (n L : ℕ) (r : ℚ) :
    r ∈ arange (jresMin ((n : ℚ) / 2) L) ((n : ℚ) / 2 + 1 / 2 + L + 1) 1 ↔
      Couples ((n : ℚ) / 2) L r := by
  rw [mem_arange_one]
  have hmin : ∃ m : ℤ, jresMin ((n : ℚ) / 2) L = (m : ℚ) / 2 ∧
      m = min (min (max ((n : ℤ) - 1 - 2 * L) (-((n : ℤ) - 1 - 2 * L)))
        (max ((n : ℤ) + 1 - 2 * L) (-((n : ℤ) + 1 - 2 * L))))
        (max ((n : ℤ) - 1 + 2 * L) (-((n : ℤ) - 1 + 2 * L))) := by
    refine ⟨_, ?_, rfl⟩
    unfold jresMin
    have e1 : (n : ℚ) / 2 - 1 / 2 - L = (((n : ℤ) - 1 - 2 * L : ℤ) : ℚ) / 2 := by push_cast; ring
    have e2 : (n : ℚ) / 2 + 1 / 2 - L = (((n : ℤ) + 1 - 2 * L : ℤ) : ℚ) / 2 := by push_cast; ring
    have e3 : (n : ℚ) / 2 - 1 / 2 + L = (((n : ℤ) - 1 + 2 * L : ℤ) : ℚ) / 2 := by push_cast; ring
    rw [e1, e2, e3, abs_div, abs_div, abs_div, abs_two, ← Int.cast_abs, ← Int.cast_abs, ← Int.cast_abs,
      abs_eq_max_neg, abs_eq_max_neg, abs_eq_max_neg, min_div_div_right (by norm_num),
      min_div_div_right (by norm_num), Int.cast_min, Int.cast_min]
  obtain ⟨m, hm, hmd⟩ := hmin
  rw [hm]
  have htri : ∀ i : ℤ, Tri2 n 1 i ↔ (i = (n : ℤ) + 1 ∨ (i = max ((n : ℤ) - 1) (1 - n))) := by
    intro i
    unfold Tri2
    constructor
    · rintro ⟨h1, h2, h3, k, hk⟩
      omega
    · rintro (rfl | rfl)
      · exact ⟨by omega, by omega, by omega, 0, by omega⟩
      · rcases Nat.eq_zero_or_pos n with h0 | h0
        · subst h0
          exact ⟨by omega, by omega, by omega, 0, by omega⟩
        · exact ⟨by omega, by omega, by omega, 1, by omega⟩
  have hcouple : ∀ g : ℤ, Couples ((n : ℚ) / 2) L ((g : ℚ) / 2) ↔ ∃ i, Tri2 n 1 i ∧ Tri2 i (2 * L) g := by
    intro g
    have h1 : (1 : ℚ) / 2 = ((1 : ℤ) : ℚ) / 2 := by norm_num
    have h2 : (n : ℚ) / 2 = ((n : ℤ) : ℚ) / 2 := by norm_num
    have h3 : (L : ℚ) = ((2 * L : ℤ) : ℚ) / 2 := by push_cast; ring
    unfold Couples
    rw [h1, h2, h3]
    constructor
    · rintro ⟨I, hI, hr⟩
      obtain ⟨i, rfl⟩ := triangle_half hI
      exact ⟨i, (triangle_iff _ _ _).1 hI, (triangle_iff _ _ _).1 hr⟩
    · rintro ⟨i, hi, hr⟩
      exact ⟨(i : ℚ) / 2, (triangle_iff _ _ _).2 hi, (triangle_iff _ _ _).2 hr⟩
  constructor
  · rintro ⟨k, rfl, hk⟩
    have e : (m : ℚ) / 2 + k = ((m + 2 * k : ℤ) : ℚ) / 2 := by push_cast; ring
    rw [e, hcouple]
    have hk' : m + 2 * k < n + 1 + 2 * L + 2 := by
      have : (m : ℚ) + 2 * k < n + 1 + 2 * L + 2 := by linarith
      exact_mod_cast this
    by_cases hc : max ((n : ℤ) + 1 - 2 * L) (-((n : ℤ) + 1 - 2 * L)) ≤ m + 2 * k
    · refine ⟨n + 1, (htri _).2 (Or.inl rfl), ?_⟩
      unfold Tri2
      refine ⟨by omega, by omega, by omega, ((n : ℤ) + 1 + 2 * L - (m + 2 * k)) / 2, by omega⟩
    · refine ⟨max ((n : ℤ) - 1) (1 - n), (htri _).2 (Or.inr rfl), ?_⟩
      unfold Tri2
      refine ⟨by omega, by omega, by omega,
        (max ((n : ℤ) - 1) (1 - n) + 2 * L - (m + 2 * k)) / 2, by omega⟩
  · intro hr
    have hex : ∃ g : ℤ, r = (g : ℚ) / 2 := by
      obtain ⟨I, hI, hr⟩ := hr
      have h1 : (1 : ℚ) / 2 = ((1 : ℤ) : ℚ) / 2 := by norm_num
      have h2 : (n : ℚ) / 2 = ((n : ℤ) : ℚ) / 2 := by norm_num
      have h3 : (L : ℚ) = ((2 * L : ℤ) : ℚ) / 2 := by push_cast; ring
      rw [h1, h2] at hI
      obtain ⟨i, rfl⟩ := triangle_half hI
      rw [h3] at hr
      exact triangle_half hr
    obtain ⟨g, rfl⟩ := hex
    rw [hcouple] at hr
    obtain ⟨i, hi, h1, h2, h3, k, hk⟩ := hr
    rw [htri] at hi
    have hgm : m ≤ g := by rcases hi with rfl | rfl <;> omega
    have hgp : (g - m) % 2 = 0 := by rcases hi with rfl | rfl <;> omega
    have hgt : g < n + 1 + 2 * L + 2 := by rcases hi with rfl | rfl <;> omega
    refine ⟨((g - m) / 2).toNat, ?_, ?_⟩
    · have h4 : ((((g - m) / 2).toNat : ℕ) : ℤ) = (g - m) / 2 := Int.toNat_of_nonneg (by omega)
      have h5 : 2 * ((((g - m) / 2).toNat : ℕ) : ℤ) = g - m := by omega
      have h6 : 2 * ((((g - m) / 2).toNat : ℕ) : ℚ) = g - m := by exact_mod_cast h5
      linarith
    · have : (g : ℚ) < n + 1 + 2 * L + 2 := by exact_mod_cast hgt
      linarith

/-- The final spins of the inner loop are those allowed by the dipole selection rules. -/
theorem mem_jfinal (g : ℕ) (f : ℚ) :
    f ∈ (arange (min |(g : ℚ) / 2 - 1| ((g : ℚ) / 2)) ((g : ℚ) / 2 + 1 + 1) 1).filter
        (fun Jf => ¬ ((g : ℚ) / 2 = Jf ∧ Jf = 0)) ↔ Triangle ((g : ℚ) / 2) 1 f := by
  rw [List.mem_filter, mem_arange_one]
  have h1 : (1 : ℚ) = ((2 : ℤ) : ℚ) / 2 := by norm_num
  have h2 : (g : ℚ) / 2 = ((g : ℤ) : ℚ) / 2 := by norm_num
  have hmin : min |(g : ℚ) / 2 - 1| ((g : ℚ) / 2) =
      ((min (max ((g : ℤ) - 2) (-((g : ℤ) - 2))) g : ℤ) : ℚ) / 2 := by
    have e1 : (g : ℚ) / 2 - 1 = (((g : ℤ) - 2 : ℤ) : ℚ) / 2 := by push_cast; ring
    rw [e1, abs_div, abs_two, ← Int.cast_abs, abs_eq_max_neg, min_div_div_right (by norm_num),
      Int.cast_min]
    norm_num
  rw [hmin]
  set m : ℤ := min (max ((g : ℤ) - 2) (-((g : ℤ) - 2))) g with hm
  simp only [not_and, decide_eq_true_eq]
  constructor
  · rintro ⟨⟨k, rfl, hk⟩, hz⟩
    have e : (m : ℚ) / 2 + k = ((m + 2 * k : ℤ) : ℚ) / 2 := by push_cast; ring
    have hk' : m + 2 * k < g + 4 := by
      have : (m : ℚ) + 2 * k < g + 4 := by linarith
      exact_mod_cast this
    have hz' : ¬ ((g : ℤ) = m + 2 * k ∧ m + 2 * k = 0) := by
      rintro ⟨q1, q2⟩
      have q1' : (g : ℚ) = m + 2 * k := by exact_mod_cast q1
      have q2' : (m : ℚ) + 2 * k = 0 := by exact_mod_cast q2
      exact hz (by linarith) (by linarith)
    rw [e, h1, h2, triangle_iff]
    unfold Tri2
    refine ⟨by omega, by omega, by omega, ((g : ℤ) + 2 - (m + 2 * k)) / 2, by omega⟩
  · intro hT
    rw [h1, h2] at hT
    obtain ⟨c, rfl⟩ := triangle_half hT
    rw [triangle_iff] at hT
    obtain ⟨t1, t2, t3, k, hk⟩ := hT
    refine ⟨⟨((c - m) / 2).toNat, ?_, ?_⟩, ?_⟩
    · have h4 : ((((c - m) / 2).toNat : ℕ) : ℤ) = (c - m) / 2 := Int.toNat_of_nonneg (by omega)
      have h5 : 2 * ((((c - m) / 2).toNat : ℕ) : ℤ) = c - m := by omega
      have h6 : 2 * ((((c - m) / 2).toNat : ℕ) : ℚ) = c - m := by exact_mod_cast h5
      linarith
    · have : (c : ℚ) < g + 4 := by
        have : c < g + 4 := by omega
        exact_mod_cast this
      linarith
    · intro q1 q2
      have q1' : (g : ℚ) = c := by linarith
      have q2' : (c : ℚ) = 0 := by linarith
      have q3 : (g : ℤ) = c := by exact_mod_cast q1'
      have q4 : c = 0 := by exact_mod_cast q2'
      omega

theorem couples_half {n L : ℕ} {r : ℚ} (h : Couples ((n : ℚ) / 2) L r) : ∃ g : ℕ, r = (g : ℚ) / 2 := by
  obtain ⟨I, hI, hr⟩ := h
  have h1 : (1 : ℚ) / 2 = ((1 : ℤ) : ℚ) / 2 := by norm_num
  have h2 : (n : ℚ) / 2 = ((n : ℤ) : ℚ) / 2 := by norm_num
  have h3 : (L : ℚ) = ((2 * L : ℤ) : ℚ) / 2 := by push_cast; ring
  rw [h1, h2] at hI
  obtain ⟨i, rfl⟩ := triangle_half hI
  rw [h3] at hr
  obtain ⟨g, rfl⟩ := triangle_half hr
  have h0 : (0 : ℚ) ≤ (g : ℚ) / 2 := le_trans (abs_nonneg _) hr.1
  have h4 : 0 ≤ g := by
    have : (0 : ℚ) ≤ g := by linarith
    exact_mod_cast this
  refine ⟨g.toNat, ?_⟩
  have h5 : ((g.toNat : ℕ) : ℤ) = g := Int.toNat_of_nonneg h4
  have h6 : ((g.toNat : ℕ) : ℚ) = g := by exact_mod_cast h5
  rw [h6]

/-- C47: for every half-integer target spin and every orbital momentum, the loops visit exactly the
pairs of a residual spin allowed by coupling and a final spin allowed by the dipole rules, each once. -/
theorem C47_pairs (n L : ℕ) (r f : ℚ) :
    ((r, f) ∈ spinPairs ((n : ℚ) / 2) L ↔ Couples ((n : ℚ) / 2) L r ∧ Triangle r 1 f) ∧
      (spinPairs ((n : ℚ) / 2) L).Nodup := by
  constructor
  · unfold spinPairs
    rw [List.mem_flatMap]
    constructor
    · rintro ⟨r', hr', hm⟩
      rw [List.mem_map] at hm
      obtain ⟨f', hf', hp⟩ := hm
      rw [Prod.mk.injEq] at hp
      obtain ⟨rfl, rfl⟩ := hp
      have hc := (mem_jres n L r').1 hr'
      obtain ⟨g, rfl⟩ := couples_half hc
      exact ⟨hc, (mem_jfinal g f').1 hf'⟩
    · rintro ⟨hc, hT⟩
      refine ⟨r, (mem_jres n L r).2 hc, ?_⟩
      rw [List.mem_map]
      obtain ⟨g, rfl⟩ := couples_half hc
      exact ⟨f, (mem_jfinal g f).2 hT, rfl⟩
  · unfold spinPairs
    rw [List.nodup_flatMap]
    constructor
    · intro x _
      apply List.Nodup.map
      · intro a b h
        simpa using h
      · exact (arange_one_nodup _ _).filter _
    · apply (arange_one_nodup _ _).imp
      intro a b hab
      rw [Function.onFun, List.disjoint_left]
      intro p hp hq
      rw [List.mem_map] at hp hq
      obtain ⟨_, _, rfl⟩ := hp
      obtain ⟨_, _, hq⟩ := hq
      rw [Prod.mk.injEq] at hq
      exact hab hq.1.symm

/-- The transition 0 → 0 is not among the allowed ones. -/
example : ¬ Triangle 0 1 0 := by
  rintro ⟨h, -, -⟩
  norm_num at h

/-- Target spin 0 and s-waves: spin 1/2, decaying to 1/2 and 3/2. -/
example : spinPairs ((0 : ℕ) / 2) (0 : ℕ) = [(1/2, 1/2), (1/2, 3/2)] := by decide +kernel

/-- Target spin 1/2 and s-waves: spins 0 and 1. -/
example : spinPairs ((1 : ℕ) / 2) (0 : ℕ) = [(0, 1), (1, 0), (1, 1), (1, 2)] := by decide +kernel

/-- C47: the value of `SpinSum` is the sum of the distribution over every list of the allowed pairs. -/
theorem C47_sum (g : ℚ → ℝ) (n L : ℕ) (pairs : List (ℚ × ℚ)) (hnd : pairs.Nodup)
    (hp : ∀ r f, (r, f) ∈ pairs ↔ Couples ((n : ℚ) / 2) L r ∧ Triangle r 1 f) :
    spinSumFresh g ((n : ℚ) / 2) L = .ok ((pairs.map fun p => g p.2).sum) := by
  unfold spinSumFresh
  rw [if_neg (by push Not; constructor <;> positivity)]
  congr 1
  have hperm : (spinPairs ((n : ℚ) / 2) L).Perm pairs := by
    rw [List.perm_ext_iff_of_nodup (C47_pairs n L 0 0).2 hnd]
    rintro ⟨r, f⟩
    rw [(C47_pairs n L r f).1, hp]
  have hfold : ∀ (l : List (ℚ × ℚ)) (a : ℝ), l.foldl (fun acc p => acc + g p.2) a =
      a + (l.map fun p => g p.2).sum := by
    intro l
    induction l with
    | nil => intro a; simp
    | cons x xs ih => intro a; rw [List.foldl_cons, ih]; simp; ring
  rw [hfold, zero_add]
  exact (hperm.map _).sum_eq

/-- C47: negative spins are refused. -/
theorem C47_refuses (g : ℚ → ℝ) (J L : ℚ) (h : J < 0 ∨ L < 0) :
    spinSumFresh g J L = .error .assertion := by
  unfold spinSumFresh
  rw [if_pos]
  rintro ⟨h1, h2⟩
  rcases h with h | h <;> linarith

/-! ## The cache -/

/-- What a computation without cache gives at this moment. -/
def SpinState.fresh {M P V : Type} (F : M → P → ExVal → ℚ → ℚ → Except Err V) (s : SpinState M P V)
    (ex : ExArg) (J L : ℚ) : Except Err V :=
  match s.model, s.pars with
  | some m, some p => F m (s.dicts p) (s.exVal ex) J L
  | _, _ => .error .typeError

/-- The results a history would have without cache. -/
def freshRun {M P V : Type} [DecidableEq M] [DecidableEq P]
    (F : M → P → ExVal → ℚ → ℚ → Except Err V) (s : SpinState M P V) :
    List (SpinOp M P) → List (Option (Except Err V))
  | [] => []
  | .call ex J L :: r => some (s.fresh F ex J L) :: freshRun F s r
  | op :: r => none :: freshRun F (s.step F op).2 r

/-- Energies of one shape: numbers, or arrays of length `n`. -/
def ExVal.shaped (shape : Option ℕ) : ExVal → Prop
  | .scalar _ => shape = none
  | .arr xs => shape = some xs.length

theorem npAllEq_shaped {shape : Option ℕ} {a b : ExVal} (ha : a.shaped shape) (hb : b.shaped shape) :
    npAllEq a b = true ↔ a = b := by
  cases a with
  | scalar x =>
    cases b with
    | scalar y => simp [npAllEq]
    | arr ys => unfold ExVal.shaped at ha hb; rw [ha] at hb; simp at hb
  | arr xs =>
    cases b with
    | scalar y => unfold ExVal.shaped at ha hb; rw [hb] at ha; simp at ha
    | arr ys =>
      unfold ExVal.shaped at ha hb
      rw [ha] at hb
      have : xs.length = ys.length := by simpa using hb
      simp [npAllEq, this]

/-- Histories that change no object in place and use energies of one shape. -/
def SpinOp.benign {M P : Type} (arrays : ℕ → List ℚ) (shape : Option ℕ) : SpinOp M P → Prop
  | .call (.scalar _) _ _ => shape = none
  | .call (.arr r) _ _ => shape = some (arrays r).length
  | .setModel _ => True
  | .setPars _ => True
  | .changeDict _ _ => False
  | .changeArray _ _ => False

/-- The saved result is what its saved arguments give. -/
def SpinState.Valid {M P V : Type} (F : M → P → ExVal → ℚ → ℚ → Except Err V) (shape : Option ℕ)
    (s : SpinState M P V) : Prop :=
  ∀ c, s.saved = some c → F c.model (s.dicts c.pars) (s.exVal c.ex) c.J c.L = .ok c.value ∧
    (s.exVal c.ex).shaped shape

theorem call_fresh {M P V : Type} [DecidableEq M] [DecidableEq P]
    {F : M → P → ExVal → ℚ → ℚ → Except Err V} {shape : Option ℕ} {s : SpinState M P V}
    (hv : s.Valid F shape) (ex : ExArg) (J L : ℚ) (hs : (s.exVal ex).shaped shape) :
    (s.call F ex J L).1 = s.fresh F ex J L ∧ (s.call F ex J L).2.Valid F shape ∧
      (s.call F ex J L).2.dicts = s.dicts ∧ (s.call F ex J L).2.arrays = s.arrays ∧
      (s.call F ex J L).2.model = s.model ∧ (s.call F ex J L).2.pars = s.pars := by
  unfold SpinState.call
  by_cases hh : s.hit ex J L = true
  · rw [if_pos hh]
    unfold SpinState.hit at hh
    cases hc : s.saved with
    | none => rw [hc] at hh; simp at hh
    | some c =>
      rw [hc] at hh
      cases hp : s.pars with
      | none => rw [hp] at hh; simp at hh
      | some p =>
        rw [hp] at hh
        simp only [Bool.and_eq_true, decide_eq_true_eq] at hh
        obtain ⟨⟨⟨⟨h1, h2⟩, h3⟩, h4⟩, h5⟩ := hh
        obtain ⟨v1, v2⟩ := hv c hc
        have h6 := (npAllEq_shaped v2 hs).1 h3
        refine ⟨?_, hv, rfl, rfl, rfl, by first | rfl | exact hp⟩
        unfold SpinState.fresh
        rw [← h1, hp]
        simp only
        rw [← h2, ← h6, ← h4, ← h5, v1]
  · rw [if_neg hh]
    unfold SpinState.fresh
    cases hm : s.model with
    | none => exact ⟨rfl, hv, rfl, rfl, hm, rfl⟩
    | some m =>
      cases hp : s.pars with
      | none => exact ⟨rfl, hv, rfl, rfl, hm, hp⟩
      | some p =>
        simp only
        cases hF : F m (s.dicts p) (s.exVal ex) J L with
        | error e => exact ⟨rfl, hv, rfl, rfl, hm, hp⟩
        | ok v =>
          refine ⟨rfl, ?_, rfl, rfl, by first | rfl | exact hm, by first | rfl | exact hp⟩
          intro c hc
          simp only [Option.some.injEq] at hc
          subst hc
          constructor
          · cases ex <;> exact hF
          · cases ex <;> exact hs

/-- C47: without changes of dictionaries or arrays in place, and with energies of one shape, every call
of every history returns what a fresh computation would return. -/
theorem C47_cache_partial {M P V : Type} [DecidableEq M] [DecidableEq P]
    (F : M → P → ExVal → ℚ → ℚ → Except Err V) (shape : Option ℕ) (ops : List (SpinOp M P)) :
    ∀ s : SpinState M P V, s.Valid F shape → (∀ op ∈ ops, op.benign s.arrays shape) →
      s.run F ops = freshRun F s ops := by
  -- the saved result does not matter for the fresh results
  have hfresh : ∀ (l : List (SpinOp M P)) (s t : SpinState M P V), s.dicts = t.dicts →
      s.arrays = t.arrays → s.model = t.model → s.pars = t.pars → freshRun F s l = freshRun F t l := by
    intro l
    induction l with
    | nil => intro s t _ _ _ _; rfl
    | cons op l ih =>
      intro s t h1 h2 h3 h4
      cases op with
      | call ex J L =>
        simp only [freshRun]
        rw [ih s t h1 h2 h3 h4]
        have he : s.exVal ex = t.exVal ex := by cases ex <;> simp [SpinState.exVal, h2]
        simp only [SpinState.fresh, h1, h3, h4, he]
      | setModel m => simp only [freshRun]; rw [ih _ _] <;> simp [SpinState.step, *]
      | setPars r => simp only [freshRun]; rw [ih _ _] <;> simp [SpinState.step, *]
      | changeDict r p => simp only [freshRun]; rw [ih _ _] <;> simp [SpinState.step, *]
      | changeArray r xs => simp only [freshRun]; rw [ih _ _] <;> simp [SpinState.step, *]
  induction ops with
  | nil => intro s _ _; rfl
  | cons op ops ih =>
    intro s hv hb
    have hb0 := hb op (by simp)
    have hb1 : ∀ o ∈ ops, o.benign s.arrays shape := fun o ho => hb o (by simp [ho])
    cases op with
    | call ex J L =>
      have hs : (s.exVal ex).shaped shape := by cases ex <;> exact hb0
      obtain ⟨c1, c2, c3, c4, c5, c6⟩ := call_fresh hv ex J L hs
      simp only [SpinState.run, freshRun, SpinState.step]
      rw [c1, ih _ c2 (by rw [c4]; exact hb1), hfresh _ _ s c3 c4 c5 c6]
    | setModel m =>
      simp only [SpinState.run, freshRun, SpinState.step]
      rw [ih { s with model := m } (fun c hc => hv c hc) hb1]
    | setPars r =>
      simp only [SpinState.run, freshRun, SpinState.step]
      rw [ih { s with pars := r } (fun c hc => hv c hc) hb1]
    | changeDict r p => exact absurd hb0 (by simp [SpinOp.benign])
    | changeArray r xs => exact absurd hb0 (by simp [SpinOp.benign])

/-- A computation to look at: the parameter plus the number of energies. -/
def spinToy : ℕ → ℕ → ExVal → ℚ → ℚ → Except Err (ℕ × ExVal) := fun _ p ex _ _ => .ok (p, ex)

/-- A new normaliser with one dictionary and one array of two equal energies. -/
def spinStart : SpinState ℕ ℕ (ℕ × ExVal) := ⟨fun _ => 3, fun _ => [5, 5], some 1, some 0, none⟩

example : spinStart.Valid spinToy (some 2) ∧
    ∀ op ∈ ([.call (.arr 0) 0 0, .setPars (some 1), .call (.arr 0) 0 0] : List (SpinOp ℕ ℕ)),
      op.benign spinStart.arrays (some 2) := by
  constructor
  · intro c hc
    simp [spinStart] at hc
  · intro op hop
    simp only [List.mem_cons, List.not_mem_nil, or_false] at hop
    rcases hop with rfl | rfl | rfl <;> simp [SpinOp.benign, spinStart]

/-- C47 fails if a parameter is changed in the dictionary (`norm_pars.spincutPars["sigma"] = 4`): the
old result is returned. -/
theorem C47_dict_fails :
    spinStart.run spinToy [.call (.arr 0) 0 0, .changeDict 0 4, .call (.arr 0) 0 0] =
      [some (.ok (3, .arr [5, 5])), none, some (.ok (3, .arr [5, 5]))] ∧
    freshRun spinToy spinStart [.call (.arr 0) 0 0, .changeDict 0 4, .call (.arr 0) 0 0] =
      [some (.ok (3, .arr [5, 5])), none, some (.ok (4, .arr [5, 5]))] := by
  constructor <;> rfl

/-- C47 fails if the array of energies is changed in place. -/
theorem C47_array_fails :
    spinStart.run spinToy [.call (.arr 0) 0 0, .changeArray 0 [6, 7], .call (.arr 0) 0 0] =
      [some (.ok (3, .arr [5, 5])), none, some (.ok (3, .arr [5, 5]))] ∧
    freshRun spinToy spinStart [.call (.arr 0) 0 0, .changeArray 0 [6, 7], .call (.arr 0) 0 0] =
      [some (.ok (3, .arr [5, 5])), none, some (.ok (3, .arr [6, 7]))] := by
  constructor <;> decide +kernel

/-- C47 fails for energies of different shape: after a call with two equal energies, a call with that
energy as a number returns the array of the first call. -/
theorem C47_shape_fails :
    spinStart.run spinToy [.call (.arr 0) 0 0, .call (.scalar 5) 0 0] =
      [some (.ok (3, .arr [5, 5])), some (.ok (3, .arr [5, 5]))] ∧
    freshRun spinToy spinStart [.call (.arr 0) 0 0, .call (.scalar 5) 0 0] =
      [some (.ok (3, .arr [5, 5])), some (.ok (3, .scalar 5))] := by
  constructor <;> decide +kernel

end Ompy
