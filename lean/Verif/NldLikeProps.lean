import Verif.NldLike
import Mathlib.Analysis.Complex.ExponentialBounds

/-!
# C64 and C65: the likelihood of the level density normalisation
-/

namespace Ompy

/-- The vector with `n` bins, energies `E k`, values `v k` and standard deviations `s k`. -/
def tabVec (n : ℕ) (E : ℕ → ℚ) (v s : ℕ → ℝ) (units : String) : Vec ℝ :=
  ⟨(List.range n).map E, (List.range n).map v, some ((List.range n).map s), units⟩

/-- The same without standard deviations. -/
def tabVec0 (n : ℕ) (E : ℕ → ℚ) (v : ℕ → ℝ) (units : String) : Vec ℝ :=
  ⟨(List.range n).map E, (List.range n).map v, none, units⟩

theorem zipWith_map_range {α β γ : Type} (f : α → β → γ) (a : ℕ → α) (b : ℕ → β) (n : ℕ) :
    List.zipWith f ((List.range n).map a) ((List.range n).map b) =
      (List.range n).map fun k => f (a k) (b k) := by
  rw [List.zipWith_map, List.zipWith_self]

theorem sum_map_range_real (f : ℕ → ℝ) (n : ℕ) :
    ((List.range n).map f).sum = ∑ k ∈ Finset.range n, f k := by
  induction n with
  | zero => simp
  | succ n ih => rw [List.range_succ, List.map_append, List.sum_append, ih, Finset.sum_range_succ]; simp

theorem tabVec_transform (n : ℕ) (E : ℕ → ℚ) (v s : ℕ → ℝ) (units : String) (A a : ℝ)
    (hv : ∀ k < n, v k ≠ 0) :
    (tabVec n E v s units).transform (fun q : ℚ => (q : ℝ)) Real.exp A a =
      tabVec n E (fun k => A * v k * Real.exp (a * E k)) (fun k => A * s k * Real.exp (a * E k)) units := by
  unfold Vec.transform tabVec
  simp only [Option.map_some, zipWith_map_range, Vec.mk.injEq, true_and, and_true, Option.some.injEq]
  apply List.map_congr_left
  intro k hk
  have := hv k (List.mem_range.1 hk)
  field_simp

theorem sameBins_tab (close : ℚ → ℚ → Bool) (n : ℕ) (E E' : ℕ → ℚ) (v s w : ℕ → ℝ) (u u' : String)
    (h : ∀ k < n, close (E k) (E' k) = true) :
    sameBins close (tabVec n E v s u) (tabVec0 n E' w u') = true := by
  unfold sameBins tabVec tabVec0
  simp only [List.length_map, beq_self_eq_true, zipWith_map_range, Bool.true_and, List.all_map,
    List.all_eq_true, Function.comp, id]
  intro k hk
  exact h k (List.mem_range.1 hk)

theorem error_tab (close : ℚ → ℚ → Bool) (n : ℕ) (E E' : ℕ → ℚ) (v s w : ℕ → ℝ) (u u' : String)
    (h : ∀ k < n, close (E k) (E' k) = true) (hs : ∀ k < n, s k ≠ 0) :
    (tabVec n E v s u).error close (tabVec0 n E' w u') none =
      .ok (∑ k ∈ Finset.range n, ((v k - w k) / s k) ^ 2) := by
  unfold Vec.error
  rw [if_pos (sameBins_tab close n E E' v s w u u' h)]
  simp only [tabVec, tabVec0, List.map_map, zipWith_map_range]
  rw [sum_map_range_real]
  congr 1
  apply Finset.sum_congr rfl
  intro k hk
  have := hs k (Finset.mem_range.1 hk)
  simp only [Function.comp, div0R]
  rw [if_neg (by positivity), div_pow]

theorem logStds_tab (n : ℕ) (s : ℕ → ℝ) (hs : ∀ k < n, 0 < s k) :
    logStds (some ((List.range n).map s)) = .ok (∑ k ∈ Finset.range n, Real.log (s k)) := by
  unfold logStds
  dsimp only
  rw [if_pos (by simpa using hs), List.map_map, sum_map_range_real]
  rfl

theorem mapM_ct (n : ℕ) (E : ℕ → ℚ) (model : ℚ → ℝ → ℝ → Except Err ℝ) (m : ℚ → ℝ) (T S : ℝ)
    (h : ∀ e, model e T S = .ok (m e)) :
    ((List.range n).map E).mapM (fun e => model e T S) =
      (.ok ((List.range n).map fun k => m (E k)) : Except Err (List ℝ)) := by
  have : ∀ l : List ℚ, l.mapM (fun e => model e T S) = (.ok (l.map m) : Except Err (List ℝ)) := by
    intro l
    induction l with
    | nil => rfl
    | cons x xs ih => rw [List.mapM_cons, ih, h]; rfl
  rw [this, List.map_map]
  rfl

/-- Data of a normalisation: `n` bins below with known levels `d`, `m` bins above, the level density at
the separation energy. -/
structure NldData where
  n : ℕ
  El : ℕ → ℚ
  vl : ℕ → ℝ
  sl : ℕ → ℝ
  Ed : ℕ → ℚ
  d : ℕ → ℝ
  m : ℕ
  Eh : ℕ → ℚ
  vh : ℕ → ℝ
  sh : ℕ → ℝ
  Sn : ℚ
  nldSn : ℝ × ℝ

/-- The data as arguments of `lnlike`. -/
noncomputable def NldData.args (D : NldData) (model : ℚ → ℝ → ℝ → Except Err ℝ) (u1 u2 u3 : String) :
    NldArgs :=
  ⟨tabVec D.n D.El D.vl D.sl u1, tabVec D.m D.Eh D.vh D.sh u2, tabVec0 D.n D.Ed D.d u3, model,
    D.Sn, D.nldSn⟩

/-- Usable data: values are not zero, uncertainties positive, the known levels are given on the same
bins. -/
structure NldData.Usable (D : NldData) (close : ℚ → ℚ → Bool) : Prop where
  vl : ∀ k < D.n, D.vl k ≠ 0
  vh : ∀ k < D.m, D.vh k ≠ 0
  sl : ∀ k < D.n, 0 < D.sl k
  sh : ∀ k < D.m, 0 < D.sh k
  bins : ∀ k < D.n, close (D.El k) (D.Ed k) = true
  nldSn : D.nldSn.2 ≠ 0

/-- The chi-square of the fit: levels below, model above, model at the separation energy. -/
noncomputable def NldData.chi2 (D : NldData) (m : ℚ → ℝ) (A a : ℝ) : ℝ :=
  ∑ k ∈ Finset.range D.n, ((A * D.vl k * Real.exp (a * D.El k) - D.d k) /
      (A * D.sl k * Real.exp (a * D.El k))) ^ 2 +
    ∑ k ∈ Finset.range D.m, ((A * D.vh k * Real.exp (a * D.Eh k) - m (D.Eh k)) /
      (A * D.sh k * Real.exp (a * D.Eh k))) ^ 2 +
    ((D.nldSn.1 - m D.Sn) / D.nldSn.2) ^ 2

/-- The sum of the logarithms of the transformed uncertainties. -/
noncomputable def NldData.lnSigma (D : NldData) (A a : ℝ) : ℝ :=
  ∑ k ∈ Finset.range D.n, Real.log (A * D.sl k * Real.exp (a * D.El k)) +
    ∑ k ∈ Finset.range D.m, Real.log (A * D.sh k * Real.exp (a * D.Eh k))

/-- **C64.** The value of `lnlike` for usable data and a positive constant: minus half of the chi-square
and of the sum of the logarithms of the transformed uncertainties. -/
theorem C64_value (close : ℚ → ℚ → Bool) (hrefl : ∀ e, close e e = true) (D : NldData)
    (hD : D.Usable close) (model : ℚ → ℝ → ℝ → Except Err ℝ) (m : ℚ → ℝ) (u1 u2 u3 : String)
    (A a T S : ℝ) (hA : 0 < A) (hm : ∀ e, model e T S = .ok (m e)) :
    nldLnlike close (D.args model u1 u2 u3) A a T S =
      .ok (-(1 / 2) * (D.chi2 m A a + D.lnSigma A a)) := by
  have pl : ∀ k < D.n, 0 < A * D.sl k * Real.exp (a * D.El k) := fun k hk => by
    have := hD.sl k hk
    positivity
  have ph : ∀ k < D.m, 0 < A * D.sh k * Real.exp (a * D.Eh k) := fun k hk => by
    have := hD.sh k hk
    positivity
  unfold nldLnlike NldData.args
  simp only
  rw [tabVec_transform _ _ _ _ _ _ _ hD.vl, tabVec_transform _ _ _ _ _ _ _ hD.vh,
    error_tab close D.n D.El D.Ed _ _ D.d u1 u3 hD.bins fun k hk => (pl k hk).ne']
  have hE : (tabVec D.m D.Eh (fun k => A * D.vh k * Real.exp (a * D.Eh k))
      (fun k => A * D.sh k * Real.exp (a * D.Eh k)) u2).E = (List.range D.m).map D.Eh := rfl
  have hmap := mapM_ct D.m D.Eh model m T S hm
  have herr := error_tab close D.m D.Eh D.Eh (fun k => A * D.vh k * Real.exp (a * D.Eh k))
    (fun k => A * D.sh k * Real.exp (a * D.Eh k)) (fun k => m (D.Eh k)) u2 "keV"
    (fun k _ => hrefl _) fun k hk => (ph k hk).ne'
  unfold tabVec0 at herr
  rw [hE, hmap]
  simp only [bind, Except.bind]
  rw [herr, hm]
  simp only
  rw [if_neg hD.nldSn]
  simp only [tabVec, pure, Except.pure]
  rw [logStds_tab _ _ pl, logStds_tab _ _ ph]
  rfl

/-- The logarithm of a normal density without the constant. -/
noncomputable def lnGauss (x mu sigma : ℝ) : ℝ := -(x - mu) ^ 2 / (2 * sigma ^ 2) - Real.log sigma

/-- The Gaussian log-likelihood of the transformed data, up to constants (the uncertainty at the
separation energy is a constant). -/
noncomputable def NldData.lnGauss (D : NldData) (m : ℚ → ℝ) (A a : ℝ) : ℝ :=
  ∑ k ∈ Finset.range D.n, Ompy.lnGauss (A * D.vl k * Real.exp (a * D.El k)) (D.d k)
      (A * D.sl k * Real.exp (a * D.El k)) +
    ∑ k ∈ Finset.range D.m, Ompy.lnGauss (A * D.vh k * Real.exp (a * D.Eh k)) (m (D.Eh k))
      (A * D.sh k * Real.exp (a * D.Eh k)) +
    -(D.nldSn.1 - m D.Sn) ^ 2 / (2 * D.nldSn.2 ^ 2)

/-- **C64** (what holds). `lnlike` is the Gaussian log-likelihood plus *half of the sum of the logarithms
of the uncertainties*, which depends on the parameters. Missing: without this term the two would agree. -/
theorem C64_gauss_partial (close : ℚ → ℚ → Bool) (hrefl : ∀ e, close e e = true) (D : NldData)
    (hD : D.Usable close) (model : ℚ → ℝ → ℝ → Except Err ℝ) (m : ℚ → ℝ) (u1 u2 u3 : String)
    (A a T S : ℝ) (hA : 0 < A) (hm : ∀ e, model e T S = .ok (m e)) :
    nldLnlike close (D.args model u1 u2 u3) A a T S =
      .ok (D.lnGauss m A a + 1 / 2 * D.lnSigma A a) := by
  rw [C64_value close hrefl D hD model m u1 u2 u3 A a T S hA hm]
  congr 1
  have e : ∀ x mu s : ℝ, Ompy.lnGauss x mu s = -(1 / 2) * ((x - mu) / s) ^ 2 - Real.log s := by
    intro x mu s
    unfold Ompy.lnGauss
    rw [div_pow]
    ring
  unfold NldData.lnGauss NldData.chi2 NldData.lnSigma
  simp only [e, Finset.sum_sub_distrib, ← Finset.mul_sum]
  ring

/-- The sum of logarithms as a function of the parameters: it falls without bound for small `A`. -/
theorem C64_extra (D : NldData) (A a : ℝ) (hA : 0 < A) (hl : ∀ k < D.n, 0 < D.sl k)
    (hh : ∀ k < D.m, 0 < D.sh k) :
    D.lnSigma A a = (D.n + D.m) * Real.log A +
      a * (∑ k ∈ Finset.range D.n, (D.El k : ℝ) + ∑ k ∈ Finset.range D.m, (D.Eh k : ℝ)) +
      (∑ k ∈ Finset.range D.n, Real.log (D.sl k) + ∑ k ∈ Finset.range D.m, Real.log (D.sh k)) := by
  have e : ∀ (s E : ℝ), 0 < s → Real.log (A * s * Real.exp (a * E)) =
      Real.log A + a * E + Real.log s := by
    intro s E hs
    rw [Real.log_mul (by positivity) (Real.exp_pos _).ne', Real.log_mul hA.ne' hs.ne', Real.log_exp]
    ring
  unfold NldData.lnSigma
  rw [Finset.sum_congr rfl fun k hk => e _ (D.El k : ℝ) (hl k (Finset.mem_range.1 hk)),
    Finset.sum_congr rfl fun k hk => e _ (D.Eh k : ℝ) (hh k (Finset.mem_range.1 hk))]
  simp only [Finset.sum_add_distrib, Finset.sum_const, Finset.card_range, nsmul_eq_mul,
    ← Finset.mul_sum]
  ring

/-- **C64.** Without standard deviations the likelihood cannot be computed (`normalize` makes some up). -/
theorem C64_needs_std (close : ℚ → ℚ → Bool) (a : NldArgs) (A alpha T S : ℝ) (x y : ℝ)
    (h : a.low.std = none) (hl : (a.low.transform (fun q : ℚ => (q : ℝ)) Real.exp A alpha).error close
      a.discrete none = .ok x) (hm : ∀ e, a.model e T S = .ok y) (hs : a.nldSn.2 ≠ 0)
    (hrefl : ∀ e, close e e = true) (hc : a.high.E.length = a.high.values.length) :
    nldLnlike close a A alpha T S = .error .typeError := by
  unfold nldLnlike
  simp only [bind, Except.bind, hl]
  have hmap : ∀ l : List ℚ, l.mapM (fun e => a.model e T S) =
      (.ok (l.map fun _ => y) : Except Err (List ℝ)) := by
    intro l
    induction l with
    | nil => rfl
    | cons x xs ih => rw [List.mapM_cons, ih, hm]; rfl
  rw [hmap]
  simp only
  have hb : sameBins close (a.high.transform (fun q : ℚ => (q : ℝ)) Real.exp A alpha)
      ⟨(a.high.transform (fun q : ℚ => (q : ℝ)) Real.exp A alpha).E,
        (a.high.transform (fun q : ℚ => (q : ℝ)) Real.exp A alpha).E.map fun _ => y, none, "keV"⟩ =
      true := by
    unfold sameBins Vec.transform
    simp only [List.length_zipWith, List.length_map, beq_self_eq_true, Bool.and_true, List.all_eq_true,
      Bool.and_eq_true, beq_iff_eq]
    refine ⟨by omega, ?_⟩
    intro b hb
    rw [List.zipWith_self] at hb
    obtain ⟨e, -, rfl⟩ := List.mem_map.1 hb
    exact hrefl e
  have herr : ∃ z, (a.high.transform (fun q : ℚ => (q : ℝ)) Real.exp A alpha).error close
      ⟨(a.high.transform (fun q : ℚ => (q : ℝ)) Real.exp A alpha).E,
        (a.high.transform (fun q : ℚ => (q : ℝ)) Real.exp A alpha).E.map fun _ => y, none, "keV"⟩ none =
      .ok z := by
    unfold Vec.error
    rw [if_pos hb]
    cases (a.high.transform (fun q : ℚ => (q : ℝ)) Real.exp A alpha).std <;> exact ⟨_, rfl⟩
  obtain ⟨z, hz⟩ := herr
  rw [hz, hm]
  simp only [if_neg hs, pure, Except.pure]
  have : (a.low.transform (fun q : ℚ => (q : ℝ)) Real.exp A alpha).std = none := by
    simp [Vec.transform, h]
  rw [this]
  rfl

/-- **C64.** Known levels on other bins are refused. -/
theorem C64_refuses (close : ℚ → ℚ → Bool) (a : NldArgs) (A alpha T S : ℝ)
    (h : a.low.values.length ≠ a.discrete.values.length ∨
      ∃ k, k < a.low.E.length ∧ k < a.discrete.E.length ∧
        close (a.low.E.getD k 0) (a.discrete.E.getD k 0) = false)
    (hc : a.low.E.length = a.low.values.length) :
    nldLnlike close a A alpha T S = .error .valueError := by
  have hb : sameBins close (a.low.transform (fun q : ℚ => (q : ℝ)) Real.exp A alpha) a.discrete =
      false := by
    unfold sameBins Vec.transform
    simp only [List.length_zipWith]
    rcases h with h | ⟨k, h1, h2, h3⟩
    · have : (min a.low.values.length a.low.E.length == a.discrete.values.length) = false := by
        simp only [beq_eq_false_iff_ne]
        omega
      rw [this]
      rfl
    · have : (List.zipWith close a.low.E a.discrete.E).all id = false := by
        rw [List.all_eq_false]
        refine ⟨false, ?_, by simp⟩
        rw [List.mem_iff_getElem]
        refine ⟨k, by simp; omega, ?_⟩
        rw [List.getElem_zipWith]
        rw [List.getD_eq_getElem _ 0 h1, List.getD_eq_getElem _ 0 h2] at h3
        exact h3
      rw [this, Bool.and_false]
  unfold nldLnlike
  simp only [bind, Except.bind]
  unfold Vec.error
  rw [hb]
  rfl

/-- The values of the constant temperature model. -/
noncomputable def ctVal (T S : ℝ) (e : ℚ) : ℝ := Real.exp (((e : ℝ) - S) / T) / T

theorem ct_ok (T S : ℝ) (hT : T ≠ 0) (e : ℚ) : constTemperature e T S = .ok (ctVal T S e) := by
  unfold constTemperature ctVal
  rw [if_neg hT]

/-- One bin at 0 MeV and one at 1 MeV, both with the value 1 and the uncertainty `s`; the known level
density and the model with T = 1, Eshift = 1 agree with them, and with the value at Sn = 2. -/
noncomputable def nldLikeCase (s : ℝ) : NldData :=
  ⟨1, fun _ => 0, fun _ => 1, fun _ => s, fun _ => 0, fun _ => 1, 1, fun _ => 1, fun _ => 1, fun _ => s,
    2, (Real.exp 1, 1)⟩

theorem nldCase_usable (s : ℝ) (hs : 0 < s) (close : ℚ → ℚ → Bool) (h : ∀ e, close e e = true) :
    (nldLikeCase s).Usable close :=
  ⟨fun _ _ => one_ne_zero, fun _ _ => one_ne_zero, fun _ _ => hs, fun _ _ => hs, fun _ _ => h _,
    one_ne_zero⟩

theorem nldCase_chi2 (s A : ℝ) (hs : 0 < s) (hA : 0 < A) :
    (nldLikeCase s).chi2 (ctVal 1 1) A 0 = 2 * ((A - 1) / (A * s)) ^ 2 := by
  have h2 : ctVal 1 1 1 = 1 := by norm_num [ctVal]
  have h3 : ctVal 1 1 2 = Real.exp 1 := by norm_num [ctVal]
  simp only [NldData.chi2, nldLikeCase, Finset.sum_range_one, zero_mul, Real.exp_zero, mul_one, h2, h3]
  ring

theorem nldCase_lnSigma (s A : ℝ) (hs : 0 < s) (hA : 0 < A) :
    (nldLikeCase s).lnSigma A 0 = 2 * Real.log A + 2 * Real.log s := by
  simp only [NldData.lnSigma, nldLikeCase, Finset.sum_range_one, zero_mul, Real.exp_zero, mul_one]
  rw [Real.log_mul hA.ne' hs.ne']
  ring

/-- The comparison used in the cases below. -/
def eqQ (a b : ℚ) : Bool := a = b

theorem eqQ_refl (e : ℚ) : eqQ e e = true := by simp [eqQ]

theorem nldLikeCase_value (s A : ℝ) (hs : 0 < s) (hA : 0 < A) :
    nldLnlike eqQ ((nldLikeCase s).args constTemperature "MeV" "MeV" "MeV") A 0 1 1 =
      .ok (-((A - 1) / (A * s)) ^ 2 - Real.log A - Real.log s) := by
  rw [C64_value eqQ eqQ_refl (nldLikeCase s) (nldCase_usable s hs _ eqQ_refl) constTemperature (ctVal 1 1)
    _ _ _ A 0 1 1 hA (ct_ok 1 1 one_ne_zero), nldCase_chi2 s A hs hA, nldCase_lnSigma s A hs hA]
  congr 1
  ring

/-- Non-vacuity of `C64_value` and `C64_gauss_partial`: the data of the case. -/
example : nldLnlike eqQ ((nldLikeCase 1).args constTemperature "MeV" "MeV" "MeV") 1 0 1 1 = .ok 0 := by
  rw [nldLikeCase_value 1 1 one_pos one_pos]
  norm_num

/-- Non-vacuity of `C64_refuses`. -/
example : nldLnlike eqQ ⟨tabVec 1 (fun _ => 0) (fun _ => 1) (fun _ => 1) "MeV",
    tabVec 1 (fun _ => 1) (fun _ => 1) (fun _ => 1) "MeV", tabVec0 1 (fun _ => 2) (fun _ => 1) "MeV",
    constTemperature, 2, (1, 1)⟩ 1 0 1 1 = .error .valueError :=
  C64_refuses _ _ _ _ _ _ (Or.inr ⟨0, by simp [tabVec], by simp [tabVec0], by decide⟩) rfl

/-- Non-vacuity of `C64_needs_std`. -/
example : nldLnlike eqQ ⟨tabVec0 1 (fun _ => 0) (fun _ => 1) "MeV",
    tabVec 1 (fun _ => 1) (fun _ => 1) (fun _ => 1) "MeV", tabVec0 1 (fun _ => 0) (fun _ => 1) "MeV",
    fun _ _ _ => .ok 1, 2, (1, 1)⟩ 1 0 1 1 = .error .typeError := by
  refine C64_needs_std _ _ _ _ _ _ 0 1 rfl ?_ (fun _ => rfl) one_ne_zero eqQ_refl rfl
  unfold Vec.error
  rw [if_pos (by simp [sameBins, Vec.transform, tabVec0, eqQ])]
  simp [Vec.transform, tabVec0, div0R]

/-- **C64 fails.** The two log-likelihoods do not even order parameters alike: with one level density the
Gaussian log-likelihood is larger for `A = 1/2`, `lnlike` is larger for `A = 1`. -/
theorem C64_gauss_fails :
    (nldLikeCase 1).lnGauss (ctVal 1 1) 1 0 < (nldLikeCase 1).lnGauss (ctVal 1 1) (1 / 2) 0 ∧
    ∃ x y, nldLnlike eqQ ((nldLikeCase 1).args constTemperature "MeV" "MeV" "MeV") 1 0 1 1 = .ok x ∧
      nldLnlike eqQ ((nldLikeCase 1).args constTemperature "MeV" "MeV" "MeV") (1 / 2) 0 1 1 = .ok y ∧
      y < x := by
  have hl : Real.log (1 / 2) = -Real.log 2 := by
    rw [one_div, Real.log_inv]
  have h2 := Real.log_two_gt_d9
  have h2' := Real.log_two_lt_d9
  have key : ∀ A : ℝ, 0 < A → (nldLikeCase 1).lnGauss (ctVal 1 1) A 0 =
      -((A - 1) / A) ^ 2 - 2 * Real.log A := by
    intro A hA
    have h := C64_gauss_partial eqQ eqQ_refl (nldLikeCase 1) (nldCase_usable 1 one_pos _ eqQ_refl)
      constTemperature (ctVal 1 1) "MeV" "MeV" "MeV" A 0 1 1 hA (ct_ok 1 1 one_ne_zero)
    rw [nldLikeCase_value 1 A one_pos hA, nldCase_lnSigma 1 A one_pos hA] at h
    have := Except.ok.inj h
    rw [Real.log_one] at this
    simp only [mul_one, mul_zero, add_zero, sub_zero] at this
    linarith
  refine ⟨?_, _, _, nldLikeCase_value 1 1 one_pos one_pos, nldLikeCase_value 1 (1 / 2) one_pos (by norm_num), ?_⟩
  · rw [key 1 one_pos, key (1 / 2) (by norm_num), hl]
    norm_num
    linarith
  · rw [hl]
    norm_num
    linarith

/-! ## C65: what the data determine -/

/-- **C65.** The Oslo transformation of a constant temperature level density is one again, with
`1/T' = 1/T + α`: data above alone do not fix the parameters. -/
theorem C65_gauge (A a T S : ℝ) (hA : 0 < A) (hT : 0 < T) (h : 0 < 1 + a * T) (e : ℚ) :
    A * ctVal T S e * Real.exp (a * e) =
      ctVal (T / (1 + a * T)) (S / (1 + a * T) - T / (1 + a * T) * Real.log (A / (1 + a * T))) e := by
  unfold ctVal
  have h1 : ((e : ℝ) - (S / (1 + a * T) - T / (1 + a * T) * Real.log (A / (1 + a * T)))) /
      (T / (1 + a * T)) = ((e : ℝ) - S) / T + a * e + Real.log (A / (1 + a * T)) := by
    field_simp
    ring
  rw [h1, Real.exp_add, Real.exp_add, Real.exp_log (by positivity)]
  have h2 : 1 + T * a ≠ 0 := by rw [mul_comm]; exact h.ne'
  field_simp

/-- Non-vacuity: temperature 1, `α = 1` gives temperature 1/2. -/
example : 2 * ctVal 1 0 3 * Real.exp (1 * (3 : ℚ)) = ctVal (1 / 2) 0 3 := by
  have := C65_gauge 2 1 1 0 two_pos one_pos (by norm_num) 3
  norm_num at this ⊢
  exact this

/-- The parameters reproduce the data exactly: the known levels below, the model above and at the
separation energy. -/
def NldData.Exact (D : NldData) (A a T S : ℝ) : Prop :=
  (∀ k < D.n, A * D.vl k * Real.exp (a * D.El k) = D.d k) ∧
  (∀ k < D.m, A * D.vh k * Real.exp (a * D.Eh k) = ctVal T S (D.Eh k)) ∧
  D.nldSn.1 = ctVal T S D.Sn

/-- **C65.** The chi-square of `lnlike` is never negative, and it is 0 exactly for parameters that
reproduce the data. -/
theorem C65_zero_iff (D : NldData) (close : ℚ → ℚ → Bool) (hD : D.Usable close) (A a T S : ℝ)
    (hA : 0 < A) :
    0 ≤ D.chi2 (ctVal T S) A a ∧ (D.chi2 (ctVal T S) A a = 0 ↔ D.Exact A a T S) := by
  unfold NldData.chi2
  have s1 : 0 ≤ ∑ k ∈ Finset.range D.n, ((A * D.vl k * Real.exp (a * D.El k) - D.d k) /
      (A * D.sl k * Real.exp (a * D.El k))) ^ 2 := Finset.sum_nonneg fun _ _ => sq_nonneg _
  have s2 : 0 ≤ ∑ k ∈ Finset.range D.m, ((A * D.vh k * Real.exp (a * D.Eh k) - ctVal T S (D.Eh k)) /
      (A * D.sh k * Real.exp (a * D.Eh k))) ^ 2 := Finset.sum_nonneg fun _ _ => sq_nonneg _
  have s3 : 0 ≤ ((D.nldSn.1 - ctVal T S D.Sn) / D.nldSn.2) ^ 2 := sq_nonneg _
  refine ⟨by positivity, ?_⟩
  have z1 : ∑ k ∈ Finset.range D.n, ((A * D.vl k * Real.exp (a * D.El k) - D.d k) /
      (A * D.sl k * Real.exp (a * D.El k))) ^ 2 = 0 ↔
      ∀ k < D.n, A * D.vl k * Real.exp (a * D.El k) = D.d k := by
    rw [Finset.sum_eq_zero_iff_of_nonneg fun _ _ => sq_nonneg _]
    constructor
    · intro h k hk
      have h1 := h k (Finset.mem_range.2 hk)
      have h2 := hD.sl k hk
      rw [sq_eq_zero_iff, div_eq_zero_iff] at h1
      rcases h1 with h1 | h1
      · linarith
      · exact absurd h1 (by positivity)
    · intro h k hk
      rw [h k (Finset.mem_range.1 hk)]
      simp
  have z2 : ∑ k ∈ Finset.range D.m, ((A * D.vh k * Real.exp (a * D.Eh k) - ctVal T S (D.Eh k)) /
      (A * D.sh k * Real.exp (a * D.Eh k))) ^ 2 = 0 ↔
      ∀ k < D.m, A * D.vh k * Real.exp (a * D.Eh k) = ctVal T S (D.Eh k) := by
    rw [Finset.sum_eq_zero_iff_of_nonneg fun _ _ => sq_nonneg _]
    constructor
    · intro h k hk
      have h1 := h k (Finset.mem_range.2 hk)
      have h2 := hD.sh k hk
      rw [sq_eq_zero_iff, div_eq_zero_iff] at h1
      rcases h1 with h1 | h1
      · linarith
      · exact absurd h1 (by positivity)
    · intro h k hk
      rw [h k (Finset.mem_range.1 hk)]
      simp
  have z3 : ((D.nldSn.1 - ctVal T S D.Sn) / D.nldSn.2) ^ 2 = 0 ↔ D.nldSn.1 = ctVal T S D.Sn := by
    rw [sq_eq_zero_iff, div_eq_zero_iff, or_iff_left hD.nldSn, sub_eq_zero]
  unfold NldData.Exact
  rw [← z1, ← z2, ← z3]
  constructor
  · intro h
    refine ⟨?_, ?_, ?_⟩ <;> linarith
  · rintro ⟨h1, h2, h3⟩
    rw [h1, h2, h3]
    norm_num

/-- **C65.** Two bins below with different energies, one bin above that is not at the separation energy,
and the level density at the separation energy fix all four parameters: parameters that reproduce the
data exactly are unique. -/
theorem C65_unique (D : NldData) (close : ℚ → ℚ → Bool) (hD : D.Usable close) (A a T S A' a' T' S' : ℝ)
    (hA : 0 < A) (hA' : 0 < A') (hT : 0 < T) (hT' : 0 < T') (i j : ℕ) (hi : i < D.n) (hj : j < D.n)
    (hij : D.El i ≠ D.El j) (k : ℕ) (hk : k < D.m) (hkS : D.Eh k ≠ D.Sn)
    (h : D.Exact A a T S) (h' : D.Exact A' a' T' S') : A = A' ∧ a = a' ∧ T = T' ∧ S = S' := by
  obtain ⟨l, u, s⟩ := h
  obtain ⟨l', u', s'⟩ := h'
  -- the logarithms below
  have lg : ∀ q < D.n, Real.log A + a * D.El q = Real.log A' + a' * D.El q := by
    intro q hq
    have e : A * Real.exp (a * D.El q) = A' * Real.exp (a' * D.El q) := by
      have h1 := l q hq
      rw [← l' q hq] at h1
      have h2 := hD.vl q hq
      have h3 : D.vl q * (A * Real.exp (a * D.El q)) = D.vl q * (A' * Real.exp (a' * D.El q)) := by
        linarith
      exact mul_left_cancel₀ h2 h3
    have := congrArg Real.log e
    rwa [Real.log_mul hA.ne' (Real.exp_pos _).ne', Real.log_mul hA'.ne' (Real.exp_pos _).ne',
      Real.log_exp, Real.log_exp] at this
  have hne : ((D.El i : ℚ) : ℝ) - D.El j ≠ 0 := by
    rw [sub_ne_zero]
    exact_mod_cast hij
  have ea : a = a' := by
    have h1 := lg i hi
    have h2 := lg j hj
    have : (a - a') * (((D.El i : ℚ) : ℝ) - D.El j) = 0 := by linarith
    rcases mul_eq_zero.1 this with h3 | h3
    · linarith
    · exact absurd h3 hne
  have eA : A = A' := by
    have h1 := lg i hi
    rw [ea] at h1
    have h2 : Real.log A = Real.log A' := by linarith
    exact Real.log_injOn_pos (Set.mem_Ioi.2 hA) (Set.mem_Ioi.2 hA') h2
  -- the logarithms of the model
  have lc : ∀ e : ℚ, ctVal T S e = ctVal T' S' e →
      ((e : ℝ) - S) / T - Real.log T = ((e : ℝ) - S') / T' - Real.log T' := by
    intro e he
    have := congrArg Real.log he
    unfold ctVal at this
    rwa [Real.log_div (Real.exp_pos _).ne' hT.ne', Real.log_div (Real.exp_pos _).ne' hT'.ne',
      Real.log_exp, Real.log_exp] at this
  have c1 := lc D.Sn (by rw [← s, ← s'])
  have c2 := lc (D.Eh k) (by rw [← u k hk, ← u' k hk, ea, eA])
  have hne2 : ((D.Eh k : ℚ) : ℝ) - D.Sn ≠ 0 := by
    rw [sub_ne_zero]
    exact_mod_cast hkS
  have eT : T = T' := by
    have h1 : (((D.Eh k : ℚ) : ℝ) - D.Sn) / T = (((D.Eh k : ℚ) : ℝ) - D.Sn) / T' := by
      have e1 : (((D.Eh k : ℚ) : ℝ) - D.Sn) / T =
          (((D.Eh k : ℚ) : ℝ) - S) / T - ((D.Sn : ℝ) - S) / T := by ring
      have e2 : (((D.Eh k : ℚ) : ℝ) - D.Sn) / T' =
          (((D.Eh k : ℚ) : ℝ) - S') / T' - ((D.Sn : ℝ) - S') / T' := by ring
      rw [e1, e2]
      linarith
    field_simp at h1
    linarith
  refine ⟨eA, ea, eT, ?_⟩
  rw [eT] at c1
  have h1 : ((D.Sn : ℝ) - S) / T' = ((D.Sn : ℝ) - S') / T' := by linarith
  field_simp at h1
  linarith

/-- Non-vacuity: levels at 0 and 1 MeV, data at 2 MeV, Sn = 3 MeV. -/
noncomputable def nldLikeCase2 : NldData :=
  ⟨2, fun k => k, fun _ => 1, fun _ => 1, fun k => k, fun _ => 1, 1, fun _ => 2, fun _ => 1, fun _ => 1,
    3, (Real.exp 1, 1)⟩

example : nldLikeCase2.Usable eqQ ∧ nldLikeCase2.Exact 1 0 1 2 ∧ nldLikeCase2.El 0 ≠ nldLikeCase2.El 1 ∧
    nldLikeCase2.Eh 0 ≠ nldLikeCase2.Sn := by
  refine ⟨⟨fun _ _ => one_ne_zero, fun _ _ => one_ne_zero, fun _ _ => one_pos, fun _ _ => one_pos,
    fun _ _ => eqQ_refl _, one_ne_zero⟩, ⟨?_, ?_, ?_⟩, ?_, ?_⟩
  · intro k _; simp [nldLikeCase2]
  · intro k _; norm_num [nldLikeCase2, ctVal]
  · norm_num [nldLikeCase2, ctVal]
  · norm_num [nldLikeCase2]
  · norm_num [nldLikeCase2]

/-- **C65 fails** for the likelihood itself: the parameters that reproduce the data exactly are not those
of the largest likelihood, since the uncertainties shrink with `A`. Here `A = 1` is exact, and `A = 1/2` is
more likely. -/
theorem C65_best_fails : (nldLikeCase 2).Exact 1 0 1 1 ∧
    ∃ x y, nldLnlike eqQ ((nldLikeCase 2).args constTemperature "MeV" "MeV" "MeV") 1 0 1 1 = .ok x ∧
      nldLnlike eqQ ((nldLikeCase 2).args constTemperature "MeV" "MeV" "MeV") (1 / 2) 0 1 1 = .ok y ∧
      x < y := by
  refine ⟨⟨?_, ?_, ?_⟩, _, _, nldLikeCase_value 2 1 two_pos one_pos,
    nldLikeCase_value 2 (1 / 2) two_pos (by norm_num), ?_⟩
  · intro k _; simp [nldLikeCase]
  · intro k _; norm_num [nldLikeCase, ctVal]
  · norm_num [nldLikeCase, ctVal]
  · have hl : Real.log (1 / 2) = -Real.log 2 := by rw [one_div, Real.log_inv]
    have h2 := Real.log_two_gt_d9
    rw [hl]
    norm_num
    linarith

end Ompy
