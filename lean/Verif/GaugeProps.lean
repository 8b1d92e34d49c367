import Verif.SimultanProps
import Verif.VectorProps
import Verif.NldLikeProps

/-!
# C104: the gauge of the extraction drops out of the normalisation

The extraction fixes level density and strength function only up to factors `a exp(α₀ E)` and `b exp(α₀ E)` (C33). Here: what the normalisation makes of such a pair.
About `NormalizerNLD.lnlike` (ompy/normalizer_nld.py:484-522), `NormalizerGSF.normalize` (ompy/normalizer_gsf.py:190-222) and `NormalizerSimultan.lnlike`, `normalize`
(ompy/normalizer_simultan.py:101-184, 347-383).
-/

namespace Ompy

/-- Vectors for which `transform` is invertible: lists of one length, and no value 0 if there are standard deviations. -/
def Vec.Regular (v : Vec ℝ) : Prop := v.consistent ∧ (v.std = none ∨ ∀ x ∈ v.values, x ≠ 0)

theorem oslo_oslo (v : Vec ℝ) (hv : v.Regular) (a α₀ A α : ℝ) (ha : a ≠ 0) : oslo (oslo v a α₀) A α = oslo v (a * A) (α₀ + α) :=
  C11_group_law v a α₀ A α hv.1 (hv.2.imp id fun h => ⟨ha, h⟩)

/-- Another gauge is undone by other parameters. -/
theorem oslo_gauge (v : Vec ℝ) (hv : v.Regular) (a α₀ A α : ℝ) (ha : a ≠ 0) : oslo (oslo v a α₀) (A / a) (α - α₀) = oslo v A α := by
  rw [oslo_oslo v hv a α₀ _ _ ha]
  congr 1
  · field_simp
  · ring

theorem oslo_regular (v : Vec ℝ) (hv : v.Regular) (a α₀ : ℝ) (ha : a ≠ 0) : (oslo v a α₀).Regular := by
  refine ⟨transformR_consistent v a α₀ hv.1, ?_⟩
  rcases hv.2 with h | h
  · left; simp [oslo, Vec.transform, h]
  · right
    have e : (oslo v a α₀).values = osloList a α₀ v.values v.E := transformR_values v a α₀
    rw [e]
    exact osloList_ne_zero a α₀ ha _ _ h

/-- The arguments of the likelihood for the level density in another gauge. -/
noncomputable def NldArgs.gauge (D : NldArgs) (a α₀ : ℝ) : NldArgs := { D with low := oslo D.low a α₀, high := oslo D.high a α₀ }

/-- **C104.** In another gauge the likelihood of the level density is the same function of the parameters, displaced. -/
theorem C104_nld (close : ℚ → ℚ → Bool) (D : NldArgs) (hl : D.low.Regular) (hh : D.high.Regular) (a α₀ A α T S : ℝ) (ha : a ≠ 0) :
    nldLnlike close (D.gauge a α₀) (A / a) (α - α₀) T S = nldLnlike close D A α T S := by
  unfold nldLnlike NldArgs.gauge
  have e1 : (oslo D.low a α₀).transform (fun q : ℚ => (q : ℝ)) Real.exp (A / a) (α - α₀) = D.low.transform (fun q : ℚ => (q : ℝ)) Real.exp A α := oslo_gauge D.low hl a α₀ A α ha
  have e2 : (oslo D.high a α₀).transform (fun q : ℚ => (q : ℝ)) Real.exp (A / a) (α - α₀) = D.high.transform (fun q : ℚ => (q : ℝ)) Real.exp A α := oslo_gauge D.high hh a α₀ A α ha
  simp only [e1, e2]

/-- Parameters at which the likelihood has its largest value. -/
def NldBest (close : ℚ → ℚ → Bool) (D : NldArgs) (A α T S : ℝ) : Prop :=
  0 < A ∧ ∃ v, nldLnlike close D A α T S = .ok v ∧ ∀ A' α' T' S' v', 0 < A' → nldLnlike close D A' α' T' S' = .ok v' → v' ≤ v

/-- **C104.** The best parameters give the same normalised level density, temperature and shift in every gauge. -/
theorem C104_nld_best (close : ℚ → ℚ → Bool) (D : NldArgs) (hl : D.low.Regular) (hh : D.high.Regular) (nld : Vec ℝ) (hn : nld.Regular) (a α₀ A α T S : ℝ) (ha : 0 < a) :
    (NldBest close (D.gauge a α₀) (A / a) (α - α₀) T S ↔ NldBest close D A α T S) ∧ oslo (oslo nld a α₀) (A / a) (α - α₀) = oslo nld A α := by
  refine ⟨?_, oslo_gauge nld hn a α₀ A α ha.ne'⟩
  unfold NldBest
  have hp : 0 < A / a ↔ 0 < A := by
    constructor
    · intro h; have := mul_pos h ha; rwa [div_mul_cancel₀ _ ha.ne'] at this
    · intro h; exact div_pos h ha
  rw [C104_nld close D hl hh a α₀ A α T S ha.ne', hp]
  refine and_congr_right fun _ => exists_congr fun v => and_congr_right fun _ => ?_
  constructor
  · intro h A' α' T' S' v' hA' h'
    refine h (A' / a) (α' - α₀) T' S' v' (div_pos hA' ha) ?_
    rw [C104_nld close D hl hh a α₀ A' α' T' S' ha.ne']
    exact h'
  · intro h A' α' T' S' v' hA' h'
    refine h (A' * a) (α' + α₀) T' S' v' (mul_pos hA' ha) ?_
    rw [← C104_nld close D hl hh a α₀ (A' * a) (α' + α₀) T' S' ha.ne', mul_div_cancel_right₀ _ ha.ne', add_sub_cancel_right]
    exact h'

/-- **C104.** The made-up standard deviations of 30 percent go along with the gauge, so that nothing changes without standard deviations either. -/
theorem C104_made_up (flag : Option Bool) (v : Vec ℝ) (hv : v.consistent) (hs : v.std = none) (h0 : ∀ x ∈ v.values, x ≠ 0) (a α₀ : ℝ) :
    fakeStd flag (oslo v a α₀) = ((fakeStd flag v).1, oslo (fakeStd flag v).2 a α₀) := by
  have h1 : (oslo v a α₀).std = none := by simp [oslo, Vec.transform, hs]
  unfold fakeStd
  rw [if_pos (Or.inr h1), if_pos (Or.inr hs)]
  simp only [Prod.mk.injEq, true_and]
  unfold oslo Vec.transform
  simp only [Vec.mk.injEq, true_and, and_true, Option.map_some, Option.some.injEq]
  apply List.ext_getElem
  · simp
  · intro i i1 i2
    simp only [List.getElem_map, List.getElem_zipWith]
    have hi : i < v.values.length := by simp at i2; omega
    have := h0 _ (List.getElem_mem hi)
    field_simp

/-- **C104.** The stepwise normalisation of the strength function with fitted extrapolations: in another gauge the constant `B` changes by the factor of the gauge, and the normalised strength
function and its two extrapolations are the same. -/
theorem C104_gsf_partial (p : GgPars) (low high : ExtModel) (fit : Vec ℝ → ExtModel → Except Err (ℝ × ℝ)) (hfit : ScaledFit fit) (hlow : low.fitted = true) (alpha : ℝ) (nld : Curve)
    (model S : ℚ → Except Err ℝ) (gsfIn : Vec ℝ) (hu : gsfIn.units = "MeV") (hv : gsfIn.Regular) (r : GsfResult) (b α₀ : ℝ) (hb : 0 < b)
    (h : gsfNormalize p low high fit alpha nld model S gsfIn = .ok r) :
    ∃ r', gsfNormalize p low high fit (alpha - α₀) nld model S (oslo gsfIn b α₀) = .ok r' ∧ r'.B = r.B / b ∧ r'.norm.gsf = r.norm.gsf ∧
      r'.norm.low.extrapolate true = r.norm.low.extrapolate true ∧ r'.norm.high.extrapolate true = r.norm.high.extrapolate true := by
  have hm : gsfIn.toMeV = .ok gsfIn := by unfold Vec.toMeV; rw [if_pos hu]
  have hm' : (oslo gsfIn b α₀).toMeV = .ok (oslo gsfIn b α₀) := by unfold Vec.toMeV; rw [if_pos (show (oslo gsfIn b α₀).units = "MeV" from hu)]
  have hg1 : oslo (oslo gsfIn b α₀) 1 (alpha - α₀) = oslo gsfIn b alpha := by
    rw [← oslo_gauge gsfIn hv b α₀ b alpha hb.ne', div_self hb.ne']
  have hg2 : oslo gsfIn b alpha = oslo (oslo gsfIn 1 alpha) b 0 := by
    rw [oslo_oslo gsfIn hv 1 alpha b 0 one_ne_zero, one_mul, add_zero]
  have hE : (oslo gsfIn b alpha).E = (oslo gsfIn 1 alpha).E := rfl
  unfold gsfNormalize at h ⊢
  rw [hm] at h
  rw [hm']
  simp only [bind, Except.bind, pure, Except.pure] at h ⊢
  rw [hg1, hE]
  cases he : (oslo gsfIn 1 alpha).E.head? with
  | none => rw [he] at h; simp at h
  | some e0 =>
  rw [he] at h
  dsimp only at h ⊢
  set lo := low.autorange e0 with hlo
  set hi := high.autorange e0 with hhi
  have hlo' : lo.fitted = true := hlow
  unfold fitModels at h ⊢
  rw [if_pos hlo'] at h ⊢
  rw [hg2, hfit _ lo b hb, hfit _ hi b hb]
  simp only [bind, Except.bind, pure, Except.pure] at h ⊢
  cases h1 : fit (oslo gsfIn 1 alpha) lo with
  | error er => rw [h1] at h; simp at h
  | ok l =>
  cases h2 : fit (oslo gsfIn 1 alpha) hi with
  | error er => rw [h1, h2] at h; simp at h
  | ok k =>
  rw [h1, h2] at h
  simp only [Except.map] at h ⊢
  cases h3 : ({ lo with scale := l.1, shift := l.2 } : ExtModel).extrapolate false with
  | error er => rw [h3] at h; simp at h
  | ok cl =>
  cases h4 : ({ hi with scale := k.1, shift := k.2 } : ExtModel).extrapolate false with
  | error er => rw [h3, h4] at h; simp at h
  | ok ch =>
  rw [h3, h4] at h
  dsimp only at h
  obtain ⟨dl, e1, s1⟩ := extrapolate_shifted h3 hb
  obtain ⟨dh, e2, s2⟩ := extrapolate_shifted h4 hb
  dsimp only at e1 e2
  rw [e1, e2]
  dsimp only
  rw [C48_linear p hb (oslo_scaled _ (oslo_length _ _ _) b) s1 s2]
  cases hG : ggStandard p (oslo gsfIn 1 alpha).curve cl ch nld model S with
  | error er => rw [hG] at h; simp at h
  | ok G =>
  rw [hG] at h
  simp only [Except.map] at h ⊢
  by_cases h0 : G = 0 ∨ p.D0.1 = 0
  · rw [if_pos h0] at h; simp at h
  rw [if_neg h0] at h
  push Not at h0
  rw [if_neg (by push Not; exact ⟨mul_ne_zero hb.ne' h0.1, h0.2⟩)]
  have hB : p.Gg / (b * G) = p.Gg / G / b := by rw [div_div, mul_comm]
  unfold ExtModel.normToShiftAfter at h ⊢
  by_cases hpos : 0 < p.Gg / G
  · rw [if_pos hpos, if_pos hpos] at h
    have hpos' : 0 < p.Gg / (b * G) := by rw [hB]; exact div_pos hpos hb
    rw [if_pos hpos', if_pos hpos']
    simp only [Except.ok.injEq] at h
    have hlog : Real.log b + Real.log (p.Gg / (b * G)) = Real.log (p.Gg / G) := by
      rw [hB, Real.log_div hpos.ne' hb.ne']
      ring
    refine ⟨_, rfl, ?_, ?_, ?_, ?_⟩
    · rw [← h]; exact hB
    · rw [← h]
      simp only
      rw [oslo_oslo _ (oslo_regular gsfIn hv 1 alpha one_ne_zero) b 0 _ 0 hb.ne', hB, add_zero]
      congr 1
      field_simp
    · rw [← h]
      simp only [ExtModel.extrapolate, if_true, Option.getD_some, add_assoc, hlog]
      rfl
    · rw [← h]
      simp only [ExtModel.extrapolate, if_true, Option.getD_some, add_assoc, hlog]
      rfl
  · rw [if_neg hpos] at h
    simp at h

/-- The environment of the simultaneous normalisation in another gauge. -/
noncomputable def SimEnv.gauge (e : SimEnv) (a α₀ : ℝ) : SimEnv := { e with args := e.args.gauge a α₀, nld := oslo e.nld a α₀ }

/-- The parameters for another gauge. -/
noncomputable def SimPoint.gauge (x : SimPoint) (a b α₀ : ℝ) : SimPoint := ⟨x.A / a, x.alpha - α₀, x.T, x.Eshift, x.B / b⟩

/-- **C104.** The likelihood of the simultaneous normalisation is the same function in every gauge, displaced, with fitted or fixed extrapolations; the level density, the strength function and
the extrapolations it belongs to are the same. -/
theorem C104_simultaneous (e : SimEnv) (s : SimGsf) (hl : e.args.low.Regular) (hh : e.args.high.Regular) (hn : e.nld.Regular) (hg : s.gsfIn.Regular) (a b α₀ : ℝ) (ha : a ≠ 0) (hb : b ≠ 0)
    (x : SimPoint) :
    (simLnlike (e.gauge a α₀) { s with gsfIn := oslo s.gsfIn b α₀ } (x.gauge a b α₀)).2 = (simLnlike e s x).2 ∧
      (simLnlike (e.gauge a α₀) { s with gsfIn := oslo s.gsfIn b α₀ } (x.gauge a b α₀)).1 = { (simLnlike e s x).1 with gsfIn := oslo s.gsfIn b α₀ } := by
  have h1 : nldLnlike e.close (e.args.gauge a α₀) (x.A / a) (x.alpha - α₀) x.T x.Eshift = nldLnlike e.close e.args x.A x.alpha x.T x.Eshift :=
    C104_nld e.close e.args hl hh a α₀ x.A x.alpha x.T x.Eshift ha
  have h2 := oslo_gauge e.nld hn a α₀ x.A x.alpha ha
  have h3 := oslo_gauge s.gsfIn hg b α₀ x.B x.alpha hb
  unfold simLnlike
  simp only [SimEnv.gauge, SimPoint.gauge]
  rw [h1, h2]
  cases nldLnlike e.close e.args x.A x.alpha x.T x.Eshift with
  | error er => exact ⟨rfl, rfl⟩
  | ok v =>
    simp only [bind, Except.bind]
    cases e.model e.Sn x.T x.Eshift with
    | error er => exact ⟨rfl, rfl⟩
    | ok n =>
      simp only
      cases D0FromNldSn e.g n e.Jtarget with
      | error er => exact ⟨rfl, rfl⟩
      | ok D0 =>
        simp only [simGsfPart]
        rw [h3]
        cases fitModels e.fit s.low s.high (oslo s.gsfIn x.B x.alpha) with
        | error er => exact ⟨rfl, rfl⟩
        | ok lh => exact ⟨rfl, rfl⟩

/-- **C104 (disagreement).** The search itself is tied to a gauge: whatever the slope the data ask for, there is a gauge of the same data in which it is negative, and then `optimize` refuses, and a
gauge in which it is outside of given bounds. -/
theorem C104_search_fails (e : SimEnv) (s : SimGsf) (x : SimPoint) (a b : ℝ) (len : ℕ) (pts : List SimPoint) (lo hi : ℝ) :
    (∃ α₀, (simOptimize (e.gauge a α₀) { s with gsfIn := oslo s.gsfIn b α₀ } (x.gauge a b α₀) len pts).2 = .error .notImplemented) ∧
      ∃ α₀, ¬ (lo ≤ (x.gauge a b α₀).alpha ∧ (x.gauge a b α₀).alpha ≤ hi) := by
  refine ⟨⟨x.alpha + 1, ?_⟩, ⟨x.alpha - hi - 1, ?_⟩⟩
  · unfold simOptimize
    rw [if_pos (by simp [SimPoint.gauge])]
  · simp only [SimPoint.gauge]
    rintro ⟨-, h⟩
    linarith

/-! ### Cases -/

theorem gsfCase_regular : gsfCase.Regular := ⟨rfl, Or.inl rfl⟩

theorem gaugeCase_fixed (k : ℝ) (hk : 0 < k) : ∃ r, gsfNormalize ⟨0, 2, 5, (1, 0), 6250⟩ (simGsfCase false).low (simGsfCase false).high headFit 0 nldCase
    (fun _ => .ok 1) (fun _ => .ok 1) (oslo gsfCase k 0) = .ok r ∧ r.B = 6250 / (k * 3093.75 + 31.25) ∧ r.norm.gsf = oslo gsfCase (k * r.B) 0 := by
  have hw := simCase_fixed headFit k hk
  unfold widthOf at hw
  have hv : (oslo gsfCase k 0).toMeV = .ok (oslo gsfCase k 0) := rfl
  have h1 : oslo (oslo gsfCase k 0) 1 0 = oslo gsfCase k 0 := by
    rw [oslo_oslo gsfCase gsfCase_regular k 0 1 0 hk.ne', mul_one, add_zero]
  have hE : (oslo gsfCase k 0).E.head? = some 1 := rfl
  unfold gsfNormalize
  rw [hv]
  simp only [bind, Except.bind, pure, Except.pure] at hw ⊢
  rw [h1, hE]
  simp only [simGsfCase, fitModels, lowDefault, highDefault, ExtModel.autorange, Bool.false_eq_true, if_false, pure,
    Except.pure, ExtModel.extrapolate, Option.getD_none, Option.getD_some, if_true] at hw ⊢
  rw [hw]
  have hG : 0 < k * 3093.75 + 31.25 := by positivity
  simp only
  rw [if_neg (by push Not; exact ⟨hG.ne', one_ne_zero⟩)]
  simp only [ExtModel.normToShiftAfter]
  rw [if_pos (div_pos (by norm_num) hG), if_pos (div_pos (by norm_num) hG)]
  refine ⟨_, rfl, rfl, ?_⟩
  simp only
  rw [oslo_oslo gsfCase gsfCase_regular k 0 _ 0 hk.ne', add_zero]

/-- **C104 (disagreement).** With fixed extrapolations the stepwise result does depend on the gauge: twice the strength function from the extraction does not give half the `B`, and gives another
normalised strength function. -/
theorem C104_fixed_fails : ∃ (p : GgPars) (low high : ExtModel) (r r' : GsfResult), low.fitted = false ∧ ScaledFit headFit ∧
    gsfNormalize p low high headFit 0 nldCase (fun _ => .ok 1) (fun _ => .ok 1) gsfCase = .ok r ∧
    gsfNormalize p low high headFit 0 nldCase (fun _ => .ok 1) (fun _ => .ok 1) (oslo gsfCase 2 0) = .ok r' ∧
    r'.B ≠ r.B / 2 ∧ r.norm.gsf.values = [2, 2] ∧ r'.norm.gsf.values = [400 / 199, 400 / 199] := by
  obtain ⟨r, h1, h2, h3⟩ := gaugeCase_fixed 1 one_pos
  obtain ⟨r', h4, h5, h6⟩ := gaugeCase_fixed 2 two_pos
  have e : oslo gsfCase 1 0 = gsfCase := by simp [oslo, Vec.transform, gsfCase]
  rw [e] at h1
  refine ⟨_, _, _, r, r', rfl, headFit_scaled, h1, h4, ?_, ?_, ?_⟩
  · rw [h2, h5]; norm_num
  · rw [h3, h2]; simp [oslo, Vec.transform, gsfCase]; norm_num
  · rw [h6, h5]; simp [oslo, Vec.transform, gsfCase]; norm_num

/-- Non-vacuity of `C104_gsf_partial`: with fitted extrapolations twice the strength function gives half the `B`. -/
example : ∃ r', gsfNormalize { (simGsfCase true).pars with D0 := (1, 0) } (simGsfCase true).low (simGsfCase true).high headFit (0 - 3)
    (oslo (simEnvCase headFit).nld 1 0).curve (fun _ => .ok 1) (fun _ => .ok 1) (oslo gsfCase 2 3) = .ok r' ∧ r'.B = 1 := by
  have key : ∃ r, gsfNormalize { (simGsfCase true).pars with D0 := (1, 0) } (simGsfCase true).low (simGsfCase true).high headFit 0
      (oslo (simEnvCase headFit).nld 1 0).curve (fun _ => .ok 1) (fun _ => .ok 1) gsfCase = .ok r ∧ r.B = 2 := by
    have hw := simCase_fitted 1 one_pos
    unfold widthOf at hw
    have hv : gsfCase.toMeV = .ok gsfCase := rfl
    have hE : (oslo gsfCase 1 0).E.head? = some 1 := rfl
    have hfit : ∀ m, headFit (oslo gsfCase 1 0) m = .ok (0, 0) := by
      intro m
      simp [headFit, oslo, Vec.transform, gsfCase]
    unfold gsfNormalize
    have hq : (oslo (simEnvCase headFit).nld 1 0).curve = nldCase := oslo_nldCase
    rw [hv, hq]
    simp only [bind, Except.bind, pure, Except.pure] at hw ⊢
    rw [hE]
    simp only [simGsfCase, fitModels, lowDefault, highDefault, ExtModel.autorange, Bool.false_eq_true, if_false, pure, hfit,
      Except.pure, ExtModel.extrapolate, Option.getD_none, Option.getD_some, if_true, bind, Except.bind] at hw ⊢
    rw [hw]
    have h2 : (6250 : ℝ) / (1 * 3125) = 2 := by norm_num
    simp only
    rw [if_neg (by norm_num), h2]
    simp only [ExtModel.normToShiftAfter]
    rw [if_pos two_pos, if_pos two_pos]
    exact ⟨_, rfl, rfl⟩
  obtain ⟨r, h1, h2⟩ := key
  obtain ⟨r', h3, h4, -⟩ := C104_gsf_partial _ _ _ headFit headFit_scaled rfl 0 _ _ _ gsfCase rfl gsfCase_regular r 2 3 two_pos h1
  exact ⟨r', h3, by rw [h4, h2]; norm_num⟩

/-- Non-vacuity of `C104_simultaneous`: the likelihood of the case, in another gauge. -/
example : (simLnlike ((simEnvCase headFit).gauge 2 3) { simGsfCase true with gsfIn := oslo gsfCase 5 3 } ⟨1 / 2, 0 - 3, 1, 0, 1 / 5⟩).2 = .ok (-5000) := by
  have h0 : (⟨[], [], some [], "MeV"⟩ : Vec ℝ).Regular := ⟨rfl, Or.inr (by simp)⟩
  have h := (C104_simultaneous (simEnvCase headFit) (simGsfCase true) h0 h0 ⟨rfl, Or.inl rfl⟩ gsfCase_regular 2 5 3 two_ne_zero (by norm_num) ⟨1, 0, 1, 0, 1⟩).1
  rw [simCase_value 1 one_pos] at h
  have e : SimPoint.gauge ⟨1, 0, 1, 0, 1⟩ 2 5 3 = ⟨1 / 2, 0 - 3, 1, 0, 1 / 5⟩ := rfl
  rw [e] at h
  refine h.trans ?_
  norm_num

/-- Non-vacuity of `C104_nld`: a level density with standard deviations, in another gauge. -/
example : nldLnlike eqQ (((nldLikeCase 1).args constTemperature "MeV" "MeV" "MeV").gauge 2 3) (1 / 2) (0 - 3) 1 1 = .ok 0 ∧
    ((nldLikeCase 1).args constTemperature "MeV" "MeV" "MeV").low.std ≠ none := by
  refine ⟨?_, by simp [NldData.args, tabVec]⟩
  rw [C104_nld eqQ _ ?_ ?_ 2 3 1 0 1 1 two_ne_zero, nldLikeCase_value 1 1 one_pos one_pos]
  · norm_num
  · exact ⟨by simp [NldData.args, tabVec, Vec.consistent], Or.inr (by simp [NldData.args, tabVec, nldLikeCase])⟩
  · exact ⟨by simp [NldData.args, tabVec, Vec.consistent], Or.inr (by simp [NldData.args, tabVec, nldLikeCase])⟩

/-- Non-vacuity of `C104_made_up`. -/
example : (fakeStd none (oslo ⟨[1, 2], [2, 4], none, "MeV"⟩ 3 0)).2.std = some [9 / 5, 18 / 5] := by
  rw [C104_made_up none _ rfl rfl (by simp)]
  simp [fakeStd, oslo, Vec.transform]
  norm_num

end Ompy
