import Verif.Simultan
import Verif.GsfNormTotal
import Mathlib.Tactic.Linarith
import Mathlib.Tactic.Ring
import Mathlib.Tactic.FieldSimp

/-!
# Properties of the simultaneous normalisation (C75)
-/

namespace Ompy

/-- The width for a strength function and models before the fit of the extrapolations. -/
noncomputable def widthOf (fit : Vec ℝ → ExtModel → Except Err (ℝ × ℝ)) (p : GgPars) (low high : ExtModel)
    (gsf : Vec ℝ) (nld : Curve) (model S : ℚ → Except Err ℝ) : Except Err ℝ := do
  let lh ← fitModels fit low high gsf
  let cl ← lh.1.extrapolate false
  let ch ← lh.2.extrapolate false
  ggStandard p gsf.curve cl ch nld model S

/-- **C75.** The likelihood is the sum of that of the level density and minus half of the square of the deviation of
the width in units of its uncertainty; the width is that of the transformed vectors with the level
spacing that belongs to `T` and `Eshift`. -/
theorem C75_value (e : SimEnv) (s : SimGsf) (x : SimPoint) (v : ℝ) :
    (simLnlike e s x).2 = .ok v ↔ ∃ a n D0 G : ℝ, nldLnlike e.close e.args x.A x.alpha x.T x.Eshift = .ok a ∧
      e.model e.Sn x.T x.Eshift = .ok n ∧ D0FromNldSn e.g n e.Jtarget = .ok D0 ∧
      widthOf e.fit { s.pars with D0 := (D0, 0) } s.low s.high (oslo s.gsfIn x.B x.alpha)
        (oslo e.nld x.A x.alpha).curve (fun q => e.model q x.T x.Eshift) e.S = .ok G ∧
      s.sigmaGg ≠ 0 ∧ v = a - ((G - s.pars.Gg) / s.sigmaGg) ^ 2 / 2 := by
  unfold simLnlike
  simp only [bind, Except.bind]
  cases ha : nldLnlike e.close e.args x.A x.alpha x.T x.Eshift with
  | error er => simp
  | ok a =>
  cases hn : e.model e.Sn x.T x.Eshift with
  | error er => simp
  | ok n =>
  dsimp only
  cases hD : D0FromNldSn e.g n e.Jtarget with
  | error er =>
    constructor
    · intro h; simp at h
    · rintro ⟨_, _, _, _, _, h2, h3, _⟩
      injection h2 with h2
      subst h2
      rw [hD] at h3
      simp at h3
  | ok D0 =>
  dsimp only
  unfold simGsfPart widthOf
  simp only [bind, Except.bind]
  constructor
  · intro h
    refine ⟨a, n, D0, ?_⟩
    cases hf : fitModels e.fit s.low s.high (oslo s.gsfIn x.B x.alpha) with
    | error er => rw [hf] at h; simp [Except.map] at h
    | ok lh =>
    rw [hf] at h
    dsimp only at h
    cases hl : lh.1.extrapolate false with
    | error er => rw [hl] at h; simp [Except.map] at h
    | ok cl =>
    cases hh : lh.2.extrapolate false with
    | error er => rw [hl, hh] at h; simp [Except.map] at h
    | ok ch =>
    rw [hl, hh] at h
    dsimp only at h
    cases hG : ggStandard { s.pars with D0 := (D0, 0) } (oslo s.gsfIn x.B x.alpha).curve cl ch
        (oslo e.nld x.A x.alpha).curve (fun q => e.model q x.T x.Eshift) e.S with
    | error er => rw [hG] at h; simp [Except.map] at h
    | ok G =>
    rw [hG] at h
    dsimp only at h
    unfold gsfLnlike at h
    by_cases h0 : s.sigmaGg = 0
    · rw [if_pos h0] at h; simp [Except.map] at h
    · rw [if_neg h0] at h
      simp only [Except.map, Except.ok.injEq] at h
      refine ⟨G, rfl, rfl, hD, ?_, h0, by rw [← h]; ring⟩
      simp only [hl, hh]
      exact hG
  · rintro ⟨a', n', D0', G, h1, h2, h3, h4, h5, h6⟩
    injection h1 with h1
    injection h2 with h2
    subst h1 h2
    rw [hD] at h3
    injection h3 with h3
    subst h3
    cases hf : fitModels e.fit s.low s.high (oslo s.gsfIn x.B x.alpha) with
    | error er => rw [hf] at h4; simp at h4
    | ok lh =>
    rw [hf] at h4
    dsimp only at h4
    cases hl : lh.1.extrapolate false with
    | error er => rw [hl] at h4; simp at h4
    | ok cl =>
    cases hh : lh.2.extrapolate false with
    | error er => rw [hl, hh] at h4; simp at h4
    | ok ch =>
    rw [hl, hh] at h4
    dsimp only at h4
    dsimp only
    simp only [hl, hh]
    rw [h4]
    dsimp only
    unfold gsfLnlike
    rw [if_neg h5]
    simp only [Except.map, h6]
    congr 1
    ring

/-- **C75.** The likelihood is at most that of the level density, and equal to it exactly if the width is the
experimental one. -/
theorem C75_bound (e : SimEnv) (s : SimGsf) (x : SimPoint) (v a n D0 G : ℝ) (h : (simLnlike e s x).2 = .ok v)
    (ha : nldLnlike e.close e.args x.A x.alpha x.T x.Eshift = .ok a) (hn : e.model e.Sn x.T x.Eshift = .ok n)
    (hD : D0FromNldSn e.g n e.Jtarget = .ok D0)
    (hG : widthOf e.fit { s.pars with D0 := (D0, 0) } s.low s.high (oslo s.gsfIn x.B x.alpha)
        (oslo e.nld x.A x.alpha).curve (fun q => e.model q x.T x.Eshift) e.S = .ok G) :
    v ≤ a ∧ (v = a ↔ G = s.pars.Gg) := by
  obtain ⟨a', n', D0', G', h1, h2, h3, h4, h5, h6⟩ := (C75_value e s x v).1 h
  rw [ha] at h1; injection h1 with h1; subst h1
  rw [hn] at h2; injection h2 with h2; subst h2
  rw [hD] at h3; injection h3 with h3; subst h3
  rw [hG] at h4; injection h4 with h4; subst h4
  have hsq := sq_nonneg ((G - s.pars.Gg) / s.sigmaGg)
  refine ⟨by linarith, ?_, ?_⟩
  · intro hv
    have : ((G - s.pars.Gg) / s.sigmaGg) ^ 2 = 0 := by linarith
    have := pow_eq_zero_iff (two_ne_zero) |>.1 this
    rcases div_eq_zero_iff.1 this with h | h
    · linarith
    · exact absurd h h5
  · intro hg
    rw [h6, hg, sub_self, zero_div]
    ring

/-! ### The order of the evaluations -/

/-- A fit that does not start from the old parameters (`curve_fit` starts from `[1, -20]`). -/
def FreshFit (fit : Vec ℝ → ExtModel → Except Err (ℝ × ℝ)) : Prop :=
  ∀ v (m : ExtModel) a b, fit v { m with scale := a, shift := b } = fit v m

/-- The same normaliser up to what a call of `lnlike` overwrites. -/
def SimGsf.like (s t : SimGsf) : Prop :=
  (∃ q, t.pars = { s.pars with D0 := q }) ∧ t.sigmaGg = s.sigmaGg ∧ t.gsfIn = s.gsfIn ∧
  ((t.low = s.low ∧ t.high = s.high) ∨ (s.low.fitted = true ∧ ∃ a b c d, t.low = { s.low with scale := a, shift := b } ∧
    t.high = { s.high with scale := c, shift := d }))

theorem like_refl (s : SimGsf) : s.like s := ⟨⟨s.pars.D0, rfl⟩, rfl, rfl, Or.inl ⟨rfl, rfl⟩⟩

theorem like_fit {fit : Vec ℝ → ExtModel → Except Err (ℝ × ℝ)} (hf : FreshFit fit) {s t : SimGsf} (h : s.like t)
    (v : Vec ℝ) : fitModels fit t.low t.high v = fitModels fit s.low s.high v := by
  obtain ⟨-, -, -, ⟨h1, h2⟩ | ⟨h0, a, b, c, d, h1, h2⟩⟩ := h
  · rw [h1, h2]
  · rw [h1, h2]
    have e1 := hf v s.low a b
    have e2 := hf v s.high c d
    unfold fitModels
    dsimp only at e1 e2 ⊢
    rw [if_pos h0, if_pos h0, e1, e2]

theorem like_pars {s t : SimGsf} (h : s.like t) (q : ℝ × ℝ) :
    ({ t.pars with D0 := q } : GgPars) = { s.pars with D0 := q } := by
  obtain ⟨⟨d, h1⟩, -⟩ := h
  rw [h1]

theorem like_models {fit : Vec ℝ → ExtModel → Except Err (ℝ × ℝ)} {s t : SimGsf} (h : s.like t) {v : Vec ℝ}
    {lh : ExtModel × ExtModel} (hm : fitModels fit t.low t.high v = .ok lh) :
    (lh.1 = s.low ∧ lh.2 = s.high) ∨ (s.low.fitted = true ∧ ∃ a b c d, lh.1 = { s.low with scale := a, shift := b } ∧
      lh.2 = { s.high with scale := c, shift := d }) := by
  obtain ⟨-, -, -, h⟩ := h
  unfold fitModels at hm
  by_cases hfit : t.low.fitted = true
  · rw [if_pos hfit] at hm
    simp only [bind, Except.bind, pure, Except.pure] at hm
    cases h1 : fit v t.low with
    | error er => rw [h1] at hm; simp at hm
    | ok l =>
    cases h2 : fit v t.high with
    | error er => rw [h1, h2] at hm; simp at hm
    | ok r =>
    rw [h1, h2] at hm
    simp only [Except.ok.injEq] at hm
    subst hm
    right
    obtain ⟨h3, h4⟩ | ⟨h0, a, b, c, d, h3, h4⟩ := h
    · rw [h3] at hfit
      exact ⟨hfit, _, _, _, _, by rw [h3], by rw [h4]⟩
    · exact ⟨h0, _, _, _, _, by rw [h3], by rw [h4]⟩
  · rw [if_neg hfit] at hm
    simp only [pure, Except.pure, Except.ok.injEq] at hm
    subst hm
    exact h

theorem like_lnlike (e : SimEnv) (hf : FreshFit e.fit) {s t : SimGsf} (h : s.like t) (x : SimPoint) :
    (simLnlike e t x).2 = (simLnlike e s x).2 ∧ s.like (simLnlike e t x).1 := by
  have h' := h
  obtain ⟨p1, p2, p3, p4⟩ := h'
  unfold simLnlike
  simp only [bind, Except.bind]
  cases nldLnlike e.close e.args x.A x.alpha x.T x.Eshift with
  | error er => exact ⟨rfl, h⟩
  | ok a =>
  cases hn : e.model e.Sn x.T x.Eshift with
  | error er => exact ⟨rfl, p1, p2, p3, p4⟩
  | ok n =>
  dsimp only
  cases hD : D0FromNldSn e.g n e.Jtarget with
  | error er => exact ⟨rfl, p1, p2, p3, p4⟩
  | ok D0 =>
  dsimp only
  obtain ⟨q, p1⟩ := p1
  unfold simGsfPart
  dsimp only
  rw [p3, like_fit hf h, p1, p2]
  have hm := fun lh => like_models (fit := e.fit) (s := s) (t := s) (like_refl s) (v := oslo s.gsfIn x.B x.alpha) (lh := lh)
  cases hfm : fitModels e.fit s.low s.high (oslo s.gsfIn x.B x.alpha) with
  | error er => exact ⟨rfl, ⟨(D0, 0), rfl⟩, rfl, rfl, p4⟩
  | ok lh => exact ⟨rfl, ⟨(D0, 0), rfl⟩, rfl, rfl, hm lh hfm⟩

/-- **C75.** The likelihood at a point does not depend on the points at which it was computed before: in any sequence of
evaluations each value is the one a fresh normaliser gives. -/
theorem C75_history (e : SimEnv) (hf : FreshFit e.fit) (s : SimGsf) (pts : List SimPoint) (vs : List ℝ)
    (h : (simRun e s pts).2 = .ok vs) :
    vs.length = pts.length ∧ ∀ (i : ℕ) (h1 : i < pts.length) (h2 : i < vs.length),
      (simLnlike e s pts[i]).2 = .ok vs[i] := by
  have key : ∀ (pts : List SimPoint) (t : SimGsf) (vs : List ℝ), s.like t → (simRun e t pts).2 = .ok vs →
      vs.length = pts.length ∧ ∀ (i : ℕ) (h1 : i < pts.length) (h2 : i < vs.length),
        (simLnlike e s pts[i]).2 = .ok vs[i] := by
    intro pts
    induction pts with
    | nil =>
      intro t vs _ h
      simp only [simRun, Except.ok.injEq] at h
      subst h
      exact ⟨rfl, by simp⟩
    | cons x l ih =>
      intro t vs hl h
      obtain ⟨q1, q2⟩ := like_lnlike e hf hl x
      unfold simRun at h
      rcases hx : simLnlike e t x with ⟨t1, r⟩
      rw [hx] at h q1 q2
      cases r with
      | error er => simp at h
      | ok v =>
      dsimp only at h q1 q2
      rcases hr : simRun e t1 l with ⟨t2, r⟩
      rw [hr] at h
      cases r with
      | error er => simp at h
      | ok vs' =>
      simp only [Except.ok.injEq] at h
      subst h
      obtain ⟨k1, k2⟩ := ih t1 vs' q2 (by rw [hr])
      refine ⟨by simp [k1], ?_⟩
      intro i h1 h2
      cases i with
      | zero => exact q1.symm
      | succ i => exact k2 i (by simpa using h1) (by simpa using h2)
  exact key pts s vs (like_refl s) h

/-- **C75.** A successful `optimize` puts the parameters of the normalisation back and leaves the strength function;
what is refused before the sampling changes nothing. -/
theorem C75_restored (e : SimEnv) (hf : FreshFit e.fit) (s : SimGsf) (guess : SimPoint) (len : ℕ) (pts : List SimPoint) :
    (∀ s' vs, simOptimize e s guess len pts = (s', .ok vs) → s'.pars = s.pars ∧ s'.gsfIn = s.gsfIn ∧
      s'.sigmaGg = s.sigmaGg) ∧
    (guess.alpha < 0 → simOptimize e s guess len pts = (s, .error .notImplemented)) ∧
    (0 ≤ guess.alpha → guess.T < 0 → simOptimize e s guess len pts = (s, .error .valueError)) ∧
    (0 ≤ guess.alpha → 0 ≤ guess.T → 60 ≤ len → simOptimize e s guess len pts = (s, .error .assertion)) := by
  have key : ∀ (pts : List SimPoint) (t : SimGsf), s.like t → s.like (simRun e t pts).1 := by
    intro pts
    induction pts with
    | nil => intro t h; exact h
    | cons x l ih =>
      intro t hl
      obtain ⟨-, q2⟩ := like_lnlike e hf hl x
      unfold simRun
      rcases hx : simLnlike e t x with ⟨t1, r⟩
      rw [hx] at q2
      cases r with
      | error er => exact q2
      | ok v =>
      have := ih t1 q2
      dsimp only
      rcases hr : simRun e t1 l with ⟨t2, r⟩
      rw [hr] at this
      cases r with
      | error er => exact this
      | ok vs => exact this
  refine ⟨?_, ?_, ?_, ?_⟩
  · intro s' vs h
    unfold simOptimize at h
    split_ifs at h
    · simp at h
    · simp at h
    · simp at h
    · have := key pts s (like_refl s)
      rcases hr : simRun e s pts with ⟨t, r⟩
      rw [hr] at h this
      cases r with
      | error er => simp at h
      | ok vs' =>
        simp only [Prod.mk.injEq] at h
        obtain ⟨h, -⟩ := h
        subst h
        exact ⟨rfl, this.2.2.1, this.2.1⟩
  · intro h
    unfold simOptimize
    rw [if_pos h]
  · intro h1 h2
    unfold simOptimize
    rw [if_neg (not_lt.2 h1), if_pos h2]
  · intro h1 h2 h3
    unfold simOptimize
    rw [if_neg (not_lt.2 h1), if_neg (not_lt.2 h2), if_pos h3]

/-! ### The best constant of the strength function -/

/-- An ideal fit: a strength function `c` times as large gives an extrapolation `c` times as large. -/
def ScaledFit (fit : Vec ℝ → ExtModel → Except Err (ℝ × ℝ)) : Prop :=
  ∀ v m c, 0 < c → fit (oslo v c 0) m = (fit v m).map fun p => (p.1, p.2 + Real.log c)

theorem oslo_split (v : Vec ℝ) (hv : v.values.length ≤ v.E.length) (hs : ∀ s, v.std = some s → s.length ≤ v.values.length)
    (hn : ∀ x ∈ v.values, x ≠ 0) (B a : ℝ) : oslo v B a = oslo (oslo v 1 a) B 0 := by
  have e1 : ∀ (x : ℝ) (q : ℚ), B * x * Real.exp (a * (q : ℝ)) =
      B * (1 * x * Real.exp (a * (q : ℝ))) * Real.exp (0 * (q : ℝ)) := by
    intro x q
    rw [zero_mul, Real.exp_zero]
    ring
  have hval : (oslo v B a).values = (oslo (oslo v 1 a) B 0).values := by
    unfold oslo Vec.transform
    apply List.ext_getElem
    · simp
    · intro i h1 h2
      simp only [List.getElem_zipWith]
      exact e1 _ _
  have hstd : (oslo v B a).std = (oslo (oslo v 1 a) B 0).std := by
    cases hs' : v.std with
    | none => simp [oslo, Vec.transform, hs']
    | some s =>
      simp only [oslo, Vec.transform, hs', Option.map_some]
      congr 1
      apply List.ext_getElem
      · simp
      · intro i h1 h2
        simp only [List.getElem_zipWith]
        have hi : i < v.values.length := by
          simp at h1
          omega
        have hx := hn _ (List.getElem_mem hi)
        have he := (Real.exp_pos (a * ((v.E[i]'(by omega) : ℚ) : ℝ))).ne'
        rw [zero_mul, Real.exp_zero]
        field_simp
  have : ∀ u w : Vec ℝ, u.E = w.E → u.values = w.values → u.std = w.std → u.units = w.units → u = w := by
    rintro ⟨_, _, _, _⟩ ⟨_, _, _, _⟩ rfl rfl rfl rfl
    rfl
  exact this _ _ rfl hval hstd rfl

theorem extrapolate_shifted {m : ExtModel} {c : Curve} (h : m.extrapolate false = .ok c) {B : ℝ} (hB : 0 < B) :
    ∃ d, ({ m with shift := m.shift + Real.log B } : ExtModel).extrapolate false = .ok d ∧ c.scaledBy B d := by
  have hn : m.normToShiftAfter B = .ok { m with shiftAfter := some (m.shift + Real.log B) } := by
    unfold ExtModel.normToShiftAfter
    rw [if_pos hB]
  obtain ⟨-, d, h1, h2⟩ := extrapolate_scaled hn h
  refine ⟨d, ?_, h2⟩
  rw [← h1]
  unfold ExtModel.extrapolate
  cases m.Emin <;> cases m.Emax <;> rfl

/-- With fitted extrapolations the width is proportional to `B`. -/
theorem width_linear {fit : Vec ℝ → ExtModel → Except Err (ℝ × ℝ)} (hs : ScaledFit fit) (p : GgPars)
    {low high : ExtModel} (hlow : low.fitted = true) (v : Vec ℝ) (hv : v.values.length ≤ v.E.length) (nld : Curve)
    (model S : ℚ → Except Err ℝ) {B : ℝ} (hB : 0 < B) {G : ℝ}
    (hG : widthOf fit p low high v nld model S = .ok G) :
    widthOf fit p low high (oslo v B 0) nld model S = .ok (B * G) := by
  unfold widthOf fitModels at hG ⊢
  rw [if_pos hlow] at hG ⊢
  rw [hs v low B hB, hs v high B hB]
  simp only [bind, Except.bind, pure, Except.pure] at hG ⊢
  cases h1 : fit v low with
  | error er => rw [h1] at hG; simp at hG
  | ok l =>
  cases h2 : fit v high with
  | error er => rw [h1, h2] at hG; simp at hG
  | ok h =>
  rw [h1, h2] at hG
  simp only [Except.map] at hG ⊢
  cases h3 : ({ low with scale := l.1, shift := l.2 } : ExtModel).extrapolate false with
  | error er => rw [h3] at hG; simp at hG
  | ok cl =>
  cases h4 : ({ high with scale := h.1, shift := h.2 } : ExtModel).extrapolate false with
  | error er => rw [h3, h4] at hG; simp at hG
  | ok ch =>
  rw [h3, h4] at hG
  dsimp only at hG
  obtain ⟨dl, e1, s1⟩ := extrapolate_shifted h3 hB
  obtain ⟨dh, e2, s2⟩ := extrapolate_shifted h4 hB
  dsimp only at e1 e2
  rw [e1, e2]
  dsimp only
  rw [C48_linear p hB (oslo_scaled v hv B) s1 s2, hG]
  rfl

theorem normalize_width {p : GgPars} {low high : ExtModel} {fit : Vec ℝ → ExtModel → Except Err (ℝ × ℝ)}
    {alpha : ℝ} {nld : Curve} {model S : ℚ → Except Err ℝ} {gsfIn : Vec ℝ} {r : GsfResult}
    (h : gsfNormalize p low high fit alpha nld model S gsfIn = .ok r) (hu : gsfIn.units = "MeV")
    (hl : low.Emin ≠ none ∧ low.Emax ≠ none) (hh : high.Emin ≠ none ∧ high.Emax ≠ none) :
    ∃ G, widthOf fit p low high (oslo gsfIn 1 alpha) nld model S = .ok G ∧ G ≠ 0 ∧ r.B = p.Gg / G ∧ 0 < r.B := by
  have hauto : ∀ (m : ExtModel) (e0 : ℚ), m.Emin ≠ none ∧ m.Emax ≠ none → m.autorange e0 = m := by
    rintro m e0 ⟨h1, h2⟩
    obtain ⟨a, ha⟩ := Option.ne_none_iff_exists'.1 h1
    obtain ⟨b, hb⟩ := Option.ne_none_iff_exists'.1 h2
    unfold ExtModel.autorange
    cases m
    simp only at ha hb
    subst ha hb
    rfl
  have hpos := (C48_width p low high fit alpha nld model S gsfIn r h).2.1
  have hv : gsfIn.toMeV = .ok gsfIn := by unfold Vec.toMeV; rw [if_pos hu]
  unfold gsfNormalize at h
  rw [hv] at h
  simp only [bind, Except.bind, pure, Except.pure] at h
  cases hE : (oslo gsfIn 1 alpha).E.head? with
  | none => rw [hE] at h; simp at h
  | some e0 =>
  rw [hE] at h
  dsimp only at h
  rw [hauto low e0 hl, hauto high e0 hh] at h
  unfold widthOf
  simp only [bind, Except.bind]
  cases hf : fitModels fit low high (oslo gsfIn 1 alpha) with
  | error er => rw [hf] at h; simp at h
  | ok lh =>
  obtain ⟨l, m⟩ := lh
  rw [hf] at h
  dsimp only at h ⊢
  cases h1 : l.extrapolate false with
  | error er => rw [h1] at h; simp at h
  | ok cl =>
  cases h2 : m.extrapolate false with
  | error er => rw [h1, h2] at h; simp at h
  | ok ch =>
  rw [h1, h2] at h
  dsimp only at h ⊢
  cases hG : ggStandard p (oslo gsfIn 1 alpha).curve cl ch nld model S with
  | error er => rw [hG] at h; simp at h
  | ok G =>
  rw [hG] at h
  dsimp only at h
  by_cases h0 : G = 0 ∨ p.D0.1 = 0
  · rw [if_pos h0] at h; simp at h
  rw [if_neg h0] at h
  push Not at h0
  refine ⟨G, rfl, h0.1, ?_, hpos⟩
  cases h3 : l.normToShiftAfter (p.Gg / G) with
  | error er => rw [h3] at h; simp at h
  | ok l' =>
  cases h4 : m.normToShiftAfter (p.Gg / G) with
  | error er => rw [h3, h4] at h; simp at h
  | ok m' =>
  rw [h3, h4] at h
  simp only [Except.ok.injEq] at h
  rw [← h]

/-- **C75 (partial).** For fitted extrapolations the two ways to normalise agree: with the other parameters kept, the
likelihood is largest for the constant `B` that `NormalizerGSF.normalize` computes with the level
density, the model and the level spacing of these parameters, and only there. The full statement would
include fixed extrapolations. -/
theorem C75_best_partial (e : SimEnv) (hs : ScaledFit e.fit) (s : SimGsf) (x : SimPoint) (n D0 v : ℝ) (r : GsfResult)
    (hlow : s.low.fitted = true) (hu : s.gsfIn.units = "MeV") (hlen : s.gsfIn.values.length ≤ s.gsfIn.E.length)
    (hstd : ∀ t, s.gsfIn.std = some t → t.length ≤ s.gsfIn.values.length) (hne : ∀ y ∈ s.gsfIn.values, y ≠ 0)
    (hl : s.low.Emin ≠ none ∧ s.low.Emax ≠ none) (hh : s.high.Emin ≠ none ∧ s.high.Emax ≠ none)
    (hn : e.model e.Sn x.T x.Eshift = .ok n) (hD : D0FromNldSn e.g n e.Jtarget = .ok D0)
    (hr : gsfNormalize { s.pars with D0 := (D0, 0) } s.low s.high e.fit x.alpha (oslo e.nld x.A x.alpha).curve
      (fun q => e.model q x.T x.Eshift) e.S s.gsfIn = .ok r)
    (hB : 0 < x.B) (h : (simLnlike e s x).2 = .ok v) :
    ∃ w, (simLnlike e s { x with B := r.B }).2 = .ok w ∧ v ≤ w ∧ (v = w ↔ x.B = r.B) := by
  obtain ⟨G, hG, h0, hrB, hpos⟩ := normalize_width hr hu hl hh
  obtain ⟨a, n', D0', G', h1, h2, h3, h4, h5, h6⟩ := (C75_value e s x v).1 h
  rw [hn] at h2; injection h2 with h2; subst h2
  rw [hD] at h3; injection h3 with h3; subst h3
  have lin : ∀ B, 0 < B → widthOf e.fit { s.pars with D0 := (D0, 0) } s.low s.high (oslo s.gsfIn B x.alpha)
        (oslo e.nld x.A x.alpha).curve (fun q => e.model q x.T x.Eshift) e.S = .ok (B * G) := by
    intro B hB
    rw [oslo_split s.gsfIn hlen hstd hne]
    exact width_linear hs _ hlow _ (oslo_length _ _ _) _ _ _ hB hG
  rw [lin x.B hB] at h4
  injection h4 with h4
  have hw : (simLnlike e s { x with B := r.B }).2 = .ok a := by
    refine (C75_value e s _ a).2 ⟨a, n, D0, r.B * G, h1, hn, hD, lin r.B hpos, h5, ?_⟩
    have : r.B * G = s.pars.Gg := by rw [hrB, div_mul_cancel₀ _ h0]
    rw [this, sub_self, zero_div]
    ring
  refine ⟨a, hw, ?_⟩
  have := C75_bound e s x v a n D0 (x.B * G) h h1 hn hD (lin x.B hB)
  refine ⟨this.1, this.2.trans ?_⟩
  rw [hrB, eq_div_iff h0]

/-! ### Cases -/

/-- The fit of the cases: a constant equal to the first value. -/
noncomputable def headFit (v : Vec ℝ) (_ : ExtModel) : Except Err (ℝ × ℝ) :=
  match v.E, v.values with
  | _ :: _, x :: _ => if 0 < x then .ok (0, Real.log x) else .error .undefined
  | _, _ => .error .indexError

theorem headFit_fresh : FreshFit headFit := fun _ _ _ _ => rfl

theorem headFit_scaled : ScaledFit headFit := by
  rintro ⟨E, vs, sd, u⟩ m c hc
  rcases E with - | ⟨e, E⟩
  · rfl
  rcases vs with - | ⟨x, vs⟩
  · rfl
  have h1 : (oslo ⟨e :: E, x :: vs, sd, u⟩ c 0).values = (c * x) ::
      List.zipWith (fun (x : ℝ) (q : ℚ) => c * x * Real.exp (0 * (q : ℝ))) vs E := by
    simp [oslo, Vec.transform]
  have h2 : (oslo ⟨e :: E, x :: vs, sd, u⟩ c 0).E = e :: E := rfl
  unfold headFit
  rw [h1, h2]
  dsimp only
  by_cases hx : 0 < x
  · rw [if_pos hx, if_pos (mul_pos hc hx)]
    simp only [Except.map]
    rw [Real.log_mul hc.ne' hx.ne', add_comm]
  · rw [if_neg hx, if_neg]
    · rfl
    · intro h
      exact hx (pos_of_mul_pos_right h hc.le)

/-- The environment of the cases: a level density of 1, one state at `Sn`, `D0 = 1`. -/
noncomputable def simEnvCase (fit : Vec ℝ → ExtModel → Except Err (ℝ × ℝ)) : SimEnv :=
  ⟨fun a b => a == b, ⟨⟨[], [], some [], "MeV"⟩, ⟨[], [], some [], "MeV"⟩, ⟨[], [], none, "MeV"⟩, fun _ _ _ => .ok 1, 2, (1, 1)⟩,
    ⟨[0, 2], [1, 1], none, "MeV"⟩, fun _ _ _ => .ok 1, 2, fun _ => .ok 2000000, 0, fit, fun _ => .ok 1⟩

/-- The normaliser of the cases, with a level spacing that differs from that of the model. -/
noncomputable def simGsfCase (fitted : Bool) : SimGsf :=
  ⟨⟨0, 2, 5, (2, 1 / 10), 6250⟩, 31.25, (lowDefault 0 0 fitted 2).autorange 1, (highDefault 0 0 fitted 21).autorange 1,
    gsfCase, none, none, none⟩

theorem simCase_nld (fit : Vec ℝ → ExtModel → Except Err (ℝ × ℝ)) (A a T s : ℝ) :
    nldLnlike (simEnvCase fit).close (simEnvCase fit).args A a T s = .ok 0 := by
  unfold nldLnlike simEnvCase
  simp [Vec.transform, Vec.error, sameBins, logStds, bind, Except.bind, pure, Except.pure]

theorem simCase_D0 (fit : Vec ℝ → ExtModel → Except Err (ℝ × ℝ)) :
    D0FromNldSn (simEnvCase fit).g 1 (simEnvCase fit).Jtarget = .ok 1 := by
  unfold D0FromNldSn simEnvCase
  simp [spinHalfSum, recip, bind, Except.bind, pure, Except.pure]
  norm_num

theorem oslo_nldCase : (oslo ⟨[0, 2], [1, 1], none, "MeV"⟩ 1 0).curve = nldCase := by
  simp [oslo, Vec.transform, Vec.curve, nldCase]

theorem oslo_gsfCase (B : ℝ) : (oslo gsfCase B 0).curve = ⟨[1, 2], [some B, some B]⟩ := by
  simp [oslo, Vec.transform, Vec.curve, gsfCase]

theorem simCase_fixed (fit : Vec ℝ → ExtModel → Except Err (ℝ × ℝ)) (B : ℝ) (hB : 0 < B) :
    widthOf fit ⟨0, 2, 5, (1, 0), 6250⟩ (simGsfCase false).low (simGsfCase false).high (oslo gsfCase B 0) nldCase
      (fun _ => .ok 1) (fun _ => .ok 1) = .ok (B * 3093.75 + 31.25) := by
  have hlin : linspace 0 1 2 = [0, 1] := by decide +kernel
  have hlow : (⟨linspace 0 1 2, (linspace 0 1 2).map
      (ExtModel.value ⟨false, 0, 0, none, some 0, some 1, 2, false⟩ 0)⟩ : Curve) =
      ⟨[0, 1], [some 1, some 1]⟩ := by
    rw [hlin]
    simp [ExtModel.value]
  unfold widthOf
  simp only [simGsfCase, fitModels, lowDefault, highDefault, ExtModel.autorange, Bool.false_eq_true, if_false, pure,
    Except.pure, ExtModel.extrapolate, Option.getD_none, if_true, bind, Except.bind]
  rw [hlow, oslo_gsfCase]
  exact gsfCase_width B hB _ ⟨rfl, rfl, rfl, rfl⟩ _

/-- C75 fails for fixed extrapolations: they are not scaled with `B` during the sampling, so that the likelihood at
the `B` of the stepwise normalisation is smaller than at another one. -/
theorem C75_fixed_fails : ∃ (e : SimEnv) (s : SimGsf) (x : SimPoint) (r : GsfResult), ScaledFit e.fit ∧ s.low.fitted = false ∧
    gsfNormalize { s.pars with D0 := (1, 0) } s.low s.high e.fit x.alpha (oslo e.nld x.A x.alpha).curve
      (fun q => e.model q x.T x.Eshift) e.S s.gsfIn = .ok r ∧
    e.model e.Sn x.T x.Eshift = .ok 1 ∧ D0FromNldSn e.g 1 e.Jtarget = .ok 1 ∧
    (simLnlike e s { x with B := r.B }).2 = .ok (-(1 / 2)) ∧ (simLnlike e s { x with B := 199 / 99 }).2 = .ok 0 := by
  have hB : ∀ B : ℝ, 0 < B → (simLnlike (simEnvCase headFit) (simGsfCase false) ⟨1, 0, 1, 0, B⟩).2 =
      .ok (-((B * 3093.75 + 31.25 - 6250) / 31.25) ^ 2 / 2) := by
    intro B hB
    refine (C75_value _ _ _ _).2 ⟨0, 1, 1, B * 3093.75 + 31.25, simCase_nld _ _ _ _ _, rfl, simCase_D0 _, ?_, ?_, ?_⟩
    · have := simCase_fixed headFit B hB
      rw [← oslo_nldCase] at this
      exact this
    · simp only [simGsfCase]
      norm_num
    · simp only [simGsfCase]
      ring
  have hn : ∃ r, gsfNormalize ⟨0, 2, 5, (1, 0), 6250⟩ (simGsfCase false).low (simGsfCase false).high headFit 0 nldCase
      (fun _ => .ok 1) (fun _ => .ok 1) gsfCase = .ok r ∧ r.B = 2 := by
    have hw := simCase_fixed headFit 1 one_pos
    unfold widthOf at hw
    have hv : gsfCase.toMeV = .ok gsfCase := rfl
    have hE : (oslo gsfCase 1 0).E.head? = some 1 := rfl
    unfold gsfNormalize
    rw [hv]
    simp only [bind, Except.bind, pure, Except.pure] at hw ⊢
    rw [hE]
    simp only [simGsfCase, fitModels, lowDefault, highDefault, ExtModel.autorange, Bool.false_eq_true, if_false, pure,
      Except.pure, ExtModel.extrapolate, Option.getD_none, Option.getD_some, if_true] at hw ⊢
    rw [hw]
    have h2 : (6250 : ℝ) / (1 * 3093.75 + 31.25) = 2 := by norm_num
    simp only
    rw [if_neg (by norm_num), h2]
    simp only [ExtModel.normToShiftAfter]
    rw [if_pos two_pos, if_pos two_pos]
    exact ⟨_, rfl, rfl⟩
  obtain ⟨r, h1, h2⟩ := hn
  refine ⟨simEnvCase headFit, simGsfCase false, ⟨1, 0, 1, 0, 1⟩, r, headFit_scaled, rfl, ?_, rfl, simCase_D0 _, ?_, ?_⟩
  · rw [← oslo_nldCase] at h1
    exact h1
  · rw [h2]
    rw [hB 2 two_pos]
    norm_num
  · rw [hB (199 / 99) (by norm_num)]
    norm_num

/-- C75 fails for the parameters if the sampling stops with an error: `D0` keeps the value of the last point. -/
theorem C75_restored_fails : ∃ (e : SimEnv) (s : SimGsf) (guess : SimPoint) (pts : List SimPoint), FreshFit e.fit ∧
    (simOptimize e s guess 20 pts).2 = .error .runtimeError ∧ s.pars.D0 = (2, 1 / 10) ∧
    (simOptimize e s guess 20 pts).1.pars.D0 = (1, 0) := by
  have key : ∃ t, t.pars.D0 = (1, 0) ∧ simOptimize (simEnvCase fun _ _ => .error .runtimeError) (simGsfCase true) ⟨1, 0, 1, 0, 1⟩ 20
      [⟨1, 0, 1, 0, 1⟩] = (t, .error .runtimeError) := by
    unfold simOptimize simRun simLnlike
    simp only
    rw [if_neg (by norm_num), if_neg (by norm_num), if_neg (by norm_num), simCase_nld]
    simp only [bind, Except.bind]
    have := simCase_D0 fun _ _ => .error .runtimeError
    unfold simEnvCase at this ⊢
    dsimp only at this ⊢
    rw [this]
    simp only [simGsfPart, fitModels, simGsfCase, lowDefault, ExtModel.autorange, if_true, bind, Except.bind, Except.map]
    exact ⟨_, rfl, rfl⟩
  obtain ⟨t, h1, h2⟩ := key
  refine ⟨simEnvCase fun _ _ => .error .runtimeError, simGsfCase true, ⟨1, 0, 1, 0, 1⟩, [⟨1, 0, 1, 0, 1⟩],
    fun _ _ _ _ => rfl, ?_, rfl, ?_⟩
  · rw [h2]
  · rw [h2]
    exact h1

theorem simCase_fitted (B : ℝ) (hB : 0 < B) :
    widthOf headFit ⟨0, 2, 5, (1, 0), 6250⟩ (simGsfCase true).low (simGsfCase true).high (oslo gsfCase B 0) nldCase
      (fun _ => .ok 1) (fun _ => .ok 1) = .ok (B * 3125) := by
  have h1 : widthOf headFit ⟨0, 2, 5, (1, 0), 6250⟩ (simGsfCase true).low (simGsfCase true).high (oslo gsfCase 1 0) nldCase
      (fun _ => .ok 1) (fun _ => .ok 1) = .ok 3125 := by
    have hlin : linspace 0 1 2 = [0, 1] := by decide +kernel
    have hfit : ∀ m, headFit (oslo gsfCase 1 0) m = .ok (0, 0) := by
      intro m
      simp [headFit, oslo, Vec.transform, gsfCase]
    have hlow : (⟨linspace 0 1 2, (linspace 0 1 2).map
        (ExtModel.value ⟨false, 0, 0, none, some 0, some 1, 2, true⟩ 0)⟩ : Curve) =
        ⟨[0, 1], [some 1, some 1]⟩ := by
      rw [hlin]
      simp [ExtModel.value]
    unfold widthOf
    simp only [simGsfCase, fitModels, lowDefault, highDefault, ExtModel.autorange, pure, hfit, Bool.false_eq_true, if_false,
      Except.pure, ExtModel.extrapolate, Option.getD_none, if_true, bind, Except.bind]
    rw [hlow, oslo_gsfCase, gsfCase_width 1 one_pos _ ⟨rfl, rfl, rfl, rfl⟩ _]
    norm_num
  rw [oslo_split gsfCase le_rfl (by simp [gsfCase]) (by simp [gsfCase])]
  exact width_linear headFit_scaled _ rfl _ (oslo_length _ _ _) _ _ _ hB h1

/-- The hypotheses of the theorems are met in the case with fitted extrapolations: the likelihood at `B = 1` and 2. -/
theorem simCase_value (B : ℝ) (hB : 0 < B) : (simLnlike (simEnvCase headFit) (simGsfCase true) ⟨1, 0, 1, 0, B⟩).2 =
    .ok (-((B * 3125 - 6250) / 31.25) ^ 2 / 2) := by
  refine (C75_value _ _ _ _).2 ⟨0, 1, 1, B * 3125, simCase_nld _ _ _ _ _, rfl, simCase_D0 _, ?_, ?_, ?_⟩
  · have := simCase_fitted B hB
    rw [← oslo_nldCase] at this
    exact this
  · simp only [simGsfCase]
    norm_num
  · simp only [simGsfCase]
    ring

example : ∃ r, gsfNormalize { (simGsfCase true).pars with D0 := (1, 0) } (simGsfCase true).low (simGsfCase true).high headFit 0
    (oslo (simEnvCase headFit).nld 1 0).curve (fun _ => .ok 1) (fun _ => .ok 1) (simGsfCase true).gsfIn = .ok r ∧ r.B = 2 := by
  have hw := simCase_fitted 1 one_pos
  unfold widthOf at hw
  have hv : gsfCase.toMeV = .ok gsfCase := rfl
  have hE : (oslo gsfCase 1 0).E.head? = some 1 := rfl
  have hfit : ∀ m, headFit (oslo gsfCase 1 0) m = .ok (0, 0) := by
    intro m
    simp [headFit, oslo, Vec.transform, gsfCase]
  unfold gsfNormalize
  have hg : (simGsfCase true).gsfIn = gsfCase := rfl
  have hq : (oslo (simEnvCase headFit).nld 1 0).curve = nldCase := oslo_nldCase
  rw [hg, hv, hq]
  simp only [bind, Except.bind, pure, Except.pure] at hw ⊢
  rw [hE]
  simp only [simGsfCase, fitModels, lowDefault, highDefault, ExtModel.autorange, Bool.false_eq_true, if_false, pure, hfit,
    Except.pure, ExtModel.extrapolate, Option.getD_none, Option.getD_some, if_true, bind, Except.bind] at hw ⊢
  rw [hw]
  have h2 : (6250 : ℝ) / (1 * 3125) = 2 := by norm_num
  simp only
  rw [if_neg (by norm_num), h2]
  simp only [ExtModel.normToShiftAfter]
  rw [if_pos two_pos, if_pos two_pos]
  exact ⟨_, rfl, rfl⟩

example : (simRun (simEnvCase headFit) (simGsfCase true) [⟨1, 0, 1, 0, 1⟩]).2 = .ok [-5000] := by
  have h := simCase_value 1 one_pos
  unfold simRun
  rcases hx : simLnlike (simEnvCase headFit) (simGsfCase true) ⟨1, 0, 1, 0, 1⟩ with ⟨t, r⟩
  rw [hx] at h
  simp only at h
  subst h
  simp only [simRun]
  norm_num

example : ∃ s', simOptimize (simEnvCase headFit) (simGsfCase true) ⟨1, 0, 1, 0, 1⟩ 20 [⟨1, 0, 1, 0, 1⟩] = (s', .ok [-5000]) := by
  have h := simCase_value 1 one_pos
  unfold simOptimize simRun
  rcases hx : simLnlike (simEnvCase headFit) (simGsfCase true) ⟨1, 0, 1, 0, 1⟩ with ⟨t, r⟩
  rw [hx] at h
  simp only at h
  subst h
  simp only [simRun]
  rw [if_neg (by norm_num), if_neg (by norm_num), if_neg (by norm_num)]
  have hv : (-((1 * 3125 - 6250) / 31.25) ^ 2 / 2 : ℝ) = -5000 := by norm_num
  rw [hv]
  exact ⟨_, rfl⟩

/-! ### The results -/

/-- What the search for the parameters gets: the vector in MeV, with 30 percent of the values where no standard
deviations are given. -/
noncomputable def withStd (v : Vec ℝ) : Vec ℝ :=
  { v with std := some (v.std.getD (v.values.map fun x => 3 / 10 * x)) }

theorem fakeStd_none {flag : Option Bool} (hf : flag ≠ some true) (v : Vec ℝ) :
    (fakeStd flag v).2 = withStd v ∧ unfakeStd (fakeStd flag v).1 (fakeStd flag v).2 = (if v.std = none then none else flag, v) := by
  cases v with
  | mk E vs sd u =>
  cases sd with
  | none =>
    unfold fakeStd
    rw [if_pos (Or.inr rfl)]
    refine ⟨?_, rfl⟩
    unfold withStd
    simp only [Option.getD_none]
    congr 3
    funext x
    norm_num
    ring
  | some t =>
    unfold fakeStd
    rw [if_neg (by simp [hf])]
    refine ⟨rfl, ?_⟩
    unfold unfakeStd
    rw [if_neg hf]
    simp

/-- **C75.** The results: the vectors in MeV, transformed with the parameters, with standard deviations exactly if they
were given; the search got standard deviations in any case; the extrapolations belong to the
strength function of the results, and the flags are down for the next call. -/
theorem C75_results (search : Vec ℝ → Vec ℝ → SimGsf → SimGsf × Except Err SimPoint)
    (fit : Vec ℝ → ExtModel → Except Err (ℝ × ℝ)) (o o' : SimObj) (nld gsf : Vec ℝ)
    (hn : o.flags.nld ≠ some true) (hg : o.flags.gsf ≠ some true)
    (h : simNormalize search fit o nld gsf = (o', .ok ())) :
    ∃ n g s1 x R lh, nld.toMeV = .ok n ∧ gsf.toMeV = .ok g ∧
      search (withStd n) (withStd g) { o.norm with gsfIn := withStd g } = (s1, .ok x) ∧ o'.res = some R ∧ R.pars = x ∧
      R.nld = oslo n x.A x.alpha ∧ R.gsf = oslo g x.B x.alpha ∧
      (∃ e0 ∈ g.E.head?, fitModels fit (s1.low.autorange e0) (s1.high.autorange e0) (oslo g x.B x.alpha) = .ok lh) ∧
      R.low = { lh.1 with shiftAfter := some lh.1.shift } ∧ R.high = { lh.2 with shiftAfter := some lh.2.shift } ∧
      (∃ c, R.low.extrapolate false = .ok c) ∧ (∃ c, R.high.extrapolate false = .ok c) ∧
      R.low.extrapolate true = R.low.extrapolate false ∧ R.high.extrapolate true = R.high.extrapolate false ∧
      o'.flags.nld ≠ some true ∧ o'.flags.gsf ≠ some true ∧
      o'.norm.pars = s1.pars ∧ o'.norm.gsfIn = g ∧ o'.norm.low = R.low ∧ o'.norm.high = R.high := by
  have hn' : some (o.flags.nld.getD false) ≠ some true := by
    cases hq : o.flags.nld with
    | none => simp
    | some b => rw [hq] at hn; simpa using hn
  unfold simNormalize at h
  cases h1 : nld.toMeV with
  | error er => rw [h1] at h; simp at h
  | ok n =>
  cases h2 : gsf.toMeV with
  | error er => rw [h1, h2] at h; simp at h
  | ok g =>
  rw [h1, h2] at h
  dsimp only at h
  obtain ⟨a1, a2⟩ := fakeStd_none hn' n
  obtain ⟨b1, b2⟩ := fakeStd_none hg g
  rw [a2, b2, a1, b1] at h
  rcases hs : search (withStd n) (withStd g) { o.norm with gsfIn := withStd g } with ⟨s1, r⟩
  rw [hs] at h
  cases r with
  | error er => simp at h
  | ok x =>
  dsimp only at h
  unfold simModels at h
  cases hE : (oslo g x.B x.alpha).E.head? with
  | none => rw [hE] at h; simp at h
  | some e0 =>
  rw [hE] at h
  simp only [bind, Except.bind, pure, Except.pure] at h
  cases hf : fitModels fit (s1.low.autorange e0) (s1.high.autorange e0) (oslo g x.B x.alpha) with
  | error er => rw [hf] at h; simp at h
  | ok lh =>
  rw [hf] at h
  dsimp only at h
  cases hl : lh.1.extrapolate false with
  | error er => rw [hl] at h; simp at h
  | ok cl =>
  cases hh : lh.2.extrapolate false with
  | error er => rw [hl, hh] at h; simp at h
  | ok ch =>
  rw [hl, hh] at h
  simp only [Prod.mk.injEq, and_true] at h
  subst h
  have ext : ∀ m : ExtModel, ({ m with shiftAfter := some m.shift } : ExtModel).extrapolate true =
      ({ m with shiftAfter := some m.shift } : ExtModel).extrapolate false := by
    intro m
    unfold ExtModel.extrapolate
    cases m.Emin <;> cases m.Emax <;> rfl
  have ext' : ∀ m : ExtModel, ({ m with shiftAfter := some m.shift } : ExtModel).extrapolate false =
      m.extrapolate false := by
    intro m
    unfold ExtModel.extrapolate
    cases m.Emin <;> cases m.Emax <;> rfl
  refine ⟨n, g, s1, x, _, lh, rfl, rfl, hs, rfl, rfl, rfl, rfl, ⟨e0, hE, hf⟩, rfl, rfl, ⟨cl, (ext' _).trans hl⟩,
    ⟨ch, (ext' _).trans hh⟩, ext _, ext _, ?_, ?_, rfl, rfl, rfl, rfl⟩
  · dsimp only
    split_ifs
    · simp
    · exact hn'
  · dsimp only
    split_ifs
    · simp
    · exact hg

/-- C75 fails for the standard deviations after a search that stopped with an error: the flag stays up, and in the next
call given standard deviations are replaced by 30 percent and missing from the results. -/
theorem C75_flag_fails (fit : Vec ℝ → ExtModel → Except Err (ℝ × ℝ)) (o o1 o2 : SimObj) (nld nld2 gsf gsf2 : Vec ℝ)
    (er : Err) (search search2 : Vec ℝ → Vec ℝ → SimGsf → SimGsf × Except Err SimPoint)
    (hs : nld.std = none) (hu : nld.units = "MeV") (hu2 : gsf.units = "MeV") (hu3 : nld2.units = "MeV")
    (hfail : ∀ a b c, (search a b c).2 = .error er)
    (h1 : simNormalize search fit o nld gsf = (o1, .error er)) (h2 : simNormalize search2 fit o1 nld2 gsf2 = (o2, .ok ())) :
    ∃ b c R s x, search2 { nld2 with std := some (nld2.values.map (· * 0.3)) } b c = (s, .ok x) ∧ o2.res = some R ∧
      R.nld.std = none := by
  have e1 : nld.toMeV = .ok nld := by unfold Vec.toMeV; rw [if_pos hu]
  have e2 : gsf.toMeV = .ok gsf := by unfold Vec.toMeV; rw [if_pos hu2]
  have e3 : nld2.toMeV = .ok nld2 := by unfold Vec.toMeV; rw [if_pos hu3]
  have hflag : o1.flags.nld = some true := by
    unfold simNormalize at h1
    rw [e1, e2] at h1
    dsimp only at h1
    have hf : (fakeStd (some (o.flags.nld.getD false)) nld).1 = some true := by
      unfold fakeStd
      rw [if_pos (Or.inr hs)]
    rcases hx : search (fakeStd (some (o.flags.nld.getD false)) nld).2 (fakeStd o.flags.gsf gsf).2
      { o.norm with gsfIn := (fakeStd o.flags.gsf gsf).2 } with ⟨t, r⟩
    have hr := hfail (fakeStd (some (o.flags.nld.getD false)) nld).2 (fakeStd o.flags.gsf gsf).2
      { o.norm with gsfIn := (fakeStd o.flags.gsf gsf).2 }
    rw [hx] at h1 hr
    dsimp only at hr
    subst hr
    simp only [Prod.mk.injEq] at h1
    rw [← h1.1]
    exact hf
  unfold simNormalize at h2
  rw [e3, hflag] at h2
  cases h3 : gsf2.toMeV with
  | error er => rw [h3] at h2; simp at h2
  | ok g =>
  rw [h3] at h2
  dsimp only at h2
  have hfk : fakeStd (some ((some true).getD false)) nld2 =
      (some true, { nld2 with std := some (nld2.values.map (· * 0.3)) }) := by
    unfold fakeStd
    rw [if_pos (show some ((some true).getD false) = some true ∨ nld2.std = none from Or.inl rfl)]
  rw [hfk] at h2
  dsimp only at h2
  rcases hx : search2 { nld2 with std := some (nld2.values.map (· * 0.3)) } (fakeStd o1.flags.gsf g).2
      { o1.norm with gsfIn := (fakeStd o1.flags.gsf g).2 } with ⟨t, r⟩
  rw [hx] at h2
  cases r with
  | error er => simp at h2
  | ok x =>
  dsimp only at h2
  split at h2
  · simp at h2
  · simp only [Prod.mk.injEq, and_true] at h2
    subst h2
    refine ⟨_, _, _, _, _, hx, rfl, ?_⟩
    simp [unfakeStd, oslo, Vec.transform]

/-- A search that stops with an error. -/
def noSearch : Vec ℝ → Vec ℝ → SimGsf → SimGsf × Except Err SimPoint := fun _ _ s => (s, .error .runtimeError)

/-- A search that gives `A = B = 1` and `alpha = 0`. -/
def unitSearch : Vec ℝ → Vec ℝ → SimGsf → SimGsf × Except Err SimPoint := fun _ _ s => (s, .ok ⟨1, 0, 1, 0, 1⟩)

/-- The case of the flags: the second call succeeds, with standard deviations given and lost. -/
example : ∃ o1 o2, simNormalize noSearch headFit ⟨⟨none, none⟩, none, simGsfCase true⟩ gsfCase gsfCase = (o1, .error .runtimeError) ∧
    simNormalize unitSearch headFit o1 { gsfCase with std := some [1, 1] } gsfCase = (o2, .ok ()) ∧
    ∃ R, o2.res = some R ∧ R.nld.std = none := by
  have hv : gsfCase.toMeV = .ok gsfCase := rfl
  have hv2 : ({ gsfCase with std := some [1, 1] } : Vec ℝ).toMeV = .ok { gsfCase with std := some [1, 1] } := rfl
  have hfit : ∀ m, headFit (oslo gsfCase 1 0) m = .ok (0, 0) := by
    intro m
    simp [headFit, oslo, Vec.transform, gsfCase]
  have h1 : simNormalize noSearch headFit ⟨⟨none, none⟩, none, simGsfCase true⟩ gsfCase gsfCase =
      (⟨⟨some true, some true⟩, none, { simGsfCase true with gsfIn := (fakeStd none gsfCase).2 }⟩, .error .runtimeError) := by
    unfold simNormalize
    rw [hv]
    simp [fakeStd, gsfCase, noSearch]
  have h2 : ∃ o2 R, simNormalize unitSearch headFit ⟨⟨some true, some true⟩, none, { simGsfCase true with gsfIn := (fakeStd none gsfCase).2 }⟩
      { gsfCase with std := some [1, 1] } gsfCase = (o2, .ok ()) ∧ o2.res = some R ∧ R.nld.std = none := by
    unfold simNormalize
    rw [hv, hv2]
    have hg : (unfakeStd (fakeStd (some true) gsfCase).1 (fakeStd (some true) gsfCase).2).2 = gsfCase := rfl
    have hE : (oslo gsfCase 1 0).E.head? = some 1 := rfl
    dsimp only [unitSearch]
    rw [hg]
    unfold simModels
    simp only [hE, fitModels, hfit, bind, Except.bind, pure, Except.pure, simGsfCase, lowDefault, highDefault,
      ExtModel.autorange, if_true, ExtModel.extrapolate, Option.getD_some]
    refine ⟨_, _, rfl, rfl, ?_⟩
    simp [unfakeStd, fakeStd, oslo, Vec.transform]
  obtain ⟨o2, R, h2, h3, h4⟩ := h2
  exact ⟨_, o2, h1, h2, R, h3, h4⟩

example : ∃ o2, simNormalize unitSearch headFit ⟨⟨none, none⟩, none, simGsfCase true⟩ gsfCase gsfCase = (o2, .ok ()) := by
  have hv : gsfCase.toMeV = .ok gsfCase := rfl
  have hfit : ∀ m, headFit (oslo gsfCase 1 0) m = .ok (0, 0) := by
    intro m
    simp [headFit, oslo, Vec.transform, gsfCase]
  unfold simNormalize
  rw [hv]
  have hg : (unfakeStd (fakeStd none gsfCase).1 (fakeStd none gsfCase).2).2 = gsfCase := rfl
  have hE : (oslo gsfCase 1 0).E.head? = some 1 := rfl
  dsimp only [unitSearch]
  rw [hg]
  unfold simModels
  simp only [hE, fitModels, hfit, bind, Except.bind, pure, Except.pure, simGsfCase, lowDefault, highDefault,
    ExtModel.autorange, if_true, ExtModel.extrapolate, Option.getD_some]
  exact ⟨_, rfl⟩

end Ompy
