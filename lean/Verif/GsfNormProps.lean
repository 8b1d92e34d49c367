import Verif.GsfNorm
import Verif.VectorProps
import Verif.FirstGenProps
import Verif.RebinLemmas

/-!
# Normalisation of the strength function to the radiative width (C48)
-/

namespace Ompy

/-! ## Scaling -/

/-- `d` is `k` times `c`. -/
def Curve.scaledBy (c : Curve) (k : ℝ) (d : Curve) : Prop :=
  d.E = c.E ∧ d.v = c.v.map (Option.map (k * ·))

theorem logOf_scaled {k : ℝ} (hk : 0 < k) (x : Option ℝ) :
    logOf (x.map (k * ·)) = (logOf x).map (Real.log k + ·) := by
  cases x with
  | none => rfl
  | some x =>
    simp only [Option.map_some, logOf]
    by_cases hx : 0 < x
    · rw [if_pos (by positivity), if_pos hx, Real.log_mul hk.ne' hx.ne']
      rfl
    · rw [if_neg (by
        push Not at hx ⊢
        exact mul_nonpos_of_nonneg_of_nonpos hk.le hx), if_neg hx]
      rfl

theorem getD_map_option (l : List (Option ℝ)) (f : ℝ → ℝ) (i : ℕ) :
    (l.map (Option.map f)).getD i none = (l.getD i none).map f := by
  rw [List.getD_eq_getElem?_getD, List.getD_eq_getElem?_getD, List.getElem?_map]
  cases l[i]? <;> rfl

theorem logInterp_scaled {c d : Curve} {k : ℝ} (hk : 0 < k) (h : c.scaledBy k d) (e : ℚ) :
    logInterp d e = (logInterp c e).map (k * ·) := by
  obtain ⟨hE, hv⟩ := h
  unfold logInterp
  rw [hE, hv]
  cases c.E.head? with
  | none => rfl
  | some a =>
    cases c.E.getLast? with
    | none => rfl
    | some b =>
      simp only
      by_cases h1 : e < a ∨ b < e
      · rw [if_pos h1, if_pos h1]; rfl
      · rw [if_neg h1, if_neg h1]
        by_cases h2 : c.E.length < 2
        · rw [if_pos h2, if_pos h2]; rfl
        · rw [if_neg h2, if_neg h2, getD_map_option, getD_map_option, logOf_scaled hk, logOf_scaled hk]
          cases logOf (c.v.getD (interval c.E e - 1) none) with
          | none => rfl
          | some l =>
            cases logOf (c.v.getD (interval c.E e) none) with
            | none => rfl
            | some h =>
              simp only [Option.map_some, Except.map]
              congr 1
              rw [show Real.log k + h - (Real.log k + l) = h - l by ring, add_assoc, Real.exp_add,
                Real.exp_log hk]

theorem fgsf_scaled {g l h g' l' h' : Curve} {k : ℝ} (hk : 0 < k) (hg : g.scaledBy k g')
    (hl : l.scaledBy k l') (hh : h.scaledBy k h') (e : ℚ) :
    fgsf g' l' h' e = (fgsf g l h e).map (k * ·) := by
  unfold fgsf
  rw [hg.1, logInterp_scaled hk hg, logInterp_scaled hk hl, logInterp_scaled hk hh]
  cases g.E.head? with
  | none => rfl
  | some a =>
    cases g.E.getLast? with
    | none => rfl
    | some b =>
      simp only
      by_cases h1 : e < a
      · rw [if_pos h1, if_pos h1]
      · rw [if_neg h1, if_neg h1]
        by_cases h2 : e ≤ b
        · rw [if_pos h2, if_pos h2]
        · rw [if_neg h2, if_neg h2]

theorem mapM_scaled {f f' : ℚ → Except Err ℝ} {k : ℝ} (h : ∀ e, f' e = (f e).map (k * ·)) (l : List ℚ) :
    l.mapM f' = (l.mapM f).map (List.map (k * ·)) := by
  induction l with
  | nil => rfl
  | cons x xs ih =>
    rw [List.mapM_cons, List.mapM_cons, ih, h]
    cases f x with
    | error e => rfl
    | ok y =>
      cases xs.mapM f with
      | error e => rfl
      | ok ys => rfl

theorem sum_map_mul (k : ℝ) (l : List ℝ) : (l.map (k * ·)).sum = k * l.sum := by
  induction l with
  | nil => simp
  | cons x xs ih => simp only [List.map_cons, List.sum_cons, ih]; ring

/-- C48: the width is proportional to the strength function with its extrapolations. -/
theorem C48_linear (p : GgPars) {g l h g' l' h' : Curve} {k : ℝ} (hk : 0 < k) (hg : g.scaledBy k g')
    (hl : l.scaledBy k l') (hh : h.scaledBy k h') (nld : Curve) (model S : ℚ → Except Err ℝ) :
    ggStandard p g' l' h' nld model S = (ggStandard p g l h nld model S).map (k * ·) := by
  unfold ggStandard
  by_cases hs : p.steps < 2
  · rw [if_pos hs, if_pos hs]; rfl
  · rw [if_neg hs, if_neg hs]
    have ht : ∀ e, ggTerm p.Sn g' l' h' nld model S e =
        (ggTerm p.Sn g l h nld model S e).map (k * ·) := by
      intro e
      unfold ggTerm
      rw [fgsf_scaled hk hg hl hh]
      cases fgsf g l h e with
      | error e => rfl
      | ok x =>
        simp only [Except.map, bind, Except.bind]
        cases fnld nld model (p.Sn - e) with
        | error e => rfl
        | ok y =>
          cases S (p.Sn - e) with
          | error e => rfl
          | ok z =>
            simp only [pure, Except.pure]
            congr 1
            ring
    rw [mapM_scaled ht]
    cases (linspace p.Emin p.Sn p.steps).mapM (ggTerm p.Sn g l h nld model S) with
    | error e => rfl
    | ok ys =>
      simp only [Except.map, bind, Except.bind, pure, Except.pure, sum_map_mul]
      congr 1
      ring

/-! ## The normalisation -/

theorem oslo_scaled (v : Vec ℝ) (hv : v.values.length ≤ v.E.length) (B : ℝ) :
    v.curve.scaledBy B (oslo v B 0).curve := by
  refine ⟨rfl, ?_⟩
  unfold Vec.curve oslo Vec.transform
  simp only [zero_mul, Real.exp_zero, mul_one, List.map_map]
  apply List.ext_getElem
  · simp [hv]
  · intro n h1 h2
    simp

theorem oslo_length (v : Vec ℝ) (a b : ℝ) : (oslo v a b).values.length ≤ (oslo v a b).E.length := by
  unfold oslo Vec.transform
  simp

/-- The extrapolation after the normalisation is the one before times the norm. -/
theorem extrapolate_scaled {m m' : ExtModel} {B : ℝ} (h : m.normToShiftAfter B = .ok m') {c : Curve}
    (hc : m.extrapolate false = .ok c) : 0 < B ∧ ∃ d, m'.extrapolate true = .ok d ∧ c.scaledBy B d := by
  unfold ExtModel.normToShiftAfter at h
  by_cases hB : 0 < B
  · rw [if_pos hB] at h
    injection h with h
    refine ⟨hB, ?_⟩
    subst h
    unfold ExtModel.extrapolate at hc ⊢
    simp only
    cases hmin : m.Emin with
    | none => rw [hmin] at hc; simp at hc
    | some a =>
      cases hmax : m.Emax with
      | none => rw [hmin, hmax] at hc; simp at hc
      | some b =>
        rw [hmin, hmax] at hc
        simp only [Bool.false_eq_true, if_false] at hc
        injection hc with hc
        subst hc
        simp only [if_true, Option.getD_some]
        refine ⟨_, rfl, rfl, ?_⟩
        simp only [List.map_map]
        apply List.map_congr_left
        intro e _
        simp only [Function.comp, ExtModel.value]
        have hexp : Real.exp (m.scale * (e : ℝ) + (m.shift + Real.log B)) =
            B * Real.exp (m.scale * (e : ℝ) + m.shift) := by
          rw [show m.scale * (e : ℝ) + (m.shift + Real.log B) =
            Real.log B + (m.scale * (e : ℝ) + m.shift) by ring, Real.exp_add, Real.exp_log hB]
        rw [hexp]
        by_cases hh : m.high = true
        · rw [if_pos hh, if_pos hh]
          by_cases he : e = 0
          · rw [if_pos he, if_pos he]; rfl
          · rw [if_neg he, if_neg he]
            simp only [Option.map_some]
            congr 1
            ring
        · rw [if_neg hh, if_neg hh]
          rfl
  · rw [if_neg hB] at h
    exact absurd h (by simp)

/-- What a successful normalisation went through. -/
theorem gsfNormalize_ok {p : GgPars} {low high : ExtModel} {fit : Vec ℝ → ExtModel → Except Err (ℝ × ℝ)}
    {alpha : ℝ} {nld : Curve} {model S : ℚ → Except Err ℝ} {gsfIn : Vec ℝ} {r : GsfResult}
    (h : gsfNormalize p low high fit alpha nld model S gsfIn = .ok r) :
    ∃ (v : Vec ℝ) (l m : ExtModel) (cl ch : Curve) (G : ℝ), gsfIn.toMeV = .ok v ∧
      l.extrapolate false = .ok cl ∧ m.extrapolate false = .ok ch ∧
      ggStandard p (oslo v 1 alpha).curve cl ch nld model S = .ok G ∧ G ≠ 0 ∧ p.D0.1 ≠ 0 ∧
      l.normToShiftAfter (p.Gg / G) = .ok r.norm.low ∧ m.normToShiftAfter (p.Gg / G) = .ok r.norm.high ∧
      r.norm.gsf = oslo (oslo v 1 alpha) (p.Gg / G) 0 ∧ r.norm.gsfLow = cl ∧ r.norm.gsfHigh = ch ∧
      r.B = p.Gg / G ∧ r.Bunc = r.B * p.D0.2 / p.D0.1 := by
  unfold gsfNormalize at h
  simp only [bind, Except.bind, pure, Except.pure] at h
  cases hv : gsfIn.toMeV with
  | error e => rw [hv] at h; simp at h
  | ok v =>
    rw [hv] at h
    simp only at h
    cases hE : (oslo v 1 alpha).E.head? with
    | none => rw [hE] at h; simp at h
    | some e0 =>
      rw [hE] at h
      simp only at h
      cases hf : fitModels fit (low.autorange e0) (high.autorange e0) (oslo v 1 alpha) with
      | error e => rw [hf] at h; simp at h
      | ok lm =>
        obtain ⟨l, m⟩ := lm
        rw [hf] at h
        simp only at h
        cases hl : l.extrapolate false with
        | error e => rw [hl] at h; simp at h
        | ok cl =>
          rw [hl] at h
          simp only at h
          cases hm : m.extrapolate false with
          | error e => rw [hm] at h; simp at h
          | ok ch =>
            rw [hm] at h
            simp only at h
            cases hG : ggStandard p (oslo v 1 alpha).curve cl ch nld model S with
            | error e => rw [hG] at h; simp at h
            | ok G =>
              rw [hG] at h
              simp only at h
              by_cases h0 : G = 0 ∨ p.D0.1 = 0
              · rw [if_pos h0] at h; simp at h
              · rw [if_neg h0] at h
                push Not at h0
                cases hl' : l.normToShiftAfter (p.Gg / G) with
                | error e => rw [hl'] at h; simp at h
                | ok l' =>
                  rw [hl'] at h
                  simp only at h
                  cases hm' : m.normToShiftAfter (p.Gg / G) with
                  | error e => rw [hm'] at h; simp at h
                  | ok m' =>
                    rw [hm'] at h
                    simp only at h
                    injection h with h
                    subst h
                    exact ⟨v, l, m, cl, ch, G, rfl, hl, hm, hG, h0.1, h0.2, hl', hm', rfl, rfl, rfl,
                      rfl, rfl⟩

/-- C48: whenever the normalisation succeeds, the width computed from the normalised strength function
and the normalised extrapolations is the experimental one; the relative uncertainty of `B` is that of
D0. -/
theorem C48_width (p : GgPars) (low high : ExtModel) (fit : Vec ℝ → ExtModel → Except Err (ℝ × ℝ))
    (alpha : ℝ) (nld : Curve) (model S : ℚ → Except Err ℝ) (gsfIn : Vec ℝ) (r : GsfResult)
    (h : gsfNormalize p low high fit alpha nld model S gsfIn = .ok r) :
    r.width p nld model S = .ok p.Gg ∧ 0 < r.B ∧ r.Bunc / r.B = p.D0.2 / p.D0.1 := by
  obtain ⟨v, l, m, cl, ch, G, -, hl, hm, hG, h0, hD, hl', hm', hg, -, -, hB, hu⟩ := gsfNormalize_ok h
  obtain ⟨hp, dl, e1, s1⟩ := extrapolate_scaled hl' hl
  obtain ⟨-, dh, e2, s2⟩ := extrapolate_scaled hm' hm
  refine ⟨?_, by rw [hB]; exact hp, ?_⟩
  · unfold GsfResult.width
    rw [e1, e2]
    simp only [bind, Except.bind]
    rw [hg, C48_linear p hp (oslo_scaled _ (oslo_length _ _ _) _) s1 s2, hG]
    simp only [Except.map]
    congr 1
    field_simp
  · have hp' : r.B ≠ 0 := by rw [hB]; exact hp.ne'
    rw [hu]
    field_simp

/-- C48: no other constant gives the experimental width: if the data and both extrapolations were scaled
by `k`, the width is the experimental one only for the `B` of the code. -/
theorem C48_unique (p : GgPars) {g l h g' l' h' : Curve} {k G : ℝ} (hk : 0 < k) (hg : g.scaledBy k g')
    (hl : l.scaledBy k l') (hh : h.scaledBy k h') (nld : Curve) (model S : ℚ → Except Err ℝ)
    (hG : ggStandard p g l h nld model S = .ok G) (h0 : G ≠ 0) :
    ggStandard p g' l' h' nld model S = .ok p.Gg ↔ k = p.Gg / G := by
  rw [C48_linear p hk hg hl hh, hG]
  simp only [Except.map, Except.ok.injEq]
  rw [eq_div_iff h0]

/-! ## The formula -/

/-- C48: the width is the published sum. -/
theorem C48_formula (p : GgPars) (g l h nld : Curve) (model S : ℚ → Except Err ℝ) (hs : 2 ≤ p.steps)
    (f rho spin : ℚ → ℝ)
    (hf : ∀ k < p.steps, fgsf g l h (p.Emin + (p.Sn - p.Emin) / ((p.steps : ℚ) - 1) * k) =
      .ok (f (p.Emin + (p.Sn - p.Emin) / ((p.steps : ℚ) - 1) * k)))
    (hr : ∀ e, fnld nld model e = .ok (rho e)) (hS : ∀ e, S e = .ok (spin e)) :
    ggStandard p g l h nld model S = .ok (((List.range p.steps).map fun k : ℕ =>
      let e : ℚ := p.Emin + (p.Sn - p.Emin) / ((p.steps : ℚ) - 1) * (k : ℚ)
      (e : ℝ) ^ 3 * f e * rho (p.Sn - e) * spin (p.Sn - e)).sum *
      (((p.Sn - p.Emin) / ((p.steps : ℚ) - 1) : ℚ) : ℝ) / 2 * p.D0.1 * 1000) := by
  unfold ggStandard
  rw [if_neg (by omega)]
  have hm : (linspace p.Emin p.Sn p.steps).mapM (ggTerm p.Sn g l h nld model S) =
      .ok ((linspace p.Emin p.Sn p.steps).map fun e : ℚ =>
        (e : ℝ) ^ 3 * f e * rho (p.Sn - e) * spin (p.Sn - e)) := by
    apply mapM_ok
    intro e he
    unfold linspace at he
    rw [if_neg (by omega), List.mem_map] at he
    obtain ⟨k, hk, rfl⟩ := he
    rw [List.mem_range] at hk
    unfold ggTerm
    rw [hf k hk, hr, hS]
    rfl
  rw [hm]
  simp only [bind, Except.bind, pure, Except.pure, linspace]
  rw [if_neg (by omega), List.map_map]
  rfl

/-! ## Calling `Gg_before_norm` after the normalisation -/

/-- The value of a term. -/
noncomputable def termOr (x : Except Err ℝ) : ℝ :=
  match x with
  | .ok y => y
  | .error _ => 0

/-- Is the energy in the range of the points? -/
def Curve.covers (c : Curve) (e : ℚ) : Bool :=
  match c.E.head?, c.E.getLast? with
  | some a, some b => decide (a ≤ e ∧ e ≤ b)
  | _, _ => false

/-- The part of the width from the gamma energies with (`inside`) or without data. -/
noncomputable def partWidth (p : GgPars) (g l h nld : Curve) (model S : ℚ → Except Err ℝ) (inside : Bool) : ℝ :=
  (((linspace p.Emin p.Sn p.steps).filter fun e => g.covers e == inside).map fun e =>
    termOr (ggTerm p.Sn g l h nld model S e)).sum *
    (((p.Sn - p.Emin) / ((p.steps : ℚ) - 1) : ℚ) : ℝ) / 2 * p.D0.1 * 1000

theorem ggTerm_inside {Sn : ℚ} {g l h nld g' : Curve} {model S : ℚ → Except Err ℝ} {B : ℝ} (hB : 0 < B)
    (hs : g.scaledBy B g') (e : ℚ) {t : ℝ} (ht : ggTerm Sn g l h nld model S e = .ok t) :
    ggTerm Sn g' l h nld model S e = .ok (if g.covers e then B * t else t) := by
  unfold Curve.covers
  unfold ggTerm at ht ⊢
  unfold fgsf at ht ⊢
  rw [hs.1]
  cases h1 : g.E.head? with
  | none => rw [h1] at ht; simp [bind, Except.bind] at ht
  | some a =>
    cases h2 : g.E.getLast? with
    | none => rw [h1, h2] at ht; simp [bind, Except.bind] at ht
    | some b =>
      rw [h1, h2] at ht
      simp only [decide_eq_true_eq] at ht ⊢
      by_cases c1 : e < a
      · rw [if_pos c1] at ht ⊢
        rw [if_neg (by intro hh; linarith [hh.1])]
        exact ht
      · rw [if_neg c1] at ht ⊢
        by_cases c2 : e ≤ b
        · rw [if_pos c2] at ht ⊢
          rw [if_pos ⟨not_lt.1 c1, c2⟩, logInterp_scaled hB hs]
          cases hx : logInterp g e with
          | error e => rw [hx] at ht; simp [bind, Except.bind] at ht
          | ok x =>
            rw [hx] at ht
            simp only [bind, Except.bind, Except.map] at ht ⊢
            cases hn : fnld nld model (Sn - e) with
            | error e => rw [hn] at ht; simp at ht
            | ok n =>
              rw [hn] at ht
              simp only at ht ⊢
              cases hs : S (Sn - e) with
              | error e => rw [hs] at ht; simp at ht
              | ok s =>
                rw [hs] at ht
                simp only [pure, Except.pure, Except.ok.injEq] at ht ⊢
                rw [← ht]
                ring
        · rw [if_neg c2] at ht ⊢
          rw [if_neg (by intro hh; exact c2 hh.2)]
          exact ht

/-- C48: after `normalize`, `Gg_before_norm()` gives neither the width before nor the width after: only the
data are scaled. With `D` the part of the energies with data and `X` that of the others (before the
normalisation) it is `B D + X`, and this is the experimental width only if `B = 1` or the extrapolations do
not contribute. -/
theorem C48_again (p : GgPars) (low high : ExtModel) (fit : Vec ℝ → ExtModel → Except Err (ℝ × ℝ))
    (alpha : ℝ) (nld : Curve) (model S : ℚ → Except Err ℝ) (gsfIn v : Vec ℝ) (r : GsfResult)
    (h : gsfNormalize p low high fit alpha nld model S gsfIn = .ok r) (hv : gsfIn.toMeV = .ok v) :
    let D := partWidth p (oslo v 1 alpha).curve r.norm.gsfLow r.norm.gsfHigh nld model S true
    let X := partWidth p (oslo v 1 alpha).curve r.norm.gsfLow r.norm.gsfHigh nld model S false
    r.B * (D + X) = p.Gg ∧ r.ggAgain p nld model S = .ok (r.B * D + X) ∧
      (r.ggAgain p nld model S = .ok p.Gg ↔ r.B = 1 ∨ X = 0) := by
  intro D X
  obtain ⟨v', l, m, cl, ch, G, hv', hl, hm, hG, h0, hD, hl', hm', hg, hcl, hch, hB, hu⟩ :=
    gsfNormalize_ok h
  rw [hv] at hv'
  injection hv' with hv'
  subst hv'
  obtain ⟨hp, -⟩ := extrapolate_scaled hl' hl
  have hsc := oslo_scaled (oslo v 1 alpha) (oslo_length _ _ _) (p.Gg / G)
  have hD' : D = partWidth p (oslo v 1 alpha).curve cl ch nld model S true := by rw [← hcl, ← hch]
  have hX' : X = partWidth p (oslo v 1 alpha).curve cl ch nld model S false := by rw [← hcl, ← hch]
  unfold GsfResult.ggAgain
  rw [hg, hcl, hch, hD', hX']
  clear hD' hX' D X
  set g := (oslo v 1 alpha).curve
  set g' := (oslo (oslo v 1 alpha) (p.Gg / G) 0).curve
  rw [hB]
  set B := p.Gg / G with hBdef
  have key : ∀ es : List ℚ, ∀ ys, es.mapM (ggTerm p.Sn g cl ch nld model S) = .ok ys →
      ys.sum = ((es.filter fun e => g.covers e == true).map fun e =>
          termOr (ggTerm p.Sn g cl ch nld model S e)).sum +
        ((es.filter fun e => g.covers e == false).map fun e =>
          termOr (ggTerm p.Sn g cl ch nld model S e)).sum ∧
      ∃ zs, es.mapM (ggTerm p.Sn g' cl ch nld model S) = .ok zs ∧
        zs.sum = B * ((es.filter fun e => g.covers e == true).map fun e =>
          termOr (ggTerm p.Sn g cl ch nld model S e)).sum +
        ((es.filter fun e => g.covers e == false).map fun e =>
          termOr (ggTerm p.Sn g cl ch nld model S e)).sum := by
    intro es
    induction es with
    | nil =>
      intro ys hys
      simp only [List.mapM_nil, pure, Except.pure, Except.ok.injEq] at hys
      subst hys
      exact ⟨by simp, [], rfl, by simp⟩
    | cons e es ih =>
      intro ys hys
      rw [List.mapM_cons] at hys
      cases ht : ggTerm p.Sn g cl ch nld model S e with
      | error e => rw [ht] at hys; simp [bind, Except.bind] at hys
      | ok t =>
        rw [ht] at hys
        simp only [bind, Except.bind] at hys
        cases hts : es.mapM (ggTerm p.Sn g cl ch nld model S) with
        | error e => rw [hts] at hys; simp at hys
        | ok ts =>
          rw [hts] at hys
          simp only [pure, Except.pure, Except.ok.injEq] at hys
          obtain ⟨hsum, zs, hzs, hzsum⟩ := ih ts hts
          have hstep := ggTerm_inside hp hsc e ht
          cases hcov : g.covers e with
          | true =>
            rw [hcov, if_pos rfl] at hstep
            refine ⟨?_, B * t :: zs, ?_, ?_⟩
            · rw [← hys, List.sum_cons, hsum]
              simp [List.filter_cons, hcov, ht, termOr]
              ring
            · rw [List.mapM_cons, hstep, hzs]; rfl
            · rw [List.sum_cons, hzsum]
              simp [List.filter_cons, hcov, ht, termOr]
              ring
          | false =>
            rw [hcov, if_neg (by decide)] at hstep
            refine ⟨?_, t :: zs, ?_, ?_⟩
            · rw [← hys, List.sum_cons, hsum]
              simp [List.filter_cons, hcov, ht, termOr]
              ring
            · rw [List.mapM_cons, hstep, hzs]; rfl
            · rw [List.sum_cons, hzsum]
              simp [List.filter_cons, hcov, ht, termOr]
              ring
  have hGD : G = partWidth p g cl ch nld model S true + partWidth p g cl ch nld model S false ∧
      ggStandard p g' cl ch nld model S =
        .ok (B * partWidth p g cl ch nld model S true + partWidth p g cl ch nld model S false) := by
    unfold ggStandard at hG ⊢
    by_cases hs : p.steps < 2
    · rw [if_pos hs] at hG; simp at hG
    · rw [if_neg hs] at hG ⊢
      cases hys : (linspace p.Emin p.Sn p.steps).mapM (ggTerm p.Sn g cl ch nld model S) with
      | error e => rw [hys] at hG; simp [bind, Except.bind] at hG
      | ok ys =>
        rw [hys] at hG
        simp only [bind, Except.bind, pure, Except.pure, Except.ok.injEq] at hG
        obtain ⟨hsum, zs, hzs, hzsum⟩ := key _ ys hys
        unfold partWidth
        constructor
        · rw [← hG, hsum]; ring
        · rw [hzs]
          simp only [bind, Except.bind, pure, Except.pure, hzsum]
          congr 1
          ring
  obtain ⟨hGD, hag⟩ := hGD
  set D := partWidth p g cl ch nld model S true
  set X := partWidth p g cl ch nld model S false
  have hBG : B * (D + X) = p.Gg := by rw [← hGD, hBdef]; field_simp
  refine ⟨hBG, hag, ?_⟩
  rw [hag, ← hBG]
  simp only [Except.ok.injEq]
  constructor
  · intro he
    have : (B - 1) * X = 0 := by linear_combination -he
    rcases mul_eq_zero.1 this with h | h
    · exact Or.inl (by linarith)
    · exact Or.inr h
  · rintro (he | he)
    · rw [he]; ring
    · rw [he]; ring

end Ompy
