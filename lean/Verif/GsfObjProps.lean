import Verif.GsfObj
import Verif.GsfNormTotal

/-!
# Properties of the strength function normaliser as an object

C70.
-/

namespace Ompy

variable {R : Type}

/-- The level density a call is to use: the one given, otherwise that of the level density normaliser, given
or of the object. -/
def UsesNld (s : GsfState R) (a : GsfCall R) (v : Vec ℝ) : Prop :=
  a.nld = some v ∨ a.nld = none ∧ ∃ n : NldOut R, n.nld = v ∧
    (a.normalizer = some (some n) ∨ a.normalizer = none ∧ s.obj.normalizer = some (some n))

/-- The slope a call is to use: the one given, that of the object, or the one fitted to the level density. -/
def UsesAlpha (s : GsfState R) (a : GsfCall R) (x : ℝ) : Prop :=
  a.alpha = some x ∨ a.alpha = none ∧ (s.obj.alpha = some x ∨ s.obj.alpha = none ∧ ∃ n : NldOut R, n.alpha = x ∧
    (a.normalizer = some (some n) ∨ a.normalizer = none ∧ s.obj.normalizer = some (some n)))

/-- The model above the data. -/
def UsesModel (s : GsfState R) (a : GsfCall R) (f : ℚ → Except Err ℝ) : Prop :=
  a.model = some f ∨ a.model = none ∧ ∃ n : NldOut R, n.model = f ∧
    (a.normalizer = some (some n) ∨ a.normalizer = none ∧ s.obj.normalizer = some (some n))

/-- The results of the level density normaliser that are copied. -/
def KeepsNld (s : GsfState R) (a : GsfCall R) (n : Option (NldOut R)) : Prop :=
  match n with
  | some r => a.normalizer = some (some r) ∨ a.normalizer = none ∧ s.obj.normalizer = some (some r)
  | none => a.normalizer = none ∧ s.obj.normalizer = none

theorem orElse_eq {α : Type} (x y : Option α) (z : α) :
    (x.orElse fun _ => y) = some z ↔ x = some z ∨ x = none ∧ y = some z := by
  cases x <;> simp

theorem orFrom_ok {α : Type} (x : Option α) (n : Option (Option (NldOut R))) (f : NldOut R → α) (y : α) :
    orFrom x n f = .ok y ↔ x = some y ∨ x = none ∧ ∃ r, f r = y ∧ n = some (some r) := by
  unfold orFrom nldOutOf
  cases x with
  | some z => simp
  | none =>
    rcases n with _ | _ | r <;> simp [Except.map]

/-- What a successful call leaves behind: the vector converted is the caller's, or that of the object. -/
def GsfState.after (s : GsfState R) (a : GsfCall R) (v nld : Vec ℝ) (model : ℚ → Except Err ℝ) (r : GsfResult)
    (n : Option (NldOut R)) : GsfState R where
  heap := match a.gsf with | some k => s.heap.set k v | none => s.heap
  obj :=
    { gsfIn := match a.gsf with | some _ => s.obj.gsfIn | none => some v
      nld := some nld
      normalizer := s.obj.normalizer
      model := some model
      alpha := s.obj.alpha
      pars := a.pars.getD s.obj.pars
      low := r.norm.low
      high := r.norm.high
      res := some ⟨n, r.norm.gsf, r.norm.low, r.norm.high, (r.B, r.Bunc)⟩ }

theorem gsfNormalize_toMeV {p : GgPars} {low high : ExtModel} {fit : Vec ℝ → ExtModel → Except Err (ℝ × ℝ)}
    {alpha : ℝ} {nld : Curve} {model S : ℚ → Except Err ℝ} {g : Vec ℝ} {r : GsfResult}
    (h : gsfNormalize p low high fit alpha nld model S g = .ok r) : ∃ v, g.toMeV = .ok v := by
  obtain ⟨v, -, -, -, -, -, h, -⟩ := gsfNormalize_ok h
  exact ⟨v, h⟩

/-- A successful call. -/
theorem normalize_of (fit : Vec ℝ → ExtModel → Except Err (ℝ × ℝ)) (S : GgPars → ℚ → Except Err ℝ)
    (check : GgPars → Except Err Unit) (s : GsfState R) (a : GsfCall R) (gsf v nld : Vec ℝ) (alpha : ℝ)
    (model : ℚ → Except Err ℝ) (r : GsfResult) (n : Option (NldOut R)) (h1 : s.source a = some gsf)
    (h2 : gsf.toMeV = .ok v) (h3 : UsesNld s a nld) (h4 : UsesAlpha s a alpha) (h5 : UsesModel s a model)
    (h6 : check (a.pars.getD s.obj.pars) = .ok ()) (h7 : KeepsNld s a n)
    (h8 : gsfNormalize (a.pars.getD s.obj.pars) s.obj.low s.obj.high fit alpha nld.curve model
        (S (a.pars.getD s.obj.pars)) gsf = .ok r) :
    s.normalize fit S check a = (s.after a v nld model r n, .ok ()) := by
  have e3 : orFrom a.nld (a.normalizer.orElse fun _ => s.obj.normalizer) (·.nld) = .ok nld := by
    rw [orFrom_ok]
    simp only [orElse_eq]
    exact h3
  have e4 : orFrom (a.alpha.orElse fun _ => s.obj.alpha) (a.normalizer.orElse fun _ => s.obj.normalizer)
      (·.alpha) = .ok alpha := by
    rw [orFrom_ok]
    simp only [orElse_eq]
    rcases h4 with h | ⟨h, h' | ⟨h', h''⟩⟩
    · exact Or.inl (Or.inl h)
    · exact Or.inl (Or.inr ⟨h, h'⟩)
    · exact Or.inr ⟨by rw [h, h']; rfl, h''⟩
  have e5 : orFrom a.model (a.normalizer.orElse fun _ => s.obj.normalizer) (·.model) = .ok model := by
    rw [orFrom_ok]
    simp only [orElse_eq]
    exact h5
  unfold GsfState.normalize
  rw [h1]
  dsimp only
  rw [e3]
  dsimp only
  rw [e4]
  dsimp only
  rw [e5]
  dsimp only
  rw [h6]
  dsimp only
  unfold GsfState.run
  rw [h2]
  dsimp only
  rw [h8]
  dsimp only
  have hn : (a.normalizer.orElse fun _ => s.obj.normalizer) = n.map some := by
    cases n with
    | some r =>
      rw [Option.map_some, orElse_eq]
      exact h7
    | none =>
      obtain ⟨q1, q2⟩ := h7
      rw [q1, q2]
      rfl
  rw [hn]
  unfold GsfState.convert GsfState.after
  rcases a with ⟨ag, an, aa, al, am, ap⟩
  cases ag <;> cases n <;> rfl

/-- **C70.** `normalize` succeeds exactly if there is a strength function (the argument or that of the object)
in keV or MeV, a level density (the argument or that of a level density normaliser), a slope (the argument,
that of the object, or the fitted one), a model (the argument or the fitted one), complete parameters, a
level density normaliser that has results if there is one, and the normalisation itself works. Then the
results are those of this normalisation, together with a copy of the level density results; the attributes
`nld`, `nld_model`, `norm_pars` are those used. -/
theorem C70_result (fit : Vec ℝ → ExtModel → Except Err (ℝ × ℝ)) (S : GgPars → ℚ → Except Err ℝ)
    (check : GgPars → Except Err Unit) (s t : GsfState R) (a : GsfCall R) :
    s.normalize fit S check a = (t, .ok ()) ↔
    ∃ gsf v nld alpha model r n, s.source a = some gsf ∧ gsf.toMeV = .ok v ∧ UsesNld s a nld ∧
      UsesAlpha s a alpha ∧ UsesModel s a model ∧ check (a.pars.getD s.obj.pars) = .ok () ∧ KeepsNld s a n ∧
      gsfNormalize (a.pars.getD s.obj.pars) s.obj.low s.obj.high fit alpha nld.curve model
        (S (a.pars.getD s.obj.pars)) gsf = .ok r ∧
      t = s.after a v nld model r n := by
  constructor
  · intro h
    have hc := h
    unfold GsfState.normalize at h
    cases h1 : s.source a with
    | none => rw [h1] at h; simp at h
    | some gsf =>
    rw [h1] at h
    dsimp only at h
    cases h3 : orFrom a.nld (a.normalizer.orElse fun _ => s.obj.normalizer) (·.nld) with
    | error e => rw [h3] at h; simp at h
    | ok nld =>
    rw [h3] at h
    dsimp only at h
    cases h4 : orFrom (a.alpha.orElse fun _ => s.obj.alpha) (a.normalizer.orElse fun _ => s.obj.normalizer)
      (·.alpha) with
    | error e => rw [h4] at h; simp at h
    | ok alpha =>
    rw [h4] at h
    dsimp only at h
    cases h5 : orFrom a.model (a.normalizer.orElse fun _ => s.obj.normalizer) (·.model) with
    | error e => rw [h5] at h; simp at h
    | ok model =>
    rw [h5] at h
    dsimp only at h
    cases h6 : check (a.pars.getD s.obj.pars) with
    | error e => rw [h6] at h; simp at h
    | ok u =>
    rw [h6] at h
    dsimp only at h
    unfold GsfState.run at h
    cases h2 : gsf.toMeV with
    | error e => rw [h2] at h; simp at h
    | ok v =>
    rw [h2] at h
    dsimp only at h
    cases h8 : gsfNormalize (a.pars.getD s.obj.pars) s.obj.low s.obj.high fit alpha nld.curve model
        (S (a.pars.getD s.obj.pars)) gsf with
    | error e => rw [h8] at h; simp at h
    | ok r =>
    rw [h8] at h
    dsimp only at h
    have u3 : UsesNld s a nld := by
      rw [orFrom_ok] at h3
      simp only [orElse_eq] at h3
      exact h3
    have u4 : UsesAlpha s a alpha := by
      rw [orFrom_ok] at h4
      simp only [orElse_eq] at h4
      rcases h4 with (h | ⟨h, h'⟩) | ⟨h, h'⟩
      · exact Or.inl h
      · exact Or.inr ⟨h, Or.inl h'⟩
      · cases ha : a.alpha with
        | some x => rw [ha] at h; simp at h
        | none =>
          rw [ha] at h
          exact Or.inr ⟨ha, Or.inr ⟨h, h'⟩⟩
    have u5 : UsesModel s a model := by
      rw [orFrom_ok] at h5
      simp only [orElse_eq] at h5
      exact h5
    have u7 : ∃ n, KeepsNld s a n := by
      rcases hn : (a.normalizer.orElse fun _ => s.obj.normalizer) with _ | _ | n
      · refine ⟨none, ?_⟩
        cases ha : a.normalizer with
        | some x => rw [ha] at hn; simp at hn
        | none =>
          rw [ha] at hn
          exact ⟨ha, hn⟩
      · rw [hn] at h
        simp at h
      · refine ⟨some n, ?_⟩
        rw [orElse_eq] at hn
        exact hn
    obtain ⟨n, u7⟩ := u7
    refine ⟨gsf, v, nld, alpha, model, r, n, rfl, h2, u3, u4, u5, rfl, u7, h8, ?_⟩
    rw [normalize_of fit S check s a gsf v nld alpha model r n h1 h2 u3 u4 u5 h6 u7 h8] at hc
    exact (congrArg Prod.fst hc).symm
  · rintro ⟨gsf, v, nld, alpha, model, r, n, h1, h2, h3, h4, h5, h6, h7, h8, rfl⟩
    exact normalize_of fit S check s a gsf v nld alpha model r n h1 h2 h3 h4 h5 h6 h7 h8

/-- **C70.** The width computed from the results, with the level density used, is the experimental one. -/
theorem C70_width (fit : Vec ℝ → ExtModel → Except Err (ℝ × ℝ)) (S : GgPars → ℚ → Except Err ℝ)
    (check : GgPars → Except Err Unit) (s t : GsfState R) (a : GsfCall R)
    (h : s.normalize fit S check a = (t, .ok ())) :
    ∃ (o : GsfOut R) (nld : Vec ℝ) (model : ℚ → Except Err ℝ) (cl ch : Curve), t.obj.res = some o ∧
      t.obj.nld = some nld ∧ UsesNld s a nld ∧ t.obj.model = some model ∧ UsesModel s a model ∧
      o.low.extrapolate true = .ok cl ∧ o.high.extrapolate true = .ok ch ∧
      ggStandard t.obj.pars o.gsf.curve cl ch nld.curve model (S t.obj.pars) = .ok t.obj.pars.Gg ∧
      0 < o.B.1 ∧ o.B.2 / o.B.1 = t.obj.pars.D0.2 / t.obj.pars.D0.1 := by
  obtain ⟨gsf, v, nld, alpha, model, r, n, h1, h2, h3, h4, h5, h6, h7, h8, rfl⟩ := (C70_result fit S check s t a).1 h
  obtain ⟨w1, w2, w3⟩ := C48_width _ _ _ _ _ _ _ _ _ _ h8
  unfold GsfResult.width at w1
  cases hl : r.norm.low.extrapolate true with
  | error e => rw [hl] at w1; simp [bind, Except.bind] at w1
  | ok cl =>
    cases hh : r.norm.high.extrapolate true with
    | error e => rw [hl, hh] at w1; simp [bind, Except.bind] at w1
    | ok ch =>
      rw [hl, hh] at w1
      exact ⟨_, nld, model, cl, ch, rfl, rfl, h3, rfl, h5, hl, hh, w1, w2, w3⟩

/-- **C70.** Missing inputs: no strength function is an `AssertionError`; no level density normaliser, or one
without results, is an `AttributeError` if the level density, the slope or the model have to come from it. -/
theorem C70_refuses (fit : Vec ℝ → ExtModel → Except Err (ℝ × ℝ)) (S : GgPars → ℚ → Except Err ℝ)
    (check : GgPars → Except Err Unit) (s : GsfState R) (a : GsfCall R) :
    (s.source a = none → s.normalize fit S check a = (s, .error .assertion)) ∧
    (s.source a ≠ none →
      (∀ n, a.normalizer ≠ some (some n)) → (a.normalizer = none → ∀ n, s.obj.normalizer ≠ some (some n)) →
      a.nld = none ∨ (a.alpha = none ∧ s.obj.alpha = none) ∨ a.model = none →
      (s.normalize fit S check a).2 = .error .attributeError) := by
  constructor
  · intro h
    unfold GsfState.normalize
    rw [h]
  · intro h0 h1 h2 h
    have hn : nldOutOf (a.normalizer.orElse fun _ => s.obj.normalizer) = .error .attributeError := by
      cases ha : a.normalizer with
      | some x =>
        cases x with
        | some n => exact absurd ha (h1 n)
        | none => rfl
      | none =>
        rcases hs : s.obj.normalizer with _ | _ | n
        · rfl
        · rfl
        · exact absurd hs (h2 ha n)
    obtain ⟨g, hg⟩ := Option.ne_none_iff_exists'.1 h0
    unfold GsfState.normalize
    rw [hg]
    dsimp only
    unfold orFrom
    rw [hn]
    cases hnld : a.nld with
    | none => rfl
    | some v =>
      dsimp only
      rw [hnld] at h
      cases hal : (a.alpha.orElse fun _ => s.obj.alpha) with
      | none => rfl
      | some x =>
        dsimp only
        have hm : a.model = none := by
          rcases h with h | ⟨q1, q2⟩ | h
          · simp at h
          · rw [q1, q2] at hal; simp at hal
          · exact h
        rw [hm]
        rfl

theorem toMeV_again {v w : Vec ℝ} (h : v.toMeV = .ok w) : w.toMeV = .ok w := by
  unfold Vec.toMeV at h ⊢
  split at h
  · injection h with h
    subst h
    rw [if_pos (by assumption)]
  · split at h
    · injection h with h
      subst h
      rfl
    · simp at h

/-- A model after a normalisation is not changed by another one with the same factor and range. -/
theorem model_again {l l' : ExtModel} {B : ℝ} (h : l.normToShiftAfter B = .ok l') (hr : l.autorange e0 = l) :
    l' = { l with shiftAfter := some (l.shift + Real.log B) } ∧ l'.normToShiftAfter B = .ok l' ∧
    l'.extrapolate false = l.extrapolate false ∧ l'.autorange e0 = l' := by
  unfold ExtModel.normToShiftAfter at h
  by_cases hB : 0 < B
  · rw [if_pos hB] at h
    injection h with h
    subst h
    refine ⟨rfl, ?_, rfl, ?_⟩
    · unfold ExtModel.normToShiftAfter
      rw [if_pos hB]
    · unfold ExtModel.autorange at hr ⊢
      have h1 := congrArg ExtModel.Emin hr
      have h2 := congrArg ExtModel.Emax hr
      dsimp only at h1 h2 ⊢
      rw [h1, h2]
  · rw [if_neg hB] at h
    simp at h

theorem autorange_idem (m : ExtModel) (e : ℚ) : (m.autorange e).autorange e = m.autorange e :=
  C63_stale_fails m e e

/-- The normalisation of the converted vector with the models it left. -/
theorem gsfNormalize_again {p : GgPars} {low high : ExtModel} {fit : Vec ℝ → ExtModel → Except Err (ℝ × ℝ)}
    {alpha : ℝ} {nld : Curve} {model S : ℚ → Except Err ℝ} {g v : Vec ℝ} {r : GsfResult}
    (hfit : ∀ v m m', m.high = m'.high → fit v m = fit v m') (hv : g.toMeV = .ok v)
    (h : gsfNormalize p low high fit alpha nld model S g = .ok r) :
    gsfNormalize p r.norm.low r.norm.high fit alpha nld model S v = .ok r := by
  unfold gsfNormalize at h ⊢
  rw [hv] at h
  rw [toMeV_again hv]
  simp only [bind, Except.bind, pure, Except.pure] at h ⊢
  cases hE : (oslo v 1 alpha).E.head? with
  | none => rw [hE] at h; simp at h
  | some e0 =>
    rw [hE] at h
    simp only at h ⊢
    cases hf : fitModels fit (low.autorange e0) (high.autorange e0) (oslo v 1 alpha) with
    | error e => rw [hf] at h; simp at h
    | ok lm =>
      obtain ⟨l, m⟩ := lm
      rw [hf] at h
      simp only at h
      have hlm : l.autorange e0 = l ∧ m.autorange e0 = m ∧
          (∀ x y, fitModels fit { l with shiftAfter := x } { m with shiftAfter := y } (oslo v 1 alpha) =
            .ok ({ l with shiftAfter := x }, { m with shiftAfter := y })) := by
        unfold fitModels at hf ⊢
        by_cases hlow : (low.autorange e0).fitted = true
        · rw [if_pos hlow] at hf
          simp only [bind, Except.bind, pure, Except.pure] at hf
          cases f1 : fit (oslo v 1 alpha) (low.autorange e0) with
          | error e => rw [f1] at hf; simp at hf
          | ok a1 =>
            cases f2 : fit (oslo v 1 alpha) (high.autorange e0) with
            | error e => rw [f1, f2] at hf; simp at hf
            | ok a2 =>
              rw [f1, f2] at hf
              simp only [Except.ok.injEq, Prod.mk.injEq] at hf
              obtain ⟨rfl, rfl⟩ := hf
              refine ⟨?_, ?_, ?_⟩
              · have := autorange_idem low e0
                unfold ExtModel.autorange at this ⊢
                simp
              · unfold ExtModel.autorange
                simp
              · intro x y
                rw [if_pos hlow]
                have g1 : ∀ m, m.high = low.high → fit (oslo v 1 alpha) m = .ok a1 :=
                  fun m hm => (hfit _ m (low.autorange e0) hm).trans f1
                have g2 : ∀ m, m.high = high.high → fit (oslo v 1 alpha) m = .ok a2 :=
                  fun m hm => (hfit _ m (high.autorange e0) hm).trans f2
                simp only [bind, Except.bind, pure, Except.pure]
                rw [g1, g2]
                · rfl
                · rfl
        · rw [if_neg hlow] at hf
          simp only [pure, Except.pure, Except.ok.injEq, Prod.mk.injEq] at hf
          obtain ⟨rfl, rfl⟩ := hf
          refine ⟨autorange_idem low e0, autorange_idem high e0, ?_⟩
          intro x y
          rw [if_neg hlow]
          rfl
      obtain ⟨hl, hm, hff⟩ := hlm
      cases hcl : l.extrapolate false with
      | error e => rw [hcl] at h; simp at h
      | ok cl =>
        rw [hcl] at h
        simp only at h
        cases hch : m.extrapolate false with
        | error e => rw [hch] at h; simp at h
        | ok ch =>
          rw [hch] at h
          simp only at h
          cases hG : ggStandard p (oslo v 1 alpha).curve cl ch nld model S with
          | error e => rw [hG] at h; simp at h
          | ok G =>
            rw [hG] at h
            simp only at h
            by_cases h0 : G = 0 ∨ p.D0.1 = 0
            · rw [if_pos h0] at h; simp at h
            · rw [if_neg h0] at h
              cases hl' : l.normToShiftAfter (p.Gg / G) with
              | error e => rw [hl'] at h; simp at h
              | ok l' =>
                rw [hl'] at h
                simp only at h
                cases hm' : m.normToShiftAfter (p.Gg / G) with
                | error e => rw [hm'] at h; simp at h
                | ok m' =>
                  rw [hm'] at h
                  simp only at h
                  injection h with h
                  subst h
                  obtain ⟨a1, a2, a3, a4⟩ := model_again hl' hl
                  obtain ⟨b1, b2, b3, b4⟩ := model_again hm' hm
                  dsimp only
                  rw [a4, b4]
                  have hff' : fitModels fit l' m' (oslo v 1 alpha) = .ok (l', m') := by
                    rw [a1, b1]
                    exact hff _ _
                  rw [hff']
                  simp only
                  rw [a3, b3, hcl, hch]
                  simp only
                  rw [hG]
                  simp only
                  rw [if_neg h0, a2, b2]

/-- **C70.** Normalising again with the same arguments changes nothing, provided the fit of the extrapolations
depends on the data and the kind of the model only (it starts from fixed values). -/
theorem C70_again (fit : Vec ℝ → ExtModel → Except Err (ℝ × ℝ)) (S : GgPars → ℚ → Except Err ℝ)
    (check : GgPars → Except Err Unit) (s t : GsfState R) (a : GsfCall R)
    (hfit : ∀ v m m', m.high = m'.high → fit v m = fit v m')
    (h : s.normalize fit S check a = (t, .ok ())) : t.normalize fit S check a = (t, .ok ()) := by
  obtain ⟨gsf, v, nld, alpha, model, r, n, h1, h2, h3, h4, h5, h6, h7, h8, rfl⟩ := (C70_result fit S check s t a).1 h
  have hp : a.pars.getD (a.pars.getD s.obj.pars) = a.pars.getD s.obj.pars := by cases a.pars <;> rfl
  rw [C70_result]
  refine ⟨v, v, nld, alpha, model, r, n, ?_, toMeV_again h2, h3, h4, h5, ?_, h7, ?_, ?_⟩
  · unfold GsfState.source at h1 ⊢
    unfold GsfState.after
    cases hg : a.gsf with
    | none => rfl
    | some k =>
      rw [hg] at h1
      dsimp only at h1 ⊢
      have hk : k < s.heap.length := by
        by_contra hc
        rw [List.getElem?_eq_none (not_lt.1 hc)] at h1
        simp at h1
      rw [List.getElem?_set_self hk]
  · unfold GsfState.after
    dsimp only
    rw [hp]
    exact h6
  · unfold GsfState.after
    dsimp only
    rw [hp]
    exact gsfNormalize_again hfit h2 h8
  · unfold GsfState.after
    dsimp only
    rw [hp]
    cases a.gsf with
    | none => rfl
    | some k => simp

/-! ## Where it is not as documented -/

/-- **C70 fails** for the level density and the model given to the constructor: `normalize()` does not look at
them. Without a level density normaliser the call fails although both, and the slope, were given to the
constructor; with one they do not matter. -/
theorem C70_attributes_fails (fit : Vec ℝ → ExtModel → Except Err (ℝ × ℝ)) (S : GgPars → ℚ → Except Err ℝ)
    (check : GgPars → Except Err Unit) (heap : List (Vec ℝ)) (gsf nld : Vec ℝ) (model : ℚ → Except Err ℝ)
    (alpha : ℝ) (p : GgPars) (low high : ExtModel) (n : NldOut R) (t : GsfState R) :
    (GsfState.normalize (R := R) fit S check
      ⟨heap, GsfObj.new (some gsf) (some nld) none (some model) (some alpha) p low high⟩
      ⟨none, none, none, none, none, none⟩).2 = .error .attributeError ∧
    ((GsfState.normalize fit S check
      ⟨heap, GsfObj.new (some gsf) (some nld) (some (some n)) (some model) (some alpha) p low high⟩
      ⟨none, none, none, none, none, none⟩ = (t, .ok ())) →
      t.obj.nld = some n.nld ∧ t.obj.model = some n.model) := by
  constructor
  · refine (C70_refuses fit S check _ _).2 (by simp [GsfState.source, GsfObj.new]) (by simp)
      (by simp [GsfObj.new]) (Or.inl rfl)
  · intro h
    obtain ⟨g, v, nld', alpha', model', r, m, h1, h2, h3, h4, h5, h6, h7, h8, rfl⟩ := (C70_result ..).1 h
    simp only [UsesNld, UsesModel, GsfObj.new] at h3 h5
    simp at h3 h5
    simp only [GsfState.after]
    rw [h3, h5]
    exact ⟨rfl, rfl⟩

/-- **C70 fails** for the vector of the caller: a strength function in keV is converted in place. -/
theorem C70_caller_fails (fit : Vec ℝ → ExtModel → Except Err (ℝ × ℝ)) (S : GgPars → ℚ → Except Err ℝ)
    (check : GgPars → Except Err Unit) (s t : GsfState R) (a : GsfCall R) (k : ℕ) (g : Vec ℝ)
    (ha : a.gsf = some k) (hg : s.heap[k]? = some g) (hu : g.units = "keV")
    (h : s.normalize fit S check a = (t, .ok ())) :
    ∃ w, t.heap[k]? = some w ∧ w.units = "MeV" ∧ w.E = g.E.map (· / 1000) := by
  obtain ⟨g', v, nld, alpha, model, r, n, h1, h2, h3, h4, h5, h6, h7, h8, rfl⟩ := (C70_result fit S check s t a).1 h
  unfold GsfState.source at h1
  rw [ha] at h1
  dsimp only at h1
  rw [hg] at h1
  injection h1 with h1
  subst h1
  have hk : k < s.heap.length := by
    by_contra hc
    rw [List.getElem?_eq_none (not_lt.1 hc)] at hg
    simp at hg
  refine ⟨v, ?_, ?_⟩
  · unfold GsfState.after
    rw [ha]
    dsimp only
    rw [List.getElem?_set_self hk]
  · unfold Vec.toMeV at h2
    rw [if_neg (by rw [hu]; decide), if_pos hu] at h2
    injection h2 with h2
    subst h2
    exact ⟨rfl, rfl⟩

/-- **C70.** All other vectors of the caller are left alone, whether the call succeeds or not, and all are if
the strength function is in MeV already. -/
theorem C70_caller_partial (fit : Vec ℝ → ExtModel → Except Err (ℝ × ℝ)) (S : GgPars → ℚ → Except Err ℝ)
    (check : GgPars → Except Err Unit) (s : GsfState R) (a : GsfCall R) (j : ℕ)
    (hj : a.gsf = some j → ∀ g, s.heap[j]? = some g → g.units = "MeV") :
    (s.normalize fit S check a).1.heap[j]? = s.heap[j]? := by
  have hset : ∀ gsf v, s.source a = some gsf → gsf.toMeV = .ok v →
      ∀ o : GsfObj R, ((GsfState.convert ⟨s.heap, o⟩ a v).heap)[j]? = s.heap[j]? := by
    intro gsf v h1 h2 o
    unfold GsfState.convert GsfState.source at *
    cases ha : a.gsf with
    | none => rfl
    | some k =>
      rw [ha] at h1 hj
      dsimp only at h1 ⊢
      by_cases hjk : k = j
      · subst hjk
        have hu := hj rfl _ h1
        unfold Vec.toMeV at h2
        rw [if_pos hu] at h2
        injection h2 with h2
        subst h2
        rw [List.getElem?_set]
        simp only [if_true]
        rw [h1]
        have hk : k < s.heap.length := by
          by_contra hc
          rw [List.getElem?_eq_none (not_lt.1 hc)] at h1
          simp at h1
        rw [if_pos hk]
      · rw [List.getElem?_set_ne hjk]
  unfold GsfState.normalize
  cases h1 : s.source a with
  | none => rfl
  | some gsf =>
  dsimp only
  cases orFrom a.nld (a.normalizer.orElse fun _ => s.obj.normalizer) (·.nld) with
  | error e => rfl
  | ok nld =>
  dsimp only
  cases orFrom (a.alpha.orElse fun _ => s.obj.alpha) (a.normalizer.orElse fun _ => s.obj.normalizer)
    (·.alpha) with
  | error e => rfl
  | ok alpha =>
  dsimp only
  cases orFrom a.model (a.normalizer.orElse fun _ => s.obj.normalizer) (·.model) with
  | error e => rfl
  | ok model =>
  dsimp only
  cases check (a.pars.getD s.obj.pars) with
  | error e => rfl
  | ok u =>
  dsimp only
  unfold GsfState.run
  cases h2 : gsf.toMeV with
  | error e => rfl
  | ok v =>
  dsimp only
  have hs := hset gsf v h1 h2
  cases gsfNormalize (a.pars.getD s.obj.pars) s.obj.low s.obj.high fit alpha nld.curve model
      (S (a.pars.getD s.obj.pars)) gsf with
  | error e => exact hs _
  | ok r =>
    dsimp only
    split
    · exact hs _
    · exact hs _

/-! ## A case in full -/

/-- The level density of the small case as a vector. -/
def nldVecCase : Vec ℝ := ⟨[0, 2], [1, 1], none, "MeV"⟩

/-- Another level density, which a normaliser might have found. -/
def nldOutCase : NldOut Unit := ⟨⟨[0, 2], [5, 7], none, "MeV"⟩, 3, fun _ => .ok 1, ()⟩

/-- The small case as a call: the strength function of the caller in keV, level density, slope and model as
arguments. -/
def gsfCallCase (n : Option (Option (NldOut Unit))) : GsfCall Unit :=
  ⟨some 0, n, some 0, some nldVecCase, some fun _ => .ok 1, none⟩

/-- The object for the small case. -/
noncomputable def gsfStateCase : GsfState Unit :=
  ⟨[⟨[1000, 2000], [1, 1], none, "keV"⟩],
    GsfObj.new none none none none none gsfCasePars (lowDefault 0 0 false 2) (highDefault 0 0 false 21)⟩

theorem gsfCase_call (n : Option (NldOut Unit)) :
    ∃ t, gsfStateCase.normalize (fun _ _ => .error .undefined) (fun _ _ => .ok 1) (fun _ => .ok ())
      (gsfCallCase (n.map some)) = (t, .ok ()) ∧ t.obj.nld = some nldVecCase ∧ (t.obj.res.map (·.B.1)) = some 2 ∧
      (t.obj.res.map (·.ofNld)) = some n := by
  obtain ⟨r, h1, h2, h3, h4⟩ := gsfCase_normalize
  have hv : (⟨[1000, 2000], [1, 1], none, "keV"⟩ : Vec ℝ).toMeV = .ok gsfCase := by
    unfold Vec.toMeV
    rw [if_neg (by decide), if_pos rfl]
    unfold gsfCase
    norm_num
  have h1' : gsfNormalize gsfCasePars (lowDefault 0 0 false 2) (highDefault 0 0 false 21)
    (fun _ _ => .error .undefined) 0 nldVecCase.curve (fun _ => .ok 1) (fun _ => .ok 1)
      ⟨[1000, 2000], [1, 1], none, "keV"⟩ = .ok r := by
    rw [← h1]
    unfold gsfNormalize
    rw [hv]
    rfl
  refine ⟨_, normalize_of _ _ _ _ _ _ gsfCase nldVecCase 0 (fun _ => .ok 1) r n rfl hv (Or.inl rfl) (Or.inl rfl)
    (Or.inl rfl) rfl ?_ h1', rfl, ?_, rfl⟩
  · cases n with
    | none => exact ⟨rfl, rfl⟩
    | some n => exact Or.inl rfl
  · simp only [GsfState.after, Option.map_some, h4]

/-- The hypotheses of C70 are met. -/
example : ∃ t : GsfState Unit, gsfStateCase.normalize (fun _ _ => .error .undefined) (fun _ _ => .ok 1)
    (fun _ => .ok ()) (gsfCallCase none) = (t, .ok ()) := by
  obtain ⟨t, h, -⟩ := gsfCase_call none
  exact ⟨t, h⟩

/-- **C70 fails** for the level density in the results: if one is given together with a level density
normaliser, the strength function is normalised with the one given, and the results contain that of the
normaliser. -/
theorem C70_results_nld_fails :
    ∃ t : GsfState Unit, gsfStateCase.normalize (fun _ _ => .error .undefined) (fun _ _ => .ok 1)
      (fun _ => .ok ()) (gsfCallCase (some (some nldOutCase))) = (t, .ok ()) ∧
      t.obj.nld = some nldVecCase ∧
      ∃ o, t.obj.res = some o ∧ ∃ n, o.ofNld = some n ∧ n.nld.values = [5, 7] ∧ nldVecCase.values = [1, 1] := by
  obtain ⟨t, h, h1, h2, h3⟩ := gsfCase_call (some nldOutCase)
  refine ⟨t, h, h1, ?_⟩
  cases ht : t.obj.res with
  | none => rw [ht] at h3; simp at h3
  | some o =>
    rw [ht] at h3
    simp only [Option.map_some, Option.some.injEq] at h3
    exact ⟨o, rfl, _, h3, rfl, rfl⟩

end Ompy
