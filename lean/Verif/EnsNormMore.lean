import Verif.EnsNormProps

/-!
# More about the strength function normaliser and the ensemble

C70, C71: what the constructor keeps, and what failed calls leave behind.
-/

namespace Ompy

variable {P B R : Type}

/-- **C70.** A new normaliser uses what the constructor was given: the strength function (a copy), the slope, the
normaliser and the parameters; it has no results. -/
theorem C70_constructor (gsf nld : Option (Vec ℝ)) (n : Option (Option (NldOut R)))
    (model : Option (ℚ → Except Err ℝ)) (alpha : Option ℝ) (pars : GgPars) (low high : ExtModel) (heap : List (Vec ℝ))
    (a : GsfCall R) :
    (a.gsf = none → (⟨heap, GsfObj.new gsf nld n model alpha pars low high⟩ : GsfState R).source a = gsf) ∧
    (∀ x, alpha = some x → a.alpha = none →
      UsesAlpha (⟨heap, GsfObj.new gsf nld n model alpha pars low high⟩ : GsfState R) a x) ∧
    (∀ r, n = some (some r) → a.normalizer = none → a.nld = none → a.model = none →
      UsesNld (⟨heap, GsfObj.new gsf nld n model alpha pars low high⟩ : GsfState R) a r.nld ∧
      UsesModel (⟨heap, GsfObj.new gsf nld n model alpha pars low high⟩ : GsfState R) a r.model ∧
      KeepsNld (⟨heap, GsfObj.new gsf nld n model alpha pars low high⟩ : GsfState R) a (some r)) ∧
    (GsfObj.new gsf nld n model alpha pars low high).res = none ∧
    (GsfObj.new gsf nld n model alpha pars low high).pars = pars ∧
    (GsfObj.new gsf nld n model alpha pars low high).low = low ∧
    (GsfObj.new gsf nld n model alpha pars low high).high = high := by
  refine ⟨?_, ?_, ?_, rfl, rfl, rfl, rfl⟩
  · intro h
    unfold GsfState.source
    rw [h]
    rfl
  · intro x hx ha
    exact Or.inr ⟨ha, Or.inl hx⟩
  · intro r hr h1 h2 h3
    exact ⟨Or.inr ⟨h2, r, rfl, Or.inr ⟨h1, hr⟩⟩, Or.inr ⟨h3, r, rfl, Or.inr ⟨h1, hr⟩⟩, Or.inr ⟨h1, hr⟩⟩

/-- **C70.** If all inputs are there and the normalisation itself fails, the error reaches the caller and there
are no results of an earlier call left. -/
theorem C70_failed (fit : Vec ℝ → ExtModel → Except Err (ℝ × ℝ)) (S : GgPars → ℚ → Except Err ℝ)
    (check : GgPars → Except Err Unit) (s : GsfState R) (a : GsfCall R) (gsf v nld : Vec ℝ) (alpha : ℝ)
    (model : ℚ → Except Err ℝ) (x : Err) (h1 : s.source a = some gsf)
    (h2 : gsf.toMeV = .ok v) (h3 : UsesNld s a nld) (h4 : UsesAlpha s a alpha) (h5 : UsesModel s a model)
    (h6 : check (a.pars.getD s.obj.pars) = .ok ())
    (h8 : gsfNormalize (a.pars.getD s.obj.pars) s.obj.low s.obj.high fit alpha nld.curve model
        (S (a.pars.getD s.obj.pars)) gsf = .error x) :
    (s.normalize fit S check a).2 = .error x ∧ (s.normalize fit S check a).1.obj.res = none := by
  have e3 : orFrom a.nld (a.normalizer.orElse fun _ => s.obj.normalizer) (·.nld) = .ok nld := by
    rw [orFrom_ok]
    simp only [orElse_eq]
    exact h3
  have e4 : orFrom (a.alpha.orElse fun _ => s.obj.alpha) (a.normalizer.orElse fun _ => s.obj.normalizer)
      (·.alpha) = .ok alpha := by
    rw [orFrom_ok]
    simp only [orElse_eq]
    rcases h4 with h | ⟨h, h' | ⟨h', h''⟩⟩
    · exact Or.inl (Or.inl h)
    · exact Or.inl (Or.inr ⟨h, h'⟩)
    · exact Or.inr ⟨by rw [h, h']; rfl, h''⟩
  have e5 : orFrom a.model (a.normalizer.orElse fun _ => s.obj.normalizer) (·.model) = .ok model := by
    rw [orFrom_ok]
    simp only [orElse_eq]
    exact h5
  unfold GsfState.normalize
  rw [h1]
  dsimp only
  rw [e3]
  dsimp only
  rw [e4]
  dsimp only
  rw [e5]
  dsimp only
  rw [h6]
  dsimp only
  unfold GsfState.run
  rw [h2]
  dsimp only
  rw [h8]
  exact ⟨rfl, rfl⟩

/-- The hypotheses of `C70_failed` are met by a strength function without points. -/
example : ∃ x, gsfNormalize gsfCasePars (lowDefault 0 0 false 2) (highDefault 0 0 false 21)
    (fun _ _ => .error .undefined) 0 nldVecCase.curve (fun _ => .ok 1) (fun _ => .ok 1) ⟨[], [], none, "MeV"⟩ =
      .error x := ⟨.indexError, rfl⟩

/-- **C71.** Whatever happens in a step, the level density of the extractor is cut in place, and so is the strength
function: if the fit of the level density fails, the strength function is cut but not converted. -/
theorem C71_step_vectors (e : EnsEnv P B R) (s : EnsState P B R) (num : ℕ) (v : RawVec × RawVec) :
    (ensStep e s num v).2.1.1 = v.1.cutNan ∧ (ensStep e s num v).2.1.2.values = v.2.cutNan.values ∧
    (ensStep e s num v).2.1.2.std = v.2.cutNan.std ∧
    (∀ t x, nldCall e s.nld v.1.cutNan.toVec num = (t, .error x) → (ensStep e s num v).2.1.2 = v.2.cutNan ∧
      (ensStep e s num v).2.2 = .error x ∧ (ensStep e s num v).1.gsf = s.gsf) := by
  unfold ensStep
  dsimp only
  rcases hx : nldCall e s.nld v.1.cutNan.toVec num with ⟨t, rt⟩
  cases rt with
  | error x =>
    refine ⟨rfl, rfl, rfl, ?_⟩
    intro t' x' h
    simp only [Prod.mk.injEq, Except.error.injEq] at h
    obtain ⟨-, rfl⟩ := h
    exact ⟨rfl, rfl, rfl⟩
  | ok u =>
    dsimp only
    rcases gsfCall e s.gsf t.obj.res v.2.cutNan.toVec with ⟨o, w, ro⟩
    cases ro <;> exact ⟨rfl, rfl, rfl, by simp⟩

/-- A step that fails in the fit of the level density: no known levels. -/
example (v : RawVec × RawVec) : ∃ t x, nldCall envW (stW none none) v.1.cutNan.toVec 0 = (t, .error x) :=
  ⟨_, _, rfl⟩

end Ompy
