import Verif.NldNorm
import Verif.VectorProps

/-!
# C66 and C67: the level density normaliser as an object
-/

namespace Ompy

variable {P B R : Type}

/-- The argument if it is given, otherwise the attribute. -/
def given {α : Type} (arg attr : Option α) : Option α := if arg.isSome then arg else attr

theorem selfIfNone_ok {α : Type} {arg attr : Option α} {x : α} :
    selfIfNone arg attr = .ok x ↔ given arg attr = some x := by
  cases arg <;> cases attr <;> simp [selfIfNone, given]

theorem selfIfNone_error {α : Type} {arg attr : Option α} {e : Err} :
    selfIfNone arg attr = .error e ↔ given arg attr = none ∧ e = .valueError := by
  cases arg <;> cases attr <;> simp [selfIfNone, given, eq_comm]

theorem save_obj {s s' : NldState P B R} (h : s.save = (s', .ok ())) :
    s'.obj = s.obj ∧ s'.heap = s.heap := by
  unfold NldState.save at h
  by_cases h1 : s.obj.saveInstance = true
  · rw [if_pos h1] at h
    cases hp : s.obj.path with
    | none => rw [hp] at h; simp at h
    | some p =>
      rw [hp] at h
      simp only [Prod.mk.injEq, and_true] at h
      rw [← h]
      exact ⟨rfl, rfl⟩
  · rw [if_neg h1] at h
    simp only [Prod.mk.injEq, and_true] at h
    rw [h]
    exact ⟨rfl, rfl⟩

/-- A successful fit: what it was given and what the object holds afterwards. -/
theorem fitAndSave_ok {fit : NldFitIn P B → Except Err (NldPopt R)} {s s' : NldState P B R}
    {nldIn : Vec ℝ} {low high : ℚ × ℚ} {bounds : B} {pars : P} {num : ℕ}
    (h : s.fitAndSave fit nldIn low high bounds pars num = (s', .ok ())) :
    ∃ v c popt, nldIn.toMeV = .ok v ∧ s.obj.discrete = some c ∧ s'.heap = s.heap ∧
      s'.obj.discrete = some c ∧ s'.obj.low = s.obj.low ∧ s'.obj.high = s.obj.high ∧
      s'.obj.pars = s.obj.pars ∧ s'.obj.bounds = s.obj.bounds ∧
      (s.obj.stdFake ≠ some true → v.std ≠ none →
        fit ⟨v, vcell s.heap c, low, high, bounds, pars, num⟩ = .ok popt ∧
        s'.obj.res = some ⟨v.transformR popt.A popt.alpha, popt⟩ ∧ s'.obj.stdFake = some false) ∧
      (s.obj.stdFake = some true ∨ v.std = none →
        fit ⟨{ v with std := some (v.values.map (· * (3 / 10))) }, vcell s.heap c, low, high, bounds,
          pars, num⟩ = .ok popt ∧
        s'.obj.res = some ⟨({ v with std := none } : Vec ℝ).transformR popt.A popt.alpha, popt⟩ ∧
        s'.obj.stdFake = some true) := by
  unfold NldState.fitAndSave at h
  cases hv : nldIn.toMeV with
  | error e => rw [hv] at h; simp at h
  | ok v =>
    rw [hv] at h
    dsimp only at h
    cases hc : s.obj.discrete with
    | none => rw [hc] at h; simp at h
    | some c =>
      rw [hc] at h
      dsimp only at h
      by_cases hf : (s.obj.stdFake == some true || v.std.isNone) = true
      · simp only [hf, if_true] at h
        cases hfit : fit ⟨{ v with std := some (v.values.map (· * (3 / 10))) }, vcell s.heap c, low, high,
            bounds, pars, num⟩ with
        | error e => rw [hfit] at h; simp at h
        | ok popt =>
          rw [hfit] at h
          dsimp only at h
          obtain ⟨h1, h2⟩ := save_obj h
          have hcond : s.obj.stdFake = some true ∨ v.std = none := by
            simp only [Bool.or_eq_true, beq_iff_eq, Option.isNone_iff_eq_none] at hf
            exact hf
          refine ⟨v, c, popt, rfl, rfl, h2, ?_, ?_, ?_, ?_, ?_, ?_, fun _ => ⟨hfit, ?_, ?_⟩⟩
          · rw [h1]
          · rw [h1]
          · rw [h1]
          · rw [h1]
          · rw [h1]
          · intro a b
            rcases hcond with h3 | h3
            · exact absurd h3 a
            · exact absurd h3 b
          · rw [h1]
            rfl
          · rw [h1]
      · simp only [hf] at h
        have hcond : s.obj.stdFake ≠ some true ∧ v.std ≠ none := by
          simp only [Bool.or_eq_true, beq_iff_eq, Option.isNone_iff_eq_none, not_or] at hf
          exact hf
        have e1 : (if false = true then ({ v with std := some (v.values.map (· * (3 / 10))) } : Vec ℝ)
            else v) = v := by simp
        cases hfit : fit ⟨v, vcell s.heap c, low, high, bounds, pars, num⟩ with
        | error e => simp [hfit] at h
        | ok popt =>
          simp only [Bool.false_eq_true, if_false, hfit] at h
          obtain ⟨h1, h2⟩ := save_obj h
          refine ⟨v, c, popt, rfl, rfl, h2, ?_, ?_, ?_, ?_, ?_, fun _ _ => ⟨hfit, ?_, ?_⟩, ?_⟩
          · rw [h1]
          · rw [h1]
          · rw [h1]
          · rw [h1]
          · rw [h1]
          · rw [h1]
            rfl
          · rw [h1]
          · rintro (h3 | h3)
            · exact absurd h3 hcond.1
            · exact absurd h3 hcond.2

/-- **C66** (what holds). A successful normalisation of a normaliser that regenerates: limits, bounds and
parameters are the arguments where given and the attributes otherwise; the fit is given the level density
in MeV; the result is that level density transformed with the parameters of the fit, with the transformed
standard deviations if it has some and none were made up before, and without otherwise; none of the
caller's vectors is changed but the known levels, which are converted to MeV. Missing: the known levels
of the fit are those of the attribute (`C66_discrete_fails`), and standard deviations can be lost
(`C66_std_fails`). -/
theorem C66_result_partial (fit : NldFitIn P B → Except Err (NldPopt R)) (check : P → Except Err Unit)
    (s s' : NldState P B R) (a : NldCall P B) (hr : s.obj.regenerate = true)
    (h : s.normalize fit check a = (s', .ok ())) :
    ∃ low high bounds pars d dv c nldIn v popt,
      given a.low s.obj.low = some low ∧ given a.high s.obj.high = some high ∧
      given a.bounds s.obj.bounds = some bounds ∧ given a.pars s.obj.pars = some pars ∧
      check pars = .ok () ∧
      given a.discrete s.obj.discrete = some d ∧ (vcell s.heap d).toMeV = .ok dv ∧
      s'.heap = s.heap.set d dv ∧ s.obj.discrete = some c ∧
      given (a.nld.map (vcell s'.heap)) s.obj.nld = some nldIn ∧ nldIn.toMeV = .ok v ∧
      s'.obj.low = some low ∧ s'.obj.high = some high ∧ s'.obj.bounds = some bounds ∧
      s'.obj.pars = some pars ∧ s'.obj.discrete = some c ∧
      (s.obj.stdFake ≠ some true → v.std ≠ none →
        fit ⟨v, vcell s'.heap c, low, high, bounds, pars, a.num⟩ = .ok popt ∧
        s'.obj.res = some ⟨v.transformR popt.A popt.alpha, popt⟩ ∧ s'.obj.stdFake = some false) ∧
      (s.obj.stdFake = some true ∨ v.std = none →
        fit ⟨{ v with std := some (v.values.map (· * (3 / 10))) }, vcell s'.heap c, low, high, bounds,
          pars, a.num⟩ = .ok popt ∧
        s'.obj.res = some ⟨({ v with std := none } : Vec ℝ).transformR popt.A popt.alpha, popt⟩ ∧
        s'.obj.stdFake = some true) := by
  unfold NldState.normalize at h
  rw [if_pos hr] at h
  unfold NldState.normalizeNew at h
  cases h1 : selfIfNone a.low s.obj.low with
  | error e => rw [h1] at h; simp at h
  | ok low =>
  cases h2 : selfIfNone a.high s.obj.high with
  | error e => rw [h1, h2] at h; simp at h
  | ok high =>
  cases h3 : selfIfNone a.discrete s.obj.discrete with
  | error e => rw [h1, h2, h3] at h; simp at h
  | ok d =>
  cases h4 : (vcell s.heap d).toMeV with
  | error e => rw [h1, h2, h3] at h; simp [h4] at h
  | ok dv =>
  cases h5 : selfIfNone (a.nld.map (vcell (s.heap.set d dv))) s.obj.nld with
  | error e => rw [h1, h2, h3] at h; simp [h4, h5] at h
  | ok nldIn =>
  cases h6 : selfIfNone a.pars s.obj.pars with
  | error e => rw [h1, h2, h3] at h; simp [h4, h5, h6] at h
  | ok pars =>
  cases h7 : check pars with
  | error e => rw [h1, h2, h3] at h; simp [h4, h5, h6, h7] at h
  | ok u =>
  cases h8 : selfIfNone a.bounds s.obj.bounds with
  | error e => rw [h1, h2, h3] at h; simp [h4, h5, h6, h7, h8] at h
  | ok bounds =>
  rw [h1, h2, h3] at h
  simp only [h4, h5, h6, h7, h8] at h
  obtain ⟨v, c, popt, k1, k2, k3, k4, k5, k6, k7, k8, k9, k10⟩ := fitAndSave_ok h
  dsimp only at k2 k3 k5 k6 k7 k8 k9 k10
  rw [k3]
  exact ⟨low, high, bounds, pars, d, dv, c, nldIn, v, popt, selfIfNone_ok.1 h1, selfIfNone_ok.1 h2,
    selfIfNone_ok.1 h8, selfIfNone_ok.1 h6, h7, selfIfNone_ok.1 h3, h4, rfl, k2, selfIfNone_ok.1 h5, k1, k5, k6, k8,
    k7, k4, k9, k10⟩

/-- **C66.** What is given neither as argument nor as attribute is refused with `ValueError`, and the
results stay as they were. -/
theorem C66_refuses (fit : NldFitIn P B → Except Err (NldPopt R)) (check : P → Except Err Unit)
    (s : NldState P B R) (a : NldCall P B) (hr : s.obj.regenerate = true)
    (h : given a.low s.obj.low = none ∨ given a.high s.obj.high = none ∨
      given a.discrete s.obj.discrete = none) :
    (s.normalize fit check a).2 = .error .valueError ∧
      (s.normalize fit check a).1.obj.res = s.obj.res ∧ (s.normalize fit check a).1.heap = s.heap := by
  unfold NldState.normalize
  rw [if_pos hr]
  unfold NldState.normalizeNew
  cases h1 : selfIfNone a.low s.obj.low with
  | error e => exact ⟨by rw [(selfIfNone_error.1 h1).2], rfl, rfl⟩
  | ok low =>
  cases h2 : selfIfNone a.high s.obj.high with
  | error e => exact ⟨by rw [(selfIfNone_error.1 h2).2], rfl, rfl⟩
  | ok high =>
  cases h3 : selfIfNone a.discrete s.obj.discrete with
  | error e => exact ⟨by rw [(selfIfNone_error.1 h3).2], rfl, rfl⟩
  | ok d =>
    rw [selfIfNone_ok.1 h1, selfIfNone_ok.1 h2, selfIfNone_ok.1 h3] at h
    simp at h

/-- **C66 fails.** A normaliser with the default `regenerate=False` and a saved file returns the saved
results, whatever it is asked to normalise; every attribute, `regenerate` included, becomes that of the
file. -/
theorem C66_saved_fails (fit : NldFitIn P B → Except Err (NldPopt R)) (check : P → Except Err Unit)
    (s : NldState P B R) (a : NldCall P B) (p : String) (f : NldFile P B R)
    (hr : s.obj.regenerate = false) (hp : s.obj.path = some p) (hf : s.disk p = some f) :
    (s.normalize fit check a).2 = .ok () ∧ (s.normalize fit check a).1.obj.res = f.obj.res ∧
      (s.normalize fit check a).1.obj.low = f.obj.low ∧
      (s.normalize fit check a).1.obj.regenerate = f.obj.regenerate ∧
      (s.normalize fit check a).1.disk = s.disk := by
  unfold NldState.normalize
  rw [if_neg (by simp [hr]), hp]
  simp only [hf]
  unfold NldState.restore
  cases f.discrete <;> simp

/-- **C66 fails.** Without a directory nothing can be normalised, neither with `regenerate=False` nor with
`regenerate=True` and saving switched on; in the second case the results are there. -/
theorem C66_no_path_fails (fit : NldFitIn P B → Except Err (NldPopt R)) (check : P → Except Err Unit)
    (s : NldState P B R) (a : NldCall P B) (hp : s.obj.path = none) :
    (s.obj.regenerate = false → s.normalize fit check a = (s, .error .typeError)) ∧
    (s.obj.regenerate = true → s.obj.saveInstance = true → (s.normalize fit check a).2 ≠ .ok ()) := by
  unfold NldState.normalize
  constructor
  · intro hr
    rw [if_neg (by simp [hr]), hp]
  · intro hr hs
    rw [if_pos hr]
    intro h
    unfold NldState.normalizeNew at h
    cases h1 : selfIfNone a.low s.obj.low with
    | error e => rw [h1] at h; simp at h
    | ok low =>
    cases h2 : selfIfNone a.high s.obj.high with
    | error e => rw [h1, h2] at h; simp at h
    | ok high =>
    cases h3 : selfIfNone a.discrete s.obj.discrete with
    | error e => rw [h1, h2, h3] at h; simp at h
    | ok d =>
    cases h4 : (vcell s.heap d).toMeV with
    | error e => rw [h1, h2, h3] at h; simp [h4] at h
    | ok dv =>
    cases h5 : selfIfNone (a.nld.map (vcell (s.heap.set d dv))) s.obj.nld with
    | error e => rw [h1, h2, h3] at h; simp [h4, h5] at h
    | ok nldIn =>
    cases h6 : selfIfNone a.pars s.obj.pars with
    | error e => rw [h1, h2, h3] at h; simp [h4, h5, h6] at h
    | ok pars =>
    cases h7 : check pars with
    | error e => rw [h1, h2, h3] at h; simp [h4, h5, h6, h7] at h
    | ok u =>
    cases h8 : selfIfNone a.bounds s.obj.bounds with
    | error e => rw [h1, h2, h3] at h; simp [h4, h5, h6, h7, h8] at h
    | ok bounds =>
    rw [h1, h2, h3] at h
    simp only [h4, h5, h6, h7, h8] at h
    unfold NldState.fitAndSave at h
    cases k1 : nldIn.toMeV with
    | error e => rw [k1] at h; simp at h
    | ok v =>
    cases k2 : s.obj.discrete with
    | none => rw [k1] at h; simp [k2] at h
    | some c =>
    rw [k1] at h
    simp only [k2] at h
    split at h
    · simp at h
    · unfold NldState.save at h
      simp [hs, hp] at h

/-! ### Concrete normalisations -/

/-- A level density in MeV. -/
noncomputable def nldW : Vec ℝ := ⟨[1, 2], [3, 5], some [1, 1], "MeV"⟩

/-- Known levels in MeV. -/
noncomputable def levW : Vec ℝ := ⟨[1, 2], [4, 6], none, "MeV"⟩

/-- Other known levels, in keV. -/
noncomputable def levK : Vec ℝ := ⟨[1000, 2000], [7, 9], none, "keV"⟩

/-- A fit that returns as A the first value of the known levels. -/
noncomputable def fitW (x : NldFitIn Unit Unit) : Except Err (NldPopt Unit) :=
  .ok ⟨x.discrete.values.headD 0, 0, ()⟩

/-- A normaliser with level density, limits and parameters set, and the known levels `c`. -/
noncomputable def objW (c : Option ℕ) (fake : Option Bool) : NldObj Unit Unit Unit where
  nld := some nldW
  discrete := c
  low := some (1, 2)
  high := some (1, 2)
  pars := some ()
  bounds := some ()
  stdFake := fake
  regenerate := true
  saveInstance := false
  path := none
  res := none

/-- The caller holds both sets of levels. -/
noncomputable def stW (c : Option ℕ) (fake : Option Bool) : NldState Unit Unit Unit :=
  ⟨[levW, levK], objW c fake, fun _ => none⟩

/-- A call with the known levels `d` as argument. -/
def callW (d : Option ℕ) : NldCall Unit Unit := ⟨none, none, none, d, none, none, 0⟩

theorem toMeV_nldW : nldW.toMeV = .ok nldW := by
  unfold Vec.toMeV; simp [nldW]
theorem toMeV_levW : levW.toMeV = .ok levW := by
  unfold Vec.toMeV; simp [levW]
theorem toMeV_levK : levK.toMeV = .ok ⟨[1, 2], [7, 9], none, "MeV"⟩ := by
  have h : ¬ levK.units = "MeV" := by unfold levK; decide
  unfold Vec.toMeV
  rw [if_neg h]
  norm_num [levK]

theorem std_nldW : nldW.std = some [1, 1] := rfl
theorem val_levW : levW.values = [4, 6] := rfl

/-- A run of the witness: with the attribute `discrete` set to the first vector. -/
theorem runW (fake : Option Bool) (hf : fake ≠ some true) :
    (stW (some 0) fake).normalize fitW (fun _ => .ok ()) (callW (some 1)) =
      (⟨[levW, ⟨[1, 2], [7, 9], none, "MeV"⟩],
        { objW (some 0) (some false) with
          res := some ⟨nldW.transformR 4 0, ⟨4, 0, ()⟩⟩ }, fun _ => none⟩, .ok ()) := by
  have hb : (fake == some true) = false := by
    cases fake with
    | none => rfl
    | some b => cases b <;> simp_all
  simp [NldState.normalize, NldState.normalizeNew, NldState.fitAndSave, NldState.save, stW, objW, callW,
    selfIfNone, vcell, toMeV_nldW, toMeV_levW, toMeV_levK, fitW, hb, std_nldW, val_levW, Vec.transformR]

/-- **C66 fails.** The argument `discrete` of `normalize` is not used by the fit: this call is given
the second vector, whose first value is 7, and the fit, which returns the first value of the known levels,
sees the 4 of the attribute. The vector the caller passed is converted to MeV in their hands. -/
theorem C66_discrete_fails :
    ((stW (some 0) none).normalize fitW (fun _ => .ok ()) (callW (some 1))).2 = .ok () ∧
    (((stW (some 0) none).normalize fitW (fun _ => .ok ()) (callW (some 1))).1.obj.res.map
      (·.popt.A)) = some 4 ∧ levK.values.headD 0 = 7 ∧
    vcell ((stW (some 0) none).normalize fitW (fun _ => .ok ()) (callW (some 1))).1.heap 1 ≠
      vcell (stW (some 0) none).heap 1 := by
  rw [runW none (by simp)]
  refine ⟨rfl, rfl, rfl, ?_⟩
  intro h
  have := congrArg Vec.units h
  exact absurd this (by simp only [vcell, stW, levK, List.getD_cons_succ, List.getD_cons_zero]; decide)

/-- **C66 fails.** With known levels only in the argument the fit does not run: `AttributeError`. -/
theorem C66_discrete_argument_fails (fit : NldFitIn P B → Except Err (NldPopt R))
    (check : P → Except Err Unit) (s : NldState P B R) (a : NldCall P B) (hr : s.obj.regenerate = true)
    (h : s.obj.discrete = none) : (s.normalize fit check a).2 ≠ .ok () := by
  intro h1
  obtain ⟨low, high, bounds, pars, d, dv, c, nldIn, v, popt, -, -, -, -, -, -, -, -, hc, -⟩ :=
    C66_result_partial fit check s _ a hr (Prod.ext rfl h1)
  rw [h] at hc
  cases hc

/-- **C66 fails.** Once standard deviations had to be made up for one level density, those of every
later one are thrown away. -/
theorem C66_std_fails (fit : NldFitIn P B → Except Err (NldPopt R)) (check : P → Except Err Unit)
    (s s' : NldState P B R) (a : NldCall P B) (hr : s.obj.regenerate = true)
    (hs : s.obj.stdFake = some true) (h : s.normalize fit check a = (s', .ok ())) :
    ∃ r, s'.obj.res = some r ∧ r.nld.std = none ∧ s'.obj.stdFake = some true := by
  obtain ⟨low, high, bounds, pars, d, dv, c, nldIn, v, popt, -, -, -, -, -, -, -, -, -, -, -, -, -, -, -,
    -, -, h2⟩ := C66_result_partial fit check s s' a hr h
  obtain ⟨-, h3, h4⟩ := h2 (Or.inl hs)
  exact ⟨_, h3, rfl, h4⟩

/-- The same call on the same level density: with its standard deviations when none were made up before,
without when they were. -/
example :
    ((stW (some 0) (some false)).normalize fitW (fun _ => .ok ()) (callW (some 1))).1.obj.res.map
      (fun r => r.nld.std.isSome) = some true ∧
    ((stW (some 0) (some true)).normalize fitW (fun _ => .ok ()) (callW (some 1))).1.obj.res.map
      (fun r => r.nld.std.isSome) = some false := by
  constructor
  · rw [runW _ (by simp)]
    rfl
  · simp [NldState.normalize, NldState.normalizeNew, NldState.fitAndSave, NldState.save, stW, objW, callW,
      selfIfNone, vcell, toMeV_nldW, toMeV_levW, toMeV_levK, fitW]

/-- The hypotheses of `C66_result_partial` are met. -/
example : ∃ s', (stW (some 0) none).obj.regenerate = true ∧
    (stW (some 0) none).normalize fitW (fun _ => .ok ()) (callW (some 1)) = (s', .ok ()) :=
  ⟨_, rfl, runW none (by simp)⟩

/-- The hypotheses of `C66_refuses`: no known levels at all. -/
example : given (callW none).discrete (stW none none).obj.discrete = none := rfl

/-- The hypotheses of `C66_saved_fails`: a file written by an earlier normalisation. -/
example : ∃ (s : NldState Unit Unit Unit) (p : String) (f : NldFile Unit Unit Unit),
    s.obj.regenerate = false ∧ s.obj.path = some p ∧ s.disk p = some f ∧
    f.obj.low = some (5, 6) ∧ s.obj.low = some (1, 2) :=
  ⟨⟨[], { objW none none with regenerate := false, path := some "d" },
    fun q => if q = "d" then some ⟨{ objW none none with low := some (5, 6) }, none⟩ else none⟩, "d",
    ⟨{ objW none none with low := some (5, 6) }, none⟩, rfl, rfl, by simp, rfl, rfl⟩

/-! ## C67: the known levels -/

/-- The known levels a history of assignments should leave: those of the last assignment, a file being
read with the resolution in force. -/
def lastLevels {F : Type} (load : F → ℚ → Except Err (Vec ℚ)) :
    Option (Vec ℚ ⊕ F) → ℚ → Option (Vec ℚ)
  | none, _ => none
  | some (.inl v), _ => some v
  | some (.inr p), r =>
    match load p r with
    | .ok v => some { v with units := "MeV" }
    | .error _ => none

/-- The last source assigned. -/
def lastSource {F : Type} (src : Option (Vec ℚ ⊕ F)) : LevelsOp F → Option (Vec ℚ ⊕ F)
  | .vec v => some (.inl v)
  | .file p => some (.inr p)
  | .clear => none
  | .fwhm _ => src

/-- The last resolution assigned. -/
def lastFwhm {F : Type} (r : ℚ) : LevelsOp F → ℚ
  | .fwhm r' => r'
  | _ => r

/-- An assignment that succeeds for levels on the energies `E`, is not `None`, and sets the levels either
always to a vector or always to a file. -/
def LevelsOp.Fine {F : Type} (load : F → ℚ → Except Err (Vec ℚ)) (E : List ℚ) (files : Bool) :
    LevelsOp F → Prop
  | .vec v => v.E = E ∧ files = false
  | .file p => (∀ r, ∃ v, load p r = .ok v) ∧ files = true
  | .clear => False
  | .fwhm _ => True

/-- The state agrees with the last assignments. -/
def Levels.Agrees {F : Type} (load : F → ℚ → Except Err (Vec ℚ)) (files : Bool)
    (s : Levels F) (src : Option (Vec ℚ ⊕ F)) (r : ℚ) : Prop :=
  s.discrete = lastLevels load src r ∧ s.fwhm = r ∧
  match src with
  | none => s.path = none
  | some (.inl _) => s.path = none ∧ files = false
  | some (.inr p) => s.path = some p ∧ files = true ∧ ∀ r, ∃ v, load p r = .ok v

theorem step_agrees {F : Type} (load : F → ℚ → Except Err (Vec ℚ)) (E : List ℚ) (files : Bool)
    (s : Levels F) (src : Option (Vec ℚ ⊕ F)) (r : ℚ) (op : LevelsOp F) (hf : op.Fine load E files)
    (h : s.Agrees load files src r) :
    (s.step load E op).1.Agrees load files (lastSource src op) (lastFwhm r op) := by
  obtain ⟨sd, sp, sf⟩ := s
  obtain ⟨h1, h2, h3⟩ := h
  dsimp only at h1 h2 h3
  cases op with
  | clear => exact absurd hf id
  | vec v =>
    obtain ⟨e1, e2⟩ := hf
    unfold Levels.step
    dsimp only
    rw [if_pos e1]
    refine ⟨rfl, h2, ?_⟩
    simp only [lastSource]
    refine ⟨?_, e2⟩
    cases src with
    | none => exact h3
    | some x =>
      cases x with
      | inl w => exact h3.1
      | inr p => exact absurd h3.2.1 (by simp [e2])
  | file p =>
    obtain ⟨e1, e2⟩ := hf
    obtain ⟨v, hv⟩ := e1 sf
    unfold Levels.step Levels.setFile
    dsimp only
    rw [hv]
    refine ⟨?_, h2, ?_⟩
    · simp only [lastSource, lastFwhm, lastLevels]
      rw [← h2, hv]
    · exact ⟨rfl, e2, e1⟩
  | fwhm r' =>
    cases src with
    | none =>
      dsimp only at h3
      subst h3
      exact ⟨h1, rfl, rfl⟩
    | some x =>
      cases x with
      | inl w =>
        obtain ⟨p1, p2⟩ := h3
        subst p1
        exact ⟨h1, rfl, rfl, p2⟩
      | inr p =>
        obtain ⟨p1, p2, p3⟩ := h3
        subst p1
        obtain ⟨v, hv⟩ := p3 r'
        unfold Levels.step Levels.setFile
        dsimp only
        rw [hv]
        refine ⟨?_, rfl, rfl, p2, p3⟩
        simp only [lastSource, lastFwhm, lastLevels]
        rw [hv]

/-- **C67** (what holds). After any history of assignments without `None`, all of vectors on the energies
of the level density or all of files that can be read, in any order with changes of the resolution,
the known levels are those of the last assignment, a file being read with the last resolution.
Missing: `None` (`C67_none_fails`) and vectors after files (`C67_vector_fails`). -/
theorem C67_history_partial {F : Type} (load : F → ℚ → Except Err (Vec ℚ)) (E : List ℚ) (files : Bool)
    (r : ℚ) (ops : List (LevelsOp F)) (hf : ∀ op ∈ ops, op.Fine load E files) :
    (Levels.run load E ⟨none, none, r⟩ ops).discrete =
      lastLevels load (ops.foldl lastSource none) (ops.foldl lastFwhm r) := by
  have key : ∀ (ops : List (LevelsOp F)) (s : Levels F) (src : Option (Vec ℚ ⊕ F)) (r : ℚ),
      (∀ op ∈ ops, op.Fine load E files) → s.Agrees load files src r →
      (Levels.run load E s ops).Agrees load files (ops.foldl lastSource src) (ops.foldl lastFwhm r) := by
    intro ops
    induction ops with
    | nil => intro s src r _ h; exact h
    | cons op t ih =>
      intro s src r hf h
      exact ih _ _ _ (fun o ho => hf o (List.mem_cons_of_mem _ ho))
        (step_agrees load E files s src r op (hf op List.mem_cons_self) h)
  exact (key ops ⟨none, none, r⟩ none r hf ⟨rfl, rfl, rfl⟩).1

/-- **C67.** A vector on other energies is refused, and so is a file that cannot be read; nothing
changes. -/
theorem C67_refuses {F : Type} (load : F → ℚ → Except Err (Vec ℚ)) (E : List ℚ) (s : Levels F) :
    (∀ v : Vec ℚ, v.E ≠ E → s.step load E (.vec v) = (s, .error .valueError)) ∧
    (∀ p e, load p s.fwhm = .error e → s.step load E (.file p) = (s, .error e)) := by
  constructor
  · intro v hv
    unfold Levels.step
    dsimp only
    rw [if_neg hv]
  · intro p e he
    unfold Levels.step Levels.setFile
    dsimp only
    rw [he]

/-- **C67 fails.** Assigning `None` keeps the known levels, in every state. -/
theorem C67_none_fails {F : Type} (load : F → ℚ → Except Err (Vec ℚ)) (E : List ℚ) (s : Levels F) :
    s.step load E .clear = (s, .ok ()) := rfl

/-- **C67 fails.** A vector assigned after a file is replaced by the file when the resolution is set. -/
theorem C67_vector_fails {F : Type} (load : F → ℚ → Except Err (Vec ℚ)) (p : F) (v w u : Vec ℚ) (r r' : ℚ)
    (h1 : load p r = .ok w) (h2 : load p r' = .ok u) :
    (Levels.run load v.E ⟨none, none, r⟩ [.file p, .vec v]).discrete = some v ∧
    (Levels.run load v.E ⟨none, none, r⟩ [.file p, .vec v, .fwhm r']).discrete =
      some { u with units := "MeV" } := by
  constructor <;> simp [Levels.run, Levels.step, Levels.setFile, h1, h2]

/-- A file whose single value is the resolution. -/
def loadW (_ : Unit) (r : ℚ) : Except Err (Vec ℚ) := .ok ⟨[1], [r], none, "keV"⟩

/-- A history of files and resolutions. -/
example : (∀ op ∈ [LevelsOp.file (), .fwhm 3, .file (), .fwhm 5], op.Fine loadW [1] true) ∧
    (Levels.run loadW [1] ⟨none, none, 2⟩ [.file (), .fwhm 3, .file (), .fwhm 5]).discrete =
      some ⟨[1], [5], none, "MeV"⟩ := by
  refine ⟨?_, rfl⟩
  intro op h
  simp only [List.mem_cons, List.not_mem_nil, or_false] at h
  rcases h with h | h | h | h <;> subst h
  · exact ⟨fun r => ⟨_, rfl⟩, rfl⟩
  · trivial
  · exact ⟨fun r => ⟨_, rfl⟩, rfl⟩
  · trivial

/-- The value 7 assigned last becomes the 5 of the file. -/
example :
    (Levels.run loadW [1] ⟨none, none, 2⟩ [.file (), .vec ⟨[1], [7], none, "MeV"⟩, .fwhm 5]).discrete =
      some ⟨[1], [5], none, "MeV"⟩ := rfl

end Ompy
