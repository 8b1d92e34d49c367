import Verif.EnsNorm
import Verif.NldNormProps
import Verif.GsfObjProps

/-!
# Properties of the normalisation of an ensemble

C71.
-/

namespace Ompy

variable {P B R : Type}

/-! ## The level density normaliser from member to member -/

/-- Two states of the level density normaliser that treat level densities with standard deviations alike. -/
structure NSame (s s' : NldState P B R) : Prop where
  low : s.obj.low = s'.obj.low
  high : s.obj.high = s'.obj.high
  disc : s.obj.discrete = s'.obj.discrete
  pars : s.obj.pars = s'.obj.pars
  bounds : s.obj.bounds = s'.obj.bounds
  len : s.heap.length = s'.heap.length
  levels : ∀ d, s.obj.discrete = some d → (vcell s.heap d).toMeV = (vcell s'.heap d).toMeV
  valid : ∀ d, s.obj.discrete = some d → d < s.heap.length
  fake : s.obj.stdFake ≠ some true
  fake' : s'.obj.stdFake ≠ some true

theorem vcell_append {h : List (Vec ℝ)} {d : ℕ} (hd : d < h.length) (v : Vec ℝ) :
    vcell (h ++ [v]) d = vcell h d := by
  unfold vcell
  rw [List.getD_append _ _ _ _ hd]

theorem vcell_last {h : List (Vec ℝ)} {d : ℕ} (hd : d < h.length) (v w : Vec ℝ) :
    vcell ((h ++ [v]).set d w) h.length = v := by
  unfold vcell
  rw [List.getD_eq_getElem?_getD, List.getElem?_set_ne (by omega)]
  simp

theorem vcell_set {h : List (Vec ℝ)} {d : ℕ} (hd : d < h.length) (w : Vec ℝ) :
    vcell (h.set d w) d = w := by
  unfold vcell
  rw [List.getD_eq_getElem?_getD, List.getElem?_set_self hd]
  rfl

theorem toMeV_std {v w : Vec ℝ} (h : v.toMeV = .ok w) (hs : v.std ≠ none) : w.std.isNone = false := by
  have : w.std = v.std := by
    unfold Vec.toMeV at h
    split at h
    · injection h with h; rw [h]
    · split at h
      · injection h with h; rw [← h]
      · simp at h
  rw [this]
  cases hv : v.std with
  | none => exact absurd hv hs
  | some x => rfl

/-- The call on a state of which the attributes are known. -/
theorem nldCall_same (e : EnsEnv P B R) (s s' : NldState P B R) (v : Vec ℝ) (num : ℕ) (h : NSame s s')
    (hv : v.std ≠ none) :
    (nldCall e s v num).2 = (nldCall e s' v num).2 ∧
    ((nldCall e s v num).2 = .ok () →
      (nldCall e s v num).1.obj.res = (nldCall e s' v num).1.obj.res ∧ NSame (nldCall e s v num).1 s') := by
  obtain ⟨heap, ⟨nld, disc, low, high, pars, bounds, sf, rg, si, path, res⟩, disk⟩ := s
  obtain ⟨heap', ⟨nld', disc', low', high', pars', bounds', sf', rg', si', path', res'⟩, disk'⟩ := s'
  obtain ⟨q1, q2, q3, q4, q5, q6, q7, q8, q9, q10⟩ := h
  dsimp only at q1 q2 q3 q4 q5 q6 q7 q8 q9 q10
  subst q1 q2 q3 q4 q5
  have hb : (sf == some true) = false := by
    cases sf with
    | none => rfl
    | some b => cases b <;> simp_all
  have hb' : (sf' == some true) = false := by
    cases sf' with
    | none => rfl
    | some b => cases b <;> simp_all
  unfold nldCall NldState.normalize
  simp only [if_true]
  unfold NldState.normalizeNew
  simp only [Option.map_some]
  cases low with
  | none => exact ⟨rfl, by simp [selfIfNone]⟩
  | some low =>
  cases high with
  | none => exact ⟨rfl, by simp [selfIfNone]⟩
  | some high =>
  cases disc with
  | none => exact ⟨rfl, by simp [selfIfNone]⟩
  | some d =>
  have hd := q8 d rfl
  have hd' : d < heap'.length := q6 ▸ hd
  have hl := q7 d rfl
  simp only [selfIfNone]
  rw [vcell_append hd, vcell_append hd', ← hl]
  cases hdv : (vcell heap d).toMeV with
  | error x => exact ⟨rfl, by simp⟩
  | ok dv =>
  dsimp only
  rw [vcell_last hd, vcell_last hd']
  cases pars with
  | none => exact ⟨rfl, by simp⟩
  | some pars =>
  dsimp only
  cases e.checkNld pars with
  | error x => exact ⟨rfl, by simp⟩
  | ok u =>
  dsimp only
  cases bounds with
  | none => exact ⟨rfl, by simp⟩
  | some bounds =>
  dsimp only
  unfold NldState.fitAndSave
  cases hw : v.toMeV with
  | error x => exact ⟨rfl, by simp⟩
  | ok w =>
  dsimp only
  rw [hb, hb', toMeV_std hw hv]
  simp only [Bool.or_self, Bool.false_eq_true, if_false]
  have e1 : vcell ((heap ++ [v]).set d dv) d = dv := vcell_set (by simp; omega) _
  have e2 : vcell ((heap' ++ [v]).set d dv) d = dv := vcell_set (by simp; omega) _
  rw [e1, e2]
  cases hf : e.fitNld ⟨w, dv, low, high, bounds, pars, num⟩ with
  | error x => exact ⟨rfl, by simp⟩
  | ok popt =>
  dsimp only
  unfold NldState.save
  simp only [Bool.false_eq_true, if_false]
  refine ⟨trivial, fun _ => ⟨trivial, ?_⟩⟩
  refine ⟨rfl, rfl, rfl, rfl, rfl, ?_, ?_, ?_, by simp, q10⟩
  · simp [q6]
  · intro d' hd2
    simp only [Option.some.injEq] at hd2
    subst hd2
    rw [← hl, hdv]
    have : vcell (((heap ++ [v]).set d dv).take heap.length) d = dv := by
      unfold vcell
      rw [List.getD_eq_getElem?_getD, List.getElem?_take_of_lt hd, List.getElem?_set_self (by simp; omega)]
      rfl
    rw [this]
    exact toMeV_again hdv
  · intro d' hd2
    simp only [Option.some.injEq] at hd2
    subst hd2
    simp [hd]

/-! ## The strength function normaliser from member to member -/

/-- Two models that give the same extrapolation of data that begin at `e0`, apart from what a fit sets. -/
def MSame (e0 : ℚ) (fitted : Bool) (m m' : ExtModel) : Prop :=
  m.high = m'.high ∧ m.Emin.getD 0 = m'.Emin.getD 0 ∧
  m.Emax.getD (if m.high then 20 else e0) = m'.Emax.getD (if m.high then 20 else e0) ∧
  m.steps = m'.steps ∧ m.fitted = m'.fitted ∧ (fitted = false → m.scale = m'.scale ∧ m.shift = m'.shift)

/-- Two states of the strength function normaliser that treat data that begin at `e0` alike. -/
structure GSame (e0 : ℚ) (o o' : GsfObj (NldPopt R)) : Prop where
  alpha : o.alpha = o'.alpha
  pars : o.pars = o'.pars
  low : MSame e0 o'.low.fitted o.low o'.low
  high : MSame e0 o'.low.fitted o.high o'.high

/-- The same model with another shift for the normalised strength function. -/
def ExtModel.reShift (m : ExtModel) (x : Option ℝ) : ExtModel := { m with shiftAfter := x }

theorem autorange_same {e0 : ℚ} {m m' : ExtModel} (h : MSame e0 false m m') :
    m.autorange e0 = (m'.autorange e0).reShift m.shiftAfter := by
  obtain ⟨hi, sc, sh, sa, mn, mx, st, fi⟩ := m
  obtain ⟨hi', sc', sh', sa', mn', mx', st', fi'⟩ := m'
  obtain ⟨q1, q2, q3, q4, q5, q6⟩ := h
  obtain ⟨q7, q8⟩ := q6 rfl
  clear q6
  dsimp only at q1 q2 q3 q4 q5 q7 q8
  subst q1 q4 q5 q7 q8
  unfold ExtModel.autorange ExtModel.reShift
  dsimp only
  rw [q2, q3]

theorem autorange_set {e0 : ℚ} {b : Bool} {m m' : ExtModel} (h : MSame e0 b m m') (x y : ℝ) :
    { m.autorange e0 with scale := x, shift := y } =
      ExtModel.reShift { m'.autorange e0 with scale := x, shift := y } m.shiftAfter := by
  obtain ⟨hi, sc, sh, sa, mn, mx, st, fi⟩ := m
  obtain ⟨hi', sc', sh', sa', mn', mx', st', fi'⟩ := m'
  obtain ⟨q1, q2, q3, q4, q5, q6⟩ := h
  dsimp only at q1 q2 q3 q4 q5
  subst q1 q4 q5
  unfold ExtModel.autorange ExtModel.reShift
  dsimp only
  rw [q2, q3]

theorem fitModels_same {fit : Vec ℝ → ExtModel → Except Err (ℝ × ℝ)}
    (hfit : ∀ v m m', m.high = m'.high → fit v m = fit v m') {e0 : ℚ} {low low' high high' : ExtModel}
    (hl : MSame e0 low'.fitted low low') (hh : MSame e0 low'.fitted high high') (g : Vec ℝ) :
    fitModels fit (low.autorange e0) (high.autorange e0) g =
      (fitModels fit (low'.autorange e0) (high'.autorange e0) g).map
        fun q => (q.1.reShift low.shiftAfter, q.2.reShift high.shiftAfter) := by
  unfold fitModels
  have hf : (low.autorange e0).fitted = low'.fitted := hl.2.2.2.2.1
  have hf' : (low'.autorange e0).fitted = low'.fitted := rfl
  cases hb : low'.fitted with
  | true =>
    rw [if_pos (hf.trans hb), if_pos (hf'.trans hb)]
    rw [hfit g (low.autorange e0) (low'.autorange e0) hl.1, hfit g (high.autorange e0) (high'.autorange e0) hh.1]
    cases fit g (low'.autorange e0) with
    | error x => rfl
    | ok a =>
    cases fit g (high'.autorange e0) with
    | error x => rfl
    | ok b =>
      have e1 := autorange_set hl a.1 a.2
      have e2 := autorange_set hh b.1 b.2
      exact congrArg₂ (fun x y => (Except.ok (x, y) : Except Err (ExtModel × ExtModel))) e1 e2
  | false =>
    rw [hb] at hl hh
    rw [if_neg (by rw [hf, hb]; simp), if_neg (by rw [hf', hb]; simp)]
    rw [autorange_same hl, autorange_same hh]
    rfl

theorem gsfNormalize_same {p : GgPars} {low high low' high' : ExtModel}
    {fit : Vec ℝ → ExtModel → Except Err (ℝ × ℝ)} (hfit : ∀ v m m', m.high = m'.high → fit v m = fit v m')
    {alpha : ℝ} {nld : Curve} {model S : ℚ → Except Err ℝ} {g v : Vec ℝ} {e0 : ℚ} (hv : g.toMeV = .ok v)
    (he : v.E.head? = some e0) (hl : MSame e0 low'.fitted low low') (hh : MSame e0 low'.fitted high high') :
    gsfNormalize p low high fit alpha nld model S g = gsfNormalize p low' high' fit alpha nld model S g := by
  unfold gsfNormalize
  rw [hv]
  have he' : (oslo v 1 alpha).E.head? = some e0 := he
  simp only [bind, Except.bind]
  rw [he']
  dsimp only
  rw [fitModels_same hfit hl hh]
  cases fitModels fit (low'.autorange e0) (high'.autorange e0) (oslo v 1 alpha) with
  | error x => rfl
  | ok q => rfl

theorem fitModels_model {fit : Vec ℝ → ExtModel → Except Err (ℝ × ℝ)} {l h l' h' : ExtModel} {g : Vec ℝ}
    (hf : fitModels fit l h g = .ok (l', h')) :
    (l'.high = l.high ∧ l'.Emin = l.Emin ∧ l'.Emax = l.Emax ∧ l'.steps = l.steps ∧ l'.fitted = l.fitted ∧
      (l.fitted = false → l'.scale = l.scale ∧ l'.shift = l.shift)) ∧
    (h'.high = h.high ∧ h'.Emin = h.Emin ∧ h'.Emax = h.Emax ∧ h'.steps = h.steps ∧ h'.fitted = h.fitted ∧
      (l.fitted = false → h'.scale = h.scale ∧ h'.shift = h.shift)) := by
  unfold fitModels at hf
  split at hf
  · rename_i hb
    cases h1 : fit g l with
    | error x => rw [h1] at hf; simp [bind, Except.bind] at hf
    | ok a =>
    cases h2 : fit g h with
    | error x => rw [h1, h2] at hf; simp [bind, Except.bind] at hf
    | ok b =>
      rw [h1, h2] at hf
      simp only [bind, Except.bind, pure, Except.pure, Except.ok.injEq, Prod.mk.injEq] at hf
      obtain ⟨q1, q2⟩ := hf
      subst q1 q2
      simp [hb]
  · simp only [pure, Except.pure, Except.ok.injEq, Prod.mk.injEq] at hf
    obtain ⟨q1, q2⟩ := hf
    subst q1 q2
    simp

theorem gsfNormalize_models {p : GgPars} {low high low' high' : ExtModel}
    {fit : Vec ℝ → ExtModel → Except Err (ℝ × ℝ)}
    {alpha : ℝ} {nld : Curve} {model S : ℚ → Except Err ℝ} {g v : Vec ℝ} {e0 : ℚ} (hv : g.toMeV = .ok v)
    (he : v.E.head? = some e0) (hl : MSame e0 low'.fitted low low') (hh : MSame e0 low'.fitted high high')
    {r : GsfResult} (hr : gsfNormalize p low high fit alpha nld model S g = .ok r) :
    MSame e0 low'.fitted r.norm.low low' ∧ MSame e0 low'.fitted r.norm.high high' := by
  unfold gsfNormalize at hr
  rw [hv] at hr
  have he' : (oslo v 1 alpha).E.head? = some e0 := he
  simp only [bind, Except.bind] at hr
  rw [he'] at hr
  dsimp only at hr
  cases hf : fitModels fit (low.autorange e0) (high.autorange e0) (oslo v 1 alpha) with
  | error x => rw [hf] at hr; simp at hr
  | ok q =>
  obtain ⟨l, h⟩ := q
  rw [hf] at hr
  dsimp only at hr
  cases h1 : l.extrapolate false with
  | error x => rw [h1] at hr; simp at hr
  | ok cl =>
  rw [h1] at hr
  dsimp only at hr
  cases h2 : h.extrapolate false with
  | error x => rw [h2] at hr; simp at hr
  | ok ch =>
  rw [h2] at hr
  dsimp only at hr
  cases hG : ggStandard p (oslo v 1 alpha).curve cl ch nld model S with
  | error x => rw [hG] at hr; simp at hr
  | ok G =>
  rw [hG] at hr
  dsimp only at hr
  by_cases h0 : G = 0 ∨ p.D0.1 = 0
  · rw [if_pos h0] at hr; simp at hr
  · rw [if_neg h0] at hr
    unfold ExtModel.normToShiftAfter at hr
    by_cases hB : 0 < p.Gg / G
    · rw [if_pos hB, if_pos hB] at hr
      dsimp only at hr
      injection hr with hr
      subst hr
      obtain ⟨⟨a1, a2, a3, a4, a5, a6⟩, ⟨b1, b2, b3, b4, b5, b6⟩⟩ := fitModels_model hf
      obtain ⟨c1, c2, c3, c4, c5, c6⟩ := hl
      obtain ⟨d1, d2, d3, d4, d5, d6⟩ := hh
      refine ⟨⟨a1.trans c1, ?_, ?_, a4.trans c4, a5.trans c5, fun hb => ?_⟩,
        ⟨b1.trans d1, ?_, ?_, b4.trans d4, b5.trans d5, fun hb => ?_⟩⟩
      · show l.Emin.getD 0 = _
        rw [a2]
        exact c2
      · show l.Emax.getD (if l.high then 20 else e0) = low'.Emax.getD (if l.high then 20 else e0)
        rw [a3, a1]
        exact c3
      · obtain ⟨x, y⟩ := a6 (c5.trans hb)
        obtain ⟨z, w⟩ := c6 hb
        exact ⟨x.trans z, y.trans w⟩
      · show h.Emin.getD 0 = _
        rw [b2]
        exact d2
      · show h.Emax.getD (if h.high then 20 else e0) = high'.Emax.getD (if h.high then 20 else e0)
        rw [b3, b1]
        exact d3
      · obtain ⟨x, y⟩ := b6 (c5.trans hb)
        obtain ⟨z, w⟩ := d6 hb
        exact ⟨x.trans z, y.trans w⟩
    · rw [if_neg hB] at hr
      simp at hr

theorem run_same (e : EnsEnv P B R) (hfit : ∀ v m m', m.high = m'.high → e.fitGsf v m = e.fitGsf v m')
    (o o' : GsfObj (NldPopt R)) (n : NldOut (NldPopt R)) (gsf : Vec ℝ) (e0 : ℚ) (h : GSame e0 o o')
    (he : ∀ v, gsf.toMeV = .ok v → v.E.head? = some e0) (alpha : ℝ) (a : GsfCall (NldPopt R)) (ha : a.gsf = some 0)
    (x y : GsfState (NldPopt R) × Except Err Unit)
    (hx : x = GsfState.run e.fitGsf e.spin ⟨[gsf], o⟩ a gsf (some (some n)) o'.pars alpha n.nld n.model)
    (hy : y = GsfState.run e.fitGsf e.spin ⟨[gsf], o'⟩ a gsf (some (some n)) o'.pars alpha n.nld n.model) :
    x.2 = y.2 ∧ (x.2 = .ok () → x.1.obj.res = y.1.obj.res ∧ GSame e0 x.1.obj o') := by
  obtain ⟨q1, q2, q3, q4⟩ := h
  unfold GsfState.run at hx hy
  cases hv : gsf.toMeV with
  | error z =>
    rw [hv] at hx hy
    subst hx hy
    exact ⟨rfl, by simp⟩
  | ok v =>
  rw [hv] at hx hy
  dsimp only at hx hy
  have hs := gsfNormalize_same (p := o'.pars) hfit (alpha := alpha) (nld := n.nld.curve)
    (model := n.model) (S := e.spin o'.pars) hv (he v hv) q3 q4
  rw [hs] at hx
  cases hr : gsfNormalize o'.pars o'.low o'.high e.fitGsf alpha n.nld.curve n.model (e.spin o'.pars) gsf with
  | error z =>
    rw [hr] at hx hy
    subst hx hy
    exact ⟨rfl, by simp⟩
  | ok r =>
    rw [hr] at hx hy hs
    obtain ⟨m1, m2⟩ := gsfNormalize_models hv (he v hv) q3 q4 hs
    unfold GsfState.convert at hx hy
    rw [ha] at hx hy
    subst hx hy
    exact ⟨rfl, fun _ => ⟨rfl, ⟨q1, q2, m1, m2⟩⟩⟩

theorem gsfCall_same (e : EnsEnv P B R) (hfit : ∀ v m m', m.high = m'.high → e.fitGsf v m = e.fitGsf v m')
    (o o' : GsfObj (NldPopt R)) (n : Option (NldRes R)) (gsf : Vec ℝ) (e0 : ℚ) (h : GSame e0 o o')
    (he : ∀ v, gsf.toMeV = .ok v → v.E.head? = some e0) :
    (gsfCall e o n gsf).2.2 = (gsfCall e o' n gsf).2.2 ∧
    ((gsfCall e o n gsf).2.2 = .ok () →
      (gsfCall e o n gsf).1.res = (gsfCall e o' n gsf).1.res ∧ GSame e0 (gsfCall e o n gsf).1 o') := by
  obtain ⟨gi, gn, gz, gm, ga, gp, gl, gh, gr⟩ := o
  obtain ⟨gi', gn', gz', gm', ga', gp', gl', gh', gr'⟩ := o'
  obtain ⟨q1, q2, q3, q4⟩ := h
  dsimp only at q1 q2 q3 q4
  subst q1 q2
  unfold gsfCall GsfState.normalize GsfState.source
  simp only [List.getElem?_cons_zero, Option.orElse, Option.getD_none]
  cases n with
  | none => exact ⟨rfl, by simp [orFrom, nldOutOf, Except.map]⟩
  | some n =>
  simp only [orFrom, nldOutOf, Option.map_some, Except.map]
  have key := fun alpha : ℝ => run_same e hfit
    ⟨gi, some (nldOut e n).nld, gz, some (nldOut e n).model, ga, gp, gl, gh, gr⟩
    ⟨gi', some (nldOut e n).nld, gz', some (nldOut e n).model, ga, gp, gl', gh', gr'⟩ (nldOut e n) gsf e0
    ⟨rfl, rfl, q3, q4⟩ he alpha ⟨some 0, some (some (nldOut e n)), none, none, none, none⟩ rfl _ _ rfl rfl
  have fin : ∀ alpha : ℝ, _ := fun alpha => (⟨(key alpha).1, fun hk =>
    ⟨((key alpha).2 hk).1, ⟨((key alpha).2 hk).2.alpha, ((key alpha).2 hk).2.pars, ((key alpha).2 hk).2.low,
      ((key alpha).2 hk).2.high⟩⟩⟩ : _ ∧ (_ → _ ∧ GSame e0 _ ⟨gi', gn', gz', gm', ga, gp, gl', gh', gr'⟩))
  cases ga with
  | some alpha =>
    dsimp only
    cases e.checkGsf gp with
    | error x => exact ⟨rfl, by simp⟩
    | ok u => exact fin alpha
  | none =>
    dsimp only
    cases e.checkGsf gp with
    | error x => exact ⟨rfl, by simp⟩
    | ok u => exact fin _

/-! ## The ensemble -/

/-- The strength functions of all members have the energies `E` (in MeV, without the points that are not
numbers), and the level densities have standard deviations. -/
def Regular (E : List ℚ) (l : List (RawVec × RawVec)) : Prop :=
  ∀ v ∈ l, v.1.std ≠ none ∧ ∀ w, v.2.cutNan.toVec.toMeV = .ok w → w.E = E

/-- The step with two states that treat the members alike. -/
theorem ensStep_same (e : EnsEnv P B R) (hfit : ∀ v m m', m.high = m'.high → e.fitGsf v m = e.fitGsf v m')
    (s s' : EnsState P B R) (num : ℕ) (v : RawVec × RawVec) (e0 : ℚ) (hn : NSame s.nld s'.nld)
    (hg : GSame e0 s.gsf s'.gsf) (h1 : v.1.std ≠ none)
    (h2 : ∀ w, v.2.cutNan.toVec.toMeV = .ok w → w.E.head? = some e0) :
    (ensStep e s num v).2.2 = (ensStep e s' num v).2.2 ∧
    ∀ r, (ensStep e s num v).2.2 = .ok r →
      NSame (ensStep e s num v).1.nld s'.nld ∧ GSame e0 (ensStep e s num v).1.gsf s'.gsf := by
  have hstd : v.1.cutNan.toVec.std ≠ none := by
    unfold RawVec.cutNan RawVec.toVec
    simpa using h1
  obtain ⟨a1, a2⟩ := nldCall_same e s.nld s'.nld v.1.cutNan.toVec num hn hstd
  unfold ensStep
  dsimp only
  rcases hx : nldCall e s.nld v.1.cutNan.toVec num with ⟨t, rt⟩
  rcases hy : nldCall e s'.nld v.1.cutNan.toVec num with ⟨t', rt'⟩
  rw [hx, hy] at a1 a2
  dsimp only at a1 a2
  subst a1
  cases rt with
  | error x => exact ⟨rfl, by simp⟩
  | ok u =>
  obtain ⟨a3, a4⟩ := a2 rfl
  dsimp only
  obtain ⟨b1, b2⟩ := gsfCall_same e hfit s.gsf s'.gsf t.obj.res v.2.cutNan.toVec e0 hg h2
  rw [← a3]
  rcases hz : gsfCall e s.gsf t.obj.res v.2.cutNan.toVec with ⟨o, w, ro⟩
  rcases hw : gsfCall e s'.gsf t.obj.res v.2.cutNan.toVec with ⟨o', w', ro'⟩
  rw [hz, hw] at b1 b2
  dsimp only at b1 b2
  subst b1
  cases ro with
  | error x => exact ⟨rfl, by simp⟩
  | ok u =>
    obtain ⟨b3, b4⟩ := b2 rfl
    dsimp only
    rw [b3]
    exact ⟨rfl, fun _ _ => ⟨a4, b4⟩⟩

theorem ensSerial_same (e : EnsEnv P B R) (hfit : ∀ v m m', m.high = m'.high → e.fitGsf v m = e.fitGsf v m')
    (s' : EnsState P B R) (e0 : ℚ) (l : List (RawVec × RawVec)) :
    ∀ (s : EnsState P B R) (k : ℕ), NSame s.nld s'.nld → GSame e0 s.gsf s'.gsf →
      (∀ v ∈ l, v.1.std ≠ none ∧ ∀ w, v.2.cutNan.toVec.toMeV = .ok w → w.E.head? = some e0) →
      (ensSerial e s k l).2.2 = (l.zipIdx k).mapM fun p => (ensStep e s' p.2 p.1).2.2 := by
  induction l with
  | nil => intro s k _ _ _; rfl
  | cons v l ih =>
    intro s k hn hg h
    obtain ⟨a1, a2⟩ := ensStep_same e hfit s s' k v e0 hn hg (h v (by simp)).1 (h v (by simp)).2
    rw [List.zipIdx_cons, List.mapM_cons]
    dsimp only
    rw [← a1]
    unfold ensSerial
    rcases hx : ensStep e s k v with ⟨t, w, r⟩
    rw [hx] at a2
    cases r with
    | error x => rfl
    | ok r =>
      obtain ⟨b1, b2⟩ := a2 r rfl
      have := ih t (k + 1) b1 b2 (fun v hv => h v (by simp [hv]))
      dsimp only
      rw [← this]
      rcases ensSerial e t (k + 1) l with ⟨t2, w2, r2⟩
      cases r2 <;> rfl

/-- What `step` does with one member, from a state `s`: the parameters of the level density are fitted to that
member's level density, and its strength function is normalised with them. -/
def Belongs (e : EnsEnv P B R) (s : EnsState P B R) (num : ℕ) (v : RawVec × RawVec)
    (r : GsfOut (NldPopt R)) : Prop :=
  ∃ (nld gsf dv : Vec ℝ) (low high : ℚ × ℚ) (bounds : B) (pars : P) (d : ℕ) (popt : NldPopt R)
    (res : NldRes R) (cl ch : Curve),
    v.1.cutNan.toVec.toMeV = .ok nld ∧ v.2.cutNan.toVec.toMeV = .ok gsf ∧
    s.nld.obj.low = some low ∧ s.nld.obj.high = some high ∧ s.nld.obj.bounds = some bounds ∧
    s.nld.obj.pars = some pars ∧ s.nld.obj.discrete = some d ∧ (vcell s.nld.heap d).toMeV = .ok dv ∧
    (s.nld.obj.stdFake ≠ some true → v.1.std ≠ none →
      e.fitNld ⟨nld, dv, low, high, bounds, pars, num⟩ = .ok popt ∧
      res = ⟨nld.transformR popt.A popt.alpha, popt⟩) ∧
    (s.nld.obj.stdFake = some true ∨ v.1.std = none →
      e.fitNld ⟨{ nld with std := some (nld.values.map (· * (3 / 10))) }, dv, low, high, bounds, pars, num⟩ =
        .ok popt ∧
      res = ⟨({ nld with std := none } : Vec ℝ).transformR popt.A popt.alpha, popt⟩) ∧
    r.ofNld = some ⟨res.nld, popt.alpha, e.model popt, popt⟩ ∧
    r.gsf = (gsf.transformR 1 (s.gsf.alpha.getD popt.alpha)).transformR r.B.1 0 ∧ 0 < r.B.1 ∧
    r.low.extrapolate true = .ok cl ∧ r.high.extrapolate true = .ok ch ∧
    ggStandard s.gsf.pars r.gsf.curve cl ch res.nld.curve (e.model popt) (e.spin s.gsf.pars) = .ok s.gsf.pars.Gg

theorem nldCall_ok (e : EnsEnv P B R) (s t : NldState P B R) (v : Vec ℝ) (num : ℕ)
    (hd : ∀ d, s.obj.discrete = some d → d < s.heap.length) (h : nldCall e s v num = (t, .ok ())) :
    ∃ (nld dv : Vec ℝ) (low high : ℚ × ℚ) (bounds : B) (pars : P) (d : ℕ) (popt : NldPopt R) (res : NldRes R),
      v.toMeV = .ok nld ∧ s.obj.low = some low ∧ s.obj.high = some high ∧ s.obj.bounds = some bounds ∧
      s.obj.pars = some pars ∧ s.obj.discrete = some d ∧ (vcell s.heap d).toMeV = .ok dv ∧
      (s.obj.stdFake ≠ some true → nld.std ≠ none →
        e.fitNld ⟨nld, dv, low, high, bounds, pars, num⟩ = .ok popt ∧
        res = ⟨nld.transformR popt.A popt.alpha, popt⟩ ∧ t.obj.stdFake = some false) ∧
      (s.obj.stdFake = some true ∨ nld.std = none →
        e.fitNld ⟨{ nld with std := some (nld.values.map (· * (3 / 10))) }, dv, low, high, bounds, pars, num⟩ =
          .ok popt ∧
        res = ⟨({ nld with std := none } : Vec ℝ).transformR popt.A popt.alpha, popt⟩ ∧
        t.obj.stdFake = some true) ∧
      t.obj.res = some res ∧ res.popt = popt ∧ t.obj.discrete = s.obj.discrete ∧ t.heap.length = s.heap.length := by
  unfold nldCall at h
  dsimp only at h
  rcases hx : NldState.normalize e.fitNld e.checkNld ({ s with
    heap := s.heap ++ [v]
    obj := { s.obj with saveInstance := false, regenerate := true } } : NldState P B R)
      ⟨none, none, some s.heap.length, none, none, none, num⟩ with ⟨t', r⟩
  rw [hx] at h
  simp only [Prod.mk.injEq] at h
  obtain ⟨rfl, rfl⟩ := h
  obtain ⟨low, high, bounds, pars, d, dv, c, nldIn, w, popt, a1, a2, a3, a4, a5, a6, a7, a8, a9, a10, a11, a12, a13,
    a14, a15, a16, a17, a18⟩ := C66_result_partial _ _ _ _ _ rfl hx
  simp only [given, Option.isSome_none, Bool.false_eq_true, if_false] at a1 a2 a3 a4 a6
  dsimp only at a9 a7 a8
  have hdc : d = c := by rw [a6] at a9; exact Option.some.inj a9
  subst hdc
  have hdl := hd d a6
  rw [vcell_append hdl] at a7
  simp only [given, Option.map_some, Option.isSome_some, if_true, Option.some.injEq] at a10
  rw [a8, vcell_last hdl] at a10
  subst a10
  have hc : vcell t'.heap d = dv := by
    rw [a8]
    exact vcell_set (by simp; omega) _
  rw [hc] at a17 a18
  dsimp only at a17 a18
  have hfin : t'.obj.discrete = s.obj.discrete ∧ (t'.heap.take s.heap.length).length = s.heap.length := by
    refine ⟨by rw [a16, a6], ?_⟩
    rw [a8]
    simp
  by_cases hf : s.obj.stdFake = some true ∨ w.std = none
  · obtain ⟨b1, b2, b3⟩ := a18 hf
    refine ⟨w, dv, low, high, bounds, pars, d, popt, _, a11, a1, a2, a3, a4, a6, a7, ?_, fun _ => ⟨b1, rfl, b3⟩, b2,
      rfl, hfin⟩
    intro h1 h2
    rcases hf with hf | hf
    · exact absurd hf h1
    · exact absurd hf h2
  · push Not at hf
    obtain ⟨b1, b2, b3⟩ := a17 hf.1 hf.2
    refine ⟨w, dv, low, high, bounds, pars, d, popt, _, a11, a1, a2, a3, a4, a6, a7, fun _ _ => ⟨b1, rfl, b3⟩, ?_, b2,
      rfl, hfin⟩
    rintro (h | h)
    · exact absurd h hf.1
    · exact absurd h hf.2

theorem toMeV_std_eq {v w : Vec ℝ} (h : v.toMeV = .ok w) : w.std = v.std := by
  unfold Vec.toMeV at h
  split at h
  · injection h with h; rw [h]
  · split at h
    · injection h with h; rw [← h]
    · simp at h

/-- **C71.** A result that `step` gives for a member belongs to that member: its level density part is the
member's level density with the parameters fitted to it, its strength function is that of the member, and
the width computed from the results is the experimental one. -/
theorem C71_member (e : EnsEnv P B R) (s : EnsState P B R) (num : ℕ) (v : RawVec × RawVec)
    (hd : ∀ d, s.nld.obj.discrete = some d → d < s.nld.heap.length) (r : GsfOut (NldPopt R))
    (h : (ensStep e s num v).2.2 = .ok r) : Belongs e s num v r := by
  unfold ensStep at h
  dsimp only at h
  rcases hx : nldCall e s.nld v.1.cutNan.toVec num with ⟨t, rt⟩
  rw [hx] at h
  cases rt with
  | error x => simp at h
  | ok u =>
  dsimp only at h
  rcases hz : gsfCall e s.gsf t.obj.res v.2.cutNan.toVec with ⟨o, w, ro⟩
  rw [hz] at h
  cases ro with
  | error x => simp at h
  | ok u =>
  dsimp only at h
  obtain ⟨nld, dv, low, high, bounds, pars, d, popt, res, a1, a2, a3, a4, a5, a6, a7, a8, a9, a10, a11, a12, a13⟩ :=
    nldCall_ok e s.nld t _ num hd hx
  rw [a10] at hz
  unfold gsfCall at hz
  dsimp only [Option.map_some] at hz
  rcases hy : GsfState.normalize e.fitGsf e.spin e.checkGsf ⟨[v.2.cutNan.toVec], s.gsf⟩
    ⟨some 0, some (some (nldOut e res)), none, none, none, none⟩ with ⟨g, rg⟩
  rw [hy] at hz
  simp only [Prod.mk.injEq] at hz
  obtain ⟨z1, z2, z3⟩ := hz
  subst z1 z3
  obtain ⟨gsf, gv, gn, alpha, model, q, n, b1, b2, b3, b4, b5, b6, b7, b8, b9⟩ := (C70_result _ _ _ _ _ _).1 hy
  obtain ⟨w1, w2, w3⟩ := C48_width _ _ _ _ _ _ _ _ _ _ b8
  obtain ⟨gv', l, m, c1, c2, G, d1, d2, d3, d4, d5, d6, d7, d8, d9, d10, d11, d12, d13⟩ := gsfNormalize_ok b8
  rw [b2] at d1
  injection d1 with d1
  subst d1
  simp only [GsfState.source, List.getElem?_cons_zero, Option.some.injEq] at b1
  subst b1
  have hgn : gn = res.nld := by
    rcases b3 with b3 | ⟨-, n', b3, b3' | ⟨b3', -⟩⟩
    · simp at b3
    · simp only [Option.some.injEq] at b3'
      rw [← b3, ← b3']
      rfl
    · simp at b3'
  have hmo : model = e.model popt := by
    rcases b5 with b3 | ⟨-, n', b3, b3' | ⟨b3', -⟩⟩
    · simp at b3
    · simp only [Option.some.injEq] at b3'
      rw [← b3, ← b3']
      show e.model res.popt = _
      rw [a11]
    · simp at b3'
  have hal : alpha = s.gsf.alpha.getD popt.alpha := by
    rcases b4 with b3 | ⟨-, b3 | ⟨b3, n', b3', b3'' | ⟨b3'', -⟩⟩⟩
    · simp at b3
    · dsimp only at b3
      rw [b3]
      rfl
    · dsimp only at b3
      simp only [Option.some.injEq] at b3''
      rw [b3, ← b3', ← b3'']
      show res.popt.alpha = popt.alpha
      rw [a11]
    · simp at b3''
  have hn : n = some (nldOut e res) := by
    cases n with
    | none => obtain ⟨k, -⟩ := b7; simp at k
    | some n =>
      rcases b7 with k | ⟨k, -⟩
      · simp only [Option.some.injEq] at k
        rw [k]
      · simp at k
  subst hgn hmo hal hn
  rw [b9] at h
  simp only [GsfState.after, Except.ok.injEq] at h
  simp only [Option.getD_none] at w1 w2 w3
  unfold GsfResult.width at w1
  cases hl : q.norm.low.extrapolate true with
  | error e => rw [hl] at w1; simp [bind, Except.bind] at w1
  | ok cl =>
  cases hh : q.norm.high.extrapolate true with
  | error e => rw [hl, hh] at w1; simp [bind, Except.bind] at w1
  | ok ch =>
  rw [hl, hh] at w1
  have hstd : nld.std = none ↔ v.1.std = none := by
    rw [toMeV_std_eq a1]
    unfold RawVec.cutNan RawVec.toVec
    simp
  refine ⟨nld, gv, dv, low, high, bounds, pars, d, popt, res, cl, ch, a1, b2, a2, a3, a4, a5, a6, a7, ?_, ?_, ?_, ?_,
    ?_, ?_, ?_, ?_⟩
  · intro k1 k2
    obtain ⟨x, y, -⟩ := a8 k1 (fun k => k2 (hstd.1 k))
    exact ⟨x, y⟩
  · intro k
    obtain ⟨x, y, -⟩ := a9 (k.imp id hstd.2)
    exact ⟨x, y⟩
  · rw [← h]
    simp only [nldOut, a11]
  · rw [← h]
    dsimp only
    rw [d9, d12]
    rfl
  · rw [← h]
    exact w2
  · rw [← h]
    exact hl
  · rw [← h]
    exact hh
  · rw [← h]
    exact w1

theorem mapM_getElem {α β : Type} (f : α → Except Err β) (l : List α) (rs : List β) :
    l.mapM f = .ok rs ↔ rs.length = l.length ∧ ∀ (i : ℕ) (h : i < l.length) (h' : i < rs.length),
      f l[i] = .ok rs[i] := by
  induction l generalizing rs with
  | nil =>
    rw [List.mapM_nil]
    constructor
    · intro h
      injection h with h
      subst h
      simp
    · rintro ⟨h, -⟩
      rw [List.length_eq_zero_iff.1 h]
      rfl
  | cons x l ih =>
    rw [List.mapM_cons]
    constructor
    · intro h
      cases hx : f x with
      | error e => rw [hx] at h; simp [bind, Except.bind] at h
      | ok y =>
      cases hl : l.mapM f with
      | error e => rw [hx, hl] at h; simp [bind, Except.bind] at h
      | ok ys =>
        rw [hx, hl] at h
        simp only [bind, Except.bind, pure, Except.pure, Except.ok.injEq] at h
        subst h
        obtain ⟨k1, k2⟩ := (ih ys).1 hl
        refine ⟨by simp [k1], ?_⟩
        intro i h1 h2
        cases i with
        | zero => exact hx
        | succ i => exact k2 i (by simpa using h1) (by simpa using h2)
    · rintro ⟨h1, h2⟩
      cases rs with
      | nil => simp at h1
      | cons y ys =>
        have hx : f x = .ok y := h2 0 (by simp) (by simp)
        have hl : l.mapM f = .ok ys := (ih ys).2 ⟨by simpa using h1, fun i k1 k2 =>
          h2 (i + 1) (by simpa using k1) (by simpa using k2)⟩
        rw [hx, hl]
        rfl

/-- **C71.** With a pool the normalisation works exactly if every member, on its own, can be normalised by the
ensemble normaliser as it is at the start; the results are those, in the order of the members, and neither
the normalisers nor the vectors change. -/
theorem C71_pool (e : EnsEnv P B R) (s : EnsState P B R) (l : List (RawVec × RawVec))
    (rs : List (GsfOut (NldPopt R))) (hrs : rs.length = l.length)
    (h : ∀ (i : ℕ) (h : i < l.length) (h' : i < rs.length), (ensStep e s i l[i]).2.2 = .ok rs[i]) :
    ensNormalize e true s l = (s, l, .ok rs) := by
  unfold ensNormalize ensPool
  simp only [if_true]
  have := (mapM_getElem (fun p : (RawVec × RawVec) × ℕ => (ensStep e s p.2 p.1).2.2) l.zipIdx rs).2
    ⟨by simp [hrs], fun i h1 h2 => by
      simp only [List.getElem_zipIdx, Nat.zero_add]
      exact h i (by simpa using h1) h2⟩
  rw [this]

/-- **C71.** What a pool gives belongs to the members, one by one. -/
theorem C71_pool_belongs (e : EnsEnv P B R) (s : EnsState P B R) (l : List (RawVec × RawVec))
    (hd : ∀ d, s.nld.obj.discrete = some d → d < s.nld.heap.length)
    (rs : List (GsfOut (NldPopt R))) (h : ensPool e s l = .ok rs) :
    rs.length = l.length ∧ ∀ (i : ℕ) (h : i < l.length) (h' : i < rs.length), Belongs e s i l[i] rs[i] := by
  unfold ensPool at h
  rw [mapM_getElem] at h
  obtain ⟨h1, h2⟩ := h
  refine ⟨by simpa using h1, fun i k1 k2 => ?_⟩
  have := h2 i (by simpa using k1) k2
  simp only [List.getElem_zipIdx, Nat.zero_add] at this
  exact C71_member e s i l[i] hd _ this

/-- **C71** (what holds). In one process the results, or the error, are those of a pool: each member is treated
as by the ensemble normaliser at the start. Conditions: the level densities have standard deviations and none
were made up before; the strength functions have the same energies. (The range of a fit, which the models
also keep from the first member on, is a function of these energies.) Without them see `C71_serial_fails`. -/
theorem C71_serial_partial (e : EnsEnv P B R)
    (hfit : ∀ v m m', m.high = m'.high → e.fitGsf v m = e.fitGsf v m') (s : EnsState P B R)
    (hd : ∀ d, s.nld.obj.discrete = some d → d < s.nld.heap.length) (hf : s.nld.obj.stdFake ≠ some true)
    (E : List ℚ) (hE : E ≠ []) (l : List (RawVec × RawVec)) (hl : Regular E l) :
    (ensSerial e s 0 l).2.2 = ensPool e s l ∧
    (ensNormalize e false s l).2.2 = (ensNormalize e true s l).2.2 := by
  obtain ⟨e0, E', rfl⟩ := List.exists_cons_of_ne_nil hE
  have key := ensSerial_same e hfit s e0 l s 0 ⟨rfl, rfl, rfl, rfl, rfl, rfl, fun _ _ => rfl, hd, hf, hf⟩
    ⟨rfl, rfl, ⟨rfl, rfl, rfl, rfl, rfl, fun _ => ⟨rfl, rfl⟩⟩, ⟨rfl, rfl, rfl, rfl, rfl, fun _ => ⟨rfl, rfl⟩⟩⟩
    (fun v hv => ⟨(hl v hv).1, fun w hw => by rw [(hl v hv).2 w hw]; rfl⟩)
  refine ⟨key, ?_⟩
  unfold ensNormalize
  simp only [Bool.false_eq_true, if_false, if_true]
  cases hp : ensPool e s l with
  | error x => rfl
  | ok rs =>
    dsimp only
    rw [key]
    exact hp

/-- **C71.** If a member fails in the pool, everything is done again in one process: state, vectors and outcome
are those of a run without a pool. -/
theorem C71_fallback (e : EnsEnv P B R) (s : EnsState P B R) (l : List (RawVec × RawVec)) (x : Err)
    (h : ensPool e s l = .error x) : ensNormalize e true s l = ensNormalize e false s l := by
  unfold ensNormalize
  simp [h]

/-- The vector of a member after a run in one process: cut, and the strength function in MeV. -/
def cutVec (v : RawVec) (k : ℚ) : RawVec :=
  let w := v.cutNan
  { w with E := w.E.map (· / k), units := "MeV" }

theorem gsfCall_vec (e : EnsEnv P B R) (o o' : GsfObj (NldPopt R)) (n : Option (NldRes R)) (gsf w : Vec ℝ)
    (h : gsfCall e o n gsf = (o', w, .ok ())) : gsf.toMeV = .ok w := by
  unfold gsfCall at h
  dsimp only at h
  rcases hy : GsfState.normalize e.fitGsf e.spin e.checkGsf ⟨[gsf], o⟩
    ⟨some 0, some (n.map (nldOut e)), none, none, none, none⟩ with ⟨g, rg⟩
  rw [hy] at h
  simp only [Prod.mk.injEq] at h
  obtain ⟨z1, z2, z3⟩ := h
  subst z3
  obtain ⟨gsf', gv, gn, alpha, model, q, n', b1, b2, b3, b4, b5, b6, b7, b8, b9⟩ := (C70_result _ _ _ _ _ _).1 hy
  simp only [GsfState.source, List.getElem?_cons_zero, Option.some.injEq] at b1
  subst b1
  rw [b2, ← z2, b9]
  rfl

/-- **C71 fails** for the vectors of the caller: a run in one process leaves every level density of the
extractor without the points that are not numbers, and every strength function without them and in MeV
(the copies that are cut are not the ones kept). -/
theorem C71_caller_fails (e : EnsEnv P B R) (l : List (RawVec × RawVec)) :
    ∀ (s : EnsState P B R) (k : ℕ) (rs : List (GsfOut (NldPopt R))), (ensSerial e s k l).2.2 = .ok rs →
    (ensSerial e s k l).2.1.map (·.1) = l.map (·.1.cutNan) ∧
    (ensSerial e s k l).2.1.map (·.2) =
      l.map fun v => if v.2.units = "MeV" then v.2.cutNan else cutVec v.2 1000 := by
  induction l with
  | nil => intro s k rs _; exact ⟨rfl, rfl⟩
  | cons v l ih =>
    intro s k rs h
    unfold ensSerial at h ⊢
    rcases hx : ensStep e s k v with ⟨t, w, r⟩
    rw [hx] at h
    cases r with
    | error x => simp at h
    | ok r =>
    dsimp only at h ⊢
    rcases hy : ensSerial e t (k + 1) l with ⟨t2, ws, r2⟩
    rw [hy] at h
    cases r2 with
    | error x => simp at h
    | ok r2 =>
    have hi := ih t (k + 1) r2 (by rw [hy])
    rw [hy] at hi
    dsimp only at hi ⊢
    rw [List.map_cons, List.map_cons, List.map_cons, List.map_cons, hi.1, hi.2]
    have hw : w.1 = v.1.cutNan ∧ w.2 = if v.2.units = "MeV" then v.2.cutNan else cutVec v.2 1000 := by
      unfold ensStep at hx
      dsimp only at hx
      rcases hn : nldCall e s.nld v.1.cutNan.toVec k with ⟨t', rt⟩
      rw [hn] at hx
      cases rt with
      | error x => simp at hx
      | ok u =>
      dsimp only at hx
      rcases hz : gsfCall e s.gsf t'.obj.res v.2.cutNan.toVec with ⟨o, g, ro⟩
      rw [hz] at hx
      cases ro with
      | error x => simp at hx
      | ok u =>
      dsimp only at hx
      simp only [Prod.mk.injEq] at hx
      obtain ⟨-, q1, -⟩ := hx
      subst q1
      refine ⟨rfl, ?_⟩
      have hg := gsfCall_vec e _ _ _ _ _ hz
      dsimp only
      unfold Vec.toMeV at hg
      by_cases hu : v.2.units = "MeV"
      · rw [if_pos (show v.2.cutNan.toVec.units = "MeV" from hu)] at hg
        injection hg with hg
        rw [if_pos hu, ← hg]
        rfl
      · rw [if_neg (show v.2.cutNan.toVec.units ≠ "MeV" from hu)] at hg
        rw [if_neg hu]
        split at hg
        · injection hg with hg
          rw [← hg]
          rfl
        · simp at hg
    rw [hw.1, hw.2]
    exact ⟨rfl, rfl⟩

/-- **C71 fails** in one process if a level density without standard deviations comes before one with them: from
then on the normaliser takes all standard deviations for made up. The second results have none in one
process, and have them with a pool. -/
theorem C71_serial_fails (e : EnsEnv P B R) (s : EnsState P B R)
    (hd : ∀ d, s.nld.obj.discrete = some d → d < s.nld.heap.length) (hf : s.nld.obj.stdFake ≠ some true)
    (v v' : RawVec × RawVec) (h1 : v.1.std = none) (h2 : v'.1.std ≠ none) (r r' q q' : GsfOut (NldPopt R))
    (hs : (ensSerial e s 0 [v, v']).2.2 = .ok [r, r']) (hp : ensPool e s [v, v'] = .ok [q, q']) :
    r'.ofNld.map (·.nld.std) = some none ∧ ∃ x, q'.ofNld.map (·.nld.std) = some (some x) := by
  constructor
  · unfold ensSerial at hs
    rcases hx : ensStep e s 0 v with ⟨t, w, x⟩
    rw [hx] at hs
    cases x with
    | error x => simp at hs
    | ok x =>
    unfold ensSerial at hs
    dsimp only at hs
    rcases hy : ensStep e t 1 v' with ⟨t', w', y⟩
    simp only [Nat.zero_add] at hs
    rw [hy] at hs
    cases y with
    | error y => simp at hs
    | ok y =>
    unfold ensSerial at hs
    simp only [Except.ok.injEq, List.cons.injEq, and_true] at hs
    obtain ⟨-, rfl⟩ := hs
    have ht : t.nld.obj.stdFake = some true ∧ t.nld.obj.discrete = s.nld.obj.discrete ∧
        t.nld.heap.length = s.nld.heap.length := by
      unfold ensStep at hx
      dsimp only at hx
      rcases hn : nldCall e s.nld v.1.cutNan.toVec 0 with ⟨t', rt⟩
      rw [hn] at hx
      cases rt with
      | error x => simp at hx
      | ok u =>
      dsimp only at hx
      obtain ⟨nld, dv, low, high, bounds, pars, d, popt, res, a1, a2, a3, a4, a5, a6, a7, a8, a9, a10, a11, a12,
        a13⟩ := nldCall_ok e s.nld t' _ 0 hd hn
      have hstd : nld.std = none := by
        rw [toMeV_std_eq a1]
        unfold RawVec.cutNan RawVec.toVec
        simp [h1]
      rcases hz : gsfCall e s.gsf t'.obj.res v.2.cutNan.toVec with ⟨o, g, ro⟩
      rw [hz] at hx
      have : t.nld = t' := by
        cases ro with
        | error x => simp at hx
        | ok u =>
        simp only [Prod.mk.injEq] at hx
        obtain ⟨q0, -, -⟩ := hx
        subst q0
        rfl
      rw [this]
      exact ⟨(a9 (Or.inr hstd)).2.2, a12, a13⟩
    obtain ⟨nld, gsf, dv, low, high, bounds, pars, d, popt, res, cl, ch, b1, b2, b3, b4, b5, b6, b7, b8, b9, b10, b11,
      b12⟩ := C71_member e t 1 v' (fun d hd' => by rw [ht.2.2]; exact hd d (ht.2.1 ▸ hd')) y (by rw [hy])
    obtain ⟨-, k⟩ := b10 (Or.inl ht.1)
    rw [b11, k]
    rfl
  · obtain ⟨-, h⟩ := C71_pool_belongs e s [v, v'] hd [q, q'] hp
    obtain ⟨nld, gsf, dv, low, high, bounds, pars, d, popt, res, cl, ch, b1, b2, b3, b4, b5, b6, b7, b8, b9, b10, b11,
      b12⟩ := h 1 (by simp) (by simp)
    obtain ⟨-, k⟩ := b9 hf h2
    have hstd : nld.std ≠ none := by
      rw [toMeV_std_eq b1]
      unfold RawVec.cutNan RawVec.toVec
      simpa using h2
    obtain ⟨x, hx⟩ := Option.ne_none_iff_exists'.1 hstd
    simp only [List.getElem_cons_succ, List.getElem_cons_zero] at b11
    rw [b11, k]
    simp only [Option.map_some, Vec.transformR, Vec.transform, hx]
    exact ⟨_, rfl⟩

/-! ## Cutting -/

theorem keepAt_zip {α β : Type} (v : List (Option β)) (l : List α) :
    (keepAt v l).zip (v.filterMap id) = (l.zip v).filterMap fun p => p.2.map fun y => (p.1, y) := by
  induction v generalizing l with
  | nil => cases l <;> simp [keepAt]
  | cons x v ih =>
    cases l with
    | nil => cases x <;> simp [keepAt]
    | cons a l =>
      cases x with
      | none => simpa [keepAt] using ih l
      | some y => simpa [keepAt] using ih l

theorem keepAt_length {α β : Type} (v : List (Option β)) (l : List α) (h : v.length = l.length) :
    (keepAt v l).length = (v.filterMap id).length := by
  induction v generalizing l with
  | nil => cases l <;> simp [keepAt]
  | cons x v ih =>
    cases l with
    | nil => simp at h
    | cons a l =>
      have := ih l (by simpa using h)
      cases x with
      | none => simpa [keepAt] using this
      | some y => simpa [keepAt] using this

/-- **C71.** `cut_nan` keeps the points that are numbers, in their order, with their energies and standard
deviations, and nothing else. -/
theorem C71_cut (v : RawVec) (h : v.values.length = v.E.length)
    (hs : ∀ s, v.std = some s → v.values.length = s.length) :
    v.cutNan.toVec.E.zip v.cutNan.toVec.values =
      ((v.E.zip v.values).filterMap fun p => p.2.map fun y => (p.1, y)) ∧
    (∀ s, v.std = some s → ∃ t, v.cutNan.toVec.std = some t ∧ t.length = v.cutNan.toVec.values.length ∧
      t.zip v.cutNan.toVec.values = ((s.zip v.values).filterMap fun p => p.2.map fun y => (p.1, y))) ∧
    v.cutNan.toVec.E.length = v.cutNan.toVec.values.length ∧
    (v.std = none → v.cutNan.toVec.std = none) ∧ v.cutNan.toVec.units = v.units := by
  have hv : v.cutNan.toVec.values = v.values.filterMap id := by
    unfold RawVec.cutNan RawVec.toVec
    dsimp only
    induction v.values with
    | nil => rfl
    | cons x l ih => cases x <;> simpa using ih
  rw [hv]
  refine ⟨keepAt_zip _ _, ?_, keepAt_length _ _ h, fun h => by simp [RawVec.cutNan, RawVec.toVec, h], rfl⟩
  intro s hs'
  refine ⟨keepAt v.values s, by simp [RawVec.cutNan, RawVec.toVec, hs'], keepAt_length _ _ (hs s hs'),
    keepAt_zip _ _⟩

/-- **C71.** The normalisation is refused unless either both normalisers or the simultaneous one are set, and
not all three. -/
theorem C71_xor (nld gsf simultan : Bool) :
    (ensCheck nld gsf simultan = .ok () ↔
      (nld = true ∧ gsf = true ∧ simultan = false) ∨ ((nld = false ∨ gsf = false) ∧ simultan = true)) ∧
    (ensCheck nld gsf simultan ≠ .ok () → ensCheck nld gsf simultan = .error .assertion) := by
  cases nld <;> cases gsf <;> cases simultan <;> simp [ensCheck]

/-! ## A case in full -/

/-- Functions for the small case: the fit of the level density finds `A = 1` and the slope 0. -/
noncomputable def envW : EnsEnv Unit Unit Unit where
  fitNld := fun _ => .ok ⟨1, 0, ()⟩
  checkNld := fun _ => .ok ()
  fitGsf := fun _ _ => .error .undefined
  checkGsf := fun _ => .ok ()
  spin := fun _ _ => .ok 1
  model := fun _ _ => .ok 1

/-- The normaliser of the strength function in the small case. -/
noncomputable def gsfW : GsfObj (NldPopt Unit) :=
  GsfObj.new none none none none none gsfCasePars (lowDefault 0 0 false 2) (highDefault 0 0 false 21)

/-- The normalisers at the start. -/
noncomputable def ensW : EnsState Unit Unit Unit := ⟨stW (some 0) none, gsfW⟩

/-- A level density with or without standard deviations, with a point that is not a number. -/
def nldRaw (std : Option (List ℝ)) : RawVec := ⟨[0, 1, 2], [some 1, none, some 1], std, "MeV"⟩

/-- A strength function in keV, with a point that is not a number. -/
def gsfRaw : RawVec := ⟨[500, 1000, 2000], [none, some 1, some 1], none, "keV"⟩

theorem gsfRaw_vec : gsfRaw.cutNan.toVec.toMeV = .ok gsfCase := by
  have : gsfRaw.cutNan.toVec = ⟨[1000, 2000], [1, 1], none, "keV"⟩ := rfl
  rw [this]
  unfold Vec.toMeV gsfCase
  rw [if_neg (by decide), if_pos rfl]
  norm_num

theorem gsfW_call (o : GsfObj (NldPopt Unit)) (ho : GSame 1 o gsfW) (res : NldRes Unit)
    (hr : res.nld.curve = nldCase) (hp : res.popt = ⟨1, 0, ()⟩) :
    ∃ o' w, gsfCall envW o (some res) gsfRaw.cutNan.toVec = (o', w, .ok ()) ∧ o'.res ≠ none ∧ GSame 1 o' gsfW := by
  obtain ⟨r, h1, h2, h3, h4⟩ := gsfCase_normalize
  have h1' : gsfNormalize gsfCasePars (lowDefault 0 0 false 2) (highDefault 0 0 false 21)
      envW.fitGsf 0 res.nld.curve (fun _ => .ok 1) (fun _ => .ok 1) gsfRaw.cutNan.toVec = .ok r := by
    rw [← h1, hr]
    unfold gsfNormalize
    rw [gsfRaw_vec]
    rfl
  have h0 := normalize_of envW.fitGsf envW.spin envW.checkGsf ⟨[gsfRaw.cutNan.toVec], gsfW⟩
    ⟨some 0, some (some (nldOut envW res)), none, none, none, none⟩ _ gsfCase res.nld 0 (fun _ => .ok 1) r
    (some (nldOut envW res)) rfl gsfRaw_vec (Or.inr ⟨rfl, _, rfl, Or.inl rfl⟩)
    (Or.inr ⟨rfl, Or.inr ⟨rfl, nldOut envW res, by simp [nldOut, hp], Or.inl rfl⟩⟩)
    (Or.inr ⟨rfl, _, rfl, Or.inl rfl⟩) rfl (Or.inl rfl) h1'
  have hc : (gsfCall envW gsfW (some res) gsfRaw.cutNan.toVec).2.2 = .ok () ∧
      (gsfCall envW gsfW (some res) gsfRaw.cutNan.toVec).1.res ≠ none := by
    unfold gsfCall
    simp only [Option.map_some]
    rw [h0]
    exact ⟨rfl, by simp [GsfState.after]⟩
  obtain ⟨k1, k2⟩ := gsfCall_same envW (fun _ _ _ _ => rfl) o gsfW (some res) gsfRaw.cutNan.toVec 1 ho (by
    intro v hv
    rw [gsfRaw_vec] at hv
    injection hv with hv
    rw [← hv]
    rfl)
  obtain ⟨k3, k4⟩ := k2 (k1.trans hc.1)
  exact ⟨_, _, Prod.ext rfl (Prod.ext rfl (k1.trans hc.1)), by rw [k3]; exact hc.2, k4⟩

theorem vecW_MeV (s : Option (List ℝ)) : (⟨[0, 2], [1, 1], s, "MeV"⟩ : Vec ℝ).toMeV = .ok ⟨[0, 2], [1, 1], s, "MeV"⟩ := by
  unfold Vec.toMeV
  simp

theorem nldW_call (c : Option Bool) (res : Option (NldRes Unit)) (nld : Option (Vec ℝ)) (sv rg : Bool)
    (std : Option (List ℝ)) (num : ℕ) :
    ∃ c' n x, nldCall envW ⟨[levW, levK], ⟨nld, some 0, some (1, 2), some (1, 2), some (), some (), c, rg, sv, none, res⟩,
        fun _ => none⟩ (nldRaw std).cutNan.toVec num =
      (⟨[levW, levK], ⟨n, some 0, some (1, 2), some (1, 2), some (), some (), c', true, false, none, some x⟩,
        fun _ => none⟩, .ok ()) ∧ x.nld.curve = nldCase ∧ x.popt = ⟨1, 0, ()⟩ := by
  have hv : (nldRaw std).cutNan.toVec = ⟨[0, 2], [1, 1], std.map (keepAt [some (1:ℝ), none, some 1]), "MeV"⟩ := rfl
  rw [hv]
  generalize std.map (keepAt [some (1:ℝ), none, some 1]) = y
  have hs : ∀ z : Option (List ℝ), (oslo ⟨[0, 2], [1, 1], z, "MeV"⟩ 1 0).curve = nldCase := by
    intro z
    simp [oslo, Vec.transform, Vec.curve, nldCase]
  cases hb : (c == some true || y.isNone) with
  | true =>
    have := hs (some [1 * (3 / 10), 1 * (3 / 10)])
    refine ⟨some true, some ⟨[0, 2], [1, 1], none, "MeV"⟩,
      ⟨{ oslo ⟨[0, 2], [1, 1], some [1 * (3 / 10), 1 * (3 / 10)], "MeV"⟩ 1 0 with std := none }, ⟨1, 0, ()⟩⟩, ?_, this, rfl⟩
    simp only [nldCall, NldState.normalize, NldState.normalizeNew, NldState.fitAndSave, NldState.save, selfIfNone, vcell,
      toMeV_levW, envW, vecW_MeV, hb, List.cons_append, List.nil_append, List.getD_cons_zero, List.set_cons_zero,
      List.length_cons, List.length_nil, Nat.zero_add, Option.map_some, List.getD_cons_succ, if_true,
      Bool.false_eq_true, if_false]
    rfl
  | false =>
    refine ⟨some false, some ⟨[0, 2], [1, 1], y, "MeV"⟩,
      ⟨oslo ⟨[0, 2], [1, 1], y, "MeV"⟩ 1 0, ⟨1, 0, ()⟩⟩, ?_,
      hs y, rfl⟩
    simp only [nldCall, NldState.normalize, NldState.normalizeNew, NldState.fitAndSave, NldState.save, selfIfNone, vcell,
      toMeV_levW, envW, vecW_MeV, hb, List.cons_append, List.nil_append, List.getD_cons_zero, List.set_cons_zero,
      List.length_cons, List.length_nil, Nat.zero_add, Option.map_some, List.getD_cons_succ, if_true,
      Bool.false_eq_true, if_false]
    rfl

/-- One step of the small case, from any state the run can be in. -/
theorem stepW (c : Option Bool) (res : Option (NldRes Unit)) (nld : Option (Vec ℝ)) (sv rg : Bool)
    (o : GsfObj (NldPopt Unit)) (ho : GSame 1 o gsfW) (std : Option (List ℝ)) (num : ℕ) :
    ∃ c' n x o' w r, ensStep envW ⟨⟨[levW, levK],
        ⟨nld, some 0, some (1, 2), some (1, 2), some (), some (), c, rg, sv, none, res⟩, fun _ => none⟩, o⟩ num
        (nldRaw std, gsfRaw) =
      (⟨⟨[levW, levK], ⟨n, some 0, some (1, 2), some (1, 2), some (), some (), c', true, false, none, some x⟩,
        fun _ => none⟩, o'⟩, w, .ok r) ∧ GSame 1 o' gsfW := by
  obtain ⟨c', n, x, h1, h2, h3⟩ := nldW_call c res nld sv rg std num
  obtain ⟨o', w, h4, h5, h6⟩ := gsfW_call o ho x h2 h3
  obtain ⟨r, hr⟩ := Option.ne_none_iff_exists'.1 h5
  refine ⟨c', n, x, o', ((nldRaw std).cutNan, { gsfRaw.cutNan with E := w.E, units := w.units }), r, ?_, h6⟩
  unfold ensStep
  dsimp only
  rw [h1]
  dsimp only
  rw [h4]
  dsimp only
  rw [hr]

/-- The small case works for members with and without standard deviations, in one process and with a pool. -/
theorem runEnsW (std std' : Option (List ℝ)) :
    (∃ r r', (ensSerial envW ensW 0 [(nldRaw std, gsfRaw), (nldRaw std', gsfRaw)]).2.2 = .ok [r, r']) ∧
    (∃ q q', ensPool envW ensW [(nldRaw std, gsfRaw), (nldRaw std', gsfRaw)] = .ok [q, q']) := by
  have hg : GSame 1 gsfW gsfW := ⟨rfl, rfl, ⟨rfl, rfl, rfl, rfl, rfl, fun _ => ⟨rfl, rfl⟩⟩,
    ⟨rfl, rfl, rfl, rfl, rfl, fun _ => ⟨rfl, rfl⟩⟩⟩
  have h0 := fun std num => stepW none none (some nldW) false true gsfW hg std num
  constructor
  · obtain ⟨c1, n1, x1, o1, w1, r1, h1, g1⟩ := h0 std 0
    obtain ⟨c2, n2, x2, o2, w2, r2, h2, g2⟩ := stepW c1 (some x1) n1 false true o1 g1 std' 1
    refine ⟨r1, r2, ?_⟩
    have h1' : ensStep envW ensW 0 (nldRaw std, gsfRaw) = _ := h1
    simp only [ensSerial, h1', h2, Nat.zero_add]
  · obtain ⟨c1, n1, x1, o1, w1, r1, h1, g1⟩ := h0 std 0
    obtain ⟨c2, n2, x2, o2, w2, r2, h2, g2⟩ := h0 std' 1
    refine ⟨r1, r2, ?_⟩
    have h1' : ensStep envW ensW 0 (nldRaw std, gsfRaw) = _ := h1
    have h2' : ensStep envW ensW 1 (nldRaw std', gsfRaw) = _ := h2
    simp only [ensPool, List.zipIdx_cons, List.zipIdx_nil, List.mapM_cons, List.mapM_nil, h1', h2', Nat.zero_add]
    rfl

/-- The hypotheses of `C71_serial_fails` are met. -/
example : ∃ r r' q q',
    (ensSerial envW ensW 0 [(nldRaw none, gsfRaw), (nldRaw (some [1, 1, 1]), gsfRaw)]).2.2 = .ok [r, r'] ∧
    ensPool envW ensW [(nldRaw none, gsfRaw), (nldRaw (some [1, 1, 1]), gsfRaw)] = .ok [q, q'] ∧
    ensW.nld.obj.stdFake ≠ some true ∧ ensW.nld.obj.discrete = some 0 ∧ 0 < ensW.nld.heap.length := by
  obtain ⟨⟨r, r', h⟩, ⟨q, q', h'⟩⟩ := runEnsW none (some [1, 1, 1])
  exact ⟨r, r', q, q', h, h', by simp [ensW, stW, objW], rfl, by simp [ensW, stW]⟩

/-- The conditions of `C71_serial_partial` and of `C71_member` are met by a run that works. -/
example : ∃ r r', (ensSerial envW ensW 0 [(nldRaw (some [1, 1, 1]), gsfRaw), (nldRaw (some [2, 1, 1]), gsfRaw)]).2.2 =
      .ok [r, r'] ∧
    Regular [1, 2] [(nldRaw (some [1, 1, 1]), gsfRaw), (nldRaw (some [2, 1, 1]), gsfRaw)] ∧
    ∀ v m m', m.high = m'.high → envW.fitGsf v m = envW.fitGsf v m' := by
  obtain ⟨⟨r, r', h⟩, -⟩ := runEnsW (some [1, 1, 1]) (some [2, 1, 1])
  refine ⟨r, r', h, ?_, fun _ _ _ _ => rfl⟩
  intro v hv
  simp only [List.mem_cons, List.not_mem_nil, or_false] at hv
  have hg : ∀ w, gsfRaw.cutNan.toVec.toMeV = .ok w → w.E = [1, 2] := by
    intro w hw
    rw [gsfRaw_vec] at hw
    injection hw with hw
    rw [← hw]
    rfl
  rcases hv with rfl | rfl
  · exact ⟨by simp [nldRaw], hg⟩
  · exact ⟨by simp [nldRaw], hg⟩

/-- In this run both vectors of the caller are changed. -/
example (std : Option (List ℝ)) : (nldRaw std).cutNan.E = [0, 2] ∧ (nldRaw std).E = [0, 1, 2] ∧
    cutVec gsfRaw 1000 = ⟨[1, 2], [some 1, some 1], none, "MeV"⟩ := by
  refine ⟨rfl, rfl, ?_⟩
  have : gsfRaw.cutNan = ⟨[1000, 2000], [some 1, some 1], none, "keV"⟩ := by
    simp [RawVec.cutNan, gsfRaw, keepAt]
  simp only [cutVec, this]
  norm_num

end Ompy
