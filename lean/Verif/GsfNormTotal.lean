import Verif.GsfNormProps
import Verif.LibraryProps
import Verif.ExtractorProps
import Verif.MatrixRebinProps

/-!
# When the normalisation of the strength function succeeds (C48, C63)
-/

namespace Ompy

/-! ## Evenly spaced energies -/

theorem linspace_grid (a b : ℚ) {n : ℕ} (hn : 2 ≤ n) :
    linspace a b n = grid a ((b - a) / ((n : ℚ) - 1)) n := by
  have h1 : ((n : ℚ) - 1) ≠ 0 := by
    have : (2 : ℚ) ≤ n := by exact_mod_cast hn
    linarith
  rw [← linspace_eq_grid]
  congr 1
  field_simp
  ring

theorem step_pos {a b : ℚ} (h : a < b) {n : ℕ} (hn : 2 ≤ n) : 0 < (b - a) / ((n : ℚ) - 1) := by
  have : (2 : ℚ) ≤ n := by exact_mod_cast hn
  apply div_pos <;> linarith

theorem linspace_getLast (a b : ℚ) {n : ℕ} (hn : 2 ≤ n) : (linspace a b n).getLast? = some b := by
  have h1 : ((n : ℚ) - 1) ≠ 0 := by
    have : (2 : ℚ) ≤ n := by exact_mod_cast hn
    linarith
  rw [linspace_grid a b hn, grid_getLast _ _ (by omega)]
  congr 1
  field_simp
  ring

theorem linspace_mem {a b : ℚ} (h : a ≤ b) {n : ℕ} (hn : 2 ≤ n) {e : ℚ} (he : e ∈ linspace a b n) :
    a ≤ e ∧ e ≤ b := by
  rw [linspace_grid a b hn] at he
  unfold grid at he
  rw [List.mem_map] at he
  obtain ⟨k, hk, rfl⟩ := he
  rw [List.mem_range] at hk
  have h2 : (2 : ℚ) ≤ n := by exact_mod_cast hn
  have h3 : (k : ℚ) ≤ n - 1 := by
    have : k + 1 ≤ n := hk
    have : (k : ℚ) + 1 ≤ n := by exact_mod_cast this
    linarith
  have h4 : 0 ≤ (b - a) / ((n : ℚ) - 1) := div_nonneg (by linarith) (by linarith)
  have h5 : (b - a) / ((n : ℚ) - 1) * ((n : ℚ) - 1) = b - a := div_mul_cancel₀ _ (by linarith)
  have h6 : (0 : ℚ) ≤ k := by positivity
  constructor
  · nlinarith
  · nlinarith

/-! ## Interpolation succeeds between positive values -/

theorem logInterp_ok {c : Curve} {a b e : ℚ} (hn : 2 ≤ c.E.length) (ha : c.E.head? = some a)
    (hb : c.E.getLast? = some b) (h1 : a ≤ e) (h2 : e ≤ b)
    (hpos : ∀ k, interval c.E e - 1 ≤ k → k < c.E.length → ∃ x, c.v.getD k none = some x ∧ 0 < x) :
    ∃ y, logInterp c e = .ok y ∧ 0 < y := by
  have hi : interval c.E e < c.E.length := by unfold interval; omega
  obtain ⟨x1, e1, p1⟩ := hpos (interval c.E e - 1) le_rfl (by omega)
  obtain ⟨x2, e2, p2⟩ := hpos (interval c.E e) (by omega) hi
  unfold logInterp
  rw [ha, hb]
  simp only
  rw [if_neg (by push Not; exact ⟨h1, h2⟩), if_neg (by omega), e1, e2]
  simp only [logOf, p1, p2, if_true]
  exact ⟨_, rfl, Real.exp_pos _⟩

theorem logInterp_outside {c : Curve} {a b e : ℚ} (ha : c.E.head? = some a) (hb : c.E.getLast? = some b)
    (h : e < a ∨ b < e) : logInterp c e = .error .valueError := by
  unfold logInterp
  rw [ha, hb]
  simp only
  rw [if_pos h]

theorem head_le_last {l : List ℚ} (hs : l.Pairwise (· < ·)) {a b : ℚ} (ha : l.head? = some a)
    (hb : l.getLast? = some b) : a ≤ b := by
  cases l with
  | nil => simp at ha
  | cons x xs =>
    simp only [List.head?_cons, Option.some.injEq] at ha
    subst ha
    have hmem := List.mem_of_getLast? hb
    rw [List.mem_cons] at hmem
    rcases hmem with h | h
    · exact h.ge
    · exact ((List.pairwise_cons.1 hs).1 b h).le

theorem curve_pos {v : Vec ℝ} (hlen : v.values.length = v.E.length) (hp : ∀ x ∈ v.values, 0 < x) (k : ℕ)
    (hk : k < v.curve.E.length) : ∃ x, v.curve.v.getD k none = some x ∧ 0 < x := by
  have hk' : k < v.values.length := by rw [hlen]; exact hk
  refine ⟨v.values[k], ?_, hp _ (List.getElem_mem _)⟩
  unfold Vec.curve
  rw [List.getD_eq_getElem _ _ (by simpa using hk')]
  simp

/-! ## The normalisation succeeds -/

/-- A new lower model. -/
def lowDefault (scale shift : ℝ) (fitted : Bool) (n : ℕ) : ExtModel :=
  ⟨false, scale, shift, none, none, none, n, fitted⟩

/-- A new upper model. -/
def highDefault (scale shift : ℝ) (fitted : Bool) (n : ℕ) : ExtModel :=
  ⟨true, scale, shift, none, none, none, n, fitted⟩

/-- The strength function composed of positive data and the two extrapolations is positive. -/
theorem fgsf_pos {v : Vec ℝ} {a b : ℚ} (hs : v.E.Pairwise (· < ·)) (hn : 2 ≤ v.E.length)
    (hlen : v.values.length = v.E.length) (hp : ∀ x ∈ v.values, 0 < x) (ha : v.E.head? = some a)
    (hb : v.E.getLast? = some b) (sl tl sh th : ℝ) {n m : ℕ} (hn2 : 2 ≤ n) (hm2 : 2 ≤ m)
    (hstep : 20 / ((m : ℚ) - 1) ≤ b) {e : ℚ} (he0 : 0 ≤ e) (he1 : e ≤ 20) :
    ∃ y, fgsf v.curve ⟨linspace 0 a n, (linspace 0 a n).map ((lowDefault sl tl false n).value tl)⟩
      ⟨linspace 0 20 m, (linspace 0 20 m).map ((highDefault sh th false m).value th)⟩ e = .ok y ∧ 0 < y := by
  unfold fgsf
  have ha' : v.curve.E.head? = some a := ha
  have hb' : v.curve.E.getLast? = some b := hb
  rw [ha', hb']
  simp only
  by_cases c1 : e < a
  · rw [if_pos c1]
    have hapos : 0 < a := lt_of_le_of_lt he0 c1
    have hg := linspace_grid 0 a hn2
    apply logInterp_ok (a := 0) (b := a)
    · simp only [hg, grid_length]; exact hn2
    · simp only [hg]; exact grid_head _ _ (by omega)
    · exact linspace_getLast 0 a hn2
    · exact he0
    · exact c1.le
    · intro k _ hk
      simp only at hk ⊢
      rw [List.getD_eq_getElem _ _ (by simpa using hk)]
      simp only [List.getElem_map, ExtModel.value, lowDefault]
      exact ⟨_, rfl, Real.exp_pos _⟩
  · rw [if_neg c1]
    by_cases c2 : e ≤ b
    · rw [if_pos c2]
      exact logInterp_ok (by exact hn) ha' hb' (not_lt.1 c1) c2 fun k _ hk => curve_pos hlen hp k hk
    · rw [if_neg c2]
      push Not at c2
      have hg := linspace_grid 0 20 hm2
      have hw := step_pos (a := 0) (b := 20) (by norm_num) hm2
      apply logInterp_ok (a := 0) (b := 20)
      · simp only [hg, grid_length]; exact hm2
      · simp only [hg]; exact grid_head _ _ (by omega)
      · exact linspace_getLast 0 20 hm2
      · exact he0
      · exact he1
      · intro k hk0 hk
        simp only at hk0 hk ⊢
        have hk1 : 1 ≤ k := by
          have hlen' : (linspace 0 20 m).length = m := by rw [hg, grid_length]
          have hsl := searchsorted_left (linspace 0 20 m)
            (by rw [hg]; exact (grid_pairwise _ _ _ hw).imp le_of_lt) e 1 (by omega)
          have h1 : (linspace 0 20 m).getD 1 0 < e := by
            rw [hg, grid_getD _ _ (by omega)]
            have : (0 : ℚ) + (20 - 0) / ((m : ℚ) - 1) * ((1 : ℕ) : ℚ) = 20 / ((m : ℚ) - 1) := by
              push_cast; ring
            rw [this]
            linarith
          have h2 := hsl.1 h1
          have hm3 : 3 ≤ m := by
            by_contra hm3
            have : m = 2 := by omega
            subst this
            norm_num at hstep
            linarith
          unfold interval at hk0
          omega
        rw [List.getD_eq_getElem _ _ (by simpa using hk)]
        simp only [List.getElem_map, ExtModel.value, highDefault, if_true]
        have hkm : k < m := by rw [hg, grid_length] at hk; exact hk
        have hval : (linspace 0 20 m)[k] = (20 - 0) / ((m : ℚ) - 1) * k := by
          have := grid_getD 0 ((20 - 0) / ((m : ℚ) - 1)) hkm
          rw [List.getD_eq_getElem _ _ (by simpa using hkm)] at this
          simp only [hg]
          rw [this]; ring
        have hpos : 0 < (linspace 0 20 m)[k] := by
          rw [hval]
          have : (0 : ℚ) < k := by exact_mod_cast hk1
          positivity
        rw [if_neg hpos.ne']
        refine ⟨_, rfl, ?_⟩
        have hpos' : (0 : ℝ) < ((linspace 0 20 m)[k] : ℚ) := by exact_mod_cast hpos
        have := Real.exp_pos (sh * ((linspace 0 20 m)[k] : ℚ) + th)
        positivity

theorem fnld_pos {nld : Curve} {a : ℚ} (hn : 2 ≤ nld.E.length)
    (hp : ∀ k < nld.E.length, ∃ x, nld.v.getD k none = some x ∧ 0 < x) (ha : nld.E.head? = some a)
    (ha0 : a ≤ 0) {model : ℚ → Except Err ℝ} (hm : ∀ e, ∃ y, model e = .ok y ∧ 0 < y) {e : ℚ}
    (he : 0 ≤ e) : ∃ y, fnld nld model e = .ok y ∧ 0 < y := by
  unfold fnld
  cases hb : nld.E.getLast? with
  | none =>
    rw [List.getLast?_eq_none_iff] at hb
    rw [hb] at hn
    simp at hn
  | some b =>
    simp only
    by_cases h : e ≤ b
    · rw [if_pos h]
      exact logInterp_ok hn ha hb (by linarith) h fun k _ hk => hp k hk
    · rw [if_neg h]
      exact hm e

theorem mapM_pos {f : ℚ → Except Err ℝ} (l : List ℚ)
    (h : ∀ e ∈ l, ∃ y, f e = .ok y ∧ 0 ≤ y ∧ (0 < e → 0 < y)) (x : ℚ) (hx : x ∈ l) (hx0 : 0 < x) :
    ∃ ys, l.mapM f = .ok ys ∧ 0 < ys.sum := by
  have hnn : ∀ l : List ℚ, (∀ e ∈ l, ∃ y, f e = .ok y ∧ 0 ≤ y ∧ (0 < e → 0 < y)) →
      ∃ ys, l.mapM f = .ok ys ∧ 0 ≤ ys.sum := by
    intro l
    induction l with
    | nil => intro _; exact ⟨[], rfl, by simp⟩
    | cons e es ih =>
      intro h
      obtain ⟨y, h1, h2, -⟩ := h e (by simp)
      obtain ⟨ys, h3, h4⟩ := ih fun e he => h e (by simp [he])
      refine ⟨y :: ys, ?_, ?_⟩
      · rw [List.mapM_cons, h1, h3]; rfl
      · rw [List.sum_cons]; linarith
  induction l with
  | nil => simp at hx
  | cons e es ih =>
    obtain ⟨y, h1, h2, h2'⟩ := h e (by simp)
    rw [List.mem_cons] at hx
    rcases hx with rfl | hx
    · obtain ⟨ys, h3, h4⟩ := hnn es fun e he => h e (by simp [he])
      refine ⟨y :: ys, ?_, ?_⟩
      · rw [List.mapM_cons, h1, h3]; rfl
      · rw [List.sum_cons]
        have := h2' hx0
        linarith
    · obtain ⟨ys, h3, h4⟩ := ih (fun e he => h e (by simp [he])) hx
      refine ⟨y :: ys, ?_, ?_⟩
      · rw [List.mapM_cons, h1, h3]; rfl
      · rw [List.sum_cons]; linarith

theorem oslo_pos {v : Vec ℝ} (hp : ∀ x ∈ v.values, 0 < x) {A a : ℝ} (hA : 0 < A) :
    ∀ x ∈ (oslo v A a).values, 0 < x := by
  intro x hx
  unfold oslo Vec.transform at hx
  simp only at hx
  obtain ⟨k, hk, rfl⟩ := List.getElem_of_mem hx
  rw [List.getElem_zipWith]
  have hk' : k < v.values.length := by simp at hk; omega
  have := hp _ (List.getElem_mem hk')
  have := Real.exp_pos (a * (v.E[k]'(by simp at hk; omega) : ℚ))
  positivity

/-- The computed width is positive for positive data, a level density that starts at or below 0, and
default extrapolations up to 20 MeV. -/
theorem ggStandard_pos (p : GgPars) (v : Vec ℝ) (nld : Curve) (model S : ℚ → Except Err ℝ)
    (sl tl sh th : ℝ) (n m : ℕ) (a b n0 : ℚ)
    (hs : v.E.Pairwise (· < ·)) (hn : 2 ≤ v.E.length) (hlen : v.values.length = v.E.length)
    (hp : ∀ x ∈ v.values, 0 < x) (ha : v.E.head? = some a) (hb : v.E.getLast? = some b)
    (hn2 : 2 ≤ n) (hm2 : 2 ≤ m) (hstep : 20 / ((m : ℚ) - 1) ≤ b)
    (hE0 : 0 ≤ p.Emin) (hES : p.Emin < p.Sn) (hS20 : p.Sn ≤ 20) (hps : 2 ≤ p.steps) (hD : 0 < p.D0.1)
    (hnn : 2 ≤ nld.E.length)
    (hnp : ∀ k < nld.E.length, ∃ x, nld.v.getD k none = some x ∧ 0 < x) (hn0 : nld.E.head? = some n0)
    (hn00 : n0 ≤ 0) (hm : ∀ e, ∃ y, model e = .ok y ∧ 0 < y) (hS : ∀ e, ∃ y, S e = .ok y ∧ 0 < y) :
    ∃ G, ggStandard p v.curve
      ⟨linspace 0 a n, (linspace 0 a n).map ((lowDefault sl tl false n).value tl)⟩
      ⟨linspace 0 20 m, (linspace 0 20 m).map ((highDefault sh th false m).value th)⟩ nld model S = .ok G ∧
      0 < G := by
  unfold ggStandard
  rw [if_neg (by omega)]
  obtain ⟨ys, h1, h2⟩ := mapM_pos (f := ggTerm p.Sn v.curve
      ⟨linspace 0 a n, (linspace 0 a n).map ((lowDefault sl tl false n).value tl)⟩
      ⟨linspace 0 20 m, (linspace 0 20 m).map ((highDefault sh th false m).value th)⟩ nld model S)
    (linspace p.Emin p.Sn p.steps) (by
      intro e he
      obtain ⟨e1, e2⟩ := linspace_mem hES.le hps he
      have he0 : 0 ≤ e := le_trans hE0 e1
      obtain ⟨g, g1, g2⟩ := fgsf_pos hs hn hlen hp ha hb sl tl sh th hn2 hm2 hstep he0
        (le_trans e2 hS20)
      obtain ⟨r, r1, r2⟩ := fnld_pos hnn hnp hn0 hn00 hm (e := p.Sn - e) (by linarith)
      obtain ⟨s, s1, s2⟩ := hS (p.Sn - e)
      have he0' : (0 : ℝ) ≤ (e : ℝ) := by exact_mod_cast he0
      refine ⟨(e : ℝ) ^ 3 * g * r * s, ?_, by positivity, ?_⟩
      · unfold ggTerm
        rw [g1, r1, s1]
        rfl
      · intro hpos
        have : (0 : ℝ) < (e : ℝ) := by exact_mod_cast hpos
        positivity) p.Sn
    (List.mem_of_getLast? (linspace_getLast p.Emin p.Sn hps)) (by linarith)
  rw [h1]
  refine ⟨_, rfl, ?_⟩
  have hw : (0 : ℝ) < (((p.Sn - p.Emin) / ((p.steps : ℚ) - 1) : ℚ) : ℝ) := by
    exact_mod_cast step_pos hES hps
  positivity

/-- C48: the normalisation succeeds for every positive strength function on at least two ascending
energies in MeV, every positive level density that reaches down to 0 and every positive spin sum, with
new extrapolation models. -/
theorem C48_total (p : GgPars) (v : Vec ℝ) (nld : Curve) (model S : ℚ → Except Err ℝ)
    (fit : Vec ℝ → ExtModel → Except Err (ℝ × ℝ)) (alpha : ℝ)
    (sl tl sh th : ℝ) (fl fh : Bool) (n m : ℕ) (b n0 : ℚ)
    (hfit : ∀ m, ∃ r, fit (oslo v 1 alpha) m = .ok r) (hu : v.units = "MeV")
    (hs : v.E.Pairwise (· < ·)) (hn : 2 ≤ v.E.length) (hlen : v.values.length = v.E.length)
    (hp : ∀ x ∈ v.values, 0 < x) (hb : v.E.getLast? = some b)
    (hn2 : 2 ≤ n) (hm2 : 2 ≤ m) (hstep : 20 / ((m : ℚ) - 1) ≤ b)
    (hE0 : 0 ≤ p.Emin) (hES : p.Emin < p.Sn) (hS20 : p.Sn ≤ 20) (hps : 2 ≤ p.steps) (hD : 0 < p.D0.1)
    (hG : 0 < p.Gg) (hnn : 2 ≤ nld.E.length)
    (hnp : ∀ k < nld.E.length, ∃ x, nld.v.getD k none = some x ∧ 0 < x) (hn0 : nld.E.head? = some n0)
    (hn00 : n0 ≤ 0) (hm : ∀ e, ∃ y, model e = .ok y ∧ 0 < y) (hS : ∀ e, ∃ y, S e = .ok y ∧ 0 < y) :
    ∃ r, gsfNormalize p (lowDefault sl tl fl n) (highDefault sh th fh m) fit alpha nld model S v = .ok r := by
  obtain ⟨a, ha⟩ : ∃ a, v.E.head? = some a := by
    cases hE : v.E with
    | nil => rw [hE] at hn; simp at hn
    | cons x xs => exact ⟨x, rfl⟩
  have hv : v.toMeV = .ok v := by unfold Vec.toMeV; rw [if_pos hu]
  -- the models after the fit
  obtain ⟨sl', tl', sh', th', hf⟩ : ∃ sl' tl' sh' th', fitModels fit ((lowDefault sl tl fl n).autorange a)
      ((highDefault sh th fh m).autorange a) (oslo v 1 alpha) =
      .ok (⟨false, sl', tl', none, some 0, some a, n, fl⟩, ⟨true, sh', th', none, some 0, some 20, m, fh⟩) := by
    unfold fitModels
    cases fl with
    | false => exact ⟨sl, tl, sh, th, rfl⟩
    | true =>
      obtain ⟨r1, h1⟩ := hfit ((lowDefault sl tl true n).autorange a)
      obtain ⟨r2, h2⟩ := hfit ((highDefault sh th fh m).autorange a)
      refine ⟨r1.1, r1.2, r2.1, r2.2, ?_⟩
      rw [if_pos (by rfl), h1, h2]
      rfl
  obtain ⟨G, hGG, hGpos⟩ := ggStandard_pos p (oslo v 1 alpha) nld model S sl' tl' sh' th' n m a b n0 hs hn
    (by unfold oslo Vec.transform; simp [hlen]) (oslo_pos hp one_pos) ha hb hn2 hm2 hstep hE0 hES hS20 hps
    hD hnn hnp hn0 hn00 hm hS
  have hB : 0 < p.Gg / G := by positivity
  unfold gsfNormalize
  rw [hv]
  simp only [bind, Except.bind, pure, Except.pure]
  have ha' : (oslo v 1 alpha).E.head? = some a := ha
  rw [ha']
  simp only
  rw [hf]
  simp only [ExtModel.extrapolate, Bool.false_eq_true, if_false]
  have hGG' : ggStandard p (oslo v 1 alpha).curve
      ⟨linspace 0 a n, (linspace 0 a n).map
        (ExtModel.value ⟨false, sl', tl', none, some 0, some a, n, fl⟩ tl')⟩
      ⟨linspace 0 20 m, (linspace 0 20 m).map
        (ExtModel.value ⟨true, sh', th', none, some 0, some 20, m, fh⟩ th')⟩ nld model S = .ok G := hGG
  rw [hGG']
  simp only
  rw [if_neg (by push Not; exact ⟨hGpos.ne', hD.ne'⟩)]
  unfold ExtModel.normToShiftAfter
  rw [if_pos hB, if_pos hB]
  exact ⟨_, rfl⟩

/-- C48: with a level density that starts above 0 there is no result: the last gamma energy is Sn, and the
level density is needed at 0. -/
theorem C48_needs_zero (p : GgPars) (g l h nld : Curve) (model S : ℚ → Except Err ℝ) (a b : ℚ)
    (hs : nld.E.Pairwise (· < ·)) (ha : nld.E.head? = some a) (hb : nld.E.getLast? = some b) (ha0 : 0 < a)
    (G : ℝ) : ggStandard p g l h nld model S ≠ .ok G := by
  intro hG
  unfold ggStandard at hG
  by_cases hps : p.steps < 2
  · rw [if_pos hps] at hG; simp at hG
  · rw [if_neg hps] at hG
    cases hys : (linspace p.Emin p.Sn p.steps).mapM (ggTerm p.Sn g l h nld model S) with
    | error e => rw [hys] at hG; simp [bind, Except.bind] at hG
    | ok ys =>
      have hmem := List.mem_of_getLast? (linspace_getLast p.Emin p.Sn (n := p.steps) (by omega))
      obtain ⟨k, hk, hkS⟩ := List.getElem_of_mem hmem
      obtain ⟨hl, hr⟩ := mapM_rows _ _ _ hys
      have := hr k hk (by omega)
      rw [hkS] at this
      unfold ggTerm at this
      cases hg : fgsf g l h p.Sn with
      | error e => rw [hg] at this; simp [bind, Except.bind] at this
      | ok y =>
        rw [hg] at this
        have hf : fnld nld model (p.Sn - p.Sn) = .error .valueError := by
          unfold fnld
          rw [hb]
          simp only
          have hab := head_le_last hs ha hb
          rw [if_pos (by linarith), logInterp_outside ha hb (Or.inl (by linarith))]
        rw [hf] at this
        simp [bind, Except.bind] at this

/-! ## A small case in full -/

theorem logInterp_const {c : Curve} {k : ℝ} (hk : 0 < k) {a b e : ℚ} (hn : 2 ≤ c.E.length)
    (ha : c.E.head? = some a) (hb : c.E.getLast? = some b) (h1 : a ≤ e) (h2 : e ≤ b)
    (hv : ∀ i < c.E.length, c.v.getD i none = some k) : logInterp c e = .ok k := by
  have hi : interval c.E e < c.E.length := by unfold interval; omega
  unfold logInterp
  rw [ha, hb]
  simp only
  rw [if_neg (by push Not; exact ⟨h1, h2⟩), if_neg (by omega), hv _ (by omega), hv _ hi]
  simp only [logOf, hk, if_true, sub_self, zero_div, zero_mul, add_zero, Real.exp_log hk]

/-- Parameters of the small case: five gamma energies from 0 to 2 MeV. -/
noncomputable def gsfCasePars : GgPars := ⟨0, 2, 5, (1, 1 / 10), 6250⟩

/-- The small case: strength 1 at 1 and 2 MeV. -/
def gsfCase : Vec ℝ := ⟨[1, 2], [1, 1], none, "MeV"⟩

/-- The small case: level density 1 at 0 and 2 MeV. -/
def nldCase : Curve := ⟨[0, 2], [some 1, some 1]⟩

/-- The width of the small case with strength `k` in the data and 1 below. -/
theorem gsfCase_width (k : ℝ) (hk : 0 < k) (p : GgPars) (hp : p.Emin = 0 ∧ p.Sn = 2 ∧ p.steps = 5 ∧ p.D0.1 = 1)
    (high : Curve) :
    ggStandard p ⟨[1, 2], [some k, some k]⟩ ⟨[0, 1], [some 1, some 1]⟩ high nldCase (fun _ => .ok 1)
      (fun _ => .ok 1) = .ok (k * 3093.75 + 31.25) := by
  obtain ⟨h1, h2, h3, h4⟩ := hp
  unfold ggStandard
  rw [h1, h2, h3, h4, if_neg (by norm_num)]
  have hgrid : linspace 0 2 5 = [0, 1/2, 1, 3/2, 2] := by decide +kernel
  have hlow : ∀ e : ℚ, 0 ≤ e → e ≤ 1 → logInterp ⟨[0, 1], [some 1, some 1]⟩ e = .ok 1 := by
    intro e e1 e2
    apply logInterp_const one_pos (a := 0) (b := 1) (by simp) rfl rfl e1 e2
    intro i hi
    simp only [List.length_cons, List.length_nil] at hi
    interval_cases i <;> rfl
  have hnld : ∀ e : ℚ, 0 ≤ e → e ≤ 2 → logInterp nldCase e = .ok 1 := by
    intro e e1 e2
    apply logInterp_const one_pos (a := 0) (b := 2) (by simp [nldCase]) rfl rfl e1 e2
    intro i hi
    simp only [nldCase, List.length_cons, List.length_nil] at hi
    interval_cases i <;> rfl
  have hdat : ∀ e : ℚ, 1 ≤ e → e ≤ 2 → logInterp ⟨[1, 2], [some k, some k]⟩ e = .ok k := by
    intro e e1 e2
    apply logInterp_const hk (a := 1) (b := 2) (by simp) rfl rfl e1 e2
    intro i hi
    simp only [List.length_cons, List.length_nil] at hi
    interval_cases i <;> rfl
  have ht : ∀ e : ℚ, 0 ≤ e → e ≤ 2 → ggTerm 2 ⟨[1, 2], [some k, some k]⟩ ⟨[0, 1], [some 1, some 1]⟩ high
      nldCase (fun _ => .ok 1) (fun _ => .ok 1) e = .ok ((e : ℝ) ^ 3 * (if e < 1 then 1 else k)) := by
    intro e e1 e2
    have hg : fgsf ⟨[1, 2], [some k, some k]⟩ ⟨[0, 1], [some 1, some 1]⟩ high e =
        .ok (if e < 1 then 1 else k) := by
      unfold fgsf
      simp only [List.head?_cons, List.getLast?_cons_cons, List.getLast?_singleton]
      by_cases h : e < 1
      · rw [if_pos h, if_pos h, hlow e e1 h.le]
      · rw [if_neg h, if_neg h, if_pos e2, hdat e (not_lt.1 h) e2]
    have hn : fnld nldCase (fun _ => .ok 1) (2 - e) = .ok 1 := by
      unfold fnld
      have : nldCase.E.getLast? = some 2 := rfl
      rw [this]
      simp only
      rw [if_pos (by linarith), hnld _ (by linarith) (by linarith)]
    unfold ggTerm
    rw [hg, hn]
    simp [bind, Except.bind, pure, Except.pure]
  rw [hgrid]
  simp only [List.mapM_cons, List.mapM_nil]
  rw [ht 0 (by norm_num) (by norm_num), ht (1 / 2) (by norm_num) (by norm_num),
    ht 1 (by norm_num) (by norm_num), ht (3 / 2) (by norm_num) (by norm_num), ht 2 (by norm_num) (by norm_num)]
  simp only [bind, Except.bind, pure, Except.pure]
  congr 1
  norm_num
  ring

/-- The small case is normalised with `B = 2`, and the hypotheses of C48 are met. -/
theorem gsfCase_normalize : ∃ r, gsfNormalize gsfCasePars (lowDefault 0 0 false 2) (highDefault 0 0 false 21)
    (fun _ _ => .error .undefined) 0 nldCase (fun _ => .ok 1) (fun _ => .ok 1) gsfCase = .ok r ∧
    r.norm.gsf.curve = ⟨[1, 2], [some 2, some 2]⟩ ∧ r.norm.gsfLow = ⟨[0, 1], [some 1, some 1]⟩ ∧ r.B = 2 := by
  have hv : gsfCase.toMeV = .ok gsfCase := rfl
  have hc : (oslo gsfCase 1 0).curve = ⟨[1, 2], [some 1, some 1]⟩ := by
    simp [oslo, Vec.transform, Vec.curve, gsfCase]
  have hE : (oslo gsfCase 1 0).E.head? = some 1 := rfl
  have hlin : linspace 0 1 2 = [0, 1] := by decide +kernel
  have hw := gsfCase_width 1 one_pos gsfCasePars ⟨rfl, rfl, rfl, rfl⟩
    ⟨linspace 0 20 21, (linspace 0 20 21).map ((highDefault 0 0 false 21).value 0)⟩
  unfold gsfNormalize
  rw [hv]
  simp only [bind, Except.bind, pure, Except.pure]
  rw [hE]
  simp only [fitModels, lowDefault, highDefault, ExtModel.autorange, Bool.false_eq_true, if_false, pure,
    Except.pure, ExtModel.extrapolate, Option.getD_none, if_true]
  have hlow : (⟨linspace 0 1 2, (linspace 0 1 2).map
      (ExtModel.value ⟨false, 0, 0, none, some 0, some 1, 2, false⟩ 0)⟩ : Curve) =
      ⟨[0, 1], [some 1, some 1]⟩ := by
    rw [hlin]
    simp [ExtModel.value]
  rw [hlow, hc]
  have hw' : ggStandard gsfCasePars ⟨[1, 2], [some 1, some 1]⟩ ⟨[0, 1], [some 1, some 1]⟩
      ⟨linspace 0 20 21, (linspace 0 20 21).map
        (ExtModel.value ⟨true, 0, 0, none, some 0, some 20, 21, false⟩ 0)⟩ nldCase (fun _ => .ok 1)
      (fun _ => .ok 1) = .ok (1 * 3093.75 + 31.25) := hw
  rw [hw']
  have hB : gsfCasePars.Gg / (1 * 3093.75 + 31.25) = 2 := by
    simp only [gsfCasePars]; norm_num
  simp only
  rw [if_neg (by norm_num [gsfCasePars]), hB]
  simp only [ExtModel.normToShiftAfter]
  rw [if_pos two_pos, if_pos two_pos]
  refine ⟨_, rfl, ?_, rfl, rfl⟩
  simp [oslo, Vec.transform, Vec.curve, gsfCase]

/-- C48 fails for `Gg_before_norm` after the normalisation: in the small case it gives 6218.75 although the
experimental width, and that of the results, is 6250. -/
theorem C48_again_fails : ∃ r, gsfNormalize gsfCasePars (lowDefault 0 0 false 2) (highDefault 0 0 false 21)
    (fun _ _ => .error .undefined) 0 nldCase (fun _ => .ok 1) (fun _ => .ok 1) gsfCase = .ok r ∧
    r.width gsfCasePars nldCase (fun _ => .ok 1) (fun _ => .ok 1) = .ok 6250 ∧
    r.ggAgain gsfCasePars nldCase (fun _ => .ok 1) (fun _ => .ok 1) = .ok 6218.75 := by
  obtain ⟨r, h1, h2, h3, h4⟩ := gsfCase_normalize
  refine ⟨r, h1, (C48_width _ _ _ _ _ _ _ _ _ r h1).1, ?_⟩
  unfold GsfResult.ggAgain
  rw [h2, h3, gsfCase_width 2 two_pos gsfCasePars ⟨rfl, rfl, rfl, rfl⟩]
  norm_num

/-- C48 fails for an unknown method: the error is made but not raised, and the width is `None`. -/
theorem C48_method_fails (x : Except Err ℝ) : ggBeforeNorm "other" x = .ok none := rfl

/-! ## The ranges of the extrapolations -/

/-- C63: a new normaliser extrapolates from 0 to the first energy of the data and up to 20 MeV, whatever
the data. -/
theorem C63_fresh_partial (scale shift : ℝ) (fitted : Bool) (n : ℕ) (x : ℚ) :
    ((lowDefault scale shift fitted n).autorange x).Emin = some 0 ∧
    ((lowDefault scale shift fitted n).autorange x).Emax = some x ∧
    ((highDefault scale shift fitted n).autorange x).Emin = some 0 ∧
    ((highDefault scale shift fitted n).autorange x).Emax = some 20 := ⟨rfl, rfl, rfl, rfl⟩

/-- C63: for at least eight energies the guessed fit ranges are ranges of the data with more than one
energy: those from number 2, or up to the last but one, a sixth of the data further. -/
theorem C63_fitrange (E : List ℚ) (hs : E.Pairwise (· < ·)) (hn : 8 ≤ E.length) (high : Bool)
    (index : ℚ → ℕ) (hi : ∀ k < E.length, index (E.getD k 0) = k) :
    ∃ r pts, autofitrange high (none, none) E = .ok r ∧ fitPoints index E r = .ok pts ∧
      pts.length = E.length / 6 + 1 ∧ 2 ≤ pts.length ∧
      ∃ k, k + pts.length < E.length ∧ 1 ≤ k ∧ pts = (E.drop k).take pts.length := by
  have hlt : ∀ i j, i < j → j < E.length → E.getD i 0 < E.getD j 0 := by
    intro i j hij hj
    rw [List.getD_eq_getElem _ _ (by omega), List.getD_eq_getElem _ _ hj]
    exact List.pairwise_iff_getElem.1 hs i j _ _ hij
  have key : ∀ i j, i < j → j < E.length → fitPoints index E (E.getD i 0, E.getD j 0) =
      .ok ((E.take (j + 1)).drop i) := by
    intro i j hij hj
    unfold fitPoints
    simp only
    rw [if_pos (hlt i j hij hj), hi i (by omega), hi j hj]
  have h8 : ¬ E.length < 8 := by omega
  cases high with
  | false =>
    refine ⟨(E.getD 2 0, E.getD (E.length / 6 + 2) 0), (E.take (E.length / 6 + 2 + 1)).drop 2, ?_,
      key _ _ (by omega) (by omega), ?_, ?_, 2, ?_, by omega, ?_⟩
    · simp [autofitrange, h8, bind, Except.bind, pure, Except.pure]
    · simp; omega
    · simp; omega
    · simp; omega
    · rw [List.drop_take]
      simp
  | true =>
    refine ⟨(E.getD (E.length - E.length / 6 - 2) 0, E.getD (E.length - 2) 0),
      (E.take (E.length - 2 + 1)).drop (E.length - E.length / 6 - 2), ?_,
      key _ _ (by omega) (by omega), ?_, ?_, E.length - E.length / 6 - 2, ?_, by omega, ?_⟩
    · simp [autofitrange, h8, bind, Except.bind, pure, Except.pure]
    · simp; omega
    · simp; omega
    · simp; omega
    · rw [List.drop_take]
      simp

/-- C63: with fewer energies the fit range has to be given. -/
theorem C63_fitrange_short (E : List ℚ) (hn : E.length < 8) (high : Bool) (fit : Option ℚ × Option ℚ) :
    (∃ r, autofitrange high fit E = .ok r) ↔ ∃ a b, fit = (some a, some b) := by
  obtain ⟨a, b⟩ := fit
  cases a <;> cases b <;> simp [autofitrange, hn, bind, Except.bind, pure, Except.pure]

example : autofitrange false (none, none) [1, 2, 3, 4, 5, 6, 7, 8] = .ok (3, 4) ∧
    autofitrange true (none, none) [1, 2, 3, 4, 5, 6, 7, 8] = .ok (6, 7) := by decide +kernel

/-- C63 fails: the ranges of the first strength function stay. -/
theorem C63_stale_fails (m : ExtModel) (x y : ℚ) :
    (m.autorange x).autorange y = m.autorange x := by
  unfold ExtModel.autorange
  simp

/-- C63 fails: if the second strength function starts above the first one and a gamma energy of the grid
lies between, the width cannot be computed, whatever the values, level density and spin sum. -/
theorem C63_second_gsf_fails (p : GgPars) (m m' : ExtModel) (hm : m.Emin = none ∧ m.Emax = none ∧ m.high = false)
    (h2 : 2 ≤ m.steps) (x y : ℚ) (hm' : m' = (m.autorange x).autorange y) (low : Curve)
    (hl : m'.extrapolate false = .ok low) (g high nld : Curve) (model S : ℚ → Except Err ℝ) (b e : ℚ)
    (hg : g.E.head? = some y) (hg' : g.E.getLast? = some b) (h1 : x < e) (he : e < y)
    (hgrid : e ∈ linspace p.Emin p.Sn p.steps) (G : ℝ) :
    ggStandard p g low high nld model S ≠ .ok G := by
  intro hG
  rw [C63_stale_fails] at hm'
  subst hm'
  unfold ExtModel.extrapolate ExtModel.autorange at hl
  obtain ⟨q1, q2, q3⟩ := hm
  simp only [q1, q2, q3, Option.getD_none, Bool.false_eq_true, if_false] at hl
  injection hl with hl
  unfold ggStandard at hG
  by_cases hps : p.steps < 2
  · rw [if_pos hps] at hG; simp at hG
  · rw [if_neg hps] at hG
    cases hys : (linspace p.Emin p.Sn p.steps).mapM (ggTerm p.Sn g low high nld model S) with
    | error e => rw [hys] at hG; simp [bind, Except.bind] at hG
    | ok ys =>
      obtain ⟨k, hk, hkS⟩ := List.getElem_of_mem hgrid
      obtain ⟨hl', hr⟩ := mapM_rows _ _ _ hys
      have := hr k hk (by omega)
      rw [hkS] at this
      unfold ggTerm at this
      have hf : fgsf g low high e = .error .valueError := by
        unfold fgsf
        rw [hg, hg']
        simp only
        rw [if_pos he]
        apply logInterp_outside (a := 0) (b := x)
        · rw [← hl]
          simp only
          rw [linspace_grid _ _ h2]
          exact grid_head _ _ (by omega)
        · rw [← hl]
          exact linspace_getLast 0 x h2
        · exact Or.inr h1
      rw [hf] at this
      simp [bind, Except.bind] at this

end Ompy
