import Verif.ExtStats
import Verif.StatsProps

/-!
# C96: the extrapolations of the samples
-/

namespace Ompy

/-- What the attribute `method` asks for: a model to be fitted is fitted, a fixed one is left alone. -/
def asked (F : FitFun) (m : ExtM) (gsf : NVec) : Except Err ExtM := if m.fitted then m.fit F gsf else .ok m

/-- **C96.** If both models have the same method, each is treated as its method asks. -/
theorem C96_method_partial (F : FitFun) (l h : ExtM) (gsf : NVec) (hm : l.fitted = h.fitted) :
    fitBoth F (l, h) gsf = (asked F l gsf).bind fun l' => (asked F h gsf).map fun h' => (l', h') := by
  unfold fitBoth asked
  by_cases hl : l.fitted
  · have hh : h.fitted = true := by rw [← hm]; exact hl
    simp only [hl, hh, if_true, bind, Except.bind, pure, Except.pure]
    cases l.fit F gsf with
    | error e => rfl
    | ok l' => cases h.fit F gsf <;> rfl
  · have hh : ¬ h.fitted = true := by rw [← hm]; exact hl
    simp only [hl, hh, if_false, Except.bind, Except.map]
    rfl

/-- **C96 (disagreement).** Only the method of the lower model counts: a fixed upper model loses its parameters to a fit if the lower one is
fitted, and an upper model that is to be fitted is not if the lower one is fixed. -/
theorem C96_method_fails :
    (∀ (F : FitFun) (l h l' h' : ExtM) (gsf : NVec), l.fitted = true → h.fitted = false → l.fit F gsf = .ok l' →
      h.fit F gsf = .ok h' → fitBoth F (l, h) gsf = .ok (l', h')) ∧
    (∀ (F : FitFun) (l h : ExtM) (gsf : NVec), l.fitted = false → h.fitted = true → fitBoth F (l, h) gsf = .ok (l, h)) ∧
    ∃ (F : FitFun) (l h : ExtM) (gsf : NVec), h.fitted = false ∧ ∃ r, fitBoth F (l, h) gsf = .ok r ∧ r.2.scale ≠ h.scale ∧
      r.2.shift ≠ h.shift := by
  refine ⟨?_, ?_, ?_⟩
  · intro F l h l' h' gsf h1 _ h3 h4
    unfold fitBoth
    simp only [h1, if_true, h3, h4, bind, Except.bind, pure, Except.pure]
  · intro F l h gsf h1 _
    unfold fitBoth
    simp [h1]
  · refine ⟨fun _ _ _ => .ok (7, 8), ⟨false, true, 1, 25, (some 1, some 2)⟩, ⟨true, false, 3, 4, (some 5, some 6)⟩,
      ⟨[], [], none, "MeV"⟩, rfl, (⟨false, true, 7, 8, (some 1, some 2)⟩, ⟨true, false, 7, 8, (some 5, some 6)⟩), ?_, ?_, ?_⟩
    · rfl
    · norm_num
    · norm_num

/-- **C96.** A fit keeps the range it was given; where the range is not set it keeps the one guessed from this vector. Parameters are those of
`curve_fit` in that range. An empty range is an AssertionError. -/
theorem C96_fit (F : FitFun) (m : ExtM) (gsf : NVec) (a b : ℚ) (hr : autofitrange m.high m.efit (energiesOf gsf) = .ok (a, b)) :
    (∀ s t, a < b → F m.high gsf (a, b) = .ok (s, t) → m.fit F gsf = .ok ⟨m.high, m.fitted, s, t, (some a, some b)⟩) ∧
    (b ≤ a → m.fit F gsf = .error .assertion) ∧ (∀ x, m.efit.1 = some x → x = a) ∧ (∀ x, m.efit.2 = some x → x = b) := by
  refine ⟨?_, ?_, ?_, ?_⟩
  · intro s t hab hF
    unfold ExtM.fit
    simp only [hr, bind, Except.bind, if_pos hab, hF, pure, Except.pure]
  · intro hab
    unfold ExtM.fit
    simp only [hr, bind, Except.bind, if_neg (not_lt.2 hab)]
  · intro x hx
    unfold autofitrange at hr
    simp only [hx, bind, Except.bind] at hr
    cases hm : m.efit.2 with
    | some y => simp [hm, pure, Except.pure] at hr; exact hr.1
    | none =>
      by_cases hn : (energiesOf gsf).length < 8
      · simp [hm, hn] at hr
      · simp [hm, hn, pure, Except.pure] at hr; exact hr.1
  · intro x hx
    unfold autofitrange at hr
    simp only [hx, bind, Except.bind] at hr
    cases hm : m.efit.1 with
    | some y => simp [hm, pure, Except.pure] at hr; exact hr.2
    | none =>
      by_cases hn : (energiesOf gsf).length < 8
      · simp [hm, hn] at hr
      · simp [hm, hn, pure, Except.pure] at hr; exact hr.2

example : autofitrange false (none, none) (energiesOf ⟨[], (List.range 8).map fun k : ℕ => some (k : ℚ), none, "MeV"⟩) = .ok (2, 3) ∧
    autofitrange true (none, none) (energiesOf ⟨[], (List.range 8).map fun k : ℕ => some (k : ℚ), none, "MeV"⟩) = .ok (5, 6) := by
  decide +kernel

/-! ## Independence of the samples -/

/-- What a sample on its own gives. -/
def aloneRow (F : FitFun) (M : Bool → ℚ → ℚ → ℚ → Option ℚ) (xlow xhigh : List ℚ) (ms : ExtM × ExtM) (gsf : NVec) :
    Except Err (List (Option ℚ) × List (Option ℚ)) := (extRow F M xlow xhigh ms gsf).map Prod.snd

/-- Two models that differ in the fitted parameters only. -/
def SameSetup (m m' : ExtM) : Prop := m.high = m'.high ∧ m.fitted = m'.fitted ∧ m.efit = m'.efit

theorem fit_setup (F : FitFun) (m m' : ExtM) (gsf : NVec) (h : SameSetup m m') : m.fit F gsf = m'.fit F gsf := by
  obtain ⟨h1, h2, h3⟩ := h
  unfold ExtM.fit
  rw [h1, h3]
  simp only [bind, Except.bind]
  cases autofitrange m'.high m'.efit (energiesOf gsf) with
  | error e => rfl
  | ok r =>
    simp only
    by_cases hr : r.1 < r.2
    · rw [if_pos hr, if_pos hr]
      cases F m'.high gsf r with
      | error e => rfl
      | ok p => simp [pure, Except.pure, h2]
    · rw [if_neg hr, if_neg hr]

theorem autofit_set (high : Bool) (a b : ℚ) (E : List ℚ) : autofitrange high (some a, some b) E = .ok (a, b) := rfl

theorem fit_keeps (F : FitFun) (m m' : ExtM) (gsf : NVec) (a b : ℚ) (he : m.efit = (some a, some b)) (h : m.fit F gsf = .ok m') :
    SameSetup m m' := by
  unfold ExtM.fit at h
  rw [he, autofit_set] at h
  simp only [bind, Except.bind] at h
  by_cases hr : a < b
  · rw [if_pos hr] at h
    cases hF : F m.high gsf (a, b) with
    | error e => rw [hF] at h; cases h
    | ok p =>
      rw [hF] at h
      simp only [pure, Except.pure, Except.ok.injEq] at h
      subst h
      exact ⟨rfl, rfl, he⟩
  · rw [if_neg hr] at h; cases h

/-- The pair of models agree in everything but the parameters, and entirely if they are fixed. -/
def SamePair (ms ms' : ExtM × ExtM) : Prop :=
  SameSetup ms.1 ms'.1 ∧ SameSetup ms.2 ms'.2 ∧ (ms.1.fitted = false → ms = ms')

theorem extRow_same (F : FitFun) (M : Bool → ℚ → ℚ → ℚ → Option ℚ) (xlow xhigh : List ℚ) (ms ms' : ExtM × ExtM) (gsf : NVec)
    (h : SamePair ms ms') : extRow F M xlow xhigh ms gsf = extRow F M xlow xhigh ms' gsf := by
  by_cases hf : ms.1.fitted
  · have hf' : ms'.1.fitted = true := by rw [← h.1.2.1]; exact hf
    unfold extRow fitBoth
    simp only [hf, hf', if_true]
    rw [fit_setup F _ _ gsf h.1, fit_setup F _ _ gsf h.2.1]
  · rw [h.2.2 (by simpa using hf)]

theorem extRow_keeps (F : FitFun) (M : Bool → ℚ → ℚ → ℚ → Option ℚ) (xlow xhigh : List ℚ) (ms ms' : ExtM × ExtM) (gsf : NVec)
    (r : List (Option ℚ) × List (Option ℚ)) (a b c d : ℚ) (h1 : ms.1.efit = (some a, some b)) (h2 : ms.2.efit = (some c, some d))
    (h : extRow F M xlow xhigh ms gsf = .ok (ms', r)) : SamePair ms ms' := by
  unfold extRow fitBoth at h
  by_cases hf : ms.1.fitted
  · simp only [hf, if_true, bind, Except.bind] at h
    cases hl : ms.1.fit F gsf with
    | error e => simp [hl, Except.map] at h
    | ok l =>
      cases hh : ms.2.fit F gsf with
      | error e => simp [hl, hh, Except.map] at h
      | ok u =>
        simp only [hl, hh, pure, Except.pure, Except.map, Except.ok.injEq, Prod.mk.injEq] at h
        rw [← h.1]
        refine ⟨fit_keeps F _ _ gsf a b h1 hl, fit_keeps F _ _ gsf c d h2 hh, fun hc => ?_⟩
        rw [hf] at hc; cases hc
  · simp only [hf, if_false, Except.map, Except.ok.injEq, Prod.mk.injEq] at h
    simp only [Bool.false_eq_true, if_false, Except.ok.injEq, Prod.mk.injEq] at h
    rw [← h.1]
    exact ⟨⟨rfl, rfl, rfl⟩, ⟨rfl, rfl, rfl⟩, fun _ => rfl⟩

theorem samePair_trans {a b c : ExtM × ExtM} (h : SamePair a b) (h' : SamePair b c) : SamePair a c := by
  refine ⟨⟨h.1.1.trans h'.1.1, h.1.2.1.trans h'.1.2.1, h.1.2.2.trans h'.1.2.2⟩,
    ⟨h.2.1.1.trans h'.2.1.1, h.2.1.2.1.trans h'.2.1.2.1, h.2.1.2.2.trans h'.2.1.2.2⟩, fun hf => ?_⟩
  rw [h.2.2 hf]
  exact h'.2.2 (by rw [← h.1.2.1]; exact hf)

theorem samePair_refl (a : ExtM × ExtM) : SamePair a a := ⟨⟨rfl, rfl, rfl⟩, ⟨rfl, rfl, rfl⟩, fun _ => rfl⟩

theorem extRows_from (F : FitFun) (M : Bool → ℚ → ℚ → ℚ → Option ℚ) (xlow xhigh : List ℚ) (ms : ExtM × ExtM) (a b c d : ℚ)
    (h1 : ms.1.efit = (some a, some b)) (h2 : ms.2.efit = (some c, some d)) (gs : List NVec) :
    ∀ cur, SamePair ms cur →
      (extRows F M xlow xhigh cur gs).map Prod.snd = gs.mapM (aloneRow F M xlow xhigh ms) := by
  induction gs with
  | nil => intro cur _; rfl
  | cons g gs ih =>
    intro cur hc
    have e1 : extRow F M xlow xhigh cur g = extRow F M xlow xhigh ms g := (extRow_same F M xlow xhigh ms cur g hc).symm
    rw [List.mapM_cons]
    unfold extRows
    rw [e1]
    unfold aloneRow
    cases hr : extRow F M xlow xhigh ms g with
    | error e => rfl
    | ok p =>
      obtain ⟨ms', r⟩ := p
      have hk := extRow_keeps F M xlow xhigh ms ms' g r a b c d h1 h2 hr
      have := ih ms' hk
      unfold aloneRow at this
      simp only [Except.map, bind, Except.bind, pure, Except.pure] at this ⊢
      rw [← this]
      cases extRows F M xlow xhigh ms' gs <;> rfl

/-- **C96.** With fit ranges that are set, the row of each sample is the one the sample gives on its own, whatever was extrapolated before. -/
theorem C96_independent_partial (F : FitFun) (M : Bool → ℚ → ℚ → ℚ → Option ℚ) (xlow xhigh : List ℚ) (ms : ExtM × ExtM) (a b c d : ℚ)
    (h1 : ms.1.efit = (some a, some b)) (h2 : ms.2.efit = (some c, some d)) (gs : List NVec) :
    (extRows F M xlow xhigh ms gs).map Prod.snd = gs.mapM (aloneRow F M xlow xhigh ms) :=
  extRows_from F M xlow xhigh ms a b c d h1 h2 gs ms (samePair_refl ms)

/-- A sample of eight bins starting at `e`. -/
def eightBins (e : ℚ) : NVec := ⟨[], (List.range 8).map fun k : ℕ => some (e + (k : ℚ)), none, "MeV"⟩

/-- **C96 (disagreement).** With guessed fit ranges the range of the first sample is kept for all others: the rows depend on the order of the
samples. -/
theorem C96_independent_fails : ∃ (F : FitFun) (M : Bool → ℚ → ℚ → ℚ → Option ℚ) (ms : ExtM × ExtM) (r : List (Option ℚ) × List (Option ℚ)),
    aloneRow F M [1] [1] ms (eightBins 10) = .ok r ∧
    ((extRows F M [1] [1] ms [eightBins 0, eightBins 10]).map Prod.snd).toOption.bind (fun rs => rs[1]?) ≠ some r ∧
    ((extRows F M [1] [1] ms [eightBins 10, eightBins 0]).map Prod.snd).toOption.bind (fun rs => rs[0]?) = some r := by
  refine ⟨fun _ _ r => .ok r, fun _ _ s _ => some s, (⟨false, true, 1, 25, (none, none)⟩, ⟨true, true, 1, 25, (none, none)⟩),
    ([some 12], [some 15]), by decide +kernel, by decide +kernel, by decide +kernel⟩

/-! ## The statistics -/

theorem filled_mapM (rows : List (List (Option ℚ))) (n : ℕ) (h : ∀ r ∈ rows, r.length = n) : rows.mapM (fillRow n) = .ok rows := by
  induction rows with
  | nil => rfl
  | cons w l ih =>
    have hw : fillRow n w = .ok w := by unfold fillRow; rw [if_pos (h w List.mem_cons_self)]
    have ih' := ih fun u hu => h u (List.mem_cons_of_mem _ hu)
    simp only [List.mapM_cons, hw, ih', bind, Except.bind, pure, Except.pure]

theorem stats_columns (rows : List (List (Option ℚ))) (n : ℕ) (h : ∀ r ∈ rows, r.length = n) (pl ph : ℚ) (h0 : 0 ≤ pl ∧ pl ≤ 1)
    (h1 : 0 ≤ ph ∧ ph ≤ 1) :
    statsFromRows rows n pl ph = .ok ((List.range n).map fun k : ℕ =>
      ⟨medianCol (rows.map fun r => r.getD k none), quantileCol pl (rows.map fun r => r.getD k none),
        quantileCol ph (rows.map fun r => r.getD k none)⟩) := by
  unfold statsFromRows checkP
  rw [filled_mapM rows n h, if_pos h0, if_pos h1]
  rfl

/-- **C96.** The statistics of the level density model at an energy are those of the model with the parameters of the samples at this energy. -/
theorem C96_nld (model : ℚ → ℚ → ℚ → Option ℚ) (x : List ℚ) (samples : List (ℚ × ℚ)) (pl ph : ℚ) (h0 : 0 ≤ pl ∧ pl ≤ 1)
    (h1 : 0 ≤ ph ∧ ph ≤ 1) :
    ∃ st, nldExtStats model x samples pl ph = .ok st ∧ st.length = x.length ∧ ∀ k (hk : k < x.length) (hs : k < st.length),
      st[k].median = medianCol (samples.map fun s => model x[k] s.1 s.2) ∧
      st[k].low = quantileCol pl (samples.map fun s => model x[k] s.1 s.2) ∧
      st[k].high = quantileCol ph (samples.map fun s => model x[k] s.1 s.2) := by
  have hl : ∀ r ∈ samples.map (fun s => x.map fun e => model e s.1 s.2), r.length = x.length := by
    intro r hr
    obtain ⟨s, _, rfl⟩ := List.mem_map.1 hr
    simp
  refine ⟨_, stats_columns _ _ hl pl ph h0 h1, by simp, ?_⟩
  intro k hk hs
  have : (samples.map fun s => x.map fun e => model e s.1 s.2).map (fun r => r.getD k none) = samples.map fun s => model x[k] s.1 s.2 := by
    rw [List.map_map]
    refine List.map_congr_left fun s _ => ?_
    simp [List.getElem?_eq_getElem hk]
  simp only [List.getElem_map, List.getElem_range]
  rw [this]
  exact ⟨rfl, rfl, rfl⟩

example : (nldExtStats (fun e t s => some ((e - s) / t)) [1, 2] [(1, 0), (2, 0), (1, 1)] (16 / 100) (84 / 100)).toOption.map
    (fun r => r.map StatRow.median) = some [some (1 / 2), some 1] := by decide +kernel

/-- **C96.** The grids of the two extrapolations must have the same number of energies. -/
theorem C96_refused (F : FitFun) (M : Bool → ℚ → ℚ → ℚ → Option ℚ) (xlow xhigh : List ℚ) (ms : ExtM × ExtM) (gs : List NVec) (pl ph : ℚ)
    (h : xlow.length ≠ xhigh.length) : gsfExtStats F M xlow xhigh ms gs pl ph = .error .assertion := by
  unfold gsfExtStats
  rw [if_neg h]

theorem mapM_lengths (F : FitFun) (M : Bool → ℚ → ℚ → ℚ → Option ℚ) (xlow xhigh : List ℚ) (ms : ExtM × ExtM) (gs : List NVec) :
    ∀ ms rs, extRows F M xlow xhigh ms gs = .ok rs → rs.2.length = gs.length ∧
      ∀ r ∈ rs.2, r.1.length = xlow.length ∧ r.2.length = xhigh.length := by
  induction gs with
  | nil =>
    intro ms rs h
    simp only [extRows, Except.ok.injEq] at h
    subst h; simp
  | cons g gs ih =>
    intro ms rs h
    unfold extRows at h
    cases hr : extRow F M xlow xhigh ms g with
    | error e => rw [hr] at h; cases h
    | ok p =>
      obtain ⟨ms', r⟩ := p
      rw [hr] at h
      simp only at h
      cases h2 : extRows F M xlow xhigh ms' gs with
      | error e => rw [h2] at h; cases h
      | ok q =>
        rw [h2] at h
        simp only [Except.map, Except.ok.injEq] at h
        subst h
        obtain ⟨i1, i2⟩ := ih ms' q h2
        refine ⟨by simp [i1], ?_⟩
        intro x hx
        rcases List.mem_cons.1 hx with rfl | hx
        · unfold extRow at hr
          cases hb : fitBoth F ms g with
          | error e => rw [hb] at hr; cases hr
          | ok b =>
            rw [hb] at hr
            simp only [Except.map, Except.ok.injEq, Prod.mk.injEq] at hr
            rw [← hr.2]
            simp [ExtM.at]
        · exact i2 x hx

/-- **C96.** If all samples can be extrapolated, the statistics at every energy are those of the numbers of the samples at this energy, for the lower
and for the upper extrapolation. -/
theorem C96_gsf (F : FitFun) (M : Bool → ℚ → ℚ → ℚ → Option ℚ) (xlow xhigh : List ℚ) (ms : ExtM × ExtM) (gs : List NVec) (pl ph : ℚ)
    (h : xlow.length = xhigh.length) (h0 : 0 ≤ pl ∧ pl ≤ 1) (h1 : 0 ≤ ph ∧ ph ≤ 1)
    (rs : (ExtM × ExtM) × List (List (Option ℚ) × List (Option ℚ))) (hr : extRows F M xlow xhigh ms gs = .ok rs) :
    ∃ lo hi, gsfExtStats F M xlow xhigh ms gs pl ph = .ok (lo, hi) ∧ lo.length = xlow.length ∧ hi.length = xhigh.length ∧
      (∀ k (hk : k < lo.length), lo[k].median = medianCol (rs.2.map fun r => r.1.getD k none) ∧
        lo[k].low = quantileCol pl (rs.2.map fun r => r.1.getD k none) ∧ lo[k].high = quantileCol ph (rs.2.map fun r => r.1.getD k none)) ∧
      ∀ k (hk : k < hi.length), hi[k].median = medianCol (rs.2.map fun r => r.2.getD k none) ∧
        hi[k].low = quantileCol pl (rs.2.map fun r => r.2.getD k none) ∧ hi[k].high = quantileCol ph (rs.2.map fun r => r.2.getD k none) := by
  obtain ⟨-, hl⟩ := mapM_lengths F M xlow xhigh ms gs ms rs hr
  have a := stats_columns (rs.2.map Prod.fst) xlow.length (by
    intro r hr; obtain ⟨x, hx, rfl⟩ := List.mem_map.1 hr; exact (hl x hx).1) pl ph h0 h1
  have b := stats_columns (rs.2.map Prod.snd) xhigh.length (by
    intro r hr; obtain ⟨x, hx, rfl⟩ := List.mem_map.1 hr; exact (hl x hx).2) pl ph h0 h1
  have e : ∀ lo hi, statsFromRows (rs.2.map Prod.fst) xlow.length pl ph = .ok lo →
      statsFromRows (rs.2.map Prod.snd) xhigh.length pl ph = .ok hi → gsfExtStats F M xlow xhigh ms gs pl ph = .ok (lo, hi) := by
    intro lo hi e1 e2
    unfold gsfExtStats
    rw [if_pos h]
    simp only [hr, e1, e2, bind, Except.bind, pure, Except.pure]
  refine ⟨_, _, e _ _ a b, by simp, by simp, ?_, ?_⟩
  · intro k hk
    simp [List.map_map, Function.comp_def]
  · intro k hk
    simp [List.map_map, Function.comp_def]

theorem const_sorted (col : List (Option ℚ)) (x : ℚ) (h : ∀ y ∈ col, y = some x) : sortedCol col = List.replicate col.length x := by
  have : numbersOf col = List.replicate col.length x := by
    clear * - h
    induction col with
    | nil => rfl
    | cons y ys ih =>
      have hy := h y List.mem_cons_self
      subst hy
      have := ih fun z hz => h z (List.mem_cons_of_mem _ hz)
      unfold numbersOf at this ⊢
      have e : List.filterMap id (some x :: ys) = x :: List.filterMap id ys := rfl
      rw [e, this]
      rfl
  have hp := sortedCol_perm col
  rw [this] at hp
  exact List.perm_replicate.1 hp

theorem const_stats (col : List (Option ℚ)) (x p : ℚ) (hne : col ≠ []) (h : ∀ y ∈ col, y = some x) :
    medianCol col = some x ∧ (0 ≤ p ∧ p ≤ 1 → quantileCol p col = some x) := by
  have hs := const_sorted col x h
  have hn : 0 < col.length := List.length_pos_iff.2 hne
  have hne' : List.replicate col.length x ≠ [] := by
    intro hc
    have := congrArg List.length hc
    rw [List.length_replicate, List.length_nil] at this
    omega
  have hg : ∀ i d, i < col.length → (List.replicate col.length x).getD i d = x := by
    intro i d hi
    rw [List.getD_eq_getElem _ d (by simpa using hi)]
    simp
  refine ⟨?_, ?_⟩
  · unfold medianCol
    simp only
    rw [hs, if_neg hne']
    simp only [List.length_replicate]
    rw [hg _ _ (by omega), hg _ _ (by omega)]
    simp
  · intro hp
    unfold quantileCol
    simp only
    rw [hs, if_neg hne']
    simp only [List.length_replicate]
    obtain ⟨-, -, h3⟩ := floor_facts hn hp.1 hp.2
    rw [hg _ _ h3]
    rw [List.getD_eq_getElem?_getD (i := ⌊((col.length : ℚ) - 1) * p⌋.toNat + 1)]
    by_cases hi : ⌊((col.length : ℚ) - 1) * p⌋.toNat + 1 < col.length
    · rw [← List.getD_eq_getElem?_getD, hg _ _ hi]
      simp
    · rw [List.getElem?_eq_none (by simpa using hi)]
      simp

/-- **C96.** With a fixed lower model the samples do not matter: the band of both extrapolations is the single curve of the two models, of width 0. -/
theorem C96_fixed (F : FitFun) (M : Bool → ℚ → ℚ → ℚ → Option ℚ) (xlow xhigh : List ℚ) (l u : ExtM) (gs : List NVec) (pl ph : ℚ)
    (hf : l.fitted = false) (hne : gs ≠ []) (h : xlow.length = xhigh.length) (h0 : 0 ≤ pl ∧ pl ≤ 1) (h1 : 0 ≤ ph ∧ ph ≤ 1) (fl fu : ℚ → ℚ)
    (hl : ∀ e ∈ xlow, M l.high e l.scale l.shift = some (fl e)) (hu : ∀ e ∈ xhigh, M u.high e u.scale u.shift = some (fu e)) :
    ∃ lo hi, gsfExtStats F M xlow xhigh (l, u) gs pl ph = .ok (lo, hi) ∧
      lo.map (fun s => (s.median, s.low, s.high)) = xlow.map (fun e => (some (fl e), some (fl e), some (fl e))) ∧
      hi.map (fun s => (s.median, s.low, s.high)) = xhigh.map (fun e => (some (fu e), some (fu e), some (fu e))) := by
  have hrow : ∀ g, extRow F M xlow xhigh (l, u) g = .ok ((l, u), (l.at M xlow, u.at M xhigh)) := by
    intro g
    unfold extRow fitBoth
    simp [hf, Except.map]
  have hrows : ∀ gs : List NVec, extRows F M xlow xhigh (l, u) gs = .ok ((l, u), gs.map fun _ => (l.at M xlow, u.at M xhigh)) := by
    intro gs
    induction gs with
    | nil => rfl
    | cons g gs ih =>
      unfold extRows
      rw [hrow]
      simp only
      rw [ih]
      rfl
  obtain ⟨lo, hi, he, ll, lh, s1, s2⟩ := C96_gsf F M xlow xhigh (l, u) gs pl ph h h0 h1 _ (hrows gs)
  refine ⟨lo, hi, he, ?_, ?_⟩
  · refine List.ext_getElem (by simp [ll]) fun k hk1 hk2 => ?_
    have hk : k < lo.length := by simpa using hk1
    have hkx : k < xlow.length := by simpa using hk2
    obtain ⟨a, b, c⟩ := s1 k hk
    have key := const_stats ((gs.map fun _ => (l.at M xlow, u.at M xhigh)).map fun r => r.1.getD k none) (fl xlow[k])
    have hne' : (gs.map fun _ => (l.at M xlow, u.at M xhigh)).map (fun r => r.1.getD k none) ≠ [] := by simpa using hne
    have hall : ∀ y ∈ (gs.map fun _ => (l.at M xlow, u.at M xhigh)).map (fun r => r.1.getD k none), y = some (fl xlow[k]) := by
      intro y hy
      simp only [List.map_map, List.mem_map, Function.comp] at hy
      obtain ⟨_, _, rfl⟩ := hy
      unfold ExtM.at
      rw [List.getD_eq_getElem _ none (by simpa using hkx), List.getElem_map]
      exact hl _ (List.getElem_mem hkx)
    simp only [List.getElem_map]
    rw [a, b, c, (key 0 hne' hall).1, (key pl hne' hall).2 h0, (key ph hne' hall).2 h1]
  · refine List.ext_getElem (by simp [lh]) fun k hk1 hk2 => ?_
    have hk : k < hi.length := by simpa using hk1
    have hkx : k < xhigh.length := by simpa using hk2
    obtain ⟨a, b, c⟩ := s2 k hk
    have key := const_stats ((gs.map fun _ => (l.at M xlow, u.at M xhigh)).map fun r => r.2.getD k none) (fu xhigh[k])
    have hne' : (gs.map fun _ => (l.at M xlow, u.at M xhigh)).map (fun r => r.2.getD k none) ≠ [] := by simpa using hne
    have hall : ∀ y ∈ (gs.map fun _ => (l.at M xlow, u.at M xhigh)).map (fun r => r.2.getD k none), y = some (fu xhigh[k]) := by
      intro y hy
      simp only [List.map_map, List.mem_map, Function.comp] at hy
      obtain ⟨_, _, rfl⟩ := hy
      unfold ExtM.at
      rw [List.getD_eq_getElem _ none (by simpa using hkx), List.getElem_map]
      exact hu _ (List.getElem_mem hkx)
    simp only [List.getElem_map]
    rw [a, b, c, (key 0 hne' hall).1, (key pl hne' hall).2 h0, (key ph hne' hall).2 h1]

example : ((⟨false, false, 1, 25, (none, none)⟩ : ExtM).fitted = false) ∧ ([eightBins 0] ≠ []) ∧ [(1 : ℚ), 2].length = [(3 : ℚ), 4].length := by
  simp

end Ompy
