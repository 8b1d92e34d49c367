import Verif.NormPlot
import Verif.GsfNormTotal

/-!
# C120: the plots of the normalisers
-/

namespace Ompy

/-! ## Dictionaries -/

theorem Kw.get_append (d e : Kw) (n : String) : Kw.get (d ++ e) n = (Kw.get d n).or (Kw.get e n) := by
  unfold Kw.get
  rw [List.find?_append]
  cases d.find? fun p => p.1 == n <;> rfl

theorem Kw.get_cons (p : String × String) (d : Kw) (n : String) : Kw.get (p :: d) n = if p.1 = n then some p.2 else Kw.get d n := by
  unfold Kw.get
  rw [List.find?_cons]
  by_cases h : p.1 = n
  · simp [h]
  · have : (p.1 == n) = false := by simpa using h
    rw [this, if_neg h]

theorem Kw.get_nil (n : String) : Kw.get [] n = none := rfl

theorem Kw.has_iff (d : Kw) (n : String) : Kw.has d n = (Kw.get d n).isSome := by
  induction d with
  | nil => rfl
  | cons p d ih =>
    rw [Kw.get_cons]
    unfold Kw.has at *
    rw [List.any_cons, ih]
    by_cases h : p.1 = n
    · simp [h]
    · simp [h]

theorem Kw.get_filter (d : Kw) (f : String → Bool) (n : String) (h : f n = true) : Kw.get (d.filter fun q => f q.1) n = Kw.get d n := by
  induction d with
  | nil => rfl
  | cons p d ih =>
    rw [List.filter_cons]
    by_cases hp : f p.1 = true
    · rw [if_pos hp, Kw.get_cons, Kw.get_cons, ih]
    · rw [if_neg hp, Kw.get_cons, ih, if_neg]
      rintro rfl
      exact hp h

theorem Kw.get_map (d : Kw) (g : String → String → String) (n : String) : Kw.get (d.map fun p => (p.1, g p.1 p.2)) n = (Kw.get d n).map (g n) := by
  induction d with
  | nil => rfl
  | cons p d ih =>
    rw [List.map_cons, Kw.get_cons, Kw.get_cons, ih]
    by_cases h : p.1 = n
    · simp [h]
    · simp [h]

/-- A dictionary after `update`. -/
theorem Kw.get_update (d new : Kw) (n : String) : Kw.get (Kw.update d new) n = (Kw.get new n).or (Kw.get d n) := by
  unfold Kw.update
  rw [Kw.get_append, Kw.get_map d (fun k v => (Kw.get new k).getD v)]
  by_cases h : Kw.has d n = true
  · rw [Kw.has_iff] at h
    obtain ⟨v, hv⟩ := Option.isSome_iff_exists.1 h
    rw [hv]
    cases Kw.get new n <;> simp
  · rw [Kw.get_filter new (fun q => !(Kw.has d q)) n (by simpa using h)]
    rw [Kw.has_iff] at h
    have : Kw.get d n = none := by simpa using h
    rw [this]
    simp

theorem callKw_ok (named extra : Kw) (h : ∀ p ∈ named, Kw.get extra p.1 = none) : callKw named extra = .ok (named ++ extra) := by
  unfold callKw
  rw [if_neg]
  rw [Bool.not_eq_true, List.any_eq_false]
  intro p hp
  rw [Kw.has_iff, h p hp]
  simp

theorem callKw_err (named extra : Kw) (p : String × String) (hp : p ∈ named) (h : Kw.get extra p.1 ≠ none) : callKw named extra = .error .typeError := by
  unfold callKw
  rw [if_pos]
  rw [List.any_eq_true]
  exact ⟨p, hp, by rw [Kw.has_iff]; exact Option.isSome_iff_ne_none.2 h⟩

/-! ## Drawing -/

theorem drawSteps_one (mpl : GCall → Except Err Unit) (hm : ∀ c, mpl c = .ok ()) (c : GCall) (l : List (Except Err (List GCall))) :
    drawSteps mpl (.ok [c] :: l) = (c :: (drawSteps mpl l).1, (drawSteps mpl l).2) := by
  conv_lhs => unfold drawSteps
  simp [hm]

theorem drawSteps_err (mpl : GCall → Except Err Unit) (e : Err) (l : List (Except Err (List GCall))) : drawSteps mpl (.error e :: l) = ([], .error e) := by
  unfold drawSteps
  rfl

theorem drawSteps_nil (mpl : GCall → Except Err Unit) : drawSteps mpl [] = ([], .ok ()) := by
  unfold drawSteps
  rfl

/-- The keyword arguments are none of those the method gives itself. -/
def Kw.Free (k : Kw) : Prop := Kw.get k "ax" = none ∧ Kw.get k "label" = none ∧ Kw.get k "c" = none

/-- Keyword arguments of the lines of the extrapolations. -/
theorem defaults_free {k : Kw} (h : k.Free) : (Kw.update [("markersize", "0"), ("linestyle", "--")] k).Free := by
  refine ⟨?_, ?_, ?_⟩
  · rw [Kw.get_update, h.1]; decide
  · rw [Kw.get_update, h.2.1]; decide
  · rw [Kw.get_update, h.2.2]; decide

/-- **C120.** The plot of the strength function: the points, an extrapolation from the lowest energy to the end of the lower fit range, one from the beginning of the upper fit range to the separation
energy, both with the shift of the normalised function, and the two fit ranges. Every keyword argument reaches the points and both lines, where they replace the defaults. -/
theorem C120_gsf (mpl : GCall → Except Err Unit) (hm : ∀ c, mpl c = .ok ()) (gsf : Vec ℝ) (low high : FitModel) (Sn e0 a b c d : ℚ) (addLabel fit : Bool) (k : Kw) (hk : k.Free)
    (h0 : low.m.Emin = some e0) (hl : low.Efit = (some a, some b)) (hh : high.Efit = (some c, some d)) :
    ∃ ke kl kh : Kw, gsfPlot mpl gsf low high Sn addLabel fit k =
      ([⟨.exp, gsf.E, gsf.values.map some, ke⟩, ⟨.low, linspace e0 b 50, (linspace e0 b 50).map (low.m.value (low.m.shiftAfter.getD low.m.shift)), kl⟩,
        ⟨.high, linspace c Sn 50, (linspace c Sn 50).map (high.m.value (high.m.shiftAfter.getD high.m.shift)), kh⟩] ++
        (if fit then [⟨.limitsLow, [a, b], [], [("color", "grey"), ("alpha", "0.1"), ("label", if addLabel then "fit limits" else "_fit limits")]⟩,
          ⟨.limitsHigh, [c, d], [], [("color", "grey"), ("alpha", "0.1")]⟩] else []), .ok ()) ∧
      (∀ n v, Kw.get k n = some v → ke.get n = some v ∧ kl.get n = some v ∧ kh.get n = some v) ∧
      ke.get "label" = some (if addLabel then "exp." else "_exp.") ∧ kl.get "label" = some (if addLabel then "model" else "_model") ∧ kh.get "label" = none ∧
      kl.get "c" = some "g" ∧ kh.get "c" = some "g" ∧
      (Kw.get k "linestyle" = none → kl.get "linestyle" = some "--" ∧ kh.get "linestyle" = some "--") ∧
      (Kw.get k "markersize" = none → kl.get "markersize" = some "0" ∧ kh.get "markersize" = some "0") := by
  obtain ⟨k1, k2, k3⟩ := hk
  obtain ⟨d1, d2, d3⟩ := defaults_free ⟨k1, k2, k3⟩
  set D := Kw.update [("markersize", "0"), ("linestyle", "--")] k with hD
  refine ⟨[("ax", "ax"), ("label", if addLabel then "exp." else "_exp.")] ++ k, [("ax", "ax"), ("c", "g"), ("label", if addLabel then "model" else "_model")] ++ D, [("ax", "ax"), ("c", "g")] ++ D,
    ?_, ?_, ?_, ?_, ?_, ?_, ?_, ?_, ?_⟩
  · unfold gsfPlot modelLines
    rw [← hD, h0, hl, hh]
    simp only [FitModel.line]
    rw [callKw_ok _ k (by simp [k1, k2]), callKw_ok _ D (by simp [d1, d2, d3]), callKw_ok _ D (by simp [d1, d3])]
    simp only [Except.map, List.cons_append, List.nil_append]
    rw [drawSteps_one mpl hm, drawSteps_one mpl hm, drawSteps_one mpl hm]
    cases fit with
    | false => simp only [Bool.false_eq_true, if_false, drawSteps_nil]
    | true =>
      simp only [if_true, fitRegions, FitModel.span, hl, hh]
      rw [drawSteps_one mpl hm, drawSteps_one mpl hm, drawSteps_nil]
  · intro n v hv
    have hn : n ≠ "ax" ∧ n ≠ "label" ∧ n ≠ "c" := by
      refine ⟨?_, ?_, ?_⟩ <;> rintro rfl
      · rw [k1] at hv; cases hv
      · rw [k2] at hv; cases hv
      · rw [k3] at hv; cases hv
    have hdv : Kw.get D n = some v := by rw [hD, Kw.get_update, hv]; rfl
    simp only [List.cons_append, List.nil_append, Kw.get_cons, if_neg hn.1.symm, if_neg hn.2.1.symm, if_neg hn.2.2.symm]
    exact ⟨hv, hdv, hdv⟩
  · simp [Kw.get_cons]
  · simp [Kw.get_cons]
  · simp [Kw.get_cons, d2]
  · simp [Kw.get_cons]
  · simp [Kw.get_cons]
  · intro h
    have : Kw.get D "linestyle" = some "--" := by rw [hD, Kw.get_update, h]; rfl
    simp [Kw.get_cons, this]
  · intro h
    have : Kw.get D "markersize" = some "0" := by rw [hD, Kw.get_update, h]; rfl
    simp [Kw.get_cons, this]

/-- **C120.** Such a line begins and ends exactly at its limits and stays between them. -/
theorem C120_lines (a b : ℚ) (h : a ≤ b) : (linspace a b 50).length = 50 ∧ (linspace a b 50).head? = some a ∧ (linspace a b 50).getLast? = some b ∧ ∀ e ∈ linspace a b 50, a ≤ e ∧ e ≤ b := by
  refine ⟨by simp [linspace], ?_, linspace_getLast a b (by norm_num), fun e he => linspace_mem h (by norm_num) he⟩
  unfold linspace
  rw [if_neg (by norm_num), List.head?_map]
  simp [List.head?_range]

/-- **C120.** The legend of the strength function has every label once, or none. -/
theorem C120_legend (mpl : GCall → Except Err Unit) (hm : ∀ c, mpl c = .ok ()) (gsf : Vec ℝ) (low high : FitModel) (Sn e0 a b c d : ℚ) (addLabel fit : Bool) (k : Kw) (hk : k.Free)
    (h0 : low.m.Emin = some e0) (hl : low.Efit = (some a, some b)) (hh : high.Efit = (some c, some d)) :
    legendCalls (gsfPlot mpl gsf low high Sn addLabel fit k).1 = if addLabel then (if fit then ["exp.", "model", "fit limits"] else ["exp.", "model"]) else [] := by
  obtain ⟨ke, kl, kh, h, -, l1, l2, l3, -⟩ := C120_gsf mpl hm gsf low high Sn e0 a b c d addLabel fit k hk h0 hl hh
  rw [h]
  unfold legendCalls
  cases addLabel <;> cases fit <;> simp [l1, l2, l3, Kw.get_cons, Kw.get_nil]

/-- **C120.** A label among the keyword arguments: TypeError before anything is drawn. -/
theorem C120_label (mpl : GCall → Except Err Unit) (gsf : Vec ℝ) (low high : FitModel) (Sn : ℚ) (addLabel fit : Bool) (k : Kw) (h : Kw.get k "label" ≠ none) :
    gsfPlot mpl gsf low high Sn addLabel fit k = ([], .error .typeError) := by
  unfold gsfPlot
  rw [callKw_err _ k ("label", _) (List.mem_cons_of_mem _ (List.mem_singleton.2 rfl)) h]
  simp only [Except.map, List.cons_append]
  exact drawSteps_err _ _ _

/-- **C120 (limit).** "`**kwargs`: Additional keyword arguments" – but `c`, which `Vector.plot` accepts, is a TypeError as soon as the points are drawn. -/
theorem C120_colour_fails (mpl : GCall → Except Err Unit) (hm : ∀ c, mpl c = .ok ()) (gsf : Vec ℝ) (low high : FitModel) (Sn e0 a b c d : ℚ) (addLabel fit : Bool) (k : Kw)
    (k1 : Kw.get k "ax" = none) (k2 : Kw.get k "label" = none) (k3 : Kw.get k "c" ≠ none) (h0 : low.m.Emin = some e0) (hl : low.Efit = (some a, some b)) (hh : high.Efit = (some c, some d)) :
    ∃ ke, gsfPlot mpl gsf low high Sn addLabel fit k = ([⟨.exp, gsf.E, gsf.values.map some, ke⟩], .error .typeError) := by
  refine ⟨[("ax", "ax"), ("label", if addLabel then "exp." else "_exp.")] ++ k, ?_⟩
  have k4 : Kw.get (Kw.update [("markersize", "0"), ("linestyle", "--")] k) "c" ≠ none := by
    rw [Kw.get_update]
    obtain ⟨v, hv⟩ := Option.ne_none_iff_exists'.1 k3
    rw [hv]
    simp
  unfold gsfPlot modelLines
  rw [h0, hl, hh]
  simp only [FitModel.line]
  rw [callKw_ok _ k (by simp [k1, k2]), callKw_err _ _ ("c", "g") (by simp) k4]
  simp only [Except.map, List.cons_append, List.nil_append]
  rw [drawSteps_one mpl hm, drawSteps_err]

/-- **C120 (limit).** With extrapolations that are given instead of fitted (`method = "fix"`) nothing sets the fit ranges, and the plot is a TypeError although they are not needed for the extrapolation; with
`plot_fitregion = False` as well. -/
theorem C120_fixed_fails (mpl : GCall → Except Err Unit) (hm : ∀ c, mpl c = .ok ()) (gsf : Vec ℝ) (low high : FitModel) (Sn : ℚ) (addLabel fit : Bool) (k : Kw)
    (k1 : Kw.get k "ax" = none) (k2 : Kw.get k "label" = none) (hl : low.Efit.2 = none ∨ high.Efit.1 = none) :
    ∃ ke, gsfPlot mpl gsf low high Sn addLabel fit k = ([⟨.exp, gsf.E, gsf.values.map some, ke⟩], .error .typeError) := by
  refine ⟨[("ax", "ax"), ("label", if addLabel then "exp." else "_exp.")] ++ k, ?_⟩
  have hml : modelLines low high Sn addLabel k = [.error .typeError] := by
    unfold modelLines
    dsimp only
    rcases hl with h | h
    · rw [h]
      cases low.m.Emin <;> simp [FitModel.line]
    · rw [h]
      cases hE : low.m.Emin <;> cases hF : low.Efit.2 <;> simp [FitModel.line]
  unfold gsfPlot
  rw [hml, callKw_ok _ k (by simp [k1, k2])]
  simp only [Except.map, List.cons_append, List.nil_append]
  rw [drawSteps_one mpl hm, drawSteps_err]

/-- **C120.** Only the fit regions need both limits of a fit range: with the two inner limits set the lines are drawn. -/
theorem C120_inner (mpl : GCall → Except Err Unit) (hm : ∀ c, mpl c = .ok ()) (gsf : Vec ℝ) (low high : FitModel) (Sn e0 b c : ℚ) (addLabel : Bool) (k : Kw) (hk : k.Free)
    (h0 : low.m.Emin = some e0) (hl : low.Efit.2 = some b) (hh : high.Efit.1 = some c) :
    (gsfPlot mpl gsf low high Sn addLabel false k).2 = .ok () ∧
      (gsfPlot mpl gsf low high Sn addLabel false k).1.map GCall.x = [gsf.E, linspace e0 b 50, linspace c Sn 50] ∧
      (low.Efit.1 = none → (gsfPlot mpl gsf low high Sn addLabel true k).2 = .error .typeError ∧ (gsfPlot mpl gsf low high Sn addLabel true k).1.length = 3) := by
  obtain ⟨k1, k2, k3⟩ := hk
  obtain ⟨d1, d2, d3⟩ := defaults_free ⟨k1, k2, k3⟩
  have form : ∀ fit, gsfPlot mpl gsf low high Sn addLabel fit k = ([⟨.exp, gsf.E, gsf.values.map some, [("ax", "ax"), ("label", if addLabel then "exp." else "_exp.")] ++ k⟩,
      ⟨.low, linspace e0 b 50, (linspace e0 b 50).map (low.m.value (low.m.shiftAfter.getD low.m.shift)),
        [("ax", "ax"), ("c", "g"), ("label", if addLabel then "model" else "_model")] ++ Kw.update [("markersize", "0"), ("linestyle", "--")] k⟩,
      ⟨.high, linspace c Sn 50, (linspace c Sn 50).map (high.m.value (high.m.shiftAfter.getD high.m.shift)),
        [("ax", "ax"), ("c", "g")] ++ Kw.update [("markersize", "0"), ("linestyle", "--")] k⟩] ++ (drawSteps mpl (if fit then fitRegions low high addLabel else [])).1,
      (drawSteps mpl (if fit then fitRegions low high addLabel else [])).2) := by
    intro fit
    unfold gsfPlot modelLines
    rw [h0, hl, hh]
    simp only [FitModel.line]
    rw [callKw_ok _ k (by simp [k1, k2]), callKw_ok _ _ (by simp [d1, d2, d3]), callKw_ok _ _ (by simp [d1, d3])]
    simp only [Except.map, List.cons_append, List.nil_append]
    rw [drawSteps_one mpl hm, drawSteps_one mpl hm, drawSteps_one mpl hm]
  refine ⟨?_, ?_, ?_⟩
  · rw [form]; simp [drawSteps_nil]
  · rw [form]; simp [drawSteps_nil]
  · intro h1
    rw [form]
    simp [fitRegions, FitModel.span, h1, drawSteps_err]

/-! ## The level density and both -/

/-- The calls of the plot of the level density. -/
theorem nldPlotKw_ok (mpl : GCall → Except Err Unit) (hm : ∀ c, mpl c = .ok ()) (p : NldPlotIn) (addLabel fit : Bool) (k : Kw) (hk : k.Free) (k4 : Kw.get k "markersize" = none) :
    (nldPlotKw mpl p addLabel fit k).2 = .ok () ∧
      legendCalls (nldPlotKw mpl p addLabel fit k).1 = (if addLabel then ["exp.", "known levels", "$\\rho(S_n)$", "model"] else []) ++ if fit then ["fit limits"] else [] := by
  obtain ⟨k1, k2, k3⟩ := hk
  unfold nldPlotKw
  dsimp only
  rw [callKw_ok _ k (by simp [k1, k2]), callKw_ok _ k (by simp [k2, k3, k4])]
  simp only [Except.map, List.cons_append, List.nil_append]
  rw [drawSteps_one mpl hm, drawSteps_one mpl hm, drawSteps_one mpl hm, drawSteps_one mpl hm]
  cases fit with
  | false =>
    simp only [Bool.false_eq_true, if_false, drawSteps_nil]
    refine ⟨trivial, ?_⟩
    unfold legendCalls
    cases addLabel <;> simp [Kw.get_cons, Kw.get_nil]
  | true =>
    simp only [if_true]
    rw [drawSteps_one mpl hm, drawSteps_one mpl hm, drawSteps_nil]
    refine ⟨rfl, ?_⟩
    unfold legendCalls
    cases addLabel <;> simp [Kw.get_cons, Kw.get_nil]

/-- **C120 (limit).** `add_label = False` leaves a label in the plot of the level density: that of the fit limits. -/
theorem C120_no_label_fails (mpl : GCall → Except Err Unit) (hm : ∀ c, mpl c = .ok ()) (p : NldPlotIn) (k : Kw) (hk : k.Free) (k4 : Kw.get k "markersize" = none) :
    legendCalls (nldPlotKw mpl p false true k).1 = ["fit limits"] ∧ legendCalls (nldPlotKw mpl p false false k).1 = [] :=
  ⟨(nldPlotKw_ok mpl hm p false true k hk k4).2, (nldPlotKw_ok mpl hm p false false k hk k4).2⟩

/-- **C120 (limit).** `markersize`, which the plot of the strength function accepts, is a TypeError in that of the level density, after everything but the model and the limits has been drawn. -/
theorem C120_marker_fails (mpl : GCall → Except Err Unit) (hm : ∀ c, mpl c = .ok ()) (p : NldPlotIn) (addLabel fit : Bool) (k : Kw) (hk : k.Free) (k4 : Kw.get k "markersize" ≠ none) :
    (nldPlotKw mpl p addLabel fit k).2 = .error .typeError ∧ (nldPlotKw mpl p addLabel fit k).1.map GCall.what = [.exp, .known, .sn] := by
  obtain ⟨k1, k2, k3⟩ := hk
  unfold nldPlotKw
  dsimp only
  rw [callKw_ok _ k (by simp [k1, k2]), callKw_err _ k ("markersize", "0") (by simp) k4]
  simp only [Except.map, List.cons_append, List.nil_append]
  rw [drawSteps_one mpl hm, drawSteps_one mpl hm, drawSteps_one mpl hm, drawSteps_err]
  exact ⟨rfl, rfl⟩

/-- **C120.** The plot of both: every label once in the common legend. -/
theorem C120_both (mpl : GCall → Except Err Unit) (hm : ∀ c, mpl c = .ok ()) (p : NldPlotIn) (gsf : Vec ℝ) (low high : FitModel) (e0 a b c d : ℚ) (addLabel : Bool) (k : Kw) (hk : k.Free)
    (k4 : Kw.get k "markersize" = none) (k5 : Kw.get k "add_label" = none) (k6 : Kw.get k "results" = none) (k7 : Kw.get k "add_figlegend" = none)
    (h0 : low.m.Emin = some e0) (hl : low.Efit = (some a, some b)) (hh : high.Efit = (some c, some d)) :
    (simPlot mpl p gsf low high addLabel k).2 = .ok () ∧
      legendCalls ((simPlot mpl p gsf low high addLabel k).1.1 ++ (simPlot mpl p gsf low high addLabel k).1.2) = ["exp.", "known levels", "$\\rho(S_n)$", "model", "fit limits"] := by
  obtain ⟨n1, n2⟩ := nldPlotKw_ok mpl hm p true true k hk k4
  have g := C120_legend mpl hm gsf low high p.Sn e0 a b c d false true k hk h0 hl hh
  obtain ⟨_, _, _, h, -⟩ := C120_gsf mpl hm gsf low high p.Sn e0 a b c d false true k hk h0 hl hh
  have g2 : (gsfPlot mpl gsf low high p.Sn false true k).2 = .ok () := by rw [h]
  unfold simPlot
  rw [callKw_ok _ k (by simp [hk.1, k5, k6, k7])]
  dsimp only
  generalize hN : nldPlotKw mpl p true true k = N at n1 n2 ⊢
  obtain ⟨A, r⟩ := N
  dsimp only at n1 n2
  subst n1
  dsimp only
  refine ⟨g2, ?_⟩
  unfold legendCalls at *
  rw [List.filterMap_append, List.filter_append, n2, g]
  rfl

/-- **C120 (limit).** `add_label` of the plot of both changes nothing, and the documented argument `results` is a TypeError. -/
theorem C120_arguments_fails (mpl : GCall → Except Err Unit) (p : NldPlotIn) (gsf : Vec ℝ) (low high : FitModel) (k : Kw) :
    simPlot mpl p gsf low high true k = simPlot mpl p gsf low high false k ∧
      (Kw.get k "results" ≠ none → ∀ addLabel, simPlot mpl p gsf low high addLabel k = (([], []), .error .typeError)) := by
  refine ⟨rfl, fun h addLabel => ?_⟩
  unfold simPlot
  rw [callKw_err _ k ("results", "res") (by simp) h]

/-- Non-vacuity: fitted models, and a keyword argument that is allowed. -/
noncomputable def plotModel (high : Bool) (E : Option ℚ × Option ℚ) : FitModel := ⟨⟨high, 1, -20, some (-19), some 0, some 20, 1001, true⟩, E⟩

example : (gsfPlot (fun _ => .ok ()) ⟨[3, 4], [1, 2], none, "MeV"⟩ (plotModel false (some 3, some 4)) (plotModel true (some 4, some 5)) 7 true true [("alpha", "0.5")]).1.map GCall.x
      = [[3, 4], linspace 0 4 50, linspace 4 7 50, [3, 4], [4, 5]] ∧
    legendCalls (gsfPlot (fun _ => .ok ()) ⟨[3, 4], [1, 2], none, "MeV"⟩ (plotModel false (some 3, some 4)) (plotModel true (some 4, some 5)) 7 true true [("alpha", "0.5")]).1
      = ["exp.", "model", "fit limits"] ∧
    (gsfPlot (fun _ => .ok ()) ⟨[3, 4], [1, 2], none, "MeV"⟩ (plotModel false (none, none)) (plotModel true (none, none)) 7 true true []).2 = .error .typeError := by
  have hf : Kw.Free [("alpha", "0.5")] := ⟨by decide, by decide, by decide⟩
  obtain ⟨ke, kl, kh, h, -⟩ := C120_gsf (fun _ => .ok ()) (fun _ => rfl) ⟨[3, 4], [1, 2], none, "MeV"⟩ (plotModel false (some 3, some 4)) (plotModel true (some 4, some 5)) 7 0 3 4 4 5 true true
    [("alpha", "0.5")] hf rfl rfl rfl
  refine ⟨by rw [h]; rfl, ?_, ?_⟩
  · have := C120_legend (fun _ => .ok ()) (fun _ => rfl) ⟨[3, 4], [1, 2], none, "MeV"⟩ (plotModel false (some 3, some 4)) (plotModel true (some 4, some 5)) 7 0 3 4 4 5 true true
      [("alpha", "0.5")] hf rfl rfl rfl
    simpa using this
  · obtain ⟨ke, he⟩ := C120_fixed_fails (fun _ => .ok ()) (fun _ => rfl) ⟨[3, 4], [1, 2], none, "MeV"⟩ (plotModel false (none, none)) (plotModel true (none, none)) 7 true true []
      (by decide) (by decide) (Or.inl rfl)
    rw [he]

end Ompy
