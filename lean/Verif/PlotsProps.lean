import Verif.Plots
import Verif.HelpersProps
import Verif.DrawProps

/-!
# C108: what the plots show
-/

namespace Ompy

/-! ## Vectors and projections -/

/-- **C108.** Every bin of a consistent vector is drawn once, at its energy; with uncertainties also their bars, whatever the kind asked for. -/
theorem C108_vector_partial (v : Vec ℚ) (kind : String) (hc : v.consistent = true) (hk : kind ∈ ["plot", "line", "step"] ∨ v.std ≠ none) :
    ∃ k, v.plot kind = .ok ⟨k, v.E, v.values, v.std⟩ ∧ (k = .bars ↔ v.std ≠ none) ∧ (v.std = none → (k = .step ↔ kind = "step")) := by
  obtain ⟨E, values, std, units⟩ := v
  simp only [Vec.consistent, Bool.and_eq_true, beq_iff_eq] at hc
  obtain ⟨h1, h2⟩ := hc
  cases std with
  | some s =>
    refine ⟨.bars, ?_, by simp, by simp⟩
    simp only [Vec.plot, DrawnCurve.draw]
    rw [if_pos ⟨h1, fun t ht => by cases ht; simpa using h2⟩]
  | none =>
    have hd : ∀ k, DrawnCurve.draw ⟨k, E, values, none⟩ = .ok ⟨k, E, values, none⟩ := by
      intro k
      unfold DrawnCurve.draw
      rw [if_pos ⟨h1, by simp⟩]
    simp only [ne_eq, not_true_eq_false, or_false, List.mem_cons, List.not_mem_nil] at hk
    simp only [Vec.plot, hd]
    by_cases hp : kind = "plot" ∨ kind = "line"
    · refine ⟨.line, by rw [if_pos hp], by simp, fun _ => ?_⟩
      constructor
      · intro h; cases h
      · rintro rfl; revert hp; decide
    · have hs : kind = "step" := by
        rcases hk with h | h | h
        · exact absurd (Or.inl h) hp
        · exact absurd (Or.inr h) hp
        · exact h
      refine ⟨.step, by rw [if_neg hp, if_pos hs], by simp, fun _ => ⟨fun _ => hs, fun _ => rfl⟩⟩

/-- **C108 (disagreement).** The documented kind "bar" is not there; with uncertainties a kind that does not exist is accepted. -/
theorem C108_vector_fails (E values s : List ℚ) (u : String) (h : E.length = values.length) (hs : s.length = values.length) :
    (⟨E, values, none, u⟩ : Vec ℚ).plot "bar" = .error .notImplemented ∧ (⟨E, values, some s, u⟩ : Vec ℚ).plot "no such kind" = .ok ⟨.bars, E, values, some s⟩ := by
  constructor
  · simp only [Vec.plot]
    rw [if_neg (by decide), if_neg (by decide)]
  · simp only [Vec.plot, DrawnCurve.draw]
    rw [if_pos ⟨h, fun t ht => by cases ht; exact hs⟩]

example : (⟨[1, 2], [3, 4], none, "MeV"⟩ : Vec ℚ).plot "step" = .ok ⟨.step, [1, 2], [3, 4], none⟩ := by decide +kernel

/-- **C108.** The curve of a projection is over the axis that was asked for and its points add up to the counts of the matrix. -/
theorem C108_projection (m : Mat) (hc : m.consistent) (hx : m.Ex ≠ []) (hg : m.Eg ≠ []) (axis : ℕ) (ha : axis < 2) :
    ∃ c, m.plotProjection axis none none false "line" = .ok c ∧ c.x = (if axis = 1 then m.Ex else m.Eg) ∧ c.y.sum = matSum m.values ∧ c.err = none := by
  obtain ⟨⟨p, h1, h2, h3⟩, q, h4, h5, h6⟩ := C15_projection_total m hc hx hg
  have key : ∀ (p E : List ℚ), p.length = E.length → ∃ c, (match Vec.new (some p) (some E) none "keV" with | .error e => .error e | .ok v => v.plot "line") = Except.ok c ∧ c.x = E ∧ c.y = p ∧ c.err = none := by
    intro p E h
    have hcon : (⟨E, p, none, "keV"⟩ : Vec ℚ).consistent = true := by simp [Vec.consistent, h]
    have hn : Vec.new (some p) (some E) none "keV" = .ok ⟨E, p, none, "keV"⟩ := by
      simp only [Vec.new]
      rw [if_pos hcon]
    rw [hn]
    obtain ⟨k, hk, -⟩ := C108_vector_partial ⟨E, p, none, "keV"⟩ "line" hcon (Or.inl (by simp))
    exact ⟨_, hk, rfl, rfl, rfl⟩
  unfold Mat.plotProjection
  interval_cases axis
  · obtain ⟨c, e1, e2, e3, e4⟩ := key q m.Eg h5
    rw [h4]
    exact ⟨c, e1, by rw [e2]; rfl, by rw [e3, h6], e4⟩
  · obtain ⟨c, e1, e2, e3, e4⟩ := key p m.Ex h2
    rw [h1]
    exact ⟨c, e1, by rw [e2]; rfl, by rw [e3, h3], e4⟩

example : (⟨[[1, 2], [3, 4]], [0, 1], [5, 6], none, none⟩ : Mat).plotProjection 1 none none false "line" = .ok ⟨.line, [5, 6], [3, 7], none⟩ := by decide +kernel

/-! ## Colour limits -/

theorem listMin_spec (l : List ℚ) (h : l ≠ []) : ∃ a ∈ l, listMin l = .ok a ∧ ∀ x ∈ l, a ≤ x := by
  obtain ⟨a, ha, hm⟩ := Finset.exists_min_image l.toFinset id (by simpa using h)
  simp only [List.mem_toFinset, id] at ha hm
  exact ⟨a, ha, listMin_of ha hm, hm⟩

theorem listMax_spec (l : List ℚ) (h : l ≠ []) : ∃ a ∈ l, listMax l = .ok a ∧ ∀ x ∈ l, x ≤ a := by
  obtain ⟨a, ha, hm⟩ := Finset.exists_max_image l.toFinset id (by simpa using h)
  simp only [List.mem_toFinset, id] at ha hm
  exact ⟨a, ha, listMax_of ha hm, hm⟩

theorem extrema_spec (v : List (List ℚ)) (h : v.flatten ≠ []) :
    ∃ a b, extrema v = .ok (a, b) ∧ a ∈ v.flatten ∧ b ∈ v.flatten ∧ ∀ x ∈ v.flatten, a ≤ x ∧ x ≤ b := by
  obtain ⟨a, h1, h2, h3⟩ := listMin_spec _ h
  obtain ⟨b, h4, h5, h6⟩ := listMax_spec _ h
  refine ⟨a, b, ?_, h1, h4, fun x hx => ⟨h3 x hx, h6 x hx⟩⟩
  unfold extrema
  rw [h2, h5]

/-- **C108.** With `scale_by="all"` and positive standard deviations the limits are the smallest and the largest of all three matrices. -/
theorem C108_limits_partial (raw unf fg : List (List ℚ)) (h1 : raw.flatten ≠ []) (h2 : unf.flatten ≠ []) (h3 : fg.flatten ≠ []) (hpos : ∀ x ∈ raw.flatten ++ unf.flatten ++ fg.flatten, 0 < x) :
    ∃ lo hi, ensPlotLimits .none none none "all" raw unf fg = .ok (lo, hi) ∧ lo ∈ raw.flatten ++ unf.flatten ++ fg.flatten ∧ hi ∈ raw.flatten ++ unf.flatten ++ fg.flatten ∧
      ∀ x ∈ raw.flatten ++ unf.flatten ++ fg.flatten, lo ≤ x ∧ x ≤ hi := by
  obtain ⟨a1, b1, e1, m1, n1, r1⟩ := extrema_spec raw h1
  obtain ⟨a2, b2, e2, m2, n2, r2⟩ := extrema_spec unf h2
  obtain ⟨a3, b3, e3, m3, n3, r3⟩ := extrema_spec fg h3
  simp only [List.mem_append] at hpos ⊢
  have q1 : a1 ≤ b1 := (r1 _ m1).2
  have q2 : a2 ≤ b2 := (r2 _ m2).2
  have q3 : a3 ≤ b3 := (r3 _ m3).2
  have p1 : 0 < a1 := hpos _ (Or.inl (Or.inl m1))
  have p2 : 0 < a2 := hpos _ (Or.inl (Or.inr m2))
  have p3 : 0 < a3 := hpos _ (Or.inr m3)
  have hlo : min (min a1 a2) a3 ⊓ min (min b1 b2) b3 = min (min a1 a2) a3 := by
    apply min_eq_left
    exact min_le_min (min_le_min q1 q2) q3
  have hhi : max (max a1 a2) a3 ⊔ max (max b1 b2) b3 = max (max b1 b2) b3 := by
    apply max_eq_right
    exact max_le_max (max_le_max q1 q2) q3
  have hp : ¬ min (min a1 a2) a3 ≤ 0 := by
    rw [not_le]
    exact lt_min (lt_min p1 p2) p3
  refine ⟨min (min a1 a2) a3, max (max b1 b2) b3, ?_, ?_, ?_, ?_⟩
  · unfold ensPlotLimits
    simp only [e1, e2, e3, bind, Except.bind, pure, Except.pure, colourChoice, Option.getD_none]
    rw [if_neg (by decide), if_neg (by decide), if_neg (by decide), if_pos trivial]
    simp only [hlo, hhi]
    rw [if_neg hp]
  · rcases min_choice (min a1 a2) a3 with h | h <;> rw [h]
    · rcases min_choice a1 a2 with h | h <;> rw [h]
      · exact Or.inl (Or.inl m1)
      · exact Or.inl (Or.inr m2)
    · exact Or.inr m3
  · rcases max_choice (max b1 b2) b3 with h | h <;> rw [h]
    · rcases max_choice b1 b2 with h | h <;> rw [h]
      · exact Or.inl (Or.inl n1)
      · exact Or.inl (Or.inr n2)
    · exact Or.inr n3
  · intro x hx
    rcases hx with (hx | hx) | hx
    · exact ⟨((min_le_left _ _).trans (min_le_left _ _)).trans (r1 x hx).1, (r1 x hx).2.trans ((le_max_left _ _).trans (le_max_left _ _))⟩
    · exact ⟨((min_le_left _ _).trans (min_le_right _ _)).trans (r2 x hx).1, (r2 x hx).2.trans ((le_max_right _ _).trans (le_max_left _ _))⟩
    · exact ⟨(min_le_right _ _).trans (r3 x hx).1, (r3 x hx).2.trans (le_max_right _ _)⟩

/-- **C108.** Limits that are given are used, for every name that is known and every matrix with entries; other names are refused. -/
theorem C108_given (lo hi : ℚ) (s : String) (raw unf fg : List (List ℚ)) (h1 : raw.flatten ≠ []) (h2 : unf.flatten ≠ []) (h3 : fg.flatten ≠ []) :
    ensPlotLimits .none (some lo) (some hi) s raw unf fg = if s ∈ ["raw", "unfolded", "firstgen", "all"] then .ok (lo, hi) else .error .valueError := by
  obtain ⟨a1, b1, e1, -⟩ := extrema_spec raw h1
  obtain ⟨a2, b2, e2, -⟩ := extrema_spec unf h2
  obtain ⟨a3, b3, e3, -⟩ := extrema_spec fg h3
  unfold ensPlotLimits
  simp only [e1, e2, e3, bind, Except.bind, pure, Except.pure, colourChoice, Option.getD_some, List.mem_cons, List.not_mem_nil, or_false]
  by_cases s1 : s = "raw"
  · simp [s1]
  · by_cases s2 : s = "unfolded"
    · simp [s2]
    · by_cases s3 : s = "firstgen"
      · simp [s3]
      · by_cases s4 : s = "all"
        · simp [s4]
        · simp [s1, s2, s3, s4]

/-- **C108.** By one matrix: its own extrema (if they are positive). -/
theorem C108_scale_by (raw unf fg : List (List ℚ)) (a b : ℚ) (h1 : extrema raw = .ok (a, b)) (h2 : unf.flatten ≠ []) (h3 : fg.flatten ≠ []) (h : 0 < a) :
    ensPlotLimits .none none none "raw" raw unf fg = .ok (a, b) ∧ ensPlotLimits .none none none "unfolded" unf raw fg = .ok (a, b) ∧ ensPlotLimits .none none none "firstgen" unf fg raw = .ok (a, b) := by
  obtain ⟨a2, b2, e2, -⟩ := extrema_spec unf h2
  obtain ⟨a3, b3, e3, -⟩ := extrema_spec fg h3
  have hp : ¬ a ≤ 0 := not_le.2 h
  refine ⟨?_, ?_, ?_⟩ <;> simp [ensPlotLimits, h1, e2, e3, bind, Except.bind, pure, Except.pure, colourChoice, hp]

/-- **C108 (disagreement).** If a standard deviation vanishes, the lower limit is 1, whatever the others are: here it lies above the upper limit. -/
theorem C108_limits_fails : ensPlotLimits .none none none "all" [[0, 1 / 2]] [[1 / 4]] [[1 / 3]] = .ok (1, 1 / 2) := by decide +kernel

/-- **C108 (disagreement).** Axes cannot be given: every sequence of them ends in an exception. -/
theorem C108_axes_fails (n : ℕ) (vmin vmax : Option ℚ) (s : String) (raw unf fg : List (List ℚ)) : ∃ e, ensPlotLimits (.sequence n) vmin vmax s raw unf fg = .error e ∧ (3 ≤ n → e = .attributeError) := by
  unfold ensPlotLimits
  by_cases h : n < 3
  · exact ⟨.valueError, by simp [h, bind, Except.bind], by omega⟩
  · exact ⟨.attributeError, by simp [h, bind, Except.bind], fun _ => rfl⟩

/-- **C108.** The colour bar is pointed at the ends that were given. -/
theorem C108_colourbar (vmin vmax : Option ℚ) : colourbarExtend vmin vmax = (vmin.isSome, vmax.isSome) := by
  cases vmin <;> cases vmax <;> rfl

example : ensPlotLimits .none none none "all" [[3, 2]] [[5]] [[4]] = .ok (2, 5) := by decide +kernel

/-! ## Extraction -/

/-- **C108.** Every extracted vector is drawn once, and the opacities add up to one. -/
theorem C108_extraction (nld gsf : List (Vec ℚ)) (h : nld.length = gsf.length) (h0 : nld ≠ []) :
    (extractorCurves nld gsf).map (fun c => (c.1, c.2.1)) = nld.map (fun v => (v.E, v.values)) ∧ ((extractorCurves nld gsf).map fun c => c.2.2).sum = 1 := by
  constructor
  · unfold extractorCurves
    rw [List.map_map]
    have : (nld.zip gsf).map Prod.fst = nld := List.map_fst_zip h.le
    conv_rhs => rw [← this, List.map_map]
    rfl
  · unfold extractorCurves
    rw [List.map_map]
    have : ((fun c : List ℚ × List ℚ × ℚ => c.2.2) ∘ fun p : Vec ℚ × Vec ℚ => (p.1.E, p.1.values, 1 / (nld.length : ℚ))) = fun _ => 1 / (nld.length : ℚ) := rfl
    rw [this, List.map_const', List.sum_replicate, List.length_zip, ← h, min_self, nsmul_eq_mul]
    have : (nld.length : ℚ) ≠ 0 := by simpa using h0
    field_simp

/-! ## Level density -/

theorem relabel_append (a t : List PLine) (ht : 3 ≤ t.length) : relabel (a ++ t) = a ++ relabel t := by
  unfold relabel
  rw [List.reverse_append, List.zipIdx_append, List.map_append, List.reverse_append]
  congr 1
  have : (a.reverse.zipIdx (0 + t.reverse.length)).map (fun p => if p.2 < 3 then ({ p.1 with label := "_nld(Sn)" } : PLine) else p.1) = a.reverse := by
    have e : ∀ p ∈ a.reverse.zipIdx (0 + t.reverse.length), (if p.2 < 3 then ({ p.1 with label := "_nld(Sn)" } : PLine) else p.1) = p.1 := by
      intro p hp
      have := List.le_snd_of_mem_zipIdx hp
      rw [List.length_reverse] at this
      rw [if_neg (by omega)]
    rw [List.map_congr_left e, List.zipIdx_map_fst]
  rw [this, List.reverse_reverse]

/-- The lines that one call adds. -/
def nldLines (caps std addLabel : Bool) (sample : ℕ) : List PLine := nldPlot caps std addLabel sample []

theorem nldPlot_append (caps std addLabel : Bool) (sample : ℕ) (ax : List PLine) : nldPlot caps std addLabel sample ax = ax ++ nldLines caps std addLabel sample := by
  unfold nldLines nldPlot
  dsimp only
  rw [List.append_assoc, List.append_assoc, relabel_append _ _ (by cases std <;> cases caps <;> simp [errorbarLines]), List.nil_append, List.append_assoc]
  rw [List.append_assoc]

theorem nldLines_eq (caps std addLabel : Bool) (k : ℕ) : nldLines caps std addLabel k =
    (match caps, std with
      | false, _ => [⟨"_nld(Sn)", .exp k⟩, ⟨"_nld(Sn)", .known⟩, ⟨"_nld(Sn)", .sn⟩]
      | true, false => [⟨if addLabel then "exp." else "_exp.", .exp k⟩, ⟨if addLabel then "known levels" else "_known levels", .known⟩, ⟨"_nld(Sn)", .sn⟩, ⟨"_nld(Sn)", .sn⟩, ⟨"_nld(Sn)", .sn⟩]
      | true, true => [⟨"_nolegend_", .exp k⟩, ⟨"_cap", .exp k⟩, ⟨"_cap", .exp k⟩, ⟨if addLabel then "known levels" else "_known levels", .known⟩, ⟨"_nld(Sn)", .sn⟩, ⟨"_nld(Sn)", .sn⟩, ⟨"_nld(Sn)", .sn⟩])
      ++ [⟨if addLabel then "model" else "_model", .model⟩] := by
  cases caps <;> cases std <;> cases addLabel <;> rfl

/-- **C108.** Earlier lines of the axis are not changed by another plot. -/
theorem C108_frame (caps std addLabel : Bool) (k : ℕ) (ax : List PLine) : (nldPlot caps std addLabel k ax).take ax.length = ax := by
  rw [nldPlot_append, List.take_left]

/-- **C108.** If error bars have caps, the legend of a plot names the data, the known levels, the level density at Sn and the model. -/
theorem C108_legend_partial (std : Bool) (k : ℕ) : ∀ s ∈ ["exp.", "known levels", "$\\rho(S_n)$", "model"], s ∈ legendOf (nldPlot true std true k []) ++ nldBars std true := by
  have h : nldPlot true std true k [] = nldLines true std true k := rfl
  rw [h, nldLines_eq]
  cases std <;> (simp only [legendOf, nldBars, List.map_cons, List.map_nil, List.cons_append, List.nil_append, if_true, if_false, Bool.false_eq_true]; decide +kernel)

/-- **C108 (disagreement).** By default error bars have no caps, and then the loop over three lines takes away the labels of the known levels and of data without uncertainties. -/
theorem C108_legend_fails (k : ℕ) : legendOf (nldPlot false true true k []) ++ nldBars true true = ["model", "exp.", "$\\rho(S_n)$"] ∧
    legendOf (nldPlot false false true k []) ++ nldBars false true = ["model", "$\\rho(S_n)$"] := by
  have h : ∀ std, nldPlot false std true k [] = nldLines false std true k := fun _ => rfl
  rw [h, h, nldLines_eq, nldLines_eq]
  constructor <;> (simp only [legendOf, nldBars, List.map_cons, List.map_nil, List.cons_append, List.nil_append, if_true, if_false, Bool.false_eq_true]; decide +kernel)

/-! ## Samples -/

theorem drawSamples_go (caps std : Bool) (ks : List ℕ) : ∀ (n : ℕ) (ax : List PLine),
    (ks.zipIdx n).foldl (fun ax p => nldPlot caps std (p.2 == 0) p.1 ax) ax = ax ++ (ks.zipIdx n).flatMap fun p => nldLines caps std (p.2 == 0) p.1 := by
  induction ks with
  | nil => intro n ax; simp
  | cons k ks ih =>
    intro n ax
    rw [List.zipIdx_cons, List.foldl_cons, ih, nldPlot_append, List.flatMap_cons, List.append_assoc]

theorem drawSamples_eq (caps std : Bool) (ks : List ℕ) : drawSamples caps std ks = ks.zipIdx.flatMap fun p => nldLines caps std (p.2 == 0) p.1 := by
  unfold drawSamples
  rw [drawSamples_go, List.nil_append]

/-- **C108.** The legend of a selection is that of its first sample: nothing is named twice. -/
theorem C108_selection_legend (caps std : Bool) (k : ℕ) (ks : List ℕ) : legendOf (drawSamples caps std (k :: ks)) = legendOf (nldPlot caps std true k []) := by
  have hu : ∀ j, legendOf (nldLines caps std false j) = [] := by
    intro j
    rw [nldLines_eq]
    cases caps <;> cases std <;> (simp only [legendOf, List.map_cons, List.map_nil, List.cons_append, List.nil_append, if_true, if_false, Bool.false_eq_true]; decide +kernel)
  have happ : ∀ a b : List PLine, legendOf (a ++ b) = legendOf a ++ legendOf b := by
    intro a b; simp [legendOf]
  have hrest : ∀ (ks : List ℕ) (n : ℕ), 0 < n → legendOf ((ks.zipIdx n).flatMap fun p => nldLines caps std (p.2 == 0) p.1) = [] := by
    intro ks
    induction ks with
    | nil => intro n _; rfl
    | cons j js ih =>
      intro n hn
      rw [List.zipIdx_cons, List.flatMap_cons, happ, ih (n + 1) (by omega)]
      have : (n == 0) = false := by simp; omega
      dsimp only
      rw [this, hu]
      rfl
  rw [drawSamples_eq, List.zipIdx_cons, List.flatMap_cons, happ, hrest ks (0 + 1) (by omega), List.append_nil]
  rfl

/-- **C108.** The samples drawn are those chosen; a negative number counts as one; more than there are is an error. -/
theorem C108_selection (pick : ℕ → ℕ → List ℕ) (caps std : Bool) (N : ℕ) (nPlot : ℤ) (h0 : nPlot ≠ 0) :
    (if N < (if 0 < nPlot then nPlot.toNat else 1) then plotSelection pick caps std N nPlot = .error .valueError
     else ∃ ls, plotSelection pick caps std N nPlot = .ok ls ∧ ∀ k, PWhat.exp k ∈ ls.map PLine.what ↔ k ∈ pick (if 0 < nPlot then nPlot.toNat else 1) N) := by
  unfold plotSelection
  dsimp only
  split_ifs with h1 h2 h2
  · rfl
  all_goals first
    | rfl
    | (refine ⟨_, rfl, fun k => ?_⟩
       rw [drawSamples_eq]
       simp only [List.map_flatMap, List.mem_flatMap]
       constructor
       · rintro ⟨p, hp, hm⟩
         have hpk : p.1 ∈ pick _ N := List.fst_mem_of_mem_zipIdx hp
         rw [nldLines_eq] at hm
         have : k = p.1 := by
           revert hm
           cases caps <;> cases std <;> simp
         rw [this]; exact hpk
       · intro hk
         obtain ⟨i, hi, rfl⟩ := List.getElem_of_mem hk
         refine ⟨((pick _ N)[i], i), ?_, ?_⟩
         · rw [List.mk_mem_zipIdx_iff_getElem?]
           exact List.getElem?_eq_getElem hi
         · rw [nldLines_eq]
           cases caps <;> cases std <;> simp)

/-- **C108.** With `n_plot=0` and caps only the known levels and the level density at Sn remain. -/
theorem C108_dummy_partial (pick : ℕ → ℕ → List ℕ) (std : Bool) (N k : ℕ) (hN : 1 ≤ N) (hp : pick 1 N = [k]) :
    ∃ ls, plotSelection pick true std N 0 = .ok ls ∧ ls.map PLine.what = [.known, .sn, .sn, .sn] := by
  unfold plotSelection
  dsimp only
  rw [if_neg (show ¬ (0 : ℤ) < 0 by simp), if_neg (by omega), if_pos rfl, hp]
  refine ⟨_, rfl, ?_⟩
  rw [drawSamples_eq]
  simp only [List.zipIdx_cons, List.zipIdx_nil, List.flatMap_cons, List.flatMap_nil, List.append_nil]
  rw [nldLines_eq]
  cases std <;> rfl

/-- **C108 (disagreement).** Without caps, which is the default, the level density of the dummy sample stays in the plot. -/
theorem C108_dummy_fails (pick : ℕ → ℕ → List ℕ) (std : Bool) (N k : ℕ) (hN : 1 ≤ N) (hp : pick 1 N = [k]) :
    ∃ ls, plotSelection pick false std N 0 = .ok ls ∧ ls.map PLine.what = [.exp k, .known, .sn] := by
  unfold plotSelection
  dsimp only
  rw [if_neg (show ¬ (0 : ℤ) < 0 by simp), if_neg (by omega), if_pos rfl, hp]
  refine ⟨_, rfl, ?_⟩
  rw [drawSamples_eq]
  simp only [List.zipIdx_cons, List.zipIdx_nil, List.flatMap_cons, List.flatMap_nil, List.append_nil]
  rw [nldLines_eq]
  cases std <;> rfl

example : (plotSelection (fun n _ => List.range n) true true 5 2).map (fun ls => ls.map PLine.what) =
    .ok [.exp 0, .exp 0, .exp 0, .known, .sn, .sn, .sn, .model, .exp 1, .exp 1, .exp 1, .known, .sn, .sn, .sn, .model] := by decide +kernel

/-- **C108 (disagreement).** The interactive plot fails for extrapolations with fixed parameters. -/
theorem C108_interactive_fails (h : String) : interactiveStart "fix" h = .error .attributeError := rfl

/-! ## Numbers in the picture -/

/-- The text is at the place of its value: the horizontal axis is `Eg`, the vertical axis is `Ex`. -/
def Annotation.Right (m : Mat) (a : Annotation) : Prop := ∃ r c, m.Eg[c]? = some a.x ∧ m.Ex[r]? = some a.y ∧ a.value = at2 m.values r c ∧ r < m.Ex.length ∧ c < m.Eg.length

/-- **C108.** If both axes are the same, every cell has one text, at the right place, in the second colour exactly if it is above the threshold. -/
theorem C108_annotate_partial (norm : ℚ → ℚ) (hn : StrictMono norm) (t : ℚ) (m : Mat) (hc : m.consistent = true) (he : m.Eg = m.Ex) :
    ∃ as, annotate norm (some t) m = .ok as ∧ as.length = m.Ex.length * m.Eg.length ∧ (∀ a ∈ as, a.Right m ∧ (a.second = true ↔ t < a.value)) ∧
      ∀ r < m.Ex.length, ∀ c < m.Eg.length, ∃ a ∈ as, m.Eg[c]? = some a.x ∧ m.Ex[r]? = some a.y ∧ a.value = at2 m.values r c := by
  obtain ⟨h1, h2⟩ := consistent_shape m hc
  have hx : m.values.length = m.Ex.length := h1
  have one : ∀ p ∈ cells m.values.length m.Eg.length, annotateOne norm (norm t) m p = .ok ⟨m.Ex.getD p.1 0, m.Eg.getD p.2 0, at2 m.values p.2 p.1, decide (norm t < norm (at2 m.values p.2 p.1))⟩ := by
    intro p hp
    obtain ⟨q1, q2⟩ := ((C107_cells m.values.length m.Eg.length).2.1 p).1 hp
    have hl : m.Eg.length = m.Ex.length := by rw [he]
    have q3 : p.2 < m.values.length := by omega
    have q4 : p.1 < m.Ex.length := by omega
    have hr : (m.values[p.2]).length = m.Eg.length := h2 _ (List.getElem_mem q3)
    have q5 : p.1 < (m.values[p.2]).length := by omega
    have e : at2 m.values p.2 p.1 = m.values[p.2][p.1] := by
      unfold at2
      rw [List.getD_eq_getElem m.values [] q3, List.getD_eq_getElem _ 0 q5]
    unfold annotateOne
    rw [List.getElem?_eq_getElem q2, List.getElem?_eq_getElem q4, List.getElem?_eq_getElem q3]
    dsimp only
    rw [List.getElem?_eq_getElem q5]
    dsimp only
    rw [e, List.getD_eq_getElem m.Ex 0 q4, List.getD_eq_getElem m.Eg 0 q2]
  refine ⟨_, mapM_ok _ _ _ one, ?_, ?_, ?_⟩
  · rw [List.length_map, (C107_cells _ _).2.2.1, hx]
  · intro a ha
    obtain ⟨p, hp, rfl⟩ := List.mem_map.1 ha
    obtain ⟨q1, q2⟩ := ((C107_cells m.values.length m.Eg.length).2.1 p).1 hp
    have hl : m.Eg.length = m.Ex.length := by rw [he]
    refine ⟨⟨p.2, p.1, ?_, ?_, rfl, by omega, by omega⟩, ?_⟩
    · show m.Eg[p.1]? = some (m.Ex.getD p.1 0)
      rw [he, List.getElem?_eq_getElem (by omega), List.getD_eq_getElem m.Ex 0 (by omega)]
    · show m.Ex[p.2]? = some (m.Eg.getD p.2 0)
      rw [he, List.getElem?_eq_getElem (by omega), List.getD_eq_getElem m.Ex 0 (by omega)]
    · simp only [decide_eq_true_eq]
      exact hn.lt_iff_lt
  · intro r hr c hc'
    have hl : m.Eg.length = m.Ex.length := by rw [he]
    refine ⟨_, List.mem_map.2 ⟨(c, r), ((C107_cells m.values.length m.Eg.length).2.1 (c, r)).2 ⟨by simp only; omega, by simp only; omega⟩, rfl⟩, ?_, ?_, rfl⟩
    · show m.Eg[c]? = some (m.Ex.getD c 0)
      rw [he, List.getElem?_eq_getElem (by omega), List.getD_eq_getElem m.Ex 0 (by omega)]
    · show m.Ex[r]? = some (m.Eg.getD r 0)
      rw [he, List.getElem?_eq_getElem (by omega), List.getD_eq_getElem m.Ex 0 (by omega)]

theorem mapM_some_error {α β : Type} (f : α → Except Err β) (e : Err) (l : List α) (hall : ∀ x ∈ l, ∀ e', f x = .error e' → e' = e) (h : ∃ x ∈ l, f x = .error e) : l.mapM f = .error e := by
  induction l with
  | nil => obtain ⟨x, hx, -⟩ := h; simp at hx
  | cons y ys ih =>
    rw [List.mapM_cons]
    cases hy : f y with
    | error e' => rw [hall y List.mem_cons_self e' hy]; rfl
    | ok b =>
      have : ∃ x ∈ ys, f x = .error e := by
        obtain ⟨x, hx, hf⟩ := h
        rcases List.mem_cons.1 hx with rfl | hx
        · rw [hy] at hf; cases hf
        · exact ⟨x, hx, hf⟩
      rw [ih (fun x hx => hall x (List.mem_cons_of_mem _ hx)) this]
      rfl

/-- **C108 (disagreement).** A matrix that is not square cannot be annotated: rows and columns are exchanged when the value is read. -/
theorem C108_annotate_fails (norm : ℚ → ℚ) (t : ℚ) (m : Mat) (hc : m.consistent = true) (hx : m.Ex ≠ []) (hg : m.Eg ≠ []) (hne : m.Eg.length ≠ m.Ex.length) :
    annotate norm (some t) m = .error .indexError := by
  obtain ⟨h1, h2⟩ := consistent_shape m hc
  have nx : 0 < m.Ex.length := List.length_pos_iff.2 hx
  have ng : 0 < m.Eg.length := List.length_pos_iff.2 hg
  unfold annotate
  dsimp only
  refine mapM_some_error _ _ _ ?_ ?_
  · intro p _ e' h
    unfold annotateOne at h
    split at h
    · split at h
      · cases h
      · cases h; rfl
    · cases h; rfl
  · rcases Nat.lt_or_gt_of_ne hne with hlt | hlt
    · -- fewer columns than rows
      refine ⟨(m.Ex.length - 1, 0), ((C107_cells _ _).2.1 _).2 ⟨by simp only; omega, by simp only; omega⟩, ?_⟩
      unfold annotateOne
      have hv : 0 < m.values.length := by omega
      have hr : (m.values[0]).length = m.Eg.length := h2 _ (List.getElem_mem hv)
      rw [List.getElem?_eq_getElem (l := m.Eg) ng, List.getElem?_eq_getElem (l := m.Ex) (by simp only; omega), List.getElem?_eq_getElem (l := m.values) hv]
      dsimp only
      rw [List.getElem?_eq_none (by omega)]
    · refine ⟨(0, m.Eg.length - 1), ((C107_cells _ _).2.1 _).2 ⟨by simp only; omega, by simp only; omega⟩, ?_⟩
      unfold annotateOne
      have : m.values[m.Eg.length - 1]? = none := List.getElem?_eq_none (by omega)
      simp only [this]
      rw [List.getElem?_eq_getElem (l := m.Eg) (by omega), List.getElem?_eq_getElem (l := m.Ex) nx]

/-- **C108 (disagreement).** In a square matrix with different axes the texts are at places that are not even on the axes. -/
theorem C108_annotate_axes_fails : annotate id (some 2) ⟨[[1, 2], [3, 4]], [10, 20], [500, 600], none, none⟩ =
    .ok [⟨500, 10, 1, false⟩, ⟨500, 20, 3, true⟩, ⟨600, 10, 2, false⟩, ⟨600, 20, 4, true⟩] := by decide +kernel

example : annotate id (some 2) ⟨[[1, 2], [3, 4]], [10, 20], [10, 20], none, none⟩ = .ok [⟨10, 10, 1, false⟩, ⟨10, 20, 3, true⟩, ⟨20, 10, 2, false⟩, ⟨20, 20, 4, true⟩] := by decide +kernel

end Ompy
