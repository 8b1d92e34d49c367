import Verif.Averages
import Mathlib.Algebra.Order.BigOperators.Group.List

/-!
# C81: averages over the members of an extraction
-/

namespace Ompy

theorem sum_dev_zero (l : List ℝ) (h : l ≠ []) : (l.map fun x => x - meanOf l).sum = 0 := by
  have key : ∀ (l : List ℝ) (c : ℝ), (l.map fun x => x - c).sum = l.sum - l.length * c := by
    intro l c
    induction l with
    | nil => simp
    | cons a l ih => simp only [List.map_cons, List.sum_cons, ih, List.length_cons]; push_cast; ring
  have hn : (l.length : ℝ) ≠ 0 := by
    have := List.length_pos_iff.2 h
    positivity
  rw [key, meanOf, mul_div_cancel₀ _ hn, sub_self]

theorem nanAlong_ok (f : List ℝ → Option ℝ) (rows : List (List (Option ℝ))) (n : ℕ) (hne : rows ≠ [])
    (hl : ∀ r ∈ rows, r.length = n) :
    nanAlong f rows = .ok ((List.range n).map fun j => f (binValues rows j)) := by
  cases rows with
  | nil => exact absurd rfl hne
  | cons r rs =>
    have hr := hl r List.mem_cons_self
    unfold nanAlong
    simp only
    rw [if_neg, hr]
    rintro ⟨q, hq, h⟩
    exact h (by rw [hl q (List.mem_cons_of_mem _ hq), hr])

/-- **C81.** `ensemble_nld` and `ensemble_gsf` of members of equal length: the energies of the first member; a bin that
is NaN for every member stays NaN; any other bin gets the mean of the numbers (their deviations from it cancel) and
the root of their mean squared deviation. -/
theorem C81_mean (v : NanVec) (vs : List NanVec) (hl : ∀ w ∈ v :: vs, w.values.length = v.E.length) :
    ∃ mean std, ensembleVec (v :: vs) = .ok (v.E, mean, std) ∧ mean.length = v.E.length ∧
      std.length = v.E.length ∧ ∀ j < v.E.length,
      let xs := (v :: vs).filterMap fun w => w.values.getD j none
      ((∀ w ∈ v :: vs, w.values.getD j none = none) → mean.getD j (some 0) = none ∧ std.getD j (some 0) = none) ∧
      ((∃ w ∈ v :: vs, w.values.getD j none ≠ none) → ∃ μ s : ℝ, mean.getD j none = some μ ∧
        std.getD j none = some s ∧ (xs.map fun x => x - μ).sum = 0 ∧ 0 ≤ s ∧
        s ^ 2 * xs.length = (xs.map fun x => (x - μ) ^ 2).sum) := by
  set rows := (v :: vs).map NanVec.values with hrows
  have hrl : ∀ r ∈ rows, r.length = v.E.length := by
    intro r hr
    obtain ⟨w, hw, rfl⟩ := List.mem_map.1 hr
    exact hl w hw
  have hne : rows ≠ [] := by simp [hrows]
  refine ⟨(List.range v.E.length).map fun j => nanmeanOf (binValues rows j),
    (List.range v.E.length).map fun j => nanstdOf (binValues rows j), ?_, ?_, ?_, ?_⟩
  · unfold ensembleVec
    simp only [bind, Except.bind, ← hrows, nanAlong_ok nanmeanOf rows _ hne hrl, nanAlong_ok nanstdOf rows _ hne hrl]
    rw [if_neg (by simp)]
    rfl
  · simp
  · simp
  · intro j hj xs
    have hx : binValues rows j = xs := by
      simp only [binValues, hrows, List.filterMap_map, xs]
      rfl
    have hm : ∀ d, ((List.range v.E.length).map fun j => nanmeanOf (binValues rows j)).getD j d = nanmeanOf xs := by
      intro d
      rw [List.getD_eq_getElem _ _ (by simpa using hj)]
      simp [hx]
    have hs : ∀ d, ((List.range v.E.length).map fun j => nanstdOf (binValues rows j)).getD j d = nanstdOf xs := by
      intro d
      rw [List.getD_eq_getElem _ _ (by simpa using hj)]
      simp [hx]
    constructor
    · intro hall
      have : xs = [] := by
        simp only [xs, List.filterMap_eq_nil_iff]
        exact hall
      rw [hm, hs, nanmeanOf, nanstdOf, if_pos this, if_pos this]
      exact ⟨rfl, rfl⟩
    · rintro ⟨w, hw, hwn⟩
      have hxs : xs ≠ [] := by
        intro h0
        simp only [xs, List.filterMap_eq_nil_iff] at h0
        exact hwn (h0 w hw)
      have hn : (0 : ℝ) < xs.length := by exact_mod_cast List.length_pos_iff.2 hxs
      have hnn : 0 ≤ (xs.map fun x => (x - meanOf xs) ^ 2).sum := by
        apply List.sum_nonneg
        intro y hy
        obtain ⟨x, -, rfl⟩ := List.mem_map.1 hy
        positivity
      refine ⟨meanOf xs, Real.sqrt (meanOf (xs.map fun x => (x - meanOf xs) ^ 2)), ?_, ?_, sum_dev_zero xs hxs,
        Real.sqrt_nonneg _, ?_⟩
      · rw [hm, nanmeanOf, if_neg hxs]
      · rw [hs, nanstdOf, if_neg hxs]
      · rw [Real.sq_sqrt (by unfold meanOf; positivity)]
        unfold meanOf
        rw [List.length_map, div_mul_cancel₀ _ hn.ne']

theorem meanOf_bounds (l : List ℝ) (h : l ≠ []) (a b : ℝ) (hl : ∀ x ∈ l, a ≤ x ∧ x ≤ b) :
    a ≤ meanOf l ∧ meanOf l ≤ b := by
  have hn : (0 : ℝ) < l.length := by exact_mod_cast List.length_pos_iff.2 h
  have h1 : l.length • a ≤ l.sum := List.card_nsmul_le_sum l a fun x hx => (hl x hx).1
  have h2 : l.sum ≤ l.length • b := List.sum_le_card_nsmul l b fun x hx => (hl x hx).2
  rw [nsmul_eq_mul] at h1 h2
  unfold meanOf
  rw [le_div_iff₀ hn, div_le_iff₀ hn]
  exact ⟨by linarith, by linarith⟩

/-- **C81.** The mean of a bin lies between any bounds of its numbers; the standard deviation is zero exactly when all
numbers are equal, in particular if a single member has a number there. -/
theorem C81_bounds (l : List ℝ) (h : l ≠ []) :
    ∃ μ s, nanmeanOf l = some μ ∧ nanstdOf l = some s ∧
      (∀ a b, (∀ x ∈ l, a ≤ x ∧ x ≤ b) → a ≤ μ ∧ μ ≤ b) ∧ (s = 0 ↔ ∀ x ∈ l, ∀ y ∈ l, x = y) := by
  have hn : (0 : ℝ) < l.length := by exact_mod_cast List.length_pos_iff.2 h
  refine ⟨meanOf l, _, by rw [nanmeanOf, if_neg h], by rw [nanstdOf, if_neg h], fun a b => meanOf_bounds l h a b, ?_⟩
  have hnn : ∀ y ∈ l.map (fun x => (x - meanOf l) ^ 2), 0 ≤ y := by
    intro y hy
    obtain ⟨x, -, rfl⟩ := List.mem_map.1 hy
    positivity
  have h0 : 0 ≤ meanOf (l.map fun x => (x - meanOf l) ^ 2) := by
    unfold meanOf
    have := List.sum_nonneg hnn
    unfold meanOf at this
    positivity
  rw [Real.sqrt_eq_zero h0]
  constructor
  · intro hz
    have hsum : (l.map fun x => (x - meanOf l) ^ 2).sum = 0 := by
      unfold meanOf at hz ⊢
      rw [List.length_map, div_eq_zero_iff] at hz
      exact hz.resolve_right hn.ne'
    have hall : ∀ y ∈ l.map (fun x => (x - meanOf l) ^ 2), y = 0 := fun y hy => List.all_zero_of_le_zero_le_of_sum_eq_zero hnn hsum hy
    have hx : ∀ x ∈ l, x = meanOf l := by
      intro x hx
      have := hall _ (List.mem_map.2 ⟨x, hx, rfl⟩)
      have := pow_eq_zero_iff (two_ne_zero) |>.1 this
      linarith
    intro x hx' y hy
    rw [hx x hx', hx y hy]
  · intro hall
    have hx : ∀ x ∈ l, x = meanOf l := by
      intro x hx
      obtain ⟨h1, h2⟩ := meanOf_bounds l h x x fun y hy => ⟨(hall x hx y hy).le, (hall y hy x hx).le⟩
      linarith
    have : (l.map fun x => (x - meanOf l) ^ 2).sum = 0 := by
      apply List.sum_eq_zero
      intro y hy
      obtain ⟨x, hx', rfl⟩ := List.mem_map.1 hy
      rw [← hx x hx', sub_self]; norm_num
    unfold meanOf at this ⊢
    rw [this, zero_div]

/-- **C81.** The order of the members does not matter (for members on one axis). -/
theorem C81_order (l l' : List NanVec) (E : List ℚ) (h : l.Perm l') (hE : ∀ w ∈ l, w.E = E)
    (hl : ∀ w ∈ l, w.values.length = E.length) : ensembleVec l = ensembleVec l' := by
  have hE' : ∀ w ∈ l', w.E = E := fun w hw => hE w (h.mem_iff.2 hw)
  have hl' : ∀ w ∈ l', w.values.length = E.length := fun w hw => hl w (h.mem_iff.2 hw)
  have key : ∀ m : List NanVec, m ≠ [] → (∀ w ∈ m, w.E = E) → (∀ w ∈ m, w.values.length = E.length) →
      ensembleVec m = .ok (E, (List.range E.length).map (fun j => nanmeanOf (binValues (m.map NanVec.values) j)),
        (List.range E.length).map (fun j => nanstdOf (binValues (m.map NanVec.values) j))) := by
    intro m hm h1 h2
    cases m with
    | nil => exact absurd rfl hm
    | cons v vs =>
      have hr : ∀ r ∈ (v :: vs).map NanVec.values, r.length = E.length := by
        intro r hr
        obtain ⟨w, hw, rfl⟩ := List.mem_map.1 hr
        exact h2 w hw
      unfold ensembleVec
      simp only [bind, Except.bind, nanAlong_ok nanmeanOf _ _ (by simp : (v :: vs).map NanVec.values ≠ []) hr,
        nanAlong_ok nanstdOf _ _ (by simp : (v :: vs).map NanVec.values ≠ []) hr]
      rw [if_neg (by simp [h1 v List.mem_cons_self]), h1 v List.mem_cons_self]
      rfl
  have hmean : ∀ a b : List ℝ, a.Perm b → meanOf a = meanOf b := by
    intro a b hab
    unfold meanOf
    rw [hab.sum_eq, hab.length_eq]
  have hnil : ∀ a b : List ℝ, a.Perm b → (a = [] ↔ b = []) := by
    intro a b hab
    rw [← List.length_eq_zero_iff, hab.length_eq, List.length_eq_zero_iff]
  by_cases hn : l = []
  · subst hn
    rw [List.nil_perm.1 h]
  · have hn' : l' ≠ [] := by
      rintro rfl; exact hn (List.perm_nil.1 h)
    rw [key l hn hE hl, key l' hn' hE' hl']
    have hb : ∀ j, (binValues (l.map NanVec.values) j).Perm (binValues (l'.map NanVec.values) j) :=
      fun j => (h.map _).filterMap _
    have e1 : ∀ j, nanmeanOf (binValues (l.map NanVec.values) j) = nanmeanOf (binValues (l'.map NanVec.values) j) := by
      intro j
      unfold nanmeanOf
      rw [hmean _ _ (hb j), if_congr (hnil _ _ (hb j)) rfl rfl]
    have e2 : ∀ j, nanstdOf (binValues (l.map NanVec.values) j) = nanstdOf (binValues (l'.map NanVec.values) j) := by
      intro j
      unfold nanstdOf
      rw [hmean _ _ (hb j), hmean _ _ ((hb j).map _), if_congr (hnil _ _ (hb j)) rfl rfl]
    simp only [e1, e2]

/-- **C81.** Members of different length are refused, and so is an extraction without members. -/
theorem C81_refused (v : NanVec) (vs : List NanVec) :
    ensembleVec [] = .error .indexError ∧
    ((∃ w ∈ vs, w.values.length ≠ v.values.length) → ensembleVec (v :: vs) = .error .valueError) := by
  refine ⟨rfl, ?_⟩
  rintro ⟨w, hw, h⟩
  have : ∀ f, nanAlong f ((v :: vs).map NanVec.values) = .error .valueError := by
    intro f
    unfold nanAlong
    simp only [List.map_cons]
    rw [if_pos]
    exact ⟨w.values, List.mem_map.2 ⟨w, hw, rfl⟩, h⟩
  simp only [ensembleVec, bind, Except.bind, this]

/-- **C81.** `check_unconstrained_results` is true exactly if some vector of either kind has a NaN. -/
theorem C81_unconstrained (nld gsf : List NanVec) :
    checkUnconstrained nld gsf = true ↔ ∃ v ∈ nld ++ gsf, none ∈ v.values := by
  have key : ∀ (l : List NanVec) (b : Bool),
      l.foldl (fun b v => if v.values.any Option.isNone then true else b) b = true ↔
        b = true ∨ ∃ v ∈ l, none ∈ v.values := by
    intro l
    induction l with
    | nil => intro b; simp
    | cons v l ih =>
      intro b
      rw [List.foldl_cons, ih]
      have hv : v.values.any Option.isNone = true ↔ none ∈ v.values := by
        rw [List.any_eq_true]
        constructor
        · rintro ⟨x, hx, h⟩
          rw [Option.isNone_iff_eq_none] at h
          exact h ▸ hx
        · intro h; exact ⟨none, h, rfl⟩
      by_cases h : none ∈ v.values
      · rw [if_pos (hv.2 h)]
        simp [h]
      · rw [if_neg (fun h' => h (hv.1 h'))]
        simp [h]
  unfold checkUnconstrained
  simp only
  rw [key, key]
  constructor
  · rintro ((h | ⟨v, hv, h⟩) | ⟨v, hv, h⟩)
    · simp at h
    · exact ⟨v, List.mem_append_left _ hv, h⟩
    · exact ⟨v, List.mem_append_right _ hv, h⟩
  · rintro ⟨v, hv, h⟩
    rcases List.mem_append.1 hv with hv | hv
    · exact Or.inl (Or.inr ⟨v, hv, h⟩)
    · exact Or.inr ⟨v, hv, h⟩

/-- **C81.** The resolution at the diagonal: one value per excitation bin, the squares of the two resolutions add up,
it exceeds either of them and grows with the excitation energy. -/
theorem C81_resolution (rx : ℝ) (Ex Eg : List ℚ) (hx : 2 ≤ Ex.length) (hg : 2 ≤ Eg.length)
    (hw : Ex.getD 1 0 - Ex.getD 0 0 = Eg.getD 1 0 - Eg.getD 0 0) (h0 : ∀ e ∈ Ex, 0 ≤ e)
    (hs : Ex.Pairwise (· < ·)) :
    ∃ r, diagonalResolution rx Ex Eg = .ok r ∧ r.length = Ex.length ∧ r.Pairwise (· < ·) ∧
      ∀ k < Ex.length, let e : ℝ := ((Ex.getD k 0 : ℚ) : ℝ)
        r.getD k 0 ^ 2 = rx ^ 2 + (732087 / 10000 + 50824 / 100000 * e + 962481 / 10000000000 * e ^ 2) ∧
        |rx| < r.getD k 0 := by
  have hf : ∀ e : ℝ, 0 ≤ e → fwhmEg e ^ 2 = 732087 / 10000 + 50824 / 100000 * e + 962481 / 10000000000 * e ^ 2 := by
    intro e he
    unfold fwhmEg
    rw [Real.sq_sqrt (by positivity)]
  have hk : ∀ e : ℚ, 0 ≤ e → fwhmEg (e : ℝ) ^ 2
      = 732087 / 10000 + 50824 / 100000 * (e : ℝ) + 962481 / 10000000000 * (e : ℝ) ^ 2 := fun e he =>
    hf _ (by exact_mod_cast he)
  refine ⟨Ex.map fun e : ℚ => Real.sqrt (rx ^ 2 + fwhmEg (e : ℝ) ^ 2), ?_, ?_, ?_, ?_⟩
  · unfold diagonalResolution
    rw [if_neg (by omega), if_neg (by simpa using hw)]
  · simp
  · rw [List.pairwise_map]
    refine (List.pairwise_iff_forall_sublist.2 fun {a b} hab => ?_)
    have ha : 0 ≤ a := h0 a (hab.subset (by simp))
    have hb : 0 ≤ b := h0 b (hab.subset (by simp))
    have hlt : a < b := List.pairwise_iff_forall_sublist.1 hs hab
    have hlt' : (a : ℝ) < (b : ℝ) := by exact_mod_cast hlt
    have ha' : (0 : ℝ) ≤ (a : ℝ) := by exact_mod_cast ha
    apply Real.sqrt_lt_sqrt (by positivity)
    rw [hk a ha, hk b hb]
    nlinarith
  · intro k hkl
    have hm := h0 _ (List.getElem_mem hkl)
    rw [List.getD_eq_getElem Ex 0 hkl, List.getD_eq_getElem (Ex.map _) 0 (by simpa using hkl)]
    simp only [List.getElem_map]
    have he' : (0 : ℝ) ≤ ((Ex[k] : ℚ) : ℝ) := by exact_mod_cast hm
    refine ⟨?_, ?_⟩
    · rw [Real.sq_sqrt (by positivity), hk _ hm]
    · rw [← Real.sqrt_sq_eq_abs]
      apply Real.sqrt_lt_sqrt (by positivity)
      rw [hk _ hm]
      have : (0 : ℝ) ≤ ((Ex[k] : ℚ) : ℝ) ^ 2 := by positivity
      linarith

/-- **C81.** Axes of different bin width, however little they differ, fail the assertion of `diagonal_resolution`. -/
theorem C81_resolution_refused (rx : ℝ) (Ex Eg : List ℚ) (hx : 2 ≤ Ex.length) (hg : 2 ≤ Eg.length)
    (hw : Ex.getD 1 0 - Ex.getD 0 0 ≠ Eg.getD 1 0 - Eg.getD 0 0) :
    diagonalResolution rx Ex Eg = .error .assertion := by
  unfold diagonalResolution
  rw [if_neg (by omega), if_pos hw]

/-- C81 is false: members of equal length on different axes are averaged bin by bin and the result is given on the
axis of the first one. -/
theorem C81_axis_fails : ∃ v w : NanVec, v.E ≠ w.E ∧
    ensembleVec [v, w] = .ok (v.E, [some 2], [some 1]) := by
  refine ⟨⟨[1], [some 1]⟩, ⟨[5], [some 3]⟩, by simp, ?_⟩
  obtain ⟨mean, std, h, hm, hs, hj⟩ := C81_mean ⟨[1], [some 1]⟩ [⟨[5], [some 3]⟩] (by simp)
  obtain ⟨μ, s, h1, h2, h3, h4, h5⟩ := (hj 0 (by simp)).2 ⟨⟨[1], [some 1]⟩, by simp, by simp⟩
  simp only [List.filterMap_cons, List.filterMap_nil, List.getD_cons_zero, List.map_cons, List.map_nil,
    List.sum_cons, List.sum_nil, List.length_cons, List.length_nil] at h3 h5
  have hμ : μ = 2 := by linarith
  have hs1 : s = 1 := by
    subst hμ
    have : s ^ 2 = 1 := by push_cast at h5; linarith
    nlinarith
  rw [h]
  simp only [List.length_cons, List.length_nil] at hm hs
  obtain ⟨a, rfl⟩ := List.length_eq_one_iff.1 hm
  obtain ⟨b, rfl⟩ := List.length_eq_one_iff.1 hs
  simp only [List.getD_cons_zero] at h1 h2
  rw [h1, h2, hμ, hs1]

/-- C81: a bin that only one member constrains gets the standard deviation 0. -/
example (x : ℝ) : nanstdOf [x] = some 0 := by
  obtain ⟨μ, s, -, h, -, h0⟩ := C81_bounds [x] (by simp)
  rw [h, h0.2 (by simp)]

example : checkUnconstrained [⟨[1, 2], [some 1, some 2]⟩] [⟨[1], [none]⟩] = true :=
  (C81_unconstrained _ _).2 ⟨⟨[1], [none]⟩, by simp, by simp⟩

end Ompy
