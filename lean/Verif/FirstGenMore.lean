import Verif.FirstGenProps

/-!
# More on C25, C26, C28: the weights and the iteration entry by entry, the matrix returned, what is refused
-/

namespace Ompy

/-- Specification: how much of row `i` decays into row `k`: the counts at gamma energy bin `i − k`
(the energy difference of the rows) where positive. -/
def decayTo (H : List (List ℚ)) (i k : ℕ) : ℚ := max 0 (at2 H i (i - k))

/-- **C25.** In the first five steps the weight of row `j` in row `i` is the share of the counts of row
`i` (on the rebinned axis) that lead to row `j`, among those that lead to any lower row; all weights are 0
if there are none. -/
theorem C25_formula (it n : ℕ) (H Wold : List (List ℚ)) (hit : it ≤ 4) (i j : ℕ) (hi : i < n)
    (hj : j < i) :
    at2 (newWeights it n H Wold) i j = div0 (decayTo H i j) (∑ k ∈ Finset.range i, decayTo H i k) := by
  have hr : ∀ k, rawWeight it H Wold i k = if k < i then decayTo H i k else 0 := by
    intro k
    have h4 : ¬ 4 < it := by omega
    unfold rawWeight flipWeight decayTo
    simp only [h4, if_false]
    by_cases hk : k < i
    · simp only [hk, if_true]
      by_cases h0 : at2 H i (i - k) < 0
      · simp only [h0, if_true]; exact (max_eq_left h0.le).symm
      · rw [if_neg h0]; exact (max_eq_right (not_lt.1 h0)).symm
    · simp [hk]
  rw [newWeights_eq, at2_tabulate _ _ _ hi (by omega), hr j, if_pos hj]
  congr 1
  rw [← Finset.sum_subset (s₁ := Finset.range i)]
  · apply Finset.sum_congr rfl
    intro k hk
    rw [hr k, if_pos (Finset.mem_range.1 hk)]
  · intro k hk
    rw [Finset.mem_range] at *
    omega
  · intro k _ hk
    rw [hr k, if_neg (by simpa using hk)]

/-- **C25.** From the sixth step on, 70 % of the new and 30 % of the previous weights (both before
normalisation of the sum) enter. -/
theorem C25_formula_damped (it n : ℕ) (H Wold : List (List ℚ)) (hit : 5 ≤ it) (i j : ℕ) (hi : i < n)
    (hj : j < i) (hW : ∀ k < n, i ≤ k → at2 Wold i k = 0) :
    at2 (newWeights it n H Wold) i j =
      div0 (max 0 (7 / 10 * at2 H i (i - j) + 3 / 10 * at2 Wold i j))
        (∑ k ∈ Finset.range i, max 0 (7 / 10 * at2 H i (i - k) + 3 / 10 * at2 Wold i k)) := by
  have hr : ∀ k < n, rawWeight it H Wold i k =
      if k < i then max 0 (7 / 10 * at2 H i (i - k) + 3 / 10 * at2 Wold i k) else 0 := by
    intro k hkn
    have h4 : 4 < it := by omega
    unfold rawWeight flipWeight
    simp only [h4, if_true]
    by_cases hk : k < i
    · simp only [hk, if_true]
      by_cases h0 : 7 / 10 * at2 H i (i - k) + 3 / 10 * at2 Wold i k < 0
      · rw [if_pos h0]; exact (max_eq_left h0.le).symm
      · rw [if_neg h0]; exact (max_eq_right (not_lt.1 h0)).symm
    · simp [hk, hW k hkn (not_lt.1 hk)]
  rw [newWeights_eq, at2_tabulate _ _ _ hi (by omega), hr j (by omega), if_pos hj]
  congr 1
  rw [← Finset.sum_subset (s₁ := Finset.range i)]
  · apply Finset.sum_congr rfl
    intro k hk
    have := Finset.mem_range.1 hk
    rw [hr k (by omega), if_pos this]
  · intro k hk
    rw [Finset.mem_range] at *
    omega
  · intro k hkn hk
    rw [hr k (Finset.mem_range.1 hkn), if_neg (by simpa using hk)]

example : at2 (newWeights 0 3 [[9, 9, 9], [9, 2, 9], [9, 3, 1]] []) 2 0 = 1 / 4 ∧
    at2 (newWeights 0 3 [[9, 9, 9], [9, 2, 9], [9, 3, 1]] []) 2 1 = 3 / 4 := by decide +kernel

/-- The factor of the valley correction for row `j`. -/
def valleyAt (v : Option (List ℚ)) (j : ℕ) : ℚ := (v.map fun l => l.getD j 0).getD 1

/-- **C26.** What each iteration computes: from the counts of row `i` of the input the rows below are
subtracted, each with its multiplicity normalisation, weight and valley factor.  The rebinned previous
iterate enters only through the weights. -/
theorem C26_iteration (p : FGParams) (m : Mat) (hc : m.consistent = true) (valley : Option (List ℚ))
    (n : ℕ) (H W : List (List ℚ)) (h : fgIter p m valley (n + 1) = .ok (H, W)) (i k : ℕ)
    (hi : i < m.Ex.length) (hk : k < m.Eg.length) :
    at2 H i k = at2 m.values i k - ∑ j ∈ Finset.range i,
      div0 ((m.values.getD i []).sum * (multiplicities p m).getD j 0)
          ((multiplicities p m).getD i 0 * (m.values.getD j []).sum)
        * at2 W i j * valleyAt valley j * at2 m.values j k := by
  have hw := C25_apply_weights p m valley n H W h
  obtain ⟨s0, N, H', _, hN, _, he⟩ := fgIter_succ h
  obtain ⟨rfl, rfl⟩ := Prod.mk.inj he
  rw [at2, subtractG_row _ _ _ _ _ _ hi fun j hj hij => (hw.2.2.1 i hi j hj).2 hij,
    List.getD_eq_getElem _ _ (by simpa using hk), List.getElem_map, List.getElem_range]
  congr 1
  apply Finset.sum_congr rfl
  intro j hj
  have hj' := Finset.mem_range.1 hj
  rw [norm_entry hN (consistent_shape m hc).1 hi (by omega)]
  cases valley <;> rfl

/-- What `fgApply` returns when it succeeds. -/
theorem fgApply_ok {close : List ℚ → List ℚ → Bool} {p : FGParams} {valley : Option (Vec ℚ)}
    {m r : Mat} (h : (fgApply close p valley m).1 = .ok r) :
    ∃ vc H W, (cutValley close valley m).1 = .ok vc ∧ fgIter p m vc p.numIter = .ok (H, W) ∧
      r = ⟨removeNegativeQ H, m.Eg, m.Ex, none, some .firstGeneration⟩ := by
  unfold fgApply at h
  split_ifs at h with c1 c2
  rcases hv : cutValley close valley m with ⟨vc, v'⟩
  rw [hv] at h
  cases vc with
  | error e => simp at h
  | ok vc =>
    simp only at h
    cases hi : fgIter p m vc p.numIter with
    | error e => rw [hi] at h; simp at h
    | ok s =>
      obtain ⟨H, W⟩ := s
      rw [hi] at h
      simp only [Except.ok.injEq] at h
      exact ⟨vc, H, W, rfl, hi, h.symm⟩

/-- **C26.** The matrix returned has the axes of the matrix given, no uncertainties, the state "first
generation", no negative entry, and with at least one iteration entry `(i, k)` is the positive part of
the last iterate of C26_iteration. -/
theorem C26_result (close : List ℚ → List ℚ → Bool) (p : FGParams) (valley : Option (Vec ℚ))
    (m r : Mat) (hc : m.consistent = true) (h : (fgApply close p valley m).1 = .ok r) :
    r.Eg = m.Eg ∧ r.Ex = m.Ex ∧ r.std = none ∧ r.state = some .firstGeneration ∧
      r.values.length = m.Ex.length ∧ (∀ row ∈ r.values, ∀ x ∈ row, 0 ≤ x) ∧
      ∀ n, p.numIter = n + 1 → ∃ vc H W, (cutValley close valley m).1 = .ok vc ∧
        fgIter p m vc (n + 1) = .ok (H, W) ∧
        ∀ i < m.Ex.length, ∀ k < m.Eg.length, at2 r.values i k = max 0 (at2 H i k) := by
  obtain ⟨vc, H, W, hv, hi, rfl⟩ := fgApply_ok h
  have hl := (iter_lengths (consistent_shape m hc).1 hi).1
  refine ⟨rfl, rfl, rfl, rfl, by simpa [removeNegativeQ] using hl, ?_, ?_⟩
  · intro row hrow x hx
    simp only [removeNegativeQ, List.mem_map] at hrow
    obtain ⟨r0, _, rfl⟩ := hrow
    obtain ⟨y, _, rfl⟩ := List.mem_map.1 hx
    split_ifs with hy
    · exact hy.le
    · exact le_refl _
  · intro n hn
    refine ⟨vc, H, W, hv, by rw [← hn]; exact hi, fun i hi' k hk => ?_⟩
    have hiH : i < H.length := by rw [hl]; exact hi'
    rw [hn] at hi
    obtain ⟨s0, N, H', _, _, _, he⟩ := fgIter_succ hi
    have hkH : k < (H.getD i []).length := by
      rw [(Prod.mk.inj he).1, subtractG, tabulate_row _ _ _ hi']
      simpa using hk
    simp only [at2, removeNegativeQ]
    rw [List.getD_eq_getElem _ _ hiH] at *
    rw [List.getD_eq_getElem _ [] (by simpa using hiH), List.getElem_map,
      List.getD_eq_getElem _ _ (by simpa using hkH), List.getElem_map,
      List.getD_eq_getElem _ _ hkH]
    split_ifs with hy
    · exact (max_eq_right hy.le).symm
    · exact (max_eq_left (not_lt.1 hy)).symm

example : (fgApply (fun a b => a == b) (fgParams 1) none fgSample).1 =
    .ok ⟨[[3, 0, 0], [0, 2, 0], [0, 0, 4]], [1, 2, 3], [1, 2, 3], none, some .firstGeneration⟩ := by
  decide +kernel

/-- **C26.** What `apply` refuses, and how: negative excitation energies and negative counts
(ValueError), a valley correction that after the cut does not lie on the excitation axis
(AssertionError) or has a negative factor (ValueError).  The first two leave the valley vector alone. -/
theorem C26_refuses (close : List ℚ → List ℚ → Bool) (p : FGParams) (valley : Option (Vec ℚ)) (m : Mat) :
    ((∃ e ∈ m.Ex, e < 0) → fgApply close p valley m = (.error .valueError, valley)) ∧
    ((∃ r ∈ m.values, ∃ x ∈ r, x < 0) → fgApply close p valley m = (.error .valueError, valley)) ∧
    (∀ v c lo hi, (∀ e ∈ m.Ex, 0 ≤ e) → (∀ r ∈ m.values, ∀ x ∈ r, 0 ≤ x) → valley = some v →
      listMin m.Ex = .ok lo → listMax m.Ex = .ok hi → v.cut (some lo) (some hi) = .ok c →
      (close c.E m.Ex = false → (fgApply close p valley m).1 = .error .assertion) ∧
      (close c.E m.Ex = true → (∃ x ∈ c.values, x < 0) →
        (fgApply close p valley m).1 = .error .valueError)) := by
  refine ⟨?_, ?_, ?_⟩
  · rintro ⟨e, he, h0⟩
    have : m.Ex.any (fun x => x < 0) = true := List.any_eq_true.2 ⟨e, he, by simpa using h0⟩
    simp [fgApply, this]
  · rintro ⟨r, hr, x, hx, h0⟩
    have : m.values.any (fun r => r.any fun x => x < 0) = true :=
      List.any_eq_true.2 ⟨r, hr, List.any_eq_true.2 ⟨x, hx, by simpa using h0⟩⟩
    unfold fgApply
    split_ifs <;> rfl
  · intro v c lo hi hE hV hv hlo hhi hcut
    have c1 : m.Ex.any (fun x => x < 0) = false := by
      rw [List.any_eq_false]; intro x hx; simpa using hE x hx
    have c2 : m.values.any (fun r => r.any fun x => x < 0) = false := by
      rw [List.any_eq_false]; intro r hr
      simp only [Bool.not_eq_true, List.any_eq_false]
      intro x hx; simpa using hV r hr x hx
    subst hv
    constructor
    · intro hcl
      have : cutValley close (some v) m = (.error .assertion, some c) := by
        simp [cutValley, hlo, hhi, hcut, hcl]
      simp [fgApply, c1, c2, this]
    · rintro hcl ⟨x, hx, h0⟩
      have hany : c.values.any (fun x => x < 0) = true :=
        List.any_eq_true.2 ⟨x, hx, by simpa using h0⟩
      have : cutValley close (some v) m = (.error .valueError, some c) := by
        simp only [cutValley, hlo, hhi, hcut, hcl, hany, if_true]
      simp [fgApply, c1, c2, this]

example : (fgApply (fun a b => a == b) (fgParams 1) (some ⟨[1, 2, 3], [1, -1, 1], none, "keV"⟩)
    fgSample).1 = .error .valueError := by decide +kernel

/-- Specification: the counts of a row at gamma energies not below the threshold. -/
def aboveThreshold (s : ℚ) (Eg row : List ℚ) : List (ℚ × ℚ) :=
  (Eg.zip row).filter fun q => s ≤ q.1

theorem mask_sums (s : ℚ) (Eg row : List ℚ) :
    (maskRow s Eg row).sum = ((aboveThreshold s Eg row).map Prod.snd).sum ∧
    (List.zipWith (fun g x => g * x) Eg (maskRow s Eg row)).sum =
      ((aboveThreshold s Eg row).map fun q => q.1 * q.2).sum := by
  induction Eg generalizing row with
  | nil => simp [maskRow, aboveThreshold]
  | cons g gs ih =>
    cases row with
    | nil => simp [maskRow, aboveThreshold]
    | cons x xs =>
      obtain ⟨h1, h2⟩ := ih xs
      unfold maskRow aboveThreshold at *
      by_cases hg : g < s
      · have : ¬ s ≤ g := not_le.2 hg
        simp [hg, this, h1, h2]
      · have : s ≤ g := not_lt.1 hg
        simp [hg, this, h1, h2]

/-- **C28.** The statistical multiplicity of a row: with `s` the threshold (the sliding one is
`ratio · Ex` limited to `[lower, upper]`), `T` the counts at and above it and `P` their energy, it is
`(Ex − entry) · T / P` with the entry energy `Ex − shift` limited to `[0, Ex_entry_statistical]`; it
is 0 if `T` or `P` is 0. -/
theorem C28_statistical_formula (p : FGParams) (Eg row : List ℚ) (ex s : ℚ)
    (hs : s = if p.useSlide then min (max (ex * p.ratio) p.lower) p.upper else p.upper) :
    let T := ((aboveThreshold s Eg row).map Prod.snd).sum
    let P := ((aboveThreshold s Eg row).map fun q => q.1 * q.2).sum
    multStatistical p Eg ex row =
      if T = 0 ∨ P = 0 then 0 else (ex - max (min (ex - p.shift) p.entryStat) 0) * T / P := by
  intro T P
  have hsl : slideOf p ex = s := by rw [hs]; rfl
  obtain ⟨h1, h2⟩ := mask_sums s Eg row
  unfold multStatistical meanEg
  simp only [hsl, h1, h2]
  change div0 _ (div0 P T) = _
  unfold div0
  by_cases hT : T = 0
  · simp [hT]
  · by_cases hP : P = 0
    · simp [hT, hP]
    · have hPT : P / T ≠ 0 := div_ne_zero hP hT
      simp only [hT, hP, hPT, if_false, or_self]
      field_simp

/-- **C28.** The total multiplicity of a row: `Ex · T / P` with the counts `T` and their energy `P`, where
that is positive. -/
theorem C28_total_formula (Eg row : List ℚ) (ex : ℚ) :
    let T := row.sum
    let P := (List.zipWith (fun g x => g * x) Eg row).sum
    multTotal Eg ex row = if T = 0 ∨ P = 0 then 0 else max 0 (ex * T / P) := by
  intro T P
  unfold multTotal meanEg
  change (if div0 ex (div0 P T) < 0 then 0 else div0 ex (div0 P T)) = _
  unfold div0
  by_cases hT : T = 0
  · simp [hT]
  · by_cases hP : P = 0
    · simp [hT, hP]
    · have hPT : P / T ≠ 0 := div_ne_zero hP hT
      have e : ex / (P / T) = ex * T / P := by field_simp
      simp only [hT, hP, hPT, if_false, or_self, e]
      split_ifs with h
      · exact (max_eq_left h.le).symm
      · exact (max_eq_right (not_lt.1 h)).symm

example : multStatistical ⟨1, false, 2, 1, 1/2, 1, 10, true⟩ [1, 2, 3] 3 [5, 1, 1] = 2 / 5 := by
  decide +kernel

end Ompy
