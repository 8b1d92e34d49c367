import Verif.FirstGenRoundingProps

/-!
# More on the first generation method in floating point
-/

namespace Ompy

/-- **C124.** The sliding threshold is the exact one up to one rounding of `Ex * ratio`, lies between the limits if they
are in order, and is a number of the format if the limits are. -/
theorem C124_threshold {fl : ℚ → ℚ} {u : ℚ} (hfl : Rounding fl u) (p : FGParams) (ex : ℚ) :
    |slideOfF fl p ex - slideOf p ex| ≤ u * |ex * p.ratio| ∧
    (p.lower ≤ p.upper → p.useSlide = true → p.lower ≤ slideOfF fl p ex ∧ slideOfF fl p ex ≤ p.upper) ∧
    ((∀ x, fl (fl x) = fl x) → fl p.lower = p.lower → fl p.upper = p.upper →
      fl (slideOfF fl p ex) = slideOfF fl p ex) ∧
    (p.useSlide = true → p.lower ≤ fl (ex * p.ratio) → fl (ex * p.ratio) ≤ p.upper →
      slideOfF fl p ex = fl (ex * p.ratio)) := by
  have r := hfl.rel (ex * p.ratio)
  unfold slideOfF slideOf
  refine ⟨?_, fun h hs => ?_, fun hid hl hu => ?_, fun hs h1 h2 => ?_⟩
  · split
    · refine (abs_min_sub_min_le_max _ _ _ _).trans ?_
      rw [sub_self, abs_zero]
      refine max_le ((abs_max_sub_max_le_max _ _ _ _).trans ?_) ((abs_nonneg _).trans r)
      rw [sub_self, abs_zero]
      exact max_le r ((abs_nonneg _).trans r)
    · rw [sub_self, abs_zero]
      exact (abs_nonneg _).trans r
  · rw [if_pos hs]
    exact ⟨le_min (le_max_right _ _) h, min_le_right _ _⟩
  · split
    · rcases min_choice (max (fl (ex * p.ratio)) p.lower) p.upper with h | h
      · rw [h]
        rcases max_choice (fl (ex * p.ratio)) p.lower with h' | h' <;> rw [h']
        · exact hid _
        · exact hl
      · rw [h]
        exact hu
    · exact hu
  · rw [if_pos hs, max_eq_left h1, min_eq_left h2]

example : slideOfF dbl ⟨1, false, 430, 200, dbl (28 / 100), 200, 300, true⟩ 750 = dbl (750 * dbl (28 / 100)) :=
  (C124_threshold dbl_rounding ⟨1, false, 430, 200, dbl (28 / 100), 200, 300, true⟩ 750).2.2.2 rfl (by decide +kernel)
    (by decide +kernel)

/-- **C124.** The values that are returned are never negative; they are those of the state after `num_iterations` passes
wherever these are positive, and zero elsewhere. -/
theorem C124_values {fl : ℚ → ℚ} {sum : List ℚ → ℚ} {dot : ℕ → ℕ → ℕ → List ℚ → List ℚ → ℚ} {p : FGParams} {m : Mat}
    {valley : Option (List ℚ)} {v : List (List ℚ)} (h : fgValuesF fl sum dot p m valley = .ok v) :
    (∀ r ∈ v, ∀ x ∈ r, 0 ≤ x) ∧ ∃ H W, fgIterF fl sum dot p m valley p.numIter = .ok (H, W) ∧
      ∀ i k, at2 v i k = max 0 (at2 H i k) := by
  unfold fgValuesF at h
  cases hs : fgIterF fl sum dot p m valley p.numIter with
  | error e => rw [hs] at h; exact absurd h (by simp [bind, Except.bind])
  | ok s =>
    rw [hs] at h
    have hv : removeNegativeQ s.1 = v := by simpa [bind, Except.bind, pure, Except.pure] using h
    subst hv
    refine ⟨fun r hr x hx => ?_, s.1, s.2, rfl, fun i k => ?_⟩
    · obtain ⟨r', -, rfl⟩ := List.mem_map.1 hr
      obtain ⟨y, -, rfl⟩ := List.mem_map.1 hx
      split_ifs with hy
      · exact hy.le
      · exact le_refl _
    · have key : ∀ x : ℚ, (if 0 < x then x else 0) = max 0 x := by
        intro x
        split_ifs with hx
        · exact (max_eq_right hx.le).symm
        · exact (max_eq_left (not_lt.1 hx)).symm
      unfold at2 removeNegativeQ
      rw [List.getD_eq_getElem?_getD, List.getD_eq_getElem?_getD, List.getElem?_map, List.getD_eq_getElem?_getD,
        List.getD_eq_getElem?_getD]
      cases s.1[i]? with
      | none => simp
      | some r =>
        simp only [Option.map_some, Option.getD_some, List.getElem?_map]
        cases r[k]? with
        | none => simp
        | some x => simp [key]

/-- **C124.** Without rounding the values are those of the exact `apply`. -/
theorem C124_exact_values (close : List ℚ → List ℚ → Bool) (p : FGParams) (valley : Option (Vec ℚ)) (m r : Mat)
    (h : (fgApply close p valley m).1 = .ok r) : ∃ vc, (cutValley close valley m).1 = .ok vc ∧
      fgValuesF id List.sum (fun _ _ _ a b => (List.zipWith (fun x y => x * y) a b).sum) p m vc = .ok r.values := by
  unfold fgApply at h
  split_ifs at h
  split at h
  · exact absurd h (by simp)
  · rename_i vc v' hc
    refine ⟨vc, by rw [hc], ?_⟩
    unfold fgValuesF
    rw [C124_exact]
    split at h
    · exact absurd h (by simp)
    · rename_i H W hs
      rw [hs]
      have := Except.ok.inj h
      rw [← this]
      rfl

example : ∃ v, fgValuesF dbl (npSum dbl) (fun _ _ _ => dotF dbl (npSum dbl)) unstableParams unstableSample none = .ok v ∧
    at2 v 3 1 = 1 / 2 ^ 51 := by
  have h : (fgValuesF dbl (npSum dbl) (fun _ _ _ => dotF dbl (npSum dbl)) unstableParams unstableSample none).map
      (fun v => at2 v 3 1) = .ok (1 / 2 ^ 51) := by decide +kernel
  cases hs : fgValuesF dbl (npSum dbl) (fun _ _ _ => dotF dbl (npSum dbl)) unstableParams unstableSample none with
  | error e => rw [hs] at h; simp [Except.map] at h
  | ok v => rw [hs] at h; exact ⟨v, rfl, by simpa [Except.map] using h⟩

example : ∃ r, (fgApply (fun _ _ => true) unstableParams none unstableSample).1 = .ok r := by
  have h : (fgApply (fun _ _ => true) unstableParams none unstableSample).1.map (fun m => m.values.getD 3 []) =
      .ok [4, 3, 0, 0] := by decide +kernel
  cases hs : (fgApply (fun _ _ => true) unstableParams none unstableSample).1 with
  | error e => rw [hs] at h; simp [Except.map] at h
  | ok r => exact ⟨r, rfl⟩

end Ompy
