import Verif.StdRoundingProps

/-!
# More on the standard deviations in floating point
-/

namespace Ompy

/-- **C125.** The array of standard deviations has the shape asked for, and its element `(i, j)` is the computed standard
deviation of the elements `(i, j)` of the members. -/
theorem C125_bins {fl : ℚ → ℚ} {u : ℚ} (hfl : Rounding fl u) (hu : 0 ≤ u) (hu1 : u < 1) {D : ℕ → ℕ} {sum : List ℚ → ℚ}
    (hs : Summation fl D sum) {sq : ℚ → ℚ} (hq : RoundedSqrt u sq) (members : List (List (List ℚ))) (hm : members ≠ [])
    (nr nc : ℕ) : (stdOverF fl sum sq members nr nc).length = nr ∧
    (∀ r ∈ stdOverF fl sum sq members nr nc, r.length = nc) ∧
    ∀ i < nr, ∀ j < nc, 0 ≤ at2 (stdOverF fl sum sq members nr nc) i j ∧
      ∃ e, |e| ≤ ((1 + u) ^ (D members.length + 1) - 1) * avg (members.map fun M => |(M.getD i []).getD j 0|) ∧
        Within u (D members.length + 6) (variance (members.map fun M => (M.getD i []).getD j 0) + e ^ 2)
          (at2 (stdOverF fl sum sq members nr nc) i j * at2 (stdOverF fl sum sq members nr nc) i j) := by
  refine ⟨by simp [stdOverF, tabulate], fun r hr => ?_, fun i hi j hj => ?_⟩
  · unfold stdOverF tabulate at hr
    obtain ⟨i, -, rfl⟩ := List.mem_map.1 hr
    simp
  · have e : at2 (stdOverF fl sum sq members nr nc) i j = stdF fl sum sq (members.map fun M => (M.getD i []).getD j 0) := by
      unfold stdOverF
      rw [at2_tabulate _ _ _ hi hj]
      rfl
    have := C125_std hfl hu hu1 hs hq (members.map fun M => (M.getD i []).getD j 0) (by simpa using hm)
    rw [List.length_map, List.map_map] at this
    rw [e]
    exact this

/-- Two members of the shape 2 × 3. -/
example {sq : ℚ → ℚ} (hq : RoundedSqrt (1 / 2 ^ 53) sq) :
    0 ≤ at2 (stdOverF dbl (npSum dbl) sq [[[1, 2, 3], [4, 5, 6]], [[1, 0, 3], [4, 9, 1]]] 2 3) 1 2 :=
  ((C125_bins dbl_rounding (by norm_num) (by norm_num) (C117_numpy dbl) hq _ (by simp) 2 3).2.2 1 (by norm_num) 2
    (by norm_num)).1

end Ompy
