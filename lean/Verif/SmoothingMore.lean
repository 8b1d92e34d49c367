import Verif.SmoothingProps
import Verif.UnfolderProps

/-!
# More on C31: smoothing the columns of a matrix
-/

namespace Ompy

/-- Column `j` of an array. -/
def colR (M : List (List ℝ)) (j : ℕ) : List ℝ := M.map fun row => row.getD j 0

/-- **C31.** For `axis='Ex'` (and for "both") each column of the result is the smoothed column of the
input: non-negative, with the sum of the positive part. -/
theorem C31_matrix_cols (M : List (List ℝ)) (nc : ℕ) (a w : ℝ) (n : ℕ) (hn : 2 ≤ n) (hw : 0 < w)
    (fwhm : List ℝ) (hf : fwhm.length = n) (hpos : ∀ i < n, 0 ≤ fwhm.getD i 0) (t : ℝ) (ht : 0 ≤ t)
    (hM : M.length = n) (axis : AxisArg) (ax : ℕ) (hax : toPlotAxis axis = .ok ax) (hne : ax ≠ 0) :
    ∃ out, gaussSmoothingMatrix M nc (gridR a w n) (.inr fwhm) axis t = .ok out ∧ out.length = n ∧
      (∀ r ∈ out, r.length = nc) ∧
      ∀ j < nc, gaussSmoothing (colR M j) (gridR a w n) fwhm t = .ok (colR out j) ∧
        (∀ x ∈ colR out j, 0 ≤ x) ∧
        (colR out j).sum = ((colR M j).map fun x => max x 0).sum := by
  have hcol : ∀ j, ∃ o, gaussSmoothing (colR M j) (gridR a w n) fwhm t = .ok o ∧ o.length = n ∧
      (∀ x ∈ o, 0 ≤ x) ∧ o.sum = ((colR M j).map fun x => max x 0).sum := by
    intro j
    have hl : (colR M j).length = n := by simp [colR, hM]
    obtain ⟨o, h1, h2, h3, -⟩ := C31_conserves a w n hn hw fwhm (colR M j) hf hpos t ht hl
    refine ⟨o, h1, ?_, h2, h3⟩
    unfold gaussSmoothing at h1
    split_ifs at h1
    cases h1
    simp [hl]
  choose g hg using hcol
  have hmap : (List.range nc).mapM (fun j : ℕ =>
      gaussSmoothing (M.map fun row => row.getD j 0) (gridR a w n) fwhm t)
      = .ok ((List.range nc).map g) := mapM_ok _ g _ fun j _ => (hg j).1
  refine ⟨(List.range n).map fun i : ℕ => ((List.range nc).map g).map fun c => c.getD i 0, ?_, by simp,
    ?_, ?_⟩
  · unfold gaussSmoothingMatrix
    simp only [hax, hne, if_false]
    rw [hmap, hM]
  · intro r hr
    obtain ⟨i, _, rfl⟩ := List.mem_map.1 hr
    simp
  · intro j hj
    have e : colR ((List.range n).map fun i : ℕ => ((List.range nc).map g).map fun c => c.getD i 0) j
        = g j := by
      apply List.ext_getElem
      · simp [colR, (hg j).2.1]
      · intro i h1 h2
        simp only [colR, List.map_map, List.getElem_map, Function.comp, List.getElem_range]
        rw [List.getD_eq_getElem _ _ (by simpa using hj)]
        simp only [List.getElem_map, List.getElem_range]
        rw [Function.comp_apply, List.getD_eq_getElem _ _ h2]
    rw [e]
    exact ⟨(hg j).1, (hg j).2.2.1, (hg j).2.2.2⟩

/-- Non-vacuity: the axis argument "Ex". -/
example : toPlotAxis (.str "Ex") = .ok 1 ∧ toPlotAxis (.num 2) = .ok 2 := by decide +kernel

end Ompy
