import Verif.InterpMat
import Verif.ResponseProps

/-!
# C90: interpolation of matrices
-/

namespace Ompy

/-- At an energy of the axis the interpolation is the tabulated value. -/
theorem interpLin_knot (xs : List ℚ) (hs : xs.Pairwise (· < ·)) (hn : 2 ≤ xs.length) (k : ℕ) (hk : k < xs.length) (ys : ℕ → ℚ) :
    interpLin xs ys (xs.getD k 0) = ys k := by
  have hlt : ∀ i j, i < j → j < xs.length → xs.getD i 0 < xs.getD j 0 := by
    intro i j hij hj
    rw [List.getD_eq_getElem _ _ (by omega), List.getD_eq_getElem _ _ hj]
    exact List.pairwise_iff_getElem.1 hs _ _ _ _ hij
  have hle : ∀ i j, i ≤ j → j < xs.length → xs.getD i 0 ≤ xs.getD j 0 := by
    intro i j hij hj
    rcases hij.eq_or_lt with rfl | h
    · exact le_rfl
    · exact (hlt i j h hj).le
  obtain ⟨c, t, hc, ht0, ht1, hx, hy⟩ := interpLin_between xs hs hn (xs.getD k 0) (hle 0 k (by omega) hk) (hle k _ (by omega) (by omega))
  rw [hy]
  have hstep := hlt c (c + 1) (by omega) hc
  rcases Nat.lt_trichotomy k c with h | h | h
  · have := hlt k c h (by omega)
    nlinarith
  · subst h
    have : t * (xs.getD (k + 1) 0 - xs.getD k 0) = 0 := by linarith
    rcases mul_eq_zero.1 this with h0 | h0
    · rw [h0]; ring
    · linarith
  · rcases Nat.lt_or_ge (c + 1) k with h' | h'
    · have := hlt (c + 1) k h' hk
      nlinarith
    · have hkc : k = c + 1 := by omega
      subst hkc
      have : (1 - t) * (xs.getD (c + 1) 0 - xs.getD c 0) = 0 := by linarith
      rcases mul_eq_zero.1 this with h0 | h0
      · have : t = 1 := by linarith
        rw [this]; ring
      · linarith

theorem interpZero_knot (xs : List ℚ) (hs : xs.Pairwise (· < ·)) (hn : 2 ≤ xs.length) (k : ℕ) (hk : k < xs.length) (ys : ℕ → ℚ) :
    interpZero xs ys (xs.getD k 0) = ys k := by
  unfold interpZero
  rw [if_neg, interpLin_knot xs hs hn k hk]
  rw [not_or, not_lt, not_lt]
  have hle : ∀ i j, i ≤ j → j < xs.length → xs.getD i 0 ≤ xs.getD j 0 := by
    intro i j hij hj
    rcases hij.eq_or_lt with rfl | h
    · exact le_rfl
    · rw [List.getD_eq_getElem _ _ (by omega), List.getD_eq_getElem _ _ hj]
      exact (List.pairwise_iff_getElem.1 hs _ _ _ _ h).le
  exact ⟨hle 0 k (by omega) hk, hle k _ (by omega) (by omega)⟩

theorem interpLin_congr (xs : List ℚ) (hn : 2 ≤ xs.length) (ys zs : ℕ → ℚ) (x : ℚ) (h : ∀ i < xs.length, ys i = zs i) :
    interpLin xs ys x = interpLin xs zs x := by
  have b1 : max 1 (min (searchsorted xs x false) (xs.length - 1)) ≤ xs.length - 1 := max_le (by omega) (min_le_right _ _)
  unfold interpLin
  simp only
  rw [h _ (by omega), h _ (by omega)]

theorem map_axis (xs : List ℚ) (f : ℚ → ℚ) (g : ℕ → ℚ) (h : ∀ k < xs.length, f (xs.getD k 0) = g k) :
    xs.map f = (List.range xs.length).map g := by
  apply List.ext_getElem
  · simp
  · intro k h1 h2
    have hk : k < xs.length := by simpa using h1
    simp only [List.getElem_map, List.getElem_range]
    rw [← h k hk, List.getD_eq_getElem _ _ hk]

/-- **C90.** Interpolating to the same axis gives the same matrix, along both axes. -/
theorem C90_identity (m : List (List ℚ)) (nr nc : ℕ) (hm : m.length = nr ∧ ∀ r ∈ m, r.length = nc) (E : List ℚ)
    (hs : E.Pairwise (· < ·)) (hn : 2 ≤ E.length) :
    (E.length = nc → interpMat1D m nc E E 1 = .ok m) ∧ (E.length = nr → interpMat1D m nc E E 0 = .ok m) := by
  constructor
  · intro h
    unfold interpMat1D
    rw [if_pos rfl, if_pos h.symm]
    congr 1
    conv_rhs => rw [← List.map_id m]
    apply List.map_congr_left
    intro r hr
    rw [map_axis E _ (fun k => r.getD k 0) (fun k hk => interpZero_knot E hs hn k hk _), h, id, ← hm.2 r hr]
    apply List.ext_getElem
    · simp
    · intro k h1 h2
      simp only [List.getElem_map, List.getElem_range, List.getD_eq_getElem r _ h2]
  · intro h
    unfold interpMat1D
    rw [if_neg (by norm_num), if_pos rfl, if_pos (by rw [hm.1, h])]
    congr 1
    apply List.ext_getElem
    · simp [h, hm.1]
    · intro k h1 h2
      have hk : k < E.length := by simpa using h1
      simp only [List.getElem_map]
      rw [← List.getD_eq_getElem E 0 hk]
      apply List.ext_getElem
      · simp [hm.2 _ (List.getElem_mem h2)]
      · intro j hj1 hj2
        simp only [List.getElem_map, List.getElem_range]
        rw [interpZero_knot E hs hn k hk, List.getD_eq_getElem m _ h2, List.getD_eq_getElem _ _ hj2]

/-- **C90.** Inside the axis each new entry is a weighted mean of two neighbouring entries of its line, with the weights that give the energy; outside, it is zero. A line
that is a linear function of the energy is reproduced. -/
theorem C90_entry (m : List (List ℚ)) (nc : ℕ) (Ein Eout : List ℚ) (hs : Ein.Pairwise (· < ·)) (hn : 2 ≤ Ein.length) (hc : nc = Ein.length) :
    ∃ out, interpMat1D m nc Ein Eout 1 = .ok out ∧ out.length = m.length ∧ (∀ r ∈ out, r.length = Eout.length) ∧
      ∀ i < m.length, ∀ j < Eout.length,
        (Ein.getD 0 0 ≤ Eout.getD j 0 → Eout.getD j 0 ≤ Ein.getD (Ein.length - 1) 0 →
          (∃ k t, k + 1 < Ein.length ∧ 0 ≤ t ∧ t ≤ 1 ∧ Eout.getD j 0 = (1 - t) * Ein.getD k 0 + t * Ein.getD (k + 1) 0 ∧
            (out.getD i []).getD j 0 = (1 - t) * (m.getD i []).getD k 0 + t * (m.getD i []).getD (k + 1) 0) ∧
          (∀ a b : ℚ, (∀ k < Ein.length, (m.getD i []).getD k 0 = a + b * Ein.getD k 0) →
            (out.getD i []).getD j 0 = a + b * Eout.getD j 0)) ∧
        (Eout.getD j 0 < Ein.getD 0 0 ∨ Ein.getD (Ein.length - 1) 0 < Eout.getD j 0 → (out.getD i []).getD j 0 = 0) := by
  refine ⟨m.map fun r => Eout.map fun E => interpZero Ein (fun i => r.getD i 0) E, ?_, by simp, ?_, ?_⟩
  · unfold interpMat1D
    rw [if_pos rfl, if_pos hc]
  · intro r hr
    obtain ⟨r', -, rfl⟩ := List.mem_map.1 hr
    simp
  · intro i hi j hj
    have e : ((m.map fun r => Eout.map fun E => interpZero Ein (fun i => r.getD i 0) E).getD i []).getD j 0 =
        interpZero Ein (fun k => (m.getD i []).getD k 0) (Eout.getD j 0) := by
      rw [List.getD_eq_getElem (m.map _) [] (by simpa using hi), List.getElem_map, List.getD_eq_getElem (Eout.map _) 0 (by simpa using hj),
        List.getElem_map, List.getD_eq_getElem m [] hi, List.getD_eq_getElem Eout 0 hj]
    rw [e]
    refine ⟨?_, ?_⟩
    · intro h0 h1
      have ez : interpZero Ein (fun k => (m.getD i []).getD k 0) (Eout.getD j 0) =
          interpLin Ein (fun k => (m.getD i []).getD k 0) (Eout.getD j 0) := by
        unfold interpZero
        rw [if_neg (by rw [not_or, not_lt, not_lt]; exact ⟨h0, h1⟩)]
      obtain ⟨k, t, hk, ht0, ht1, hx, hy⟩ := interpLin_between Ein hs hn (Eout.getD j 0) h0 h1
      rw [ez, hy]
      refine ⟨⟨k, t, hk, ht0, ht1, hx, rfl⟩, ?_⟩
      intro a b hab
      rw [hab k (by omega), hab (k + 1) hk, hx]
      ring
    · intro h
      unfold interpZero
      rw [if_pos h]

/-- **C90.** Other axes than 0 and 1, and axes that do not fit, are refused. -/
theorem C90_refused (m : List (List ℚ)) (nc : ℕ) (Ein Eout : List ℚ) (axis : ℤ) :
    (axis ≠ 0 → axis ≠ 1 → interpMat1D m nc Ein Eout axis = .error .indexError) ∧
    (nc ≠ Ein.length → interpMat1D m nc Ein Eout 1 = .error .runtimeError) ∧
    (m.length ≠ Ein.length → interpMat1D m nc Ein Eout 0 = .error .runtimeError) ∧
    (∀ E1 O1, m.length ≠ Ein.length ∨ nc ≠ E1.length → interpMat2D m nc Ein E1 Eout O1 = .error .runtimeError) := by
  refine ⟨?_, ?_, ?_, ?_⟩
  · intro h0 h1
    unfold interpMat1D
    rw [if_neg h1, if_neg h0]
  · intro h
    unfold interpMat1D
    rw [if_pos rfl, if_neg h]
  · intro h
    unfold interpMat1D
    rw [if_neg (by norm_num), if_pos rfl, if_neg h]
  · intro E1 O1 h
    unfold interpMat2D
    rw [if_neg (by tauto)]

/-- **C90 (partial: energies strictly inside both axes).** The interpolation in two dimensions is that along one axis after that along the other. -/
theorem C90_two_partial (m : List (List ℚ)) (nc : ℕ) (E0 E1 O0 O1 : List ℚ) (h0 : m.length = E0.length) (h1 : nc = E1.length)
    (hi0 : ∀ x ∈ O0, E0.getD 0 0 < x ∧ x < E0.getD (E0.length - 1) 0)
    (hi1 : ∀ y ∈ O1, E1.getD 0 0 < y ∧ y < E1.getD (E1.length - 1) 0) :
    ∃ mid out, interpMat1D m nc E1 O1 1 = .ok mid ∧ interpMat1D mid O1.length E0 O0 0 = .ok out ∧
      interpMat2D m nc E0 E1 O0 O1 = .ok out := by
  refine ⟨m.map fun r => O1.map fun E => interpZero E1 (fun i => r.getD i 0) E,
    O0.map fun x => O1.map fun y => bilinear m E0 E1 x y, ?_, ?_, ?_⟩
  · unfold interpMat1D
    rw [if_pos rfl, if_pos h1]
  · unfold interpMat1D
    rw [if_neg (by norm_num), if_pos rfl, if_pos (by simpa using h0)]
    congr 1
    apply List.map_congr_left
    intro x hx
    symm
    apply List.ext_getElem
    · simp
    · intro j hj1 hj2
      have hj : j < O1.length := by simpa using hj1
      simp only [List.getElem_map, List.getElem_range]
      unfold bilinear interpZero
      rw [if_neg (by rw [not_or, not_lt, not_lt]; exact ⟨(hi0 x hx).1.le, (hi0 x hx).2.le⟩)]
      have hy := hi1 _ (List.getElem_mem hj)
      have key : ∀ i, i < m.length → ((m.map fun r => O1.map fun E =>
          if E < E1.getD 0 0 ∨ E1.getD (E1.length - 1) 0 < E then 0 else interpLin E1 (fun i => r.getD i 0) E).getD i []).getD j 0 =
          interpLin E1 (fun j => (m.getD i []).getD j 0) O1[j] := by
        intro i hi
        rw [List.getD_eq_getElem (m.map _) [] (by simpa using hi), List.getElem_map, List.getD_eq_getElem (O1.map _) 0 (by simpa using hj),
          List.getElem_map, List.getD_eq_getElem m [] hi,
          if_neg (by rw [not_or, not_lt, not_lt]; exact ⟨hy.1.le, hy.2.le⟩)]
      by_cases hn : E0.length = 0
      · have hl := hi0 x hx
        have : E0 = [] := List.length_eq_zero_iff.1 hn
        rw [this] at hl
        simp only [List.getD_nil] at hl
        linarith
      · by_cases hone : E0.length = 1
        · have hl := hi0 x hx
          rw [hone] at hl
          simp only [Nat.sub_self] at hl
          linarith
        · exact interpLin_congr E0 (by omega) _ _ x (fun i hi => (key i (by omega)).symm)
  · unfold interpMat2D
    rw [if_pos ⟨h0, h1⟩]
    congr 1
    apply List.map_congr_left
    intro x hx
    apply List.map_congr_left
    intro y hy
    rw [if_pos]
    constructor
    · unfold insideOf
      rw [not_or, not_le, not_le]
      exact hi0 x hx
    · unfold insideOf
      rw [not_or, not_le, not_le]
      exact hi1 y hy

/-- **C90 (disagreement).** The mask "outside original bounds" includes the bounds: interpolating to the same axes sets the first and the last row and
column to zero, whatever they are; all other entries are kept. -/
theorem C90_border_fails (m : List (List ℚ)) (nc : ℕ) (E0 E1 : List ℚ) (hm : m.length = E0.length ∧ ∀ r ∈ m, r.length = nc) (h1 : nc = E1.length)
    (hs0 : E0.Pairwise (· < ·)) (hs1 : E1.Pairwise (· < ·)) (hn0 : 2 ≤ E0.length) (hn1 : 2 ≤ E1.length) :
    ∃ out, interpMat2D m nc E0 E1 E0 E1 = .ok out ∧ ∀ i < E0.length, ∀ j < E1.length, (out.getD i []).getD j 0 =
      if i = 0 ∨ i + 1 = E0.length ∨ j = 0 ∨ j + 1 = E1.length then 0 else (m.getD i []).getD j 0 := by
  have ins : ∀ (E : List ℚ), E.Pairwise (· < ·) → ∀ k < E.length, insideOf E (E.getD k 0) ↔ ¬ (k = 0 ∨ k + 1 = E.length) := by
    intro E hs k hk
    have hlt : ∀ i j, i < j → j < E.length → E.getD i 0 < E.getD j 0 := by
      intro i j hij hj
      rw [List.getD_eq_getElem _ _ (by omega), List.getD_eq_getElem _ _ hj]
      exact List.pairwise_iff_getElem.1 hs _ _ _ _ hij
    unfold insideOf
    rw [not_iff_not]
    constructor
    · rintro (h | h)
      · left
        by_contra h0
        have := hlt 0 k (by omega) hk
        linarith
      · right
        by_contra h0
        have := hlt k (E.length - 1) (by omega) (by omega)
        linarith
    · rintro (h | h)
      · left; rw [h]
      · right
        rw [show k = E.length - 1 by omega]
  refine ⟨E0.map fun x => E1.map fun y => if insideOf E0 x ∧ insideOf E1 y then bilinear m E0 E1 x y else 0, ?_, ?_⟩
  · unfold interpMat2D
    rw [if_pos ⟨hm.1, h1⟩]
  · intro i hi j hj
    rw [List.getD_eq_getElem (E0.map _) [] (by simpa using hi), List.getElem_map, List.getD_eq_getElem (E1.map _) 0 (by simpa using hj),
      List.getElem_map, ← List.getD_eq_getElem E0 0 hi, ← List.getD_eq_getElem E1 0 hj]
    by_cases h : i = 0 ∨ i + 1 = E0.length ∨ j = 0 ∨ j + 1 = E1.length
    · rw [if_pos h, if_neg]
      rw [ins E0 hs0 i hi, ins E1 hs1 j hj]
      tauto
    · rw [if_neg h, if_pos]
      · unfold bilinear
        rw [interpLin_knot E0 hs0 hn0 i hi, interpLin_knot E1 hs1 hn1 j hj]
      · rw [ins E0 hs0 i hi, ins E1 hs1 j hj]
        tauto

/-- Non-vacuity: a matrix of three by three bins, interpolated to the same and to other axes. -/
example : interpMat2D [[1, 2, 3], [4, 5, 6], [7, 8, 9]] 3 [0, 1, 2] [0, 1, 2] [0, 1, 2] [0, 1, 2] =
      .ok [[0, 0, 0], [0, 5, 0], [0, 0, 0]] ∧
    interpMat1D [[1, 2, 3], [4, 5, 6]] 3 [0, 1, 2] [-1, 0, 1 / 2, 2, 3] 1 = .ok [[0, 1, 3 / 2, 3, 0], [0, 4, 9 / 2, 6, 0]] ∧
    interpMat1D [[1, 2, 3], [4, 5, 6]] 3 [0, 1] [0, 1 / 3, 1] 0 = .ok [[1, 2, 3], [2, 3, 4], [4, 5, 6]] := by
  decide +kernel

end Ompy
