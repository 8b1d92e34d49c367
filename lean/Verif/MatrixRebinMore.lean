import Verif.MatrixRebinProps

/-!
# More on C54: one axis, and the copies
-/

namespace Ompy

/-- **C54.** `axis='Eg'` replaces the gamma axis only: every row gets the shares of its own bins. -/
theorem C54_Eg (m : Mat) (a' w' b' v' : ℚ) (ny my : ℕ) (hny : 2 ≤ ny) (hmy : 2 ≤ my)
    (hw' : 0 < w') (hv' : 0 < v') (hEg : m.Eg = grid a' w' ny) (hc : m.consistent = true)
    (hs : m.std = none) :
    ∃ m', m.rebinInplace 0 (some (grid b' v' my)) none = (m', .ok ()) ∧ m'.Ex = m.Ex ∧
      m'.Eg = grid b' v' my ∧ m'.std = none ∧ m'.state = m.state ∧
      ∀ i < m.Ex.length, ∀ c < my, (m'.values.getD i []).getD c 0 =
        ∑ k ∈ Finset.range ny, (m.values.getD i []).getD k 0 * share a' w' b' v' c k := by
  have h := rebinOne_Eg m a' w' b' v' ny my hny hmy hw' hv' hEg hc hs
  have h' : m.rebinInplace 0 (some (grid b' v' my)) none = m.rebinOne false (some (grid b' v' my)) none := by
    simp [Mat.rebinInplace]
  refine ⟨_, h'.trans h, rfl, rfl, hs, rfl, fun i hi c hcc => ?_⟩
  have hi' : i < m.values.length := by rw [(consistent_shape m hc).1]; exact hi
  simp only
  rw [getD_map_of_lt _ _ hi', getD_map_range _ hcc]

/-- **C54.** `axis='Ex'` replaces the excitation axis only: every column gets the shares of its own
bins. -/
theorem C54_Ex (m : Mat) (a w b v : ℚ) (nx mx : ℕ) (hnx : 2 ≤ nx) (hmx : 2 ≤ mx)
    (hw : 0 < w) (hv : 0 < v) (hEx : m.Ex = grid a w nx) (hc : m.consistent = true)
    (hs : m.std = none) :
    ∃ m', m.rebinInplace 1 (some (grid b v mx)) none = (m', .ok ()) ∧ m'.Eg = m.Eg ∧
      m'.Ex = grid b v mx ∧ m'.std = none ∧ m'.state = m.state ∧
      ∀ i < mx, ∀ c < m.Eg.length, (m'.values.getD i []).getD c 0 =
        ∑ j ∈ Finset.range nx, (m.values.getD j []).getD c 0 * share a w b v i j := by
  have h := rebinOne_Ex m a w b v nx mx hnx hmx hw hv hEx hc hs
  have h' : m.rebinInplace 1 (some (grid b v mx)) none = m.rebinOne true (some (grid b v mx)) none := by
    simp [Mat.rebinInplace]
  refine ⟨_, h'.trans h, rfl, rfl, hs, rfl, fun i hi c hcc => ?_⟩
  simp only
  rw [List.getD_eq_getElem _ [] (by simpa using hi)]
  simp only [List.getElem_map, List.getElem_range]
  rw [getD_map_range _ hcc]

theorem rebinOne_std {m m' : Mat} {isEx : Bool} {mids : Option (List ℚ)} {factor : Option ℚ}
    (h : m.rebinOne isEx mids factor = (m', .ok ())) (hs : m.std = none) :
    m'.std = none ∧ m'.state = m.state := by
  unfold Mat.rebinOne at h
  split at h
  · simp at h
  · split at h
    · simp at h
    · cases isEx <;> simp only [Bool.false_eq_true, if_false, if_true, Prod.mk.injEq] at h <;>
        (obtain ⟨rfl, -⟩ := h; exact ⟨hs, rfl⟩)

theorem rebinOne_state (m : Mat) (isEx : Bool) (mids : Option (List ℚ)) (factor : Option ℚ)
    (s : Option MState) :
    ({ m with state := s } : Mat).rebinOne isEx mids factor =
      ({ (m.rebinOne isEx mids factor).1 with state := s }, (m.rebinOne isEx mids factor).2) := by
  unfold Mat.rebinOne
  simp only
  cases rebinMids (if isEx then m.Ex else m.Eg) mids factor with
  | error e => rfl
  | ok new =>
    simp only
    cases rebin2D m.values m.Eg.length (if isEx then m.Ex else m.Eg) new (if isEx then 0 else 1) with
    | error e => rfl
    | ok v => cases isEx <;> rfl

/-- **C54.** `rebin(inplace=False)` gives, for every axis, the values and axes that the in-place rebin
leaves, and raises when that raises (matrices without `std`). -/
theorem C54_copy_partial (m : Mat) (axis : ℕ) (mids : Option (List ℚ)) (factor : Option ℚ)
    (hs : m.std = none) :
    ((m.rebinInplace axis mids factor).2 = .ok () ∧
      m.rebinCopy axis mids factor = .ok { (m.rebinInplace axis mids factor).1 with state := none }) ∨
    ∃ e, (m.rebinInplace axis mids factor).2 = .error e ∧ m.rebinCopy axis mids factor = .error e := by
  unfold Mat.rebinInplace Mat.rebinCopy
  by_cases h2 : axis = 2
  · rw [if_pos h2, if_pos h2]
    rcases C54_copy_values_partial m false mids factor hs with ⟨h, hc⟩ | ⟨e, h, hc⟩
    · rw [hc]
      generalize hr : m.rebinOne false mids factor = r at *
      obtain ⟨m1, r1⟩ := r
      simp only at h
      subst h
      simp only [bind, Except.bind]
      have e1 : ({ m1 with state := none } : Mat).rebinInplace 1 mids factor =
          ({ (m1.rebinOne true mids factor).1 with state := none },
            (m1.rebinOne true mids factor).2) := by
        simp only [Mat.rebinInplace, OfNat.one_ne_ofNat, if_false]
        exact rebinOne_state m1 true mids factor none
      rw [e1]
      cases hq : (m1.rebinOne true mids factor).2 with
      | error e => exact Or.inr ⟨e, rfl, rfl⟩
      | ok u => exact Or.inl ⟨rfl, rfl⟩
    · right
      refine ⟨e, ?_, by rw [hc]; rfl⟩
      generalize hr : m.rebinOne false mids factor = r at *
      obtain ⟨m1, r1⟩ := r
      simp only at h
      subst h
      rfl
  · rw [if_neg h2, if_neg h2]
    exact C54_copy_values_partial m _ mids factor hs

example : let m : Mat := ⟨[[1, 2, 3, 4], [5, 6, 7, 8]], [0, 1, 2, 3], [0, 1], none, none⟩
    (m.rebinInplace 0 (some [1/2, 5/2]) none).1 = ⟨[[3, 7], [11, 15]], [1/2, 5/2], [0, 1], none, none⟩ ∧
    m.rebinCopy 0 (some [1/2, 5/2]) none = .ok ⟨[[3, 7], [11, 15]], [1/2, 5/2], [0, 1], none, none⟩ := by
  decide +kernel

end Ompy
