import Verif.DiagRoundingProps

/-!
# More properties of the cuts along a line in floating point (C127)
-/

namespace Ompy

/-- **C127.** The library function does not refuse points in the same column but removes everything. -/
theorem C127_vertical_fails (fl : ℚ → ℚ) (values : List (List ℚ)) (Ex Eg : List ℚ) (p q : ℚ × ℚ)
    (hl : values.length = Ex.length) (hw : ∀ r ∈ values, r.length = Eg.length) (hEx : Ex ≠ []) (hEg : Eg ≠ [])
    (h : iFromEF fl p.2 Eg = iFromEF fl q.2 Eg) :
    ∃ v, libCutDiagonalF fl values Ex Eg p q = .ok v ∧ KeptWhere values v (fun _ _ => False) := by
  have found : ∀ (e : ℚ) (E : List ℚ), E ≠ [] → ∃ r, iFromEF fl e E = .ok r := by
    intro e E hE
    obtain ⟨r, h1, -⟩ := argmin_spec (E.map fun x => |fl (x - e)|) (by simpa using hE)
    exact ⟨r, h1⟩
  obtain ⟨x2, h2⟩ := found q.2 Eg hEg
  obtain ⟨y1, h3⟩ := found p.1 Ex hEx
  obtain ⟨y2, h4⟩ := found q.1 Ex hEx
  obtain ⟨z1, z2, z3, z4⟩ := zip_mask values Ex.length Eg.length hl hw (fun _ _ => false)
    (fun v c => if c then v else 0)
  refine ⟨_, ?_, z2, fun i j => ⟨False.elim, fun _ => ?_⟩⟩
  · simp only [libCutDiagonalF, makeMaskF, bind, Except.bind, h, h2, h3, h4, if_true, pure, Except.pure]
    rw [if_pos z1]
  · by_cases hij : i < Ex.length ∧ j < Eg.length
    · rw [z3 i hij.1 j hij.2, if_neg (by simp)]
    · exact (z4 i j hij).1

/-- **C127.** Values that do not fit the axes are refused: IndexError from the method, ValueError from the library. -/
theorem C127_shapes (fl : ℚ → ℚ) :
    (∀ (m : Mat) (p q : ℚ × ℚ) (b : Bool), m.Eg ≠ [] → m.Ex ≠ [] → indexF fl m.Eg p.1 ≠ indexF fl m.Eg q.1 →
      m.values.map List.length ≠ List.replicate m.Ex.length m.Eg.length →
      m.cutDiagonalF fl (some p) (some q) b = (m, .error .indexError)) ∧
    ∀ (values : List (List ℚ)) (Ex Eg : List ℚ) (p q : ℚ × ℚ), Ex ≠ [] → Eg ≠ [] →
      values.map List.length ≠ List.replicate Ex.length Eg.length →
      libCutDiagonalF fl values Ex Eg p q = .error .valueError := by
  have shape : ∀ (a b : ℕ) (c : ℕ → ℕ → Bool),
      (((List.range a).map fun j => (List.range b).map fun i => c j i).map List.length) = List.replicate a b := by
    intro a b c
    rw [List.map_map]
    have : (List.length ∘ fun j => (List.range b).map fun i => c j i) = fun _ => b := by
      funext j
      simp
    rw [this, List.map_const', List.length_range]
  constructor
  · intro m p q b hg hx hne hs
    have hmask := lineMaskF_ok (fl := fl) (p := p) (q := q) hg hx hne
    simp only [Mat.cutDiagonalF, hmask, setMasked]
    rw [if_neg]
    rw [shape]
    exact hs
  · intro values Ex Eg p q hEx hEg hs
    have found : ∀ (e : ℚ) (E : List ℚ), E ≠ [] → ∃ r, iFromEF fl e E = .ok r := by
      intro e E hE
      obtain ⟨r, h1, -⟩ := argmin_spec (E.map fun x => |fl (x - e)|) (by simpa using hE)
      exact ⟨r, h1⟩
    obtain ⟨x1, h1⟩ := found p.2 Eg hEg
    obtain ⟨x2, h2⟩ := found q.2 Eg hEg
    obtain ⟨y1, h3⟩ := found p.1 Ex hEx
    obtain ⟨y2, h4⟩ := found q.1 Ex hEx
    simp only [libCutDiagonalF, makeMaskF, bind, Except.bind, h1, h2, h3, h4, pure, Except.pure]
    rw [if_neg]
    rw [shape]
    exact hs

/-- Points in the same column, and a matrix with a missing column. -/
example : (∃ v, libCutDiagonalF dbl [[1, 1], [1, 1]] [0, 1] [0, 1] (0, 1) (1, 1) = .ok v ∧ (v.getD 0 []).getD 0 0 = 0) ∧
    libCutDiagonalF dbl [[1], [1]] [0, 1] [0, 1] (0, 0) (1, 1) = .error .valueError ∧
    ({ sevenOnes with values := [] } : Mat).cutDiagonalF dbl (some (0, 0)) (some (6, 1)) true =
      ({ sevenOnes with values := [] }, .error .indexError) := by
  refine ⟨?_, (C127_shapes dbl).2 _ _ _ _ _ (by simp) (by simp) (by decide), (C127_shapes dbl).1 _ _ _ _ (by simp [sevenOnes])
    (by simp [sevenOnes]) (by decide +kernel) (by decide)⟩
  obtain ⟨v, h1, -, h2⟩ := C127_vertical_fails dbl [[1, 1], [1, 1]] [0, 1] [0, 1] (0, 1) (1, 1) rfl (by simp) (by simp)
    (by simp) rfl
  exact ⟨v, h1, (h2 0 0).2 (by simp)⟩

end Ompy
