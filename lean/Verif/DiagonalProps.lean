import Verif.Diagonal
import Verif.MatrixMore

/-!
# C78: cuts along a line
-/

namespace Ompy

/-- Position of the point `(i, j)` (row, column) relative to the line through `(y1, x1)` and `(y2, x2)`: positive
above the line (higher row), zero on it, negative below, for a line with `x1 ≠ x2`. -/
def side (x1 y1 x2 y2 i j : ℚ) : ℚ := ((i - y1) * (x2 - x1) - (y2 - y1) * (j - x1)) * (x2 - x1)

theorem side_symm (x1 y1 x2 y2 i j : ℚ) : side x2 y2 x1 y1 i j = side x1 y1 x2 y2 i j := by
  unfold side; ring

theorem side_neg (x1 y1 x2 y2 i j : ℚ) (h : x2 ≠ x1) :
    i < (y2 - y1) / (x2 - x1) * j + (y1 - (y2 - y1) / (x2 - x1) * x1) ↔ side x1 y1 x2 y2 i j < 0 := by
  have hd : x2 - x1 ≠ 0 := sub_ne_zero.2 h
  have h2 : 0 < (x2 - x1) ^ 2 := by positivity
  have : side x1 y1 x2 y2 i j
      = (i - ((y2 - y1) / (x2 - x1) * j + (y1 - (y2 - y1) / (x2 - x1) * x1))) * (x2 - x1) ^ 2 := by
    unfold side; field_simp; ring
  rw [this, mul_neg_iff]
  constructor
  · intro h; exact Or.inr ⟨by linarith, h2⟩
  · rintro (⟨_, h⟩ | ⟨h, _⟩)
    · exact absurd h (not_lt.2 h2.le)
    · linarith

theorem side_pos (x1 y1 x2 y2 i j : ℚ) (h : x2 ≠ x1) :
    i > (y2 - y1) / (x2 - x1) * j + (y1 - (y2 - y1) / (x2 - x1) * x1) ↔ 0 < side x1 y1 x2 y2 i j := by
  have hd : x2 - x1 ≠ 0 := sub_ne_zero.2 h
  have h2 : 0 < (x2 - x1) ^ 2 := by positivity
  have : side x1 y1 x2 y2 i j
      = (i - ((y2 - y1) / (x2 - x1) * j + (y1 - (y2 - y1) / (x2 - x1) * x1))) * (x2 - x1) ^ 2 := by
    unfold side; field_simp; ring
  rw [this, mul_pos_iff]
  constructor
  · intro h; exact Or.inl ⟨by linarith, h2⟩
  · rintro (⟨h, _⟩ | ⟨_, h⟩)
    · linarith
    · exact absurd h (not_lt.2 h2.le)

/-- `out` has the shape of `values` and its entries are those of `values` where `keep` holds, zero elsewhere. -/
def KeptWhere (values out : List (List ℚ)) (keep : ℕ → ℕ → Prop) : Prop :=
  out.map List.length = values.map List.length ∧
  ∀ i j, (keep i j → (out.getD i []).getD j 0 = (values.getD i []).getD j 0) ∧
    (¬ keep i j → (out.getD i []).getD j 0 = 0)

theorem zip_mask (values : List (List ℚ)) (nx ny : ℕ) (hl : values.length = nx) (hw : ∀ r ∈ values, r.length = ny)
    (c : ℕ → ℕ → Bool) (f : ℚ → Bool → ℚ) :
    let mask := (List.range nx).map fun i => (List.range ny).map fun j => c i j
    values.map List.length = mask.map List.length ∧
    (List.zipWith (List.zipWith f) values mask).map List.length = values.map List.length ∧
    (∀ i < nx, ∀ j < ny, ((List.zipWith (List.zipWith f) values mask).getD i []).getD j 0
      = f ((values.getD i []).getD j 0) (c i j)) ∧
    (∀ i j, ¬ (i < nx ∧ j < ny) → ((List.zipWith (List.zipWith f) values mask).getD i []).getD j 0 = 0 ∧
      (values.getD i []).getD j 0 = 0) := by
  intro mask
  have hm : mask.length = nx := by simp [mask]
  have hrow : ∀ i (h : i < mask.length), mask[i] = (List.range ny).map fun j => c i j := by
    intro i h; simp [mask]
  have hz : ∀ i (h : i < values.length),
      (List.zipWith (List.zipWith f) values mask)[i]'(by rw [List.length_zipWith, hm, ← hl, min_self]; exact h)
        = List.zipWith f values[i] ((List.range ny).map fun j => c i j) := by
    intro i h
    rw [List.getElem_zipWith, hrow]
  have hlen : (List.zipWith (List.zipWith f) values mask).length = nx := by simp [hm, hl]
  refine ⟨?_, ?_, ?_, ?_⟩
  · apply List.ext_getElem
    · simp [hm, hl]
    · intro i h h'
      simp only [List.length_map] at h
      simp [hrow, hw _ (List.getElem_mem h)]
  · apply List.ext_getElem
    · simp [hm, hl]
    · intro i h h'
      simp only [List.length_map] at h'
      simp only [List.getElem_map]
      rw [hz i h']
      simp [hw _ (List.getElem_mem h')]
  · intro i hi j hj
    have hi' : i < values.length := by omega
    have hj' : j < values[i].length := by rw [hw _ (List.getElem_mem hi')]; exact hj
    rw [List.getD_eq_getElem _ _ (by omega : i < (List.zipWith (List.zipWith f) values mask).length), hz i hi',
      List.getD_eq_getElem _ _ hi', List.getD_eq_getElem _ _ hj', List.getD_eq_getElem _ _ (by simp [hj, hj'])]
    simp
  · intro i j hij
    rcases Nat.lt_or_ge i nx with hi | hi
    · have hj : ny ≤ j := by by_contra h; exact hij ⟨hi, by omega⟩
      have hi' : i < values.length := by omega
      rw [List.getD_eq_getElem _ _ (by omega : i < (List.zipWith (List.zipWith f) values mask).length), hz i hi',
        List.getD_eq_getElem _ _ hi', List.getD_eq_default _ _ (by simp; omega),
        List.getD_eq_default _ _ (by rw [hw _ (List.getElem_mem hi')]; exact hj)]
      exact ⟨rfl, rfl⟩
    · rw [List.getD_eq_default _ _ (by omega : (List.zipWith (List.zipWith f) values mask).length ≤ i),
        List.getD_eq_default _ _ (by omega : values.length ≤ i)]
      exact ⟨rfl, rfl⟩

/-- **C78.** `cut_diagonal` with two points `(Eg, Ex)` in different columns zeroes exactly the entries strictly below
the line through the bins closest to the points; entries on the line are kept, the rest of the matrix is unchanged. -/
theorem C78_matrix (m : Mat) (p q : ℚ × ℚ) (x1 x2 y1 y2 : ℕ) (hc : m.consistent = true)
    (h1 : index m.Eg p.1 = .ok x1) (h2 : index m.Eg q.1 = .ok x2) (h3 : index m.Ex p.2 = .ok y1)
    (h4 : index m.Ex q.2 = .ok y2) (hne : x1 ≠ x2) :
    ∃ v, KeptWhere m.values v (fun i j => 0 ≤ side x1 y1 x2 y2 i j) ∧
      m.cutDiagonal (some p) (some q) true = ({ m with values := v }, .ok none) ∧
      m.cutDiagonal (some p) (some q) false = (m, .ok (some { m with values := v })) := by
  obtain ⟨hl, hw⟩ := consistent_shape m hc
  have hq : (x2 : ℚ) ≠ (x1 : ℚ) := fun h => hne (by exact_mod_cast h.symm)
  obtain ⟨z1, z2, z3, z4⟩ := zip_mask m.values m.Ex.length m.Eg.length hl hw
    (fun j i => decide ((j : ℚ) < ((y2 : ℚ) - y1) / ((x2 : ℚ) - x1) * (i : ℚ) + ((y1 : ℚ) -
      ((y2 : ℚ) - y1) / ((x2 : ℚ) - x1) * x1))) (fun v c => if c then 0 else v)
  have hmask : m.lineMask p q = .ok ((List.range m.Ex.length).map fun j : ℕ =>
      (List.range m.Eg.length).map fun i : ℕ => decide ((j : ℚ) < ((y2 : ℚ) - y1) / ((x2 : ℚ) - x1) * (i : ℚ) +
        ((y1 : ℚ) - ((y2 : ℚ) - y1) / ((x2 : ℚ) - x1) * x1))) := by
    simp only [Mat.lineMask, bind, Except.bind, h1, h2, h3, h4, if_neg (Ne.symm hne), pure, Except.pure]
  refine ⟨_, ⟨z2, fun i j => ?_⟩, ?_, ?_⟩
  · by_cases hij : i < m.Ex.length ∧ j < m.Eg.length
    · rw [z3 i hij.1 j hij.2]
      constructor
      · intro hk
        rw [if_neg]
        rw [decide_eq_true_eq, side_neg _ _ _ _ _ _ hq]
        exact not_lt.2 hk
      · intro hk
        rw [if_pos]
        rw [decide_eq_true_eq, side_neg _ _ _ _ _ _ hq]
        exact not_le.1 hk
    · obtain ⟨w1, w2⟩ := z4 i j hij
      rw [w1, w2]
      exact ⟨fun _ => rfl, fun _ => rfl⟩
  · simp only [Mat.cutDiagonal, hmask, setMasked, if_pos z1, if_true]
  · simp only [Mat.cutDiagonal, hmask, setMasked, if_pos z1, Bool.false_eq_true, if_false]

/-- **C78.** The order of the two points does not matter. -/
theorem C78_order (m : Mat) (p q : ℚ × ℚ) (b : Bool) (hEg : m.Eg ≠ []) (hEx : m.Ex ≠ []) :
    m.cutDiagonal (some p) (some q) b = m.cutDiagonal (some q) (some p) b := by
  obtain ⟨x1, h1, -⟩ := C05_index_in_range m.Eg p.1 hEg
  obtain ⟨x2, h2, -⟩ := C05_index_in_range m.Eg q.1 hEg
  obtain ⟨y1, h3, -⟩ := C05_index_in_range m.Ex p.2 hEx
  obtain ⟨y2, h4, -⟩ := C05_index_in_range m.Ex q.2 hEx
  have hmask : m.lineMask p q = m.lineMask q p := by
    simp only [Mat.lineMask, bind, Except.bind, h1, h2, h3, h4, pure, Except.pure]
    by_cases h : x1 = x2
    · rw [if_pos h.symm, if_pos h]
    · rw [if_neg (Ne.symm h), if_neg h]
      have ha : (x2 : ℚ) ≠ (x1 : ℚ) := fun e => h (by exact_mod_cast e.symm)
      have hb : (x1 : ℚ) ≠ (x2 : ℚ) := fun e => h (by exact_mod_cast e)
      congr 1
      apply List.map_congr_left
      intro i _
      apply List.map_congr_left
      intro j _
      apply decide_eq_decide.2
      rw [side_neg _ _ _ _ _ _ ha, side_neg _ _ _ _ _ _ hb, side_symm]
  simp only [Mat.cutDiagonal, hmask]

/-- **C78.** Refused calls: a missing point raises ValueError; two points in the same column fail the assertion.  The
matrix is unchanged. -/
theorem C78_refused (m : Mat) (b : Bool) :
    (∀ p, m.cutDiagonal none p b = (m, .error .valueError)) ∧
    (∀ p, m.cutDiagonal p none b = (m, .error .valueError)) ∧
    (∀ p q : ℚ × ℚ, m.Eg ≠ [] → m.Ex ≠ [] → index m.Eg p.1 = index m.Eg q.1 →
      m.cutDiagonal (some p) (some q) b = (m, .error .assertion)) := by
  refine ⟨fun p => rfl, fun p => by cases p <;> rfl, fun p q hEg hEx h => ?_⟩
  obtain ⟨x2, h2, -⟩ := C05_index_in_range m.Eg q.1 hEg
  obtain ⟨y1, h3, -⟩ := C05_index_in_range m.Ex p.2 hEx
  obtain ⟨y2, h4, -⟩ := C05_index_in_range m.Ex q.2 hEx
  have hmask : m.lineMask p q = .error .assertion := by
    simp only [Mat.lineMask, bind, Except.bind, h, h2, h3, h4, if_true]
  simp only [Mat.cutDiagonal, hmask]

/-- **C78 (partial).** The `cut_diagonal` of the library (points ordered (Ex, Eg)) keeps exactly the entries strictly
above the line.  Missing: the entries on the line, which the method of `Matrix` keeps (`C78_line_fails`), and vertical
lines (`C78_vertical_fails`). -/
theorem C78_library_partial (values : List (List ℚ)) (Ex Eg : List ℚ) (p q : ℚ × ℚ) (x1 x2 y1 y2 : ℕ)
    (hl : values.length = Ex.length) (hw : ∀ r ∈ values, r.length = Eg.length)
    (h1 : iFromE p.2 Eg = .ok x1) (h2 : iFromE q.2 Eg = .ok x2) (h3 : iFromE p.1 Ex = .ok y1)
    (h4 : iFromE q.1 Ex = .ok y2) (hne : x1 ≠ x2) :
    ∃ v, libCutDiagonal values Ex Eg p q = .ok v ∧ KeptWhere values v (fun i j => 0 < side x1 y1 x2 y2 i j) := by
  have hq : (x2 : ℚ) ≠ (x1 : ℚ) := fun h => hne (by exact_mod_cast h.symm)
  obtain ⟨z1, z2, z3, z4⟩ := zip_mask values Ex.length Eg.length hl hw
    (fun i j => decide ((i : ℚ) > ((y2 : ℚ) - y1) / ((x2 : ℚ) - x1) * (j : ℚ) + ((y1 : ℚ) -
      ((y2 : ℚ) - y1) / ((x2 : ℚ) - x1) * x1))) (fun v c => if c then v else 0)
  have hmask : makeMask Ex Eg p.1 p.2 q.1 q.2 = .ok ((List.range Ex.length).map fun i : ℕ =>
      (List.range Eg.length).map fun j : ℕ => decide ((i : ℚ) > ((y2 : ℚ) - y1) / ((x2 : ℚ) - x1) * (j : ℚ) +
        ((y1 : ℚ) - ((y2 : ℚ) - y1) / ((x2 : ℚ) - x1) * x1))) := by
    simp only [makeMask, bind, Except.bind, h1, h2, h3, h4, libLine, if_neg (Ne.symm hne), pure, Except.pure]
  refine ⟨_, ?_, ⟨z2, fun i j => ?_⟩⟩
  · simp only [libCutDiagonal, bind, Except.bind, hmask, if_pos z1]
  · by_cases hij : i < Ex.length ∧ j < Eg.length
    · rw [z3 i hij.1 j hij.2]
      constructor
      · intro hk
        rw [if_pos]
        rw [decide_eq_true_eq, side_pos _ _ _ _ _ _ hq]
        exact hk
      · intro hk
        rw [if_neg]
        rw [decide_eq_true_eq, side_pos _ _ _ _ _ _ hq]
        exact hk
    · obtain ⟨w1, w2⟩ := z4 i j hij
      rw [w1, w2]
      exact ⟨fun _ => rfl, fun _ => rfl⟩

/-- C78 is false: a vertical line in the library function erases the whole matrix. -/
theorem C78_vertical_fails (values : List (List ℚ)) (Ex Eg : List ℚ) (p q : ℚ × ℚ)
    (hl : values.length = Ex.length) (hw : ∀ r ∈ values, r.length = Eg.length) (hEx : Ex ≠ []) (hEg : Eg ≠ [])
    (h : iFromE p.2 Eg = iFromE q.2 Eg) :
    ∃ v, libCutDiagonal values Ex Eg p q = .ok v ∧ KeptWhere values v (fun _ _ => False) := by
  obtain ⟨x2, h2, -⟩ := C06_iFromE_first_closest Eg q.2 hEg
  obtain ⟨y1, h3, -⟩ := C06_iFromE_first_closest Ex p.1 hEx
  obtain ⟨y2, h4, -⟩ := C06_iFromE_first_closest Ex q.1 hEx
  obtain ⟨z1, z2, z3, z4⟩ := zip_mask values Ex.length Eg.length hl hw (fun _ _ => false)
    (fun v c => if c then v else 0)
  have hmask : makeMask Ex Eg p.1 p.2 q.1 q.2 = .ok ((List.range Ex.length).map fun _ : ℕ =>
      (List.range Eg.length).map fun _ : ℕ => false) := by
    simp only [makeMask, bind, Except.bind, h, h2, h3, h4, libLine, if_true, pure, Except.pure]
  refine ⟨_, ?_, ⟨z2, fun i j => ⟨fun h => h.elim, fun _ => ?_⟩⟩⟩
  · simp only [libCutDiagonal, bind, Except.bind, hmask, if_pos z1]
  · by_cases hij : i < Ex.length ∧ j < Eg.length
    · rw [z3 i hij.1 j hij.2]; rfl
    · exact (z4 i j hij).1

/-- C78 is false: with the same two points, both on grid, the two functions differ exactly on the line: the method
keeps these entries, the library function erases them. -/
theorem C78_line_fails (m : Mat) (x1 x2 y1 y2 : ℕ) (hc : m.consistent = true)
    (hsx : m.Ex.Pairwise (· < ·)) (hsg : m.Eg.Pairwise (· < ·)) (hx1 : x1 < m.Eg.length) (hx2 : x2 < m.Eg.length)
    (hy1 : y1 < m.Ex.length) (hy2 : y2 < m.Ex.length) (hne : x1 ≠ x2) :
    let p := (m.Eg.getD x1 0, m.Ex.getD y1 0)
    let q := (m.Eg.getD x2 0, m.Ex.getD y2 0)
    ∃ m' v, m.cutDiagonal (some p) (some q) true = (m', .ok none) ∧
      libCutDiagonal m.values m.Ex m.Eg p.swap q.swap = .ok v ∧
      ∀ i j : ℕ, (side x1 y1 x2 y2 i j ≠ 0 → (m'.values.getD i []).getD j 0 = (v.getD i []).getD j 0) ∧
        (side x1 y1 x2 y2 i j = 0 →
          (m'.values.getD i []).getD j 0 = (m.values.getD i []).getD j 0 ∧ (v.getD i []).getD j 0 = 0) := by
  intro p q
  have hit : ∀ (l : List ℚ) (k : ℕ), l.Pairwise (· < ·) → k < l.length → iFromE (l.getD k 0) l = .ok k := by
    intro l k hs hk
    obtain ⟨i, h1, h2, -⟩ := C06_iFromE_first_closest l (l.getD k 0) (by rintro rfl; simp at hk)
    rw [h1, closest_of_hit hs hk h2]
  obtain ⟨hl, hw⟩ := consistent_shape m hc
  obtain ⟨v', k', e', -⟩ := C78_matrix m p q x1 x2 y1 y2 hc (index_hit hsg hx1) (index_hit hsg hx2)
    (index_hit hsx hy1) (index_hit hsx hy2) hne
  obtain ⟨v, e, k⟩ := C78_library_partial m.values m.Ex m.Eg p.swap q.swap x1 x2 y1 y2 hl hw
    (hit _ _ hsg hx1) (hit _ _ hsg hx2) (hit _ _ hsx hy1) (hit _ _ hsx hy2) hne
  refine ⟨_, v, e', e, fun i j => ⟨fun hs => ?_, fun hs => ?_⟩⟩
  · rcases lt_or_gt_of_ne hs with h | h
    · rw [(k'.2 i j).2 (not_le.2 h), (k.2 i j).2 (not_lt.2 h.le)]
    · rw [(k'.2 i j).1 h.le, (k.2 i j).1 h]
  · exact ⟨(k'.2 i j).1 hs.ge, (k.2 i j).2 (not_lt.2 hs.le)⟩

example : let m : Mat := ⟨[[1, 2, 3], [4, 5, 6], [7, 8, 9]], [1, 2, 3], [1, 2, 3], none, none⟩
    m.consistent = true ∧ index m.Eg 1 = .ok 0 ∧ index m.Eg 3 = .ok 2 ∧
    m.cutDiagonal (some (1, 1)) (some (3, 3)) true
      = (⟨[[1, 0, 0], [4, 5, 0], [7, 8, 9]], [1, 2, 3], [1, 2, 3], none, none⟩, .ok none) ∧
    libCutDiagonal m.values m.Ex m.Eg (1, 1) (3, 3) = .ok [[0, 0, 0], [4, 0, 0], [7, 8, 0]] ∧
    libCutDiagonal m.values m.Ex m.Eg (1, 2) (3, 2) = .ok [[0, 0, 0], [0, 0, 0], [0, 0, 0]] := by decide +kernel

end Ompy
