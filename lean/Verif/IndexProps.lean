import Verif.IndexLemmas

/-!
# Properties C05, C06: closest-bin searches

Specification: position `i` is a closest bin of `e` if no other position has a smaller absolute
distance.
-/

namespace Ompy

/-- Specification: `i` is a position of `l` at minimal distance from `e`. -/
def IsClosest (l : List ℚ) (e : ℚ) (i : ℕ) : Prop :=
  i < l.length ∧ ∀ j < l.length, |l.getD i 0 - e| ≤ |l.getD j 0 - e|

/-- **C05.** On every sorted axis `index` returns a closest bin; of several closest bins
the highest. -/
theorem C05_index_closest (l : List ℚ) (e : ℚ) (hl : l ≠ []) (hs : l.Pairwise (· ≤ ·)) :
    ∃ i, index l e = .ok i ∧ IsClosest l e i ∧ ∀ j, IsClosest l e j → j ≤ i := by
  cases l with
  | nil => exact absurd rfl hl
  | cons a as =>
    have h := indexRel_spec e a as hs
    have hlt := indexRel_lt e a as
    refine ⟨_, index_cons a as e, ⟨hlt, fun j hj => sq_le_sq.1 (h j hj).1⟩, ?_⟩
    intro j hj
    apply (h j hj.1).2
    have h1 := hj.2 _ hlt
    exact le_antisymm (sq_le_sq.2 h1) (h j hj.1).1

example : ([1, 2, 2, 5] : List ℚ) ≠ [] ∧ ([1, 2, 2, 5] : List ℚ).Pairwise (· ≤ ·) := by
  decide +kernel

/-- C05: ties go to the upper bin. -/
example : index [1, 3, 5] 2 = .ok 1 := by decide +kernel

/-- **C05.** On any non-empty axis, sorted or not, the answer is a valid position. -/
theorem C05_index_in_range (l : List ℚ) (e : ℚ) (hl : l ≠ []) :
    ∃ i, index l e = .ok i ∧ i < l.length := by
  cases l with
  | nil => exact absurd rfl hl
  | cons a as => exact ⟨_, index_cons a as e, indexRel_lt e a as⟩

example : ([3, -1, 2] : List ℚ) ≠ [] := by decide

/-- **C05.** On an unsorted axis the answer need not be a closest bin. -/
theorem C05_unsorted_not_closest :
    ∃ (l : List ℚ) (e : ℚ) (i : ℕ), index l e = .ok i ∧ ¬ IsClosest l e i := by
  refine ⟨[0, 10, 1], 1, 0, by decide +kernel, ?_⟩
  intro h
  have := h.2 2 (by decide)
  norm_num at this

/-- **C06.** `i_from_E` returns the lowest closest position on every non-empty array. -/
theorem C06_iFromE_first_closest (l : List ℚ) (e : ℚ) (hl : l ≠ []) :
    ∃ i, iFromE e l = .ok i ∧ IsClosest l e i ∧ ∀ j, IsClosest l e j → i ≤ j := by
  obtain ⟨r, h1, h2, h3, h4⟩ := argmin_spec (l.map fun x => |x - e|) (by simpa using hl)
  have g : ∀ j < l.length, (l.map fun x => |x - e|).getD j 0 = |l.getD j 0 - e| := by
    intro j hj
    simp [List.getD_eq_getElem?_getD, hj]
  simp only [List.length_map] at h2 h3
  refine ⟨r, h1, ⟨h2, ?_⟩, ?_⟩
  · intro j hj
    rw [← g j hj, ← g r h2]
    exact h3 j hj
  · intro j hj
    by_contra hlt
    push Not at hlt
    have := h4 j hlt
    rw [g j hj.1, g r h2] at this
    exact absurd (hj.2 r h2) (not_le.2 this)

example : ([3, 2, 3] : List ℚ) ≠ [] := by decide

theorem getD_strictMono {l : List ℚ} (hs : l.Pairwise (· < ·)) {i j : ℕ} (hij : i < j)
    (hj : j < l.length) : l.getD i 0 < l.getD j 0 := by
  rw [List.getD_eq_getElem _ _ hj, List.getD_eq_getElem _ _ (by omega)]
  exact List.pairwise_iff_getElem.1 hs i j (by omega) hj hij

/-- Two closest positions of a strictly ascending axis are equal or neighbours around the
midpoint. -/
theorem closest_pair {l : List ℚ} (hs : l.Pairwise (· < ·)) {e : ℚ} {i j : ℕ}
    (hi : IsClosest l e i) (hj : IsClosest l e j) (hij : i < j) :
    j = i + 1 ∧ 2 * e = l.getD i 0 + l.getD (i + 1) 0 := by
  have heq : |l.getD i 0 - e| = |l.getD j 0 - e| :=
    le_antisymm (hi.2 j hj.1) (hj.2 i hi.1)
  have hlt := getD_strictMono hs hij hj.1
  have hmid : 2 * e = l.getD i 0 + l.getD j 0 := by
    rcases abs_eq_abs.1 heq with h | h <;> linarith
  have hjl := hj.1
  have hj1 : j = i + 1 := by
    by_contra hne
    have hij' : i + 1 < j := by omega
    have h1 := getD_strictMono hs (Nat.lt_succ_self i) (by omega : i + 1 < l.length)
    have h2 := getD_strictMono hs hij' hj.1
    have h3 := hi.2 (i + 1) (by omega)
    have h4 : |l.getD (i + 1) 0 - e| < |l.getD i 0 - e| := by
      rw [abs_of_nonpos (show l.getD i 0 - e ≤ 0 by linarith), abs_lt]
      constructor <;> linarith
    linarith
  subst hj1
  exact ⟨rfl, hmid⟩

/-- **C06.** On strictly ascending axes `index` and `i_from_E` agree, except when `e` is exactly
midway between two neighbouring bins, where `index` is one higher. -/
theorem C06_agree_or_tie (l : List ℚ) (e : ℚ) (hl : l ≠ []) (hs : l.Pairwise (· < ·)) :
    ∃ i k, iFromE e l = .ok i ∧ index l e = .ok k ∧
      (k = i ∨ (k = i + 1 ∧ 2 * e = l.getD i 0 + l.getD (i + 1) 0)) := by
  obtain ⟨i, h1, h2, h3⟩ := C06_iFromE_first_closest l e hl
  obtain ⟨k, h4, h5, h6⟩ := C05_index_closest l e hl (hs.imp le_of_lt)
  refine ⟨i, k, h1, h4, ?_⟩
  rcases Nat.eq_or_lt_of_le (h3 k h5) with h | h
  · exact Or.inl h.symm
  · exact Or.inr (closest_pair hs h2 h5 h)

/-- **C06.** Conversely at a midpoint the two searches do differ by one. -/
theorem C06_tie (l : List ℚ) (e : ℚ) (i : ℕ) (hs : l.Pairwise (· < ·))
    (hi : i + 1 < l.length) (he : 2 * e = l.getD i 0 + l.getD (i + 1) 0) :
    iFromE e l = .ok i ∧ index l e = .ok (i + 1) := by
  have hl : l ≠ [] := by rintro rfl; simp at hi
  have hlt := getD_strictMono hs (Nat.lt_succ_self i) hi
  have hci : IsClosest l e i := by
    refine ⟨by omega, fun j hj => ?_⟩
    rw [abs_of_nonpos (show l.getD i 0 - e ≤ 0 by linarith)]
    rcases Nat.lt_or_ge i j with h | h
    · have : l.getD (i + 1) 0 ≤ l.getD j 0 := by
        rcases Nat.eq_or_lt_of_le h with h | h
        · rw [← h]
        · exact (getD_strictMono hs h hj).le
      have := le_abs_self (l.getD j 0 - e)
      linarith
    · have : l.getD j 0 ≤ l.getD i 0 := by
        rcases Nat.eq_or_lt_of_le h with h | h
        · rw [h]
        · exact (getD_strictMono hs h (by omega)).le
      have := neg_le_abs (l.getD j 0 - e)
      linarith
  have hci1 : IsClosest l e (i + 1) := by
    refine ⟨hi, fun j hj => le_trans (le_of_eq ?_) (hci.2 j hj)⟩
    rw [abs_of_nonpos (show l.getD i 0 - e ≤ 0 by linarith),
      abs_of_nonneg (show 0 ≤ l.getD (i + 1) 0 - e by linarith)]
    linarith
  obtain ⟨i', h1, h2, h3⟩ := C06_iFromE_first_closest l e hl
  obtain ⟨k, h4, h5, h6⟩ := C05_index_closest l e hl (hs.imp le_of_lt)
  have hi' := h3 i hci
  have hk := h6 (i + 1) hci1
  have := (closest_pair hs h2 h5 (by omega)).1
  have e1 : i' = i := by omega
  have e2 : k = i + 1 := by omega
  rw [h1, h4, e1, e2]
  exact ⟨rfl, rfl⟩

example : ([1, 3, 5] : List ℚ).Pairwise (· < ·) ∧ 1 + 1 < ([1, 3, 5] : List ℚ).length ∧
    (2 : ℚ) * 4 = ([1, 3, 5] : List ℚ).getD 1 0 + ([1, 3, 5] : List ℚ).getD 2 0 := by
  refine ⟨by decide +kernel, by decide, by norm_num⟩

end Ompy
