import Verif.Index
import Mathlib.Data.List.Sort

/-!
# Helper lemmas: index searches and slices
-/

namespace Ompy

/-- Relative form of the search loop: offset from the current best. -/
def indexRel (e a : ℚ) : List ℚ → ℕ
  | [] => 0
  | x :: xs => if (x - e) ^ 2 > (a - e) ^ 2 then 0 else indexRel e x xs + 1

theorem indexLoop_rel (e a : ℚ) (i : ℕ) (l : List ℚ) (hi : 1 ≤ i) :
    indexLoop e ((a - e) ^ 2) i l = i - 1 + indexRel e a l := by
  induction l generalizing a i with
  | nil => simp [indexLoop, indexRel]
  | cons x xs ih =>
    simp only [indexLoop, indexRel]
    split_ifs
    · simp
    · rw [ih x (i + 1) (by omega)]
      omega

theorem index_cons (a : ℚ) (as : List ℚ) (e : ℚ) : index (a :: as) e = .ok (indexRel e a as) := by
  simp [index, indexLoop_rel]

theorem indexRel_lt (e a : ℚ) (l : List ℚ) : indexRel e a l < (a :: l).length := by
  induction l generalizing a with
  | nil => simp [indexRel]
  | cons x xs ih =>
    simp only [indexRel]
    split_ifs
    · simp
    · have := ih x
      simp only [List.length_cons] at *
      omega

theorem far_right {a x y e : ℚ} (hax : a ≤ x) (hxy : x ≤ y) (h : (x - e) ^ 2 > (a - e) ^ 2) :
    (y - e) ^ 2 > (a - e) ^ 2 := by
  have h1 : 0 < (x - a) * (x + a - 2 * e) := by nlinarith
  have h2 : 0 < x - a := by
    rcases eq_or_lt_of_le hax with h3 | h3
    · subst h3; simp at h1
    · linarith
  have h3 : 0 < x + a - 2 * e := by
    by_contra h4
    push Not at h4
    nlinarith
  have h4 : 0 < (y - a) * (y + a - 2 * e) := mul_pos (by linarith) (by linarith)
  nlinarith

theorem indexRel_spec (e a : ℚ) (l : List ℚ) (hs : (a :: l).Pairwise (· ≤ ·)) :
    ∀ j < (a :: l).length,
      (((a :: l).getD (indexRel e a l) 0) - e) ^ 2 ≤ ((a :: l).getD j 0 - e) ^ 2 ∧
      (((a :: l).getD j 0 - e) ^ 2 = (((a :: l).getD (indexRel e a l) 0) - e) ^ 2 →
        j ≤ indexRel e a l) := by
  induction l generalizing a with
  | nil =>
    intro j hj
    simp at hj
    subst hj
    simp [indexRel]
  | cons x xs ih =>
    intro j hj
    rw [List.pairwise_cons] at hs
    obtain ⟨hs1, hs2⟩ := hs
    simp only [indexRel]
    split_ifs with hgt
    · simp only [List.getD_cons_zero]
      cases j with
      | zero => simp
      | succ j =>
        simp only [List.getD_cons_succ]
        have hjl : j < (x :: xs).length := by simpa using hj
        have hmem : (x :: xs).getD j 0 ∈ x :: xs := by
          rw [List.getD_eq_getElem _ _ hjl]; exact List.getElem_mem _
        have hx : x ≤ (x :: xs).getD j 0 := by
          rw [List.pairwise_cons] at hs2
          rcases List.mem_cons.1 hmem with h | h
          · exact h.ge
          · exact hs2.1 _ h
        have := far_right (hs1 x (by simp)) hx hgt
        constructor
        · exact this.le
        · intro h; exact absurd h this.ne'
    · simp only [List.getD_cons_succ]
      have IH := ih x hs2
      cases j with
      | zero =>
        simp only [List.getD_cons_zero]
        have h0 := (IH 0 (by simp)).1
        simp only [List.getD_cons_zero] at h0
        exact ⟨by linarith, fun _ => by omega⟩
      | succ j =>
        simp only [List.getD_cons_succ]
        have := IH j (by simpa using hj)
        exact ⟨this.1, fun h => by have := this.2 h; omega⟩

theorem argminFrom_spec (l : List ℚ) : ∀ (pre : List ℚ) (best : ℚ) (bi : ℕ),
    bi < pre.length → pre.getD bi 0 = best →
    (∀ j < pre.length, best ≤ pre.getD j 0) → (∀ j < bi, best < pre.getD j 0) →
    argminFrom best bi pre.length l < (pre ++ l).length ∧
    (∀ j < (pre ++ l).length,
      (pre ++ l).getD (argminFrom best bi pre.length l) 0 ≤ (pre ++ l).getD j 0) ∧
    (∀ j < argminFrom best bi pre.length l,
      (pre ++ l).getD (argminFrom best bi pre.length l) 0 < (pre ++ l).getD j 0) := by
  induction l with
  | nil =>
    intro pre best bi h1 h2 h3 h4
    simp only [argminFrom, List.append_nil]
    rw [h2]
    exact ⟨h1, h3, h4⟩
  | cons x xs ih =>
    intro pre best bi h1 h2 h3 h4
    have e1 : pre ++ x :: xs = (pre ++ [x]) ++ xs := by simp
    have e2 : pre.length + 1 = (pre ++ [x]).length := by simp
    have g1 : ∀ j < pre.length, (pre ++ [x]).getD j 0 = pre.getD j 0 := by
      intro j hj
      exact List.getD_append _ _ _ _ hj
    have g2 : (pre ++ [x]).getD pre.length 0 = x := by
      simp [List.getD_eq_getElem?_getD]
    simp only [argminFrom]
    split_ifs with hlt
    · rw [e1, e2]
      apply ih
      · simp
      · exact g2
      · intro j hj
        rw [← e2] at hj
        rcases Nat.lt_succ_iff_lt_or_eq.1 hj with h | h
        · rw [g1 j h]; exact (hlt.trans_le (h3 j h)).le
        · rw [h, g2]
      · intro j hj
        rw [g1 j hj]
        exact hlt.trans_le (h3 j hj)
    · rw [e1, e2]
      apply ih
      · simp; omega
      · rw [g1 bi h1, h2]
      · intro j hj
        rw [← e2] at hj
        rcases Nat.lt_succ_iff_lt_or_eq.1 hj with h | h
        · rw [g1 j h]; exact h3 j h
        · rw [h, g2]; exact not_lt.1 hlt
      · intro j hj
        rw [g1 j (by omega)]
        exact h4 j hj

/-- `argmin` returns the first position with the smallest value. -/
theorem argmin_spec (l : List ℚ) (hl : l ≠ []) :
    ∃ r, argmin l = .ok r ∧ r < l.length ∧ (∀ j < l.length, l.getD r 0 ≤ l.getD j 0) ∧
      (∀ j < r, l.getD r 0 < l.getD j 0) := by
  cases l with
  | nil => exact absurd rfl hl
  | cons a as =>
    have := argminFrom_spec as [a] a 0 (by simp) (by simp) (by simp) (by simp)
    exact ⟨_, rfl, this⟩

theorem getD_neg_map (l : List ℚ) (j : ℕ) : (l.map (- ·)).getD j 0 = - l.getD j 0 := by
  simp only [List.getD_eq_getElem?_getD, List.getElem?_map]
  cases l[j]? <;> simp

/-- `argmax` returns the first position with the largest value. -/
theorem argmax_spec (l : List ℚ) (hl : l ≠ []) :
    ∃ r, argmax l = .ok r ∧ r < l.length ∧ (∀ j < l.length, l.getD j 0 ≤ l.getD r 0) ∧
      (∀ j < r, l.getD j 0 < l.getD r 0) := by
  obtain ⟨r, h1, h2, h3, h4⟩ := argmin_spec (l.map (- ·)) (by simpa using hl)
  simp only [List.length_map, getD_neg_map, neg_le_neg_iff, neg_lt_neg_iff] at h2 h3 h4
  exact ⟨r, h1, h2, h3, h4⟩

theorem pyIdx_nonneg (n i : ℕ) : pyIdx n (i : ℤ) = min i n := by
  unfold pyIdx
  rw [if_neg (by omega)]
  simp

theorem pySlice_nat {α : Type} (l : List α) (a b : ℕ) :
    pySlice l (a : ℤ) (b : ℤ) = (l.take b).drop a := by
  unfold pySlice
  rw [pyIdx_nonneg, pyIdx_nonneg]
  have e1 : l.take (min b l.length) = l.take b := by
    rcases le_total b l.length with h | h
    · rw [min_eq_left h]
    · rw [min_eq_right h, List.take_length, List.take_of_length_le h]
  rw [e1]
  rcases le_total a l.length with h | h
  · rw [min_eq_left h]
  · rw [min_eq_right h, List.drop_eq_nil_of_le, List.drop_eq_nil_of_le]
    · simp; omega
    · simp

/-- If a predicate holds exactly at the positions `lo ≤ k < hi`, filtering is slicing. -/
theorem filter_eq_slice {α : Type} (l : List α) (p : α → Bool) (lo hi : ℕ)
    (h : ∀ k (hk : k < l.length), p l[k] = true ↔ lo ≤ k ∧ k < hi) :
    l.filter p = (l.take hi).drop lo := by
  by_cases hle : lo ≤ hi
  · have e : l = l.take lo ++ ((l.take hi).drop lo ++ l.drop hi) := by
      have h1 : l.take lo = (l.take hi).take lo := by rw [List.take_take, min_eq_left hle]
      rw [← List.append_assoc, h1, List.take_append_drop, List.take_append_drop]
    have f1 : (l.take lo).filter p = [] := by
      rw [List.filter_eq_nil_iff]
      intro x hx
      obtain ⟨k, hk, rfl⟩ := List.getElem_of_mem hx
      rw [List.getElem_take]
      rw [List.length_take] at hk
      intro hp
      have := (h k (by omega)).1 hp
      omega
    have f3 : (l.drop hi).filter p = [] := by
      rw [List.filter_eq_nil_iff]
      intro x hx
      obtain ⟨k, hk, rfl⟩ := List.getElem_of_mem hx
      rw [List.getElem_drop]
      rw [List.length_drop] at hk
      intro hp
      have := (h (hi + k) (by omega)).1 hp
      omega
    have f2 : ((l.take hi).drop lo).filter p = (l.take hi).drop lo := by
      rw [List.filter_eq_self]
      intro x hx
      obtain ⟨k, hk, rfl⟩ := List.getElem_of_mem hx
      rw [List.length_drop, List.length_take] at hk
      rw [List.getElem_drop, List.getElem_take]
      exact (h (lo + k) (by omega)).2 (by omega)
    conv_lhs => rw [e]
    rw [List.filter_append, List.filter_append, f1, f2, f3]
    simp
  · rw [List.drop_eq_nil_of_le (by rw [List.length_take]; omega), List.filter_eq_nil_iff]
    intro x hx
    obtain ⟨k, hk, rfl⟩ := List.getElem_of_mem hx
    intro hp
    have := (h k hk).1 hp
    omega

end Ompy
