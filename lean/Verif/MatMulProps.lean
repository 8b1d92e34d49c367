import Verif.MatMul
import Verif.EqualityProps
import Mathlib.Algebra.BigOperators.Ring.Finset
import Mathlib.Algebra.BigOperators.Intervals

/-!
# C87: products of matrices and vectors
-/

namespace Ompy

/-- Element `i`, `j` of a matrix. -/
def Mat.el (m : Mat) (i j : ℕ) : ℚ := (m.values.getD i []).getD j 0

theorem dot_sum {n : ℕ} (row : List ℚ) (b : List (List ℚ)) (j : ℕ) (h1 : row.length = n) (h2 : b.length = n) :
    (List.zipWith (fun x r => x * r.getD j 0) row b).sum = ∑ k ∈ Finset.range n, row.getD k 0 * (b.getD k []).getD j 0 := by
  induction n generalizing row b with
  | zero =>
    rw [List.length_eq_zero_iff.1 h1, List.length_eq_zero_iff.1 h2]
    simp
  | succ n ih =>
    obtain ⟨x, row, rfl⟩ := List.exists_cons_of_length_eq_add_one h1
    obtain ⟨r, b, rfl⟩ := List.exists_cons_of_length_eq_add_one h2
    rw [List.zipWith_cons_cons, List.sum_cons, ih row b (by simpa using h1) (by simpa using h2), Finset.sum_range_succ']
    simp [add_comm]

theorem close_self (E : List ℚ) : allclose1 (E.map some) (E.map some) = .ok true := by
  obtain ⟨t, ht, htt⟩ := allclose1_same (a := E.map some) (b := E.map some) rfl
  rw [ht]
  congr 1
  rw [htt]
  intro i hi
  apply agrees_refl
  rw [List.getD_eq_getElem _ _ hi]
  simp

/-- **C87 (partial: square left factor, both factors over one gamma-energy axis).** The product of two matrices is the matrix product, over the axes of the left
factor, and a consistent matrix (if the left one is). -/
theorem C87_product_partial (a b : Mat) (ha : a.consistent = true) (hb : b.consistent = true)
    (hsq : a.Eg.length = a.Ex.length) (hg : a.Eg = b.Eg) (hin : a.Eg.length = b.Ex.length) :
    ∃ c, a.matmul (.mat b) = .ok c ∧ c.Ex = a.Ex ∧ c.Eg = a.Eg ∧ c.consistent = true ∧
      ∀ i < a.Ex.length, ∀ j < a.Eg.length, c.el i j = ∑ k ∈ Finset.range a.Eg.length, a.el i k * b.el k j := by
  obtain ⟨ha1, ha2⟩ : hasShape a.values a.Ex.length a.Eg.length = true ∧ (match a.std with
      | none => true | some s => hasShape s a.Ex.length a.Eg.length) = true := by
    unfold Mat.consistent at ha
    exact (Bool.and_eq_true _ _).mp ha
  have hb1 : hasShape b.values b.Ex.length b.Eg.length = true := by
    unfold Mat.consistent at hb
    exact ((Bool.and_eq_true _ _).mp hb).1
  unfold hasShape at ha1 hb1
  simp only [Bool.and_eq_true, beq_iff_eq, List.all_eq_true] at ha1 hb1
  have hrows : b.values.length = a.Eg.length := by rw [hb1.1, ← hin]
  refine ⟨{ a with values := a.values.map fun row => (List.range b.Eg.length).map fun j : ℕ =>
    (List.zipWith (fun x r => x * r.getD j 0) row b.values).sum }, ?_, rfl, rfl, ?_, ?_⟩
  · have hc : mulCheck a b = .ok () := by
      unfold mulCheck
      rw [if_neg (by simpa using hsq), ← hg, close_self]
    unfold Mat.matmul
    simp only [hc]
    unfold npMatmul
    rw [if_pos hrows]
  · unfold Mat.consistent
    rw [Bool.and_eq_true]
    refine ⟨?_, ha2⟩
    unfold hasShape
    simp only [List.length_map, ha1.1, BEq.rfl, Bool.true_and, List.all_eq_true, List.mem_map, forall_exists_index, and_imp]
    rintro x row - rfl
    simp [hg]
  · intro i hi j hj
    have hi' : i < a.values.length := by rw [ha1.1]; exact hi
    have hj' : j < b.Eg.length := by rw [← hg]; exact hj
    unfold Mat.el
    rw [List.getD_eq_getElem (a.values.map _) [] (by simpa using hi'), List.getD_eq_getElem a.values [] hi']
    simp only [List.getElem_map]
    rw [List.getD_eq_getElem ((List.range b.Eg.length).map _) 0 (by simpa using hj')]
    simp only [List.getElem_map, List.getElem_range]
    exact dot_sum _ _ _ (ha1.2 _ (List.getElem_mem hi')) hrows

/-- **C87.** Whatever the product gives has the axes, the standard deviations and the state of the left factor; the left factor is square and its
gamma energies agree with those of the right one. -/
theorem C87_result (a b c : Mat) (h : a.matmul (.mat b) = .ok c) :
    c.Ex = a.Ex ∧ c.Eg = a.Eg ∧ c.std = a.std ∧ c.state = a.state ∧ a.Eg.length = a.Ex.length ∧
      b.values.length = a.Eg.length ∧ (a.Eg.length = b.Eg.length → ∀ i < a.Eg.length, Agrees (some (a.Eg.getD i 0)) (some (b.Eg.getD i 0))) := by
  unfold Mat.matmul at h
  simp only at h
  cases hc : mulCheck a b with
  | error e => rw [hc] at h; simp at h
  | ok u =>
    rw [hc] at h
    simp only at h
    unfold npMatmul at h
    by_cases hr : b.values.length = a.Eg.length
    · rw [if_pos hr] at h
      simp only [Except.ok.injEq] at h
      subst h
      unfold mulCheck at hc
      by_cases hsq : a.Eg.length ≠ a.Ex.length
      · rw [if_pos hsq] at hc; simp at hc
      · rw [if_neg hsq] at hc
        refine ⟨rfl, rfl, rfl, rfl, not_not.1 hsq, hr, ?_⟩
        intro hl i hi
        obtain ⟨t, ht, htt⟩ := allclose1_same (a := a.Eg.map some) (b := b.Eg.map some) (by simpa using hl)
        rw [ht] at hc
        cases t with
        | false => simp at hc
        | true =>
          have := (htt.1 rfl) i (by simpa using hi)
          rwa [List.getD_eq_getElem _ _ (by simpa using hi), List.getD_eq_getElem _ _ (by simp; omega), List.getElem_map,
            List.getElem_map, ← List.getD_eq_getElem a.Eg 0 hi, ← List.getD_eq_getElem b.Eg 0 (by omega)] at this
    · rw [if_neg hr] at h; simp at h

/-- **C87 (disagreement).** The lengths compared are those of the two axes of the left factor, so that a product with a left factor that is not square is
refused even where it is defined, such as folding a raw matrix with a response. -/
theorem C87_rectangular_fails (a b : Mat) (h : a.Eg.length ≠ a.Ex.length) :
    a.matmul (.mat b) = .error .valueError := by
  unfold Mat.matmul mulCheck
  simp only
  rw [if_pos h]

/-- **C87 (disagreement).** The axis that is summed over is compared in its length only: the energies of the rows of the right factor have no
influence. -/
theorem C87_inner_fails (a b : Mat) (Ex : List ℚ) : a.matmul (.mat { b with Ex := Ex }) = a.matmul (.mat b) := rfl

/-- **C87 (disagreement).** The standard deviations of the right factor have no influence either; those of the left one are kept as they are. -/
theorem C87_std_fails (a b c : Mat) (s : Option (List (List ℚ))) (h : a.matmul (.mat b) = .ok c) :
    c.std = a.std ∧ a.matmul (.mat { b with std := s }) = .ok c :=
  ⟨(C87_result a b c h).2.2.1, by rw [← h]; rfl⟩

/-- **C87.** Something that is no matrix: the NotImplementedError is not raised, the missing attribute is. -/
theorem C87_type (a : Mat) : a.matmul .noValues = .error .attributeError := rfl

/-- **C87.** The product of two vectors over one axis is their scalar product, the same in both orders; different lengths are refused. -/
theorem C87_dot (a b : Vec ℚ) (hE : a.E = b.E) (ha : a.consistent = true) (hb : b.consistent = true) :
    (∃ r r', a.matmul b = .ok r ∧ b.matmul a = .ok r' ∧ r.value = r'.value ∧
      r.value = ∑ i ∈ Finset.range a.E.length, a.values.getD i 0 * b.values.getD i 0) ∧
    (∀ v : Vec ℚ, a.values.length ≠ v.values.length → a.matmul v = .error .valueError) := by
  have hla : a.values.length = a.E.length := by
    unfold Vec.consistent at ha
    simp only [Bool.and_eq_true, beq_iff_eq] at ha
    exact ha.1.symm
  have hlb : b.values.length = a.E.length := by
    unfold Vec.consistent at hb
    simp only [Bool.and_eq_true, beq_iff_eq] at hb
    rw [hE]
    exact hb.1.symm
  have hcomm : (List.zipWith (· * ·) b.values a.values).sum = (List.zipWith (· * ·) a.values b.values).sum := by
    rw [List.zipWith_comm]
    congr 2
    funext x y
    exact mul_comm _ _
  constructor
  · refine ⟨⟨a.E, (List.zipWith (· * ·) a.values b.values).sum, a.std, a.units⟩,
      ⟨b.E, (List.zipWith (· * ·) b.values a.values).sum, b.std, b.units⟩, ?_, ?_, hcomm.symm, ?_⟩
    · unfold Vec.matmul
      rw [if_neg (by rw [hla, hlb]; simp), ← hE, close_self]
    · unfold Vec.matmul
      rw [if_neg (by rw [hla, hlb]; simp), hE, close_self]
    · have := dot_sum (n := a.E.length) a.values (b.values.map fun x => [x]) 0 hla (by simpa using hlb)
      rw [List.zipWith_map_right] at this
      simp only [List.getD_cons_zero] at this
      change (List.zipWith (fun x y => x * y) a.values b.values).sum = _
      rw [this]
      apply Finset.sum_congr rfl
      intro k hk
      have hk' : k < b.values.length := by rw [hlb]; exact Finset.mem_range.1 hk
      rw [List.getD_eq_getElem (b.values.map fun x => [x]) [] (by simpa using hk'), List.getElem_map,
        List.getD_eq_getElem b.values 0 hk']
      rfl
  · intro v hv
    unfold Vec.matmul
    rw [if_pos hv]

/-- **C87 (disagreement).** The product of two vectors is no vector: its `values` is a number, its axis that of the left vector, and
`verify_integrity` refuses it. -/
theorem C87_vector_fails (a b : Vec ℚ) (r : DotResult) (h : a.matmul b = .ok r) :
    r.E = a.E ∧ r.verify = .error .valueError := by
  refine ⟨?_, rfl⟩
  unfold Vec.matmul at h
  by_cases hl : a.values.length ≠ b.values.length
  · rw [if_pos hl] at h; simp at h
  · rw [if_neg hl] at h
    cases hc : allclose1 (a.E.map some) (b.E.map some) with
    | error e => rw [hc] at h; simp at h
    | ok t =>
      rw [hc] at h
      cases t with
      | false => simp at h
      | true =>
        simp only [Except.ok.injEq] at h
        rw [← h]

/-- Non-vacuity: two matrices on two bins; one with the right factor over other rows; two vectors. -/
example : (Mat.mk [[1, 2], [3, 4]] [0, 1] [0, 1] none none).matmul (.mat (Mat.mk [[5, 6], [7, 8]] [0, 1] [0, 1] none none)) =
      .ok (Mat.mk [[19, 22], [43, 50]] [0, 1] [0, 1] none none) ∧
    (Mat.mk [[1, 2], [3, 4]] [0, 1] [0, 1] none none).matmul (.mat (Mat.mk [[5, 6], [7, 8]] [0, 1] [7, 100] none none)) =
      .ok (Mat.mk [[19, 22], [43, 50]] [0, 1] [0, 1] none none) ∧
    (Mat.mk [[1, 2]] [0, 1] [0] none none).matmul (.mat (Mat.mk [[5, 6], [7, 8]] [0, 1] [0, 1] none none)) =
      .error .valueError ∧
    ((Vec.mk [0, 1] [2, 3] none "keV" : Vec ℚ).matmul (Vec.mk [0, 1] [5, 7] none "keV")).map DotResult.value = .ok 31 := by
  decide +kernel

end Ompy
