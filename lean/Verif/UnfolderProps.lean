import Verif.Unfolder
import Verif.FirstGenProps

/-!
# C29, C30, C50: unfolding
-/

namespace Ompy

section Iteration

variable (r R : List (List ℚ)) (n m : ℕ)

/-- Unfolded counts of iteration `k` (entry). -/
def unfAt (k i j : ℕ) : ℚ := at2 (unfoldIter r R n m k).1 i j

/-- Folded counts of iteration `k` (entry). -/
def fldAt (k i j : ℕ) : ℚ := at2 (unfoldIter r R n m k).2 i j

theorem unf_zero (i j : ℕ) : unfAt r R n m 0 i j = at2 r i j := by
  simp [unfAt, unfoldIter, unfoldStep]

theorem fld_eq (k : ℕ) {i j : ℕ} (hi : i < n) (hj : j < m) :
    fldAt r R n m k i j = ∑ q ∈ Finset.range m, unfAt r R n m k i q * at2 R q j := by
  unfold fldAt unfAt
  cases k <;> (unfold unfoldIter unfoldStep matMul; rw [at2_tabulate _ _ _ hi hj])

theorem unf_succ (k : ℕ) {i j : ℕ} (hi : i < n) (hj : j < m) :
    unfAt r R n m (k + 1) i j
      = unfAt r R n m k i j + (at2 r i j - fldAt r R n m k i j) := by
  unfold fldAt unfAt
  conv_lhs => unfold unfoldIter unfoldStep
  simp only [Nat.succ_pos, if_true]
  rw [at2_tabulate _ _ _ hi hj]

/-- **C29.** If each row of the response sums to 1, every iterate holds as many counts in each row as the
raw spectrum. -/
theorem C29_counts_conserved (hR : ∀ q < m, ∑ j ∈ Finset.range m, at2 R q j = 1) (k : ℕ) {i : ℕ}
    (hi : i < n) :
    ∑ j ∈ Finset.range m, unfAt r R n m k i j = ∑ j ∈ Finset.range m, at2 r i j ∧
      ∑ j ∈ Finset.range m, fldAt r R n m k i j = ∑ j ∈ Finset.range m, at2 r i j := by
  have fold_sum : ∀ k, ∑ j ∈ Finset.range m, fldAt r R n m k i j
      = ∑ j ∈ Finset.range m, unfAt r R n m k i j := by
    intro k
    rw [Finset.sum_congr rfl fun j hj => fld_eq r R n m k hi (Finset.mem_range.1 hj),
      Finset.sum_comm]
    apply Finset.sum_congr rfl
    intro q hq
    rw [← Finset.mul_sum, hR q (Finset.mem_range.1 hq), mul_one]
  have main : ∑ j ∈ Finset.range m, unfAt r R n m k i j = ∑ j ∈ Finset.range m, at2 r i j := by
    induction k with
    | zero => exact Finset.sum_congr rfl fun j _ => unf_zero r R n m i j
    | succ k ih =>
      rw [Finset.sum_congr rfl fun j hj => unf_succ r R n m k hi (Finset.mem_range.1 hj),
        Finset.sum_add_distrib, Finset.sum_sub_distrib, fold_sum, ih]
      ring
  exact ⟨main, (fold_sum k).trans main⟩

/-- **C29.** If an iterate folds exactly to the raw spectrum (in one row), all later iterates are equal to
it in that row and fold to the raw spectrum too. -/
theorem C29_fixed_point (k : ℕ) {i : ℕ} (hi : i < n)
    (hf : ∀ j < m, fldAt r R n m k i j = at2 r i j) (d : ℕ) :
    ∀ j < m, unfAt r R n m (k + d) i j = unfAt r R n m k i j ∧
      fldAt r R n m (k + d) i j = at2 r i j := by
  induction d with
  | zero => exact fun j hj => ⟨rfl, hf j hj⟩
  | succ d ih =>
    have hu : ∀ j < m, unfAt r R n m (k + (d + 1)) i j = unfAt r R n m k i j := by
      intro j hj
      rw [← add_assoc, unf_succ r R n m _ hi hj, (ih j hj).1, (ih j hj).2]
      ring
    intro j hj
    refine ⟨hu j hj, ?_⟩
    rw [fld_eq r R n m _ hi hj, ← hf j hj, fld_eq r R n m k hi hj]
    exact Finset.sum_congr rfl fun q hq => by rw [hu q (Finset.mem_range.1 hq)]

/-- **C29.** With the identity as response every iterate is the raw spectrum. -/
theorem C29_identity (hR : ∀ q < m, ∀ j < m, at2 R q j = if q = j then 1 else 0) (k : ℕ) {i j : ℕ}
    (hi : i < n) (hj : j < m) :
    unfAt r R n m k i j = at2 r i j ∧ fldAt r R n m k i j = at2 r i j := by
  have h0 : ∀ j < m, fldAt r R n m 0 i j = at2 r i j := by
    intro j hj
    rw [fld_eq r R n m 0 hi hj, Finset.sum_eq_single j]
    · rw [hR j hj j hj, if_pos rfl, mul_one, unf_zero]
    · intro q hq hne
      rw [hR q (Finset.mem_range.1 hq) j hj, if_neg hne, mul_zero]
    · intro h
      exact absurd (Finset.mem_range.2 hj) h
  have := C29_fixed_point r R n m 0 hi h0 k j hj
  rw [Nat.zero_add, unf_zero] at this
  exact this

/-- **C29.** Each row evolves on its own: what happens in row `i` depends only on that row (rows may stand
at different places in matrices of different height). -/
theorem C29_rows_independent (r' : List (List ℚ)) (n' : ℕ) {i i' : ℕ} (hi : i < n) (hi' : i' < n')
    (h : ∀ j < m, at2 r i j = at2 r' i' j) (k : ℕ) :
    ∀ j < m, unfAt r R n m k i j = unfAt r' R n' m k i' j ∧
      fldAt r R n m k i j = fldAt r' R n' m k i' j := by
  have step : ∀ k, (∀ j < m, unfAt r R n m k i j = unfAt r' R n' m k i' j) →
      ∀ j < m, fldAt r R n m k i j = fldAt r' R n' m k i' j := by
    intro k hk j hj
    rw [fld_eq r R n m k hi hj, fld_eq r' R n' m k hi' hj]
    exact Finset.sum_congr rfl fun q hq => by rw [hk q (Finset.mem_range.1 hq)]
  have hu : ∀ j < m, unfAt r R n m k i j = unfAt r' R n' m k i' j := by
    induction k with
    | zero => intro j hj; rw [unf_zero, unf_zero, h j hj]
    | succ k ih =>
      intro j hj
      rw [unf_succ r R n m k hi hj, unf_succ r' R n' m k hi' hj, ih j hj, h j hj, step k ih j hj]
  exact fun j hj => ⟨hu j hj, step k hu j hj⟩

/-- **C29.** The difference to a spectrum `t` that folds to the raw spectrum is multiplied with `1 - R` in
each iteration. -/
theorem C29_error_recursion (t : ℕ → ℚ) {i : ℕ} (hi : i < n)
    (ht : ∀ j < m, ∑ q ∈ Finset.range m, t q * at2 R q j = at2 r i j) (k : ℕ) {j : ℕ} (hj : j < m) :
    unfAt r R n m (k + 1) i j - t j = (unfAt r R n m k i j - t j)
      - ∑ q ∈ Finset.range m, (unfAt r R n m k i q - t q) * at2 R q j := by
  rw [unf_succ r R n m k hi hj, fld_eq r R n m k hi hj, ← ht j hj]
  simp only [sub_mul, Finset.sum_sub_distrib]
  ring

/-- A damped recursion with vanishing inhomogeneity vanishes. -/
theorem damped_vanishes (x y : ℕ → ℚ) (c : ℚ) (hc : |c| < 1)
    (hx : ∀ k, x (k + 1) = c * x k + y k)
    (hy : ∀ ε > 0, ∃ K, ∀ k ≥ K, |y k| < ε) :
    ∀ ε > 0, ∃ K, ∀ k ≥ K, |x k| < ε := by
  intro ε hε
  obtain ⟨K, hK⟩ := hy (ε / 2 * (1 - |c|)) (by have : 0 < 1 - |c| := by linarith
                                               positivity)
  have bound : ∀ d, |x (K + d)| ≤ |c| ^ d * |x K| + ε / 2 := by
    intro d
    induction d with
    | zero => simp; linarith
    | succ d ih =>
      rw [← add_assoc, hx]
      have h1 := abs_add_le (c * x (K + d)) (y (K + d))
      rw [abs_mul] at h1
      have h2 := hK (K + d) (by omega)
      have h3 : |c| * |x (K + d)| ≤ |c| * (|c| ^ d * |x K| + ε / 2) :=
        mul_le_mul_of_nonneg_left ih (abs_nonneg c)
      rw [pow_succ]
      nlinarith
  obtain ⟨D, hD⟩ := exists_pow_lt_of_lt_one (show 0 < ε / 2 / (|x K| + 1) by positivity) hc
  refine ⟨K + D, fun k hk => ?_⟩
  obtain ⟨d, rfl⟩ : ∃ d, k = K + d := ⟨k - K, by omega⟩
  have h1 := bound d
  have h2 : |c| ^ d ≤ |c| ^ D := pow_le_pow_of_le_one (abs_nonneg c) hc.le (by omega)
  have h3 : |c| ^ d * |x K| < ε / 2 := by
    have hpos : 0 < |x K| + 1 := by positivity
    have : |c| ^ d * |x K| ≤ ε / 2 / (|x K| + 1) * |x K| :=
      mul_le_mul_of_nonneg_right (h2.trans hD.le) (abs_nonneg _)
    have : ε / 2 / (|x K| + 1) * |x K| < ε / 2 := by
      rw [div_mul_eq_mul_div, div_lt_iff₀ hpos]
      nlinarith [abs_nonneg (x K)]
    linarith
  linarith

/-- Finite sums of vanishing sequences vanish. -/
theorem sum_vanishes (s : Finset ℕ) (z : ℕ → ℕ → ℚ)
    (h : ∀ q ∈ s, ∀ ε > 0, ∃ K, ∀ k ≥ K, |z q k| < ε) :
    ∀ ε > 0, ∃ K, ∀ k ≥ K, |∑ q ∈ s, z q k| < ε := by
  induction s using Finset.induction_on with
  | empty => intro ε hε; exact ⟨0, fun k _ => by simpa using hε⟩
  | insert a s ha ih =>
    intro ε hε
    obtain ⟨K1, h1⟩ := h a (Finset.mem_insert_self a s) (ε / 2) (by linarith)
    obtain ⟨K2, h2⟩ := ih (fun q hq => h q (Finset.mem_insert_of_mem hq)) (ε / 2) (by linarith)
    refine ⟨max K1 K2, fun k hk => ?_⟩
    rw [Finset.sum_insert ha]
    have := abs_add_le (z a k) (∑ q ∈ s, z q k)
    have := h1 k (le_of_max_le_left hk)
    have := h2 k (le_of_max_le_right hk)
    linarith

/-- **C29.** Convergence: for a detector that deposits at most the full energy (`R` lower triangular) with
full-energy probability between 0 and 2 (exclusive), the iterates converge to the spectrum `t` that folds
to the raw spectrum. -/
theorem C29_converges (t : ℕ → ℚ) {i : ℕ} (hi : i < n)
    (ht : ∀ j < m, ∑ q ∈ Finset.range m, t q * at2 R q j = at2 r i j)
    (htri : ∀ q < m, ∀ j < m, q < j → at2 R q j = 0)
    (hdiag : ∀ j < m, 0 < at2 R j j ∧ at2 R j j < 2) :
    ∀ j < m, ∀ ε > 0, ∃ K, ∀ k ≥ K, |unfAt r R n m k i j - t j| < ε := by
  have main : ∀ d, ∀ j < m, m ≤ j + 1 + d →
      ∀ ε > 0, ∃ K, ∀ k ≥ K, |unfAt r R n m k i j - t j| < ε := by
    intro d
    induction d using Nat.strong_induction_on with
    | _ d ih =>
      intro j hj hd
      apply damped_vanishes (fun k => unfAt r R n m k i j - t j)
        (fun k => ∑ q ∈ Finset.Ico (j + 1) m, (-(at2 R q j)) * (unfAt r R n m k i q - t q))
        (1 - at2 R j j)
      · obtain ⟨h1, h2⟩ := hdiag j hj
        rw [abs_lt]
        constructor <;> linarith
      · intro k
        rw [C29_error_recursion r R n m t hi ht k hj]
        have split : ∑ q ∈ Finset.range m, (unfAt r R n m k i q - t q) * at2 R q j
            = (unfAt r R n m k i j - t j) * at2 R j j
              + ∑ q ∈ Finset.Ico (j + 1) m, (unfAt r R n m k i q - t q) * at2 R q j := by
          rw [Finset.range_eq_Ico, ← Finset.sum_Ico_consecutive _ (Nat.zero_le (j + 1)) hj]
          congr 1
          rw [← Finset.range_eq_Ico, Finset.sum_range_succ, Finset.sum_eq_zero, zero_add]
          intro q hq
          rw [Finset.mem_range] at hq
          rw [htri q (by omega) j hj hq, mul_zero]
        rw [split]
        have : ∑ q ∈ Finset.Ico (j + 1) m, (-(at2 R q j)) * (unfAt r R n m k i q - t q)
            = - ∑ q ∈ Finset.Ico (j + 1) m, (unfAt r R n m k i q - t q) * at2 R q j := by
          rw [← Finset.sum_neg_distrib]
          exact Finset.sum_congr rfl fun q _ => by ring
        rw [this]
        ring
      · apply sum_vanishes (Finset.Ico (j + 1) m)
          (fun q k => (-(at2 R q j)) * (unfAt r R n m k i q - t q))
        intro q hq ε hε
        rw [Finset.mem_Ico] at hq
        obtain ⟨K, hK⟩ := ih (d - 1) (by omega) q hq.2 (by omega) (ε / (|at2 R q j| + 1))
          (by positivity)
        refine ⟨K, fun k hk => ?_⟩
        have h1 := hK k hk
        have hpos : 0 < |at2 R q j| + 1 := by positivity
        rw [lt_div_iff₀ hpos] at h1
        rw [abs_mul, abs_neg]
        nlinarith [abs_nonneg (at2 R q j), abs_nonneg (unfAt r R n m k i q - t q)]
  exact fun j hj => main m j hj (by omega)

end Iteration

/-- Non-vacuity of C29: a triangular response with unit rows and a spectrum that folds to the raw one. -/
example :
    let R : List (List ℚ) := [[1, 0], [1/4, 3/4]]
    (∀ q < 2, ∑ j ∈ Finset.range 2, at2 R q j = 1) ∧
    (∀ j < 2, ∑ q ∈ Finset.range 2, ([8, 12] : List ℚ).getD q 0 * at2 R q j = at2 [[11, 9]] 0 j) ∧
    (∀ q < 2, ∀ j < 2, q < j → at2 R q j = 0) ∧ (∀ j < 2, 0 < at2 R j j ∧ at2 R j j < 2) ∧
    unfoldIter [[11, 9]] R 1 2 2 = ([[131/16, 189/16]], [[713/64, 567/64]]) := by
  decide +kernel

/-! ### C30: selection of the iteration -/

theorem better_false_of {a x b : Num} (h1 : argminBetter a b = false) (h2 : argminBetter x b = true) :
    argminBetter a x = false := by
  cases a <;> cases x <;> cases b <;> simp_all [argminBetter, numLt, Num.isNan]
  linarith

theorem better_irrefl (a : Num) : argminBetter a a = false := by
  cases a <;> simp [argminBetter, numLt, Num.isNan]

theorem argminNumFrom_spec (l : List Num) : ∀ (pre : List Num) (best : Num) (bi : ℕ),
    bi < pre.length → pre.getD bi .nan = best →
    (∀ j < pre.length, argminBetter (pre.getD j .nan) best = false) →
    argminNumFrom best bi pre.length l < (pre ++ l).length ∧
    (∀ j < (pre ++ l).length, argminBetter ((pre ++ l).getD j .nan)
      ((pre ++ l).getD (argminNumFrom best bi pre.length l) .nan) = false) := by
  induction l with
  | nil =>
    intro pre best bi h1 h2 h3
    simp only [argminNumFrom, List.append_nil]
    rw [h2]
    exact ⟨h1, h3⟩
  | cons x xs ih =>
    intro pre best bi h1 h2 h3
    have e1 : pre ++ x :: xs = (pre ++ [x]) ++ xs := by simp
    have e2 : pre.length + 1 = (pre ++ [x]).length := by simp
    have g1 : ∀ j < pre.length, (pre ++ [x]).getD j .nan = pre.getD j .nan := by
      intro j hj
      exact List.getD_append _ _ _ _ hj
    have g2 : (pre ++ [x]).getD pre.length .nan = x := by
      simp [List.getD_eq_getElem?_getD]
    simp only [argminNumFrom]
    split_ifs with hlt
    · rw [e1, e2]
      apply ih
      · simp
      · exact g2
      · intro j hj
        rw [← e2] at hj
        rcases Nat.lt_succ_iff_lt_or_eq.1 hj with h | h
        · rw [g1 j h]; exact better_false_of (h3 j h) hlt
        · rw [h, g2]; exact better_irrefl x
    · rw [e1, e2]
      apply ih
      · simp; omega
      · rw [g1 bi h1, h2]
      · intro j hj
        rw [← e2] at hj
        rcases Nat.lt_succ_iff_lt_or_eq.1 hj with h | h
        · rw [g1 j h]; exact h3 j h
        · rw [h, g2]; simpa using hlt

theorem argminNum_spec (l : List Num) (hl : l ≠ []) :
    ∃ s, argminNum l = .ok s ∧ s < l.length ∧
      ∀ j < l.length, argminBetter (l.getD j .nan) (l.getD s .nan) = false := by
  cases l with
  | nil => exact absurd rfl hl
  | cons a as =>
    have := argminNumFrom_spec as [a] a 0 (by simp) (by simp)
      (by intro j hj; simp at hj; subst hj; simpa using better_irrefl a)
    exact ⟨_, rfl, this⟩

theorem lt_better {a b : Num} (h : argminBetter a b = false) : numLt a b = false := by
  cases a <;> cases b <;> simp_all [argminBetter, numLt, Num.isNan]

/-- **C30** (partial; one excitation bin). With more iterations than `minimum_iterations` the selected one
is computed and not below the minimum.  If it is above the minimum no iteration has a lower score; if
the minimum itself is selected, either it has the lowest score or an iteration below it has. -/
theorem C30_select_partial (minIter : ℕ) (scores : List Num) (h : minIter < scores.length) :
    ∃ s, selectIter minIter scores = .ok s ∧ minIter ≤ s ∧ s < scores.length ∧
      ((∀ k < scores.length, numLt (scores.getD k .nan) (scores.getD s .nan) = false) ∨
        (s = minIter ∧ ∃ b < minIter,
          ∀ k < scores.length, numLt (scores.getD k .nan) (scores.getD b .nan) = false)) := by
  obtain ⟨b, h1, h2, h3⟩ := argminNum_spec scores (by rintro rfl; simp at h)
  refine ⟨if b < minIter then minIter else b, ?_, ?_⟩
  · unfold selectIter
    rw [h1]
    rfl
  · split_ifs with hb
    · exact ⟨le_refl _, h, Or.inr ⟨rfl, b, hb, fun k hk => lt_better (h3 k hk)⟩⟩
    · exact ⟨not_lt.1 hb, h2, Or.inl fun k hk => lt_better (h3 k hk)⟩

example : selectIter 1 [.fin 5, .fin 3, .pinf, .fin 2, .fin 2] = .ok 3 := by decide +kernel

example : selectIter 2 [.fin 5, .nan, .pinf, .fin 2, .fin 2] = .ok 2 := by decide +kernel

theorem mapM_range {β : Type} {f : ℕ → Except Err β} {n : ℕ} {out : List β}
    (h : (List.range n).mapM f = .ok out) (d : β) :
    out.length = n ∧ ∀ i < n, f i = .ok (out.getD i d) := by
  obtain ⟨h1, h2⟩ := mapM_rows _ _ _ h
  rw [List.length_range] at h1
  refine ⟨h1, fun i hi => ?_⟩
  have := h2 i (by simpa using hi) (by omega)
  rw [List.getElem_range] at this
  rw [this, List.getD_eq_getElem _ _ (by omega)]

/-- What `apply` does when it succeeds. -/
theorem apply_ok {smooth : List ℚ → List ℚ} {close : List ℚ → List ℚ → Bool}
    {gs : List ℚ → List ℚ → List ℚ → Except Err (List ℚ)} {o o' : Unf} {raw M : Mat}
    {response : Option Mat} (h : o.apply smooth close gs raw response = (o', .ok M)) :
    ∃ R sel u u', updateValues close (response.orElse fun _ => o.R) raw = .ok R ∧
      o' = { o with R := response.orElse fun _ => o.R, minIter := min o.minIter o.numIter,
                    iscores := some sel } ∧
      (List.range raw.Ex.length).mapM (fun i : ℕ => selectIter (min o.minIter o.numIter)
        (rowScores smooth o.weight raw.values R.values raw.Ex.length raw.Eg.length o.numIter i))
        = .ok sel ∧
      (List.range raw.Ex.length).mapM (fun i : ℕ => cubeRow raw.values R.values raw.Ex.length
        raw.Eg.length o.numIter i (sel.getD i 0)) = .ok u ∧
      (if o.useCompton then comptonSubtraction gs o' R raw u else .ok u) = .ok u' ∧
      M = ⟨removeNegativeQ u', raw.Eg, raw.Ex, none, some .unfolded⟩ := by
  unfold Unf.apply at h
  simp only at h
  split at h
  · simp at h
  · rename_i R hR
    by_cases hlen : raw.Eg.length < 2
    · rw [if_pos hlen] at h; simp at h
    · rw [if_neg hlen] at h
      split at h
      · simp at h
      · rename_i sel hsel
        split at h
        · simp at h
        · rename_i u hu
          split at h
          · simp at h
          · rename_i u' hu'
            simp only [Prod.mk.injEq, Except.ok.injEq] at h
            obtain ⟨h1, h2⟩ := h
            refine ⟨R, sel, u, u', hR, h1.symm, hsel, hu, ?_, h2.symm⟩
            rw [← h1]
            exact hu'

/-- **C30** (partial). For every excitation bin of a successful `apply` with more iterations than
`minimum_iterations`: the selected iteration is computed, not below the minimum, and — unless an
iteration below the minimum would have been better — has the lowest score; without Compton subtraction
the result is the selected iterate with negative counts removed. -/
theorem C30_apply_partial (smooth : List ℚ → List ℚ) (close : List ℚ → List ℚ → Bool)
    (gs : List ℚ → List ℚ → List ℚ → Except Err (List ℚ)) (o o' : Unf) (raw M : Mat)
    (response : Option Mat) (hmin : o.minIter < o.numIter)
    (h : o.apply smooth close gs raw response = (o', .ok M)) :
    ∃ R sel, (response.orElse fun _ => o.R) = some R ∧ o'.iscores = some sel ∧
      sel.length = raw.Ex.length ∧
      ∀ i < raw.Ex.length, o.minIter ≤ sel.getD i 0 ∧ sel.getD i 0 < o.numIter ∧
        (let sc := fun k => scoreNum o.weight
            (chiSquareRow (raw.values.getD i [])
              ((unfoldIter raw.values R.values raw.Ex.length raw.Eg.length k).2.getD i []))
            (fluctRatio (fluctRow smooth (raw.values.getD i []))
              (fluctRow smooth
                ((unfoldIter raw.values R.values raw.Ex.length raw.Eg.length k).1.getD i [])))
        (∀ k < o.numIter, numLt (sc k) (sc (sel.getD i 0)) = false) ∨
          (sel.getD i 0 = o.minIter ∧ ∃ b < o.minIter, ∀ k < o.numIter,
            numLt (sc k) (sc b) = false)) ∧
        (o.useCompton = false → M.values.getD i [] =
          ((unfoldIter raw.values R.values raw.Ex.length raw.Eg.length (sel.getD i 0)).1.getD i []).map
            fun x => max x 0) := by
  obtain ⟨R, sel, u, u', hR, ho, hsel, hu, hc, hM⟩ := apply_ok h
  rw [min_eq_left hmin.le] at hsel
  have hR' : (response.orElse fun _ => o.R) = some R := by
    unfold updateValues at hR
    split at hR
    · simp at hR
    · rename_i R' he
      split_ifs at hR
      rw [he]
      simp at hR
      rw [hR]
  obtain ⟨hl1, hr1⟩ := mapM_range hsel 0
  obtain ⟨hl2, hr2⟩ := mapM_range hu []
  refine ⟨R, sel, hR', by rw [ho], hl1, ?_⟩
  intro i hi
  have hlen : (rowScores smooth o.weight raw.values R.values raw.Ex.length raw.Eg.length o.numIter
      i).length = o.numIter := by simp [rowScores]
  have hget : ∀ k < o.numIter, (rowScores smooth o.weight raw.values R.values raw.Ex.length
      raw.Eg.length o.numIter i).getD k .nan = scoreNum o.weight
            (chiSquareRow (raw.values.getD i [])
              ((unfoldIter raw.values R.values raw.Ex.length raw.Eg.length k).2.getD i []))
            (fluctRatio (fluctRow smooth (raw.values.getD i []))
              (fluctRow smooth
                ((unfoldIter raw.values R.values raw.Ex.length raw.Eg.length k).1.getD i []))) := by
    intro k hk
    unfold rowScores
    rw [List.getD_eq_getElem _ _ (by simpa using hk)]
    simp only [List.getElem_map, List.getElem_range]
  obtain ⟨s, hs, h1, h2, h3⟩ := C30_select_partial o.minIter _ (by rw [hlen]; exact hmin :
    o.minIter < (rowScores smooth o.weight raw.values R.values raw.Ex.length raw.Eg.length o.numIter
      i).length)
  have e := hr1 i hi
  rw [hs] at e
  have hsi : sel.getD i 0 = s := (Except.ok.inj e).symm
  rw [hlen] at h2 h3
  rw [hsi]
  refine ⟨h1, h2, ?_, ?_⟩
  · simp only
    rcases h3 with h3 | ⟨h3, b, hb, h4⟩
    · left
      intro k hk
      rw [← hget k hk, ← hget s h2]
      exact h3 k hk
    · right
      refine ⟨h3, b, hb, fun k hk => ?_⟩
      rw [← hget k hk, ← hget b (by omega)]
      exact h4 k hk
  · intro hcomp
    rw [hcomp] at hc
    simp only [Bool.false_eq_true, if_false, Except.ok.injEq] at hc
    subst hc
    have e2 := hr2 i hi
    rw [hsi] at e2
    unfold cubeRow at e2
    rw [if_pos h2] at e2
    simp only [Except.ok.injEq] at e2
    rw [hM]
    simp only [removeNegativeQ]
    rw [List.getD_eq_getElem _ _ (by simp; omega)]
    simp only [List.getElem_map]
    rw [List.getD_eq_getElem u [] (by omega)] at e2
    rw [← e2]
    apply List.map_congr_left
    intro x _
    rcases le_or_gt x 0 with hx | hx
    · rw [if_neg (not_lt.2 hx), max_eq_right hx]
    · rw [if_pos hx, max_eq_left hx.le]

/-- **C30** (false part). With at most `minimum_iterations` iterations, `apply` never succeeds on a matrix
with rows: the iteration selected was not computed. -/
theorem C30_too_few_iterations_fails (smooth : List ℚ → List ℚ) (close : List ℚ → List ℚ → Bool)
    (gs : List ℚ → List ℚ → List ℚ → Except Err (List ℚ)) (o o' : Unf) (raw M : Mat)
    (response : Option Mat) (hmin : o.numIter ≤ o.minIter) (hrow : raw.Ex ≠ []) :
    o.apply smooth close gs raw response ≠ (o', .ok M) := by
  intro h
  obtain ⟨R, sel, u, u', hR, ho, hsel, hu, hc, hM⟩ := apply_ok h
  rw [min_eq_right hmin] at hsel
  have hpos : 0 < raw.Ex.length := List.length_pos_iff.2 hrow
  obtain ⟨hl1, hr1⟩ := mapM_range hsel 0
  obtain ⟨hl2, hr2⟩ := mapM_range hu []
  have e := hr1 0 hpos
  have e2 := hr2 0 hpos
  have hge : o.numIter ≤ sel.getD 0 0 := by
    unfold selectIter at e
    cases hb : argminNum (rowScores smooth o.weight raw.values R.values raw.Ex.length raw.Eg.length
        o.numIter 0) with
    | error err => rw [hb] at e; simp [bind, Except.bind] at e
    | ok b =>
      rw [hb] at e
      simp only [bind, Except.bind, pure, Except.pure, Except.ok.injEq] at e
      rw [← e]
      split_ifs with hlt
      · exact le_refl _
      · exact not_lt.1 hlt
  unfold cubeRow at e2
  rw [if_neg (not_lt.2 hge)] at e2
  simp at e2

/-- Smoothing to a constant: the limit of a very wide filter (for the witnesses). -/
def flatSmooth (l : List ℚ) : List ℚ := l.map fun _ => l.sum / l.length

/-- **C30** (false part). The iteration selected need not have the lowest score among the allowed ones:
with at least one iteration required and three computed, iteration 1 is taken although 2 is better (0,
which is not allowed, is best). -/
theorem C30_not_best_fails :
    let R : Mat := ⟨[[1, 1, 0, 0], [0, 1, 3, 0], [0, 0, 1, 1/2], [0, 0, 0, 1]],
      [0, 1, 2, 3], [0, 1, 2, 3], none, none⟩
    let raw : Mat := ⟨[[10, 1, 1, 1]], [0, 1, 2, 3], [5], none, some .raw⟩
    let o : Unf := ⟨3, 1, 0, some R, false, none, none, none⟩
    let res := o.apply flatSmooth (fun a b => a == b) (fun r _ _ => .ok r) raw none
    res.1.iscores = some [1] ∧
      rowScores flatSmooth 0 raw.values R.values 1 4 3 0 = [.fin (437/4), .fin (3609/4), .fin 225] := by
  decide +kernel

/-- **C30** (false part). A run with too few iterations lowers `minimum_iterations` for later runs. -/
theorem C30_minimum_leaks_fails :
    let R : Mat := ⟨[[1, 0], [0, 1]], [0, 1], [0, 1], none, none⟩
    let raw : Mat := ⟨[[10, 1]], [0, 1], [5], none, some .raw⟩
    let o : Unf := ⟨2, 5, 0, some R, false, none, none, none⟩
    let res := o.apply flatSmooth (fun a b => a == b) (fun r _ _ => .ok r) raw none
    res.2 = .error .indexError ∧ res.1.minIter = 2 ∧
      ({ res.1 with numIter := 200 }.minIter ≠ { o with numIter := 200 }.minIter) := by
  decide +kernel

/-- **C30.** The object afterwards differs only in the response given, `minimum_iterations` (limited) and
the selected iterations. -/
theorem C30_object_after (smooth : List ℚ → List ℚ) (close : List ℚ → List ℚ → Bool)
    (gs : List ℚ → List ℚ → List ℚ → Except Err (List ℚ)) (o : Unf) (raw : Mat)
    (response : Option Mat) (hmin : o.minIter ≤ o.numIter) :
    let o' := (o.apply smooth close gs raw response).1
    o' = { o with R := (response.orElse fun _ => o.R), iscores := o'.iscores } := by
  simp only
  unfold Unf.apply
  simp only [min_eq_left hmin]
  split
  · rfl
  · by_cases hlen : raw.Eg.length < 2
    · rw [if_pos hlen]
    · rw [if_neg hlen]
      split
      · rfl
      · split
        · rfl
        · split <;> rfl

/-! ### C50: Compton subtraction -/

theorem getD_zipWith (f : ℚ → ℚ → ℚ) (a b : List ℚ) {k : ℕ} (ha : k < a.length)
    (hb : k < b.length) :
    (List.zipWith f a b).getD k 0 = f (a.getD k 0) (b.getD k 0) := by
  rw [List.getD_eq_getElem _ _ (by simp; omega), List.getD_eq_getElem _ _ ha,
    List.getD_eq_getElem _ _ hb]
  simp

/-- **C50.** What Compton subtraction returns: the raw counts without the smoothed Compton estimate `c` and
the other peaks `w`, corrected for full-energy probability and efficiency. -/
theorem C50_entry (gs : List ℚ → List ℚ → List ℚ → Except Err (List ℚ)) (t : RespTab)
    (tw : ℚ × ℚ × ℚ × ℚ) (r u0 uf w c : List ℚ) (n : ℕ) (hr : r.length = n) (hc : c.length = n)
    (hw : w.length = n) (hpf : t.pf.length = n) (heff : t.eff.length = n)
    (h1 : comptonParts gs t tw u0 = .ok (uf, w))
    (h2 : gs (subL r (addL uf w)) t.E (t.fwhm.map fun f => 1 * f) = .ok c) :
    ∃ out, comptonRow gs t tw r u0 = .ok out ∧ out.length = n ∧ ∀ k < n,
      out.getD k 0 = div0 (div0 (r.getD k 0 - c.getD k 0 - w.getD k 0) (t.pf.getD k 0))
        (t.eff.getD k 0) := by
  refine ⟨List.zipWith div0 (List.zipWith div0 (subL (subL r c) w) t.pf) t.eff, ?_, ?_, ?_⟩
  · unfold comptonRow
    rw [h1]
    simp only [bind, Except.bind]
    rw [h2]
    rfl
  · simp [subL, hr, hc, hw, hpf, heff]
  · intro k hk
    have l1 : (subL r c).length = n := by simp [subL, hr, hc]
    have l2 : (subL (subL r c) w).length = n := by simp [subL, hr, hc, hw]
    rw [getD_zipWith _ _ _ (by simp [l2, hpf]; omega) (by omega),
      getD_zipWith _ _ _ (by omega) (by omega)]
    unfold subL at *
    rw [getD_zipWith _ _ _ (by omega) (by omega), getD_zipWith _ _ _ (by omega) (by omega)]

/-- **C50.** If the smoothing leaves the Compton estimate as it is, Compton subtraction returns the
(smoothed) full-energy part corrected for full-energy probability and efficiency, whatever the other
peaks are; if also the full-energy part is left as it is, this is the unfolded spectrum divided by the
efficiency. -/
theorem C50_smooth_background (gs : List ℚ → List ℚ → List ℚ → Except Err (List ℚ)) (t : RespTab)
    (tw : ℚ × ℚ × ℚ × ℚ) (r u0 uf w : List ℚ) (n : ℕ) (hr : r.length = n) (hu : u0.length = n)
    (huf : uf.length = n) (hw : w.length = n) (hpf : t.pf.length = n) (heff : t.eff.length = n)
    (h1 : comptonParts gs t tw u0 = .ok (uf, w))
    (h2 : gs (subL r (addL uf w)) t.E (t.fwhm.map fun f => 1 * f) = .ok (subL r (addL uf w))) :
    ∃ out, comptonRow gs t tw r u0 = .ok out ∧ ∀ k < n,
      out.getD k 0 = div0 (div0 (uf.getD k 0) (t.pf.getD k 0)) (t.eff.getD k 0) ∧
      (uf = mulL t.pf u0 → t.pf.getD k 0 ≠ 0 →
        out.getD k 0 = div0 (u0.getD k 0) (t.eff.getD k 0)) := by
  obtain ⟨out, ho, -, hk⟩ := C50_entry gs t tw r u0 uf w _ n hr
    (by simp [subL, addL, hr, huf, hw]) hw hpf heff h1 h2
  refine ⟨out, ho, fun k hkn => ?_⟩
  have e : out.getD k 0 = div0 (div0 (uf.getD k 0) (t.pf.getD k 0)) (t.eff.getD k 0) := by
    rw [hk k hkn]
    have l1 : (addL uf w).length = n := by simp [addL, huf, hw]
    congr 2
    unfold subL
    rw [getD_zipWith _ _ _ (by omega) (by omega)]
    unfold addL at *
    rw [getD_zipWith _ _ _ (by omega) (by omega)]
    ring
  refine ⟨e, fun hm hne => ?_⟩
  rw [e, hm]
  unfold mulL
  rw [getD_zipWith _ _ _ (by omega) (by omega)]
  congr 1
  unfold div0
  rw [if_neg hne, mul_div_cancel_left₀ _ hne]

/-- The table of a detector with 100 keV bins for the examples; all probabilities 1/4. -/
def exTab : RespTab :=
  let q := List.replicate 12 (1/4 : ℚ)
  ⟨grid 100 100 12, List.replicate 12 10, List.replicate 12 (1/2), q, q, q, q⟩

/-- Non-vacuity of C50: no smoothing at all. -/
example :
    (comptonParts (fun r _ _ => .ok r) exTab (1, 1, 1, 1)
      [0, 0, 0, 0, 0, 0, 0, 0, 0, 0, 0, 400]).isOk = true ∧
    comptonRow (fun r _ _ => .ok r) exTab (1, 1, 1, 1) (List.replicate 12 500)
      [0, 0, 0, 0, 0, 0, 0, 0, 0, 0, 0, 400] = .ok [0, 0, 0, 0, 0, 0, 0, 0, 0, 0, 0, 800] := by
  decide +kernel

/-- **C50.** A shift by `s` bins down moves the content of bin `k + s` to bin `k` and drops the lowest `s`
bins; nothing else. -/
theorem C50_shift_down (counts : List ℚ) (a w : ℚ) (n s : ℕ) (hn : 2 ≤ n) (hw : 0 < w)
    (hc : counts.length = n) :
    ∃ out, shiftRow counts (grid a w n) (-(w * s)) = .ok out ∧ out.length = n ∧
      ∀ k < n, out.getD k 0 = counts.getD (k + s) 0 := by
  have hg : (grid a w n).map (· + -(w * s)) = grid (a - w * s) w n := by
    unfold grid
    rw [List.map_map]
    apply List.map_congr_left
    intro k _
    simp only [Function.comp]
    ring
  unfold shiftRow
  rw [hg, rebin1D_grid _ _ _ _ _ _ _ hn hn hw hw hc.ge]
  refine ⟨_, rfl, by simp, fun k hk => ?_⟩
  rw [getD_map_range _ hk]
  have hshare : ∀ j, share (a - w * s) w a w k j = if j = k + s then 1 else 0 := by
    intro j
    rw [← share_self a w hw (k + s) j]
    unfold share overlap
    push_cast
    rw [show a + w * ((k : ℚ) + s) + w / 2 = (a + w * k + w / 2) + w * s by ring,
      show a + w * ((k : ℚ) + s) - w / 2 = (a + w * k - w / 2) + w * s by ring,
      show a + w * (j : ℚ) + w / 2 = (a - w * s + w * j + w / 2) + w * s by ring,
      show a + w * (j : ℚ) - w / 2 = (a - w * s + w * j - w / 2) + w * s by ring,
      min_add_add_right _ _ (w * (s : ℚ)), max_add_add_right _ _ (w * (s : ℚ)), add_sub_add_right_eq_sub]
  simp only [hshare, mul_ite, mul_one, mul_zero]
  rw [Finset.sum_ite_eq']
  split_ifs with hin
  · rfl
  · rw [Finset.mem_range] at hin
    rw [List.getD_eq_default _ _ (by omega)]

example : shiftRow [1, 2, 3, 4] (grid 0 10 4) (-(10 * (2 : ℕ))) = .ok [3, 4, 0, 0] := by
  decide +kernel

/-- **C50** (false part). The double-escape peak is not moved down by two electron masses (2 · 511 keV, as in
`Response.discrete_peaks`) but by 1024 keV: with 1 keV bins the peak of a 1200 keV gamma lands two bins
below the place where the response matrix has it. -/
theorem C50_double_escape_fails (gs : List ℚ → List ℚ → List ℚ → Except Err (List ℚ))
    (hgs : ∀ row E f, gs row E f = .ok row) (t : RespTab) (n : ℕ) (hn : 2 ≤ n)
    (hE : t.E = grid 0 1 n) (u0 : List ℚ) (hu : u0.length = n) (hps : t.ps = List.replicate n 0)
    (hpd : t.pd = List.replicate n 1) (hpf : t.pf = List.replicate n 0)
    (hpa : t.pa = List.replicate n 0) :
    ∃ w, comptonParts gs t (1, 1, 1, 1) u0 = .ok (mulL t.pf u0, w) ∧
      ∀ k < n, w.getD k 0 = u0.getD (k + 1024) 0 := by
  have hmul : ∀ c : ℚ, mulL (List.replicate n c) u0 = u0.map (c * ·) := by
    intro c
    apply List.ext_getElem
    · simp [mulL, hu]
    · intro i h1 h2
      simp [mulL]
  have l0 : (u0.map ((0 : ℚ) * ·)).length = n := by simp [hu]
  have l1 : (u0.map ((1 : ℚ) * ·)).length = n := by simp [hu]
  obtain ⟨us, hs1, hs2, hs3⟩ := C50_shift_down (u0.map ((0 : ℚ) * ·)) 0 1 n 511 hn (by norm_num) l0
  obtain ⟨ud, hd1, hd2, hd3⟩ := C50_shift_down (u0.map ((1 : ℚ) * ·)) 0 1 n 1024 hn (by norm_num) l1
  have c1 : (-(1 * ((511 : ℕ) : ℚ))) = -511 := by norm_num
  have c2 : (-(1 * ((1024 : ℕ) : ℚ))) = -1024 := by norm_num
  rw [c1] at hs1
  rw [c2] at hd1
  obtain ⟨i, hi, -⟩ := argmin_spec ((grid 0 1 n).map fun x => |x - 511|) (by
    intro h
    have := congrArg List.length h
    simp at this
    omega)
  have hz : (u0.map ((0 : ℚ) * ·)).sum = 0 := by
    apply List.sum_eq_zero
    intro x hx
    simp at hx
    exact hx.2
  refine ⟨addL (addL us ud) ((List.replicate u0.length 0).set i 0), ?_, ?_⟩
  · unfold comptonParts
    simp only [hgs, hE, hps, hpd, hpa, hmul, bind, Except.bind, iFromE, hs1, hd1, hi, hz]
    rfl
  · intro k hk
    have l2 : (addL us ud).length = n := by simp [addL, hs2, hd2]
    unfold addL at *
    rw [getD_zipWith _ _ _ (by omega) (by simp [hu]; omega), getD_zipWith _ _ _ (by omega) (by omega),
      hs3 k hk, hd3 k hk]
    have z1 : (u0.map ((0 : ℚ) * ·)).getD (k + 511) 0 = 0 := by
      rw [List.getD_eq_getElem?_getD, List.getElem?_map]
      cases u0[k + 511]? <;> simp
    have z2 : (u0.map ((1 : ℚ) * ·)).getD (k + 1024) 0 = u0.getD (k + 1024) 0 := by simp
    have z3 : ((List.replicate u0.length (0 : ℚ)).set i 0).getD k 0 = 0 := by
      rw [List.getD_eq_getElem?_getD, List.getElem?_set]
      split_ifs <;> simp
    rw [z1, z2, z3]
    ring

/-- Errors of Compton subtraction: without table, and with multipliers that lack a key. -/
theorem C50_errors (gs : List ℚ → List ℚ → List ℚ → Except Err (List ℚ)) (o : Unf) (R raw : Mat)
    (u : List (List ℚ)) :
    (o.tab = none → comptonSubtraction gs o R raw u = .error .valueError) ∧
    (∀ t d, o.tab = some t → t.E = R.Eg → o.tweak = some d →
      (∃ key ∈ ["fe", "se", "de", "511"], d.lookup key = none) →
      comptonSubtraction gs o R raw u = .error .valueError) := by
  constructor
  · intro h
    simp [comptonSubtraction, h]
  · rintro t d h1 h2 h3 ⟨key, hk, hl⟩
    unfold comptonSubtraction tweakOf
    rw [h1, h3]
    simp only [h2, ne_eq, not_true_eq_false, if_false]
    simp only [List.mem_cons, List.not_mem_nil, or_false] at hk
    rcases hk with rfl | rfl | rfl | rfl <;> rw [hl] <;> split <;> simp_all [bind, Except.bind]

end Ompy
