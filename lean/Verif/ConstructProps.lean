import Verif.Construct
import Verif.RebinLemmas
import Mathlib.Tactic.LinearCombination

/-!
# C88: empty matrices and vectors, the check of the axes
-/

namespace Ompy

theorem zerosOf_shape {r : ℕ} (hr : 0 < r) (c n q : ℕ) : hasShape (zerosOf r c) n q = true ↔ n = r ∧ q = c := by
  unfold hasShape zerosOf
  simp only [List.length_replicate, Bool.and_eq_true, beq_iff_eq, List.all_eq_true, List.mem_replicate, and_imp]
  constructor
  · rintro ⟨h1, h2⟩
    have := h2 _ (by omega) rfl
    rw [List.length_replicate] at this
    exact ⟨h1.symm, this.symm⟩
  · rintro ⟨rfl, rfl⟩
    refine ⟨rfl, ?_⟩
    rintro x - rfl
    simp

theorem new_zeros {r : ℕ} (hr : 0 < r) (c : ℕ) (Ex Eg : Option (List ℚ)) :
    Mat.new (zerosOf r c) c Eg Ex none none =
      if (Ex.getD (defaultAxis r)).length = r ∧ (Eg.getD (defaultAxis c)).length = c then
        .ok ⟨zerosOf r c, Eg.getD (defaultAxis c), Ex.getD (defaultAxis r), none, none⟩
      else .error .valueError := by
  have hl : (zerosOf r c).length = r := by simp [zerosOf]
  unfold Mat.new Mat.consistent
  simp only [hl, Bool.and_true]
  by_cases h : (Ex.getD (defaultAxis r)).length = r ∧ (Eg.getD (defaultAxis c)).length = c
  · rw [if_pos h, if_pos ((zerosOf_shape hr c _ _).2 h)]
  · rw [if_neg h, if_neg (fun h' => h ((zerosOf_shape hr c _ _).1 h'))]

/-- **C88.** `ZerosMatrix` without `std` gives a matrix of zeros over the axes given, or the default ones; a shape that does not fit the
axes is refused, as is a missing shape unless both axes are given, and a state that does not exist. -/
theorem C88_zeros (s : MState) :
    (∀ Ex Eg : List ℚ, Ex ≠ [] → zerosMatrix none (some Ex) (some Eg) false (.state s) =
      .ok ⟨List.replicate Ex.length (List.replicate Eg.length 0), Eg, Ex, none, some s⟩) ∧
    (∀ r c : ℕ, 0 < r → zerosMatrix (some (r, c)) none none false .none =
      .ok ⟨List.replicate r (List.replicate c 0), (List.range c).map (fun k : ℕ => (k : ℚ) + 1 / 2),
        (List.range r).map (fun k : ℕ => (k : ℚ) + 1 / 2), none, none⟩) ∧
    (∀ (r c : ℕ) (Ex Eg : List ℚ) (std : Bool) (st : PyVal), 0 < r → Ex.length ≠ r ∨ Eg.length ≠ c →
      zerosMatrix (some (r, c)) (some Ex) (some Eg) std st = .error .valueError) ∧
    (∀ (Ex Eg : Option (List ℚ)) (std : Bool) (st : PyVal), Ex = none ∨ Eg = none →
      zerosMatrix none Ex Eg std st = .error .assertion) ∧
    (∀ (r c k : ℕ), 0 < r → zerosMatrix (some (r, c)) none none false (.int k) = .error .valueError) := by
  have hd : ∀ n, (defaultAxis n).length = n := fun n => by simp [defaultAxis]
  refine ⟨?_, ?_, ?_, ?_, ?_⟩
  · intro Ex Eg hne
    have hr : 0 < Ex.length := List.length_pos_iff.2 hne
    unfold zerosMatrix matInit
    simp only [bind, Except.bind, zerosShape, new_zeros hr, Option.getD_some, and_self, if_true, Bool.false_eq_true, if_false]
    rfl
  · intro r c hr
    unfold zerosMatrix matInit
    simp only [bind, Except.bind, zerosShape, new_zeros hr, Option.getD_none, hd, and_self, if_true, Bool.false_eq_true, if_false]
    rfl
  · intro r c Ex Eg std st hr hne
    have h : ¬ (Ex.length = r ∧ Eg.length = c) := by tauto
    cases std with
    | false =>
      unfold zerosMatrix matInit
      simp only [bind, Except.bind, zerosShape, new_zeros hr, Option.getD_some, Bool.false_eq_true, if_false, if_neg h]
    | true =>
      unfold zerosMatrix zerosStd
      simp only [bind, Except.bind, zerosShape, new_zeros hr, Option.getD_some, if_true, if_neg h]
  · intro Ex Eg std st h
    rcases h with rfl | rfl
    · rfl
    · cases Ex <;> rfl
  · intro r c k hr
    unfold zerosMatrix matInit
    simp only [bind, Except.bind, zerosShape, new_zeros hr, Option.getD_none, hd, and_self, if_true, Bool.false_eq_true, if_false]
    rfl

/-- **C88 (disagreement).** With `std=True` there is never a matrix: the option is passed on instead of the array that was made. -/
theorem C88_std_fails (shape : Option (ℕ × ℕ)) (Ex Eg : Option (List ℚ)) (st : PyVal) :
    (∀ m, zerosMatrix shape Ex Eg true st ≠ .ok m) ∧
    (∀ r c : ℕ, 0 < r → zerosMatrix (some (r, c)) none none true st = .error .attributeError) := by
  have hd : ∀ n, (defaultAxis n).length = n := fun n => by simp [defaultAxis]
  constructor
  · intro m h
    unfold zerosMatrix at h
    simp only [bind, Except.bind] at h
    cases hs : zerosShape shape Ex Eg with
    | error e => rw [hs] at h; simp at h
    | ok s =>
      rw [hs] at h
      simp only [if_true] at h
      unfold zerosStd at h
      cases hn : Mat.new (zerosOf s.1 s.2) s.2 Eg Ex none none with
      | error e => rw [hn] at h; simp at h
      | ok m' => rw [hn] at h; simp at h
  · intro r c hr
    unfold zerosMatrix zerosStd
    simp only [bind, Except.bind, zerosShape, new_zeros hr, Option.getD_none, hd, and_self, if_true]

/-- **C88 (disagreement).** `Matrix(values=…, shape=…)` ignores the values, even if they have the shape given. -/
theorem C88_values_fails (v : List (List ℚ)) (r c : ℕ) (hr : 0 < r) :
    matrixShape (some v) (r, c) none none none .none =
      .ok ⟨List.replicate r (List.replicate c 0), defaultAxis c, defaultAxis r, none, none⟩ := by
  have hd : ∀ n, (defaultAxis n).length = n := fun n => by simp [defaultAxis]
  have h := (C88_zeros .raw).2.1 r c hr
  unfold matrixShape
  simp only [bind, Except.bind, h]
  unfold matInit
  have := new_zeros hr c none none
  unfold zerosOf at this
  rw [this]
  simp only [Option.getD_none, hd, and_self, if_true]
  rfl

/-! ### Axes -/

/-- Step `i` of an axis. -/
def stepOf (E : List ℚ) (i : ℕ) : ℚ := E.getD (i + 1) 0 - E.getD i 0

theorem diff_getD (E : List ℚ) (i : ℕ) (hi : i + 1 < E.length) :
    (List.zipWith (fun a b => b - a) E E.tail).getD i 0 = stepOf E i := by
  have hl : i < (List.zipWith (fun a b => b - a) E E.tail).length := by
    simp only [List.length_zipWith, List.length_tail]; omega
  rw [List.getD_eq_getElem _ _ hl]
  unfold stepOf
  rw [List.getElem_zipWith, List.getElem_tail, List.getD_eq_getElem E 0 hi, List.getD_eq_getElem E 0 (by omega)]

/-- **C88.** The check of an axis accepts up to two energies, and otherwise exactly the axes whose steps differ from the second one by less than
1.5e-6. -/
theorem C88_equidistant (E : List ℚ) :
    (equidistantCheck E = .ok () ↔
      E.length ≤ 2 ∨ ∀ i, i + 1 < E.length → |stepOf E i - stepOf E 1| < 15 / 10 ^ 7) ∧
    (equidistantCheck E = .ok () ∨ equidistantCheck E = .error .valueError) := by
  unfold equidistantCheck
  simp only
  by_cases h : 2 < E.length
  · rw [if_pos h, diff_getD E 1 (by omega)]
    have key : ((List.zipWith (fun a b => b - a) E E.tail).all fun d => decide (|d - stepOf E 1| < 15 / 10 ^ 7)) = true ↔
        ∀ i, i + 1 < E.length → |stepOf E i - stepOf E 1| < 15 / 10 ^ 7 := by
      rw [List.all_eq_true]
      constructor
      · intro hall i hi
        have hl : i < (List.zipWith (fun a b => b - a) E E.tail).length := by
          simp only [List.length_zipWith, List.length_tail]; omega
        have := hall _ (List.getElem_mem hl)
        rw [← List.getD_eq_getElem _ 0 hl, diff_getD E i hi] at this
        exact of_decide_eq_true this
      · intro hall d hd
        obtain ⟨i, hi, rfl⟩ := List.mem_iff_getElem.1 hd
        have hi' : i + 1 < E.length := by
          simp only [List.length_zipWith, List.length_tail] at hi; omega
        rw [← List.getD_eq_getElem _ 0 hi, diff_getD E i hi']
        exact decide_eq_true (hall i hi')
    by_cases hk : ∀ i, i + 1 < E.length → |stepOf E i - stepOf E 1| < 15 / 10 ^ 7
    · rw [if_pos (key.2 hk)]
      exact ⟨⟨fun _ => Or.inr hk, fun _ => rfl⟩, Or.inl rfl⟩
    · rw [if_neg (fun h' => hk (key.1 h'))]
      refine ⟨⟨fun h' => by simp at h', fun h' => ?_⟩, Or.inr rfl⟩
      rcases h' with h' | h'
      · omega
      · exact absurd h' hk
  · rw [if_neg h]
    exact ⟨⟨fun _ => Or.inl (by omega), fun _ => rfl⟩, Or.inl rfl⟩

/-- **C88.** Every equidistant axis is accepted; energy `k` of an accepted axis is at most `k * 1.5e-6` away from the equidistant axis with the
second step. -/
theorem C88_drift (E : List ℚ) (h : equidistantCheck E = .ok ()) (h3 : 2 < E.length) :
    ∀ k < E.length, |E.getD k 0 - (E.getD 0 0 + k * stepOf E 1)| ≤ k * (15 / 10 ^ 7) := by
  rcases (C88_equidistant E).1.1 h with h' | h'
  · omega
  · intro k
    induction k with
    | zero => intro _; simp
    | succ k ih =>
      intro hk
      have h1 := ih (by omega)
      have h2 := (h' k hk).le
      have e : E.getD (k + 1) 0 - (E.getD 0 0 + ((k + 1 : ℕ) : ℚ) * stepOf E 1) =
          (E.getD k 0 - (E.getD 0 0 + (k : ℚ) * stepOf E 1)) + (stepOf E k - stepOf E 1) := by
        unfold stepOf
        push_cast
        ring
      rw [e]
      refine (abs_add_le _ _).trans ?_
      push_cast
      linarith

/-- **C88.** Every equidistant axis is accepted. -/
theorem C88_grid (a w : ℚ) (n : ℕ) : equidistantCheck (grid a w n) = .ok () := by
  rw [(C88_equidistant _).1]
  by_cases h : n ≤ 2
  · left; rw [grid_length]; exact h
  · right
    intro i hi
    rw [grid_length] at hi
    have step : ∀ i, i + 1 < n → stepOf (grid a w n) i = w := by
      intro i hi
      unfold stepOf
      rw [grid_getD a w (by omega), grid_getD a w (by omega)]
      push_cast
      ring
    rw [step i hi, step 1 (by omega), sub_self, abs_zero]
    norm_num

/-- **C88 (disagreement).** The tolerance is absolute: an axis whose steps are all between zero and 1.5e-6 is accepted, however much they differ.  The sign of
the steps is not looked at. -/
theorem C88_tolerance_fails :
    (∀ E : List ℚ, (∀ i, i + 1 < E.length → 0 ≤ stepOf E i ∧ stepOf E i < 15 / 10 ^ 7) → equidistantCheck E = .ok ()) ∧
    equidistantCheck [0, 1 / 10 ^ 9, 1 / 10 ^ 6] = .ok () ∧ equidistantCheck [3, 2, 1] = .ok () ∧
    equidistantCheck [1, 1, 1] = .ok () ∧ equidistantCheck [0, 1, 3] = .error .valueError := by
  refine ⟨?_, by decide +kernel, by decide +kernel, by decide +kernel, by decide +kernel⟩
  intro E hE
  rw [(C88_equidistant _).1]
  by_cases h : E.length ≤ 2
  · exact Or.inl h
  · right
    intro i hi
    obtain ⟨a1, a2⟩ := hE i hi
    obtain ⟨b1, b2⟩ := hE 1 (by omega)
    rw [abs_lt]
    constructor <;> linarith

/-- **C88 (disagreement).** The axis "both", a valid name of axes, checks the gamma energies only; the other names check the axis named. -/
theorem C88_both_fails (m : Mat) :
    m.verifyEquidistant (.str "both") = equidistantCheck m.Eg ∧ m.verifyEquidistant (.num 2) = equidistantCheck m.Eg ∧
    m.verifyEquidistant (.str "Ex") = equidistantCheck m.Ex ∧ m.verifyEquidistant (.str "Eg") = equidistantCheck m.Eg ∧
    m.verifyEquidistant (.num 1) = equidistantCheck m.Ex ∧ m.verifyEquidistant (.num 0) = equidistantCheck m.Eg ∧
    m.verifyEquidistant (.num 3) = .error .valueError := by
  have h1 : toPlotAxis (.str "both") = .ok 2 := by decide +kernel
  have h2 : toPlotAxis (.str "Ex") = .ok 1 := by decide +kernel
  have h3 : toPlotAxis (.str "Eg") = .ok 0 := by decide +kernel
  unfold Mat.verifyEquidistant
  rw [h1, h2, h3]
  exact ⟨rfl, rfl, rfl, rfl, rfl, rfl, rfl⟩

/-! ### Vectors of zeros -/

/-- **C88 (partial: energies given as floats).** `Vector(E=E)` is the vector of zeros, and takes any value. -/
theorem C88_vector_partial (E : List ℚ) (i : ℕ) (hi : i < E.length) (x : ℚ) :
    vecOfE E .float = vecOfValues (List.replicate E.length 0) E ∧
    (vecOfE E .float).set i x = .ok ⟨E, (List.replicate E.length 0).set i x, .float⟩ ∧
    (vecOfE E .float).addFloat x = .ok ⟨E, List.replicate E.length x, .float⟩ := by
  refine ⟨rfl, ?_, ?_⟩
  · unfold TypedVec.set vecOfE
    simp [hi]
  · unfold TypedVec.addFloat vecOfE
    simp

/-- **C88 (disagreement).** If the energies are given as integers, so are the values: a number between 0 and 1 stored in a bin is lost, and adding a
float raises TypeError. -/
theorem C88_integer_fails (E : List ℚ) (i : ℕ) (hi : i < E.length) (x : ℚ) (h0 : 0 ≤ x) (h1 : x < 1) :
    (vecOfE E .int).set i x = .ok (vecOfE E .int) ∧ (vecOfE E .int).addFloat x = .error .typeError := by
  refine ⟨?_, rfl⟩
  have ht : truncZ x = 0 := by
    rw [truncZ_of_nonneg h0, Int.floor_eq_iff]
    constructor <;> simpa
  unfold TypedVec.set vecOfE
  simp only [List.length_replicate, if_pos hi, ht, Int.cast_zero]
  congr 2
  apply List.ext_getElem
  · simp
  · intro k hk hk'
    rw [List.getElem_set]
    split_ifs <;> simp

/-- Non-vacuity: empty matrices of two by three bins, a vector over the energies 1, 2, 3. -/
example : zerosMatrix (some (2, 3)) none none false (.str "RAW") =
      .ok ⟨[[0, 0, 0], [0, 0, 0]], [1 / 2, 3 / 2, 5 / 2], [1 / 2, 3 / 2], none, some .raw⟩ ∧
    zerosMatrix (some (2, 3)) none none false (.str "nothing") = .error .keyError ∧
    zerosMatrix (some (2, 3)) none (some [1]) true (.str "nothing") = .error .valueError ∧
    (vecOfE [1, 2, 3] .int).set 1 (9 / 10) = .ok ⟨[1, 2, 3], [0, 0, 0], .int⟩ ∧
    (vecOfE [1, 2, 3] .float).set 1 (9 / 10) = .ok ⟨[1, 2, 3], [0, 9 / 10, 0], .float⟩ := by
  decide +kernel

end Ompy
