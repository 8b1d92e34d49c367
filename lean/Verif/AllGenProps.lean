import Verif.FirstGenProps

/-!
# C49: all generations from first generations
-/

namespace Ompy

/-- Specification: the decay probability from bin `i` to bin `j`: first-generation counts at
`Eg`-bin `i - j`, normalised over the bins `0..i`. -/
def decay (fg : List (List ℚ)) (i j : ℕ) : ℚ :=
  div0 (at2 fg i (i - j)) (∑ q ∈ Finset.range (i + 1), at2 fg i q)

theorem weights_entry (fg : List (List ℚ)) (n ny : ℕ) {i j : ℕ} (hi : i < n) (hj : j < ny)
    (hiy : i < ny) :
    at2 (allgenWeights fg n ny) i j = if j ≤ i then decay fg i j else 0 := by
  unfold allgenWeights
  rw [normalizeRows_tabulate, at2_tabulate _ _ _ hi hj]
  have hsum : ∑ k ∈ Finset.range ny, (if k ≤ i then at2 fg i (i - k) else 0)
      = ∑ q ∈ Finset.range (i + 1), at2 fg i q := by
    rw [← Finset.sum_range_reflect (fun q => at2 fg i q) (i + 1), Finset.sum_ite,
      Finset.sum_const_zero, add_zero]
    apply Finset.sum_congr
    · ext k
      simp only [Finset.mem_filter, Finset.mem_range]
      omega
    · intro k hk
      rfl
  rw [hsum]
  split_ifs
  · rfl
  · simp [div0]

theorem at2_set (M : List (List ℚ)) (i : ℕ) (r : List ℚ) (a c : ℕ) (hi : i < M.length) :
    at2 (M.set i r) a c = if a = i then r.getD c 0 else at2 M a c := by
  unfold at2
  by_cases h : a = i
  · subst h
    rw [if_pos rfl, List.getD_eq_getElem (M.set a r) [] (by simpa using hi)]
    simp
  · rw [if_neg h]
    simp only [List.getD_eq_getElem?_getD, List.getElem?_set]
    rw [if_neg (fun h' => h h'.symm)]

theorem inner_length (xs : List ℚ) (w : List (List ℚ)) (i ny j : ℕ) (ag : List (List ℚ)) :
    (allgenInner xs w i ny j ag).length = ag.length := by
  induction j with
  | zero => rfl
  | succ j ih => simp [allgenInner, ih]

theorem inner_other (xs : List ℚ) (w : List (List ℚ)) (i ny j : ℕ) (ag : List (List ℚ))
    (hi : i < ag.length) {a : ℕ} (ha : a ≠ i) (c : ℕ) :
    at2 (allgenInner xs w i ny j ag) a c = at2 ag a c := by
  induction j with
  | zero => rfl
  | succ j ih =>
    rw [allgenInner]
    rw [at2_set _ _ _ _ _ (by rw [inner_length]; exact hi), if_neg ha, ih]

theorem inner_below (xs : List ℚ) (w : List (List ℚ)) (i ny j : ℕ) (ag : List (List ℚ))
    (hi : i < ag.length) (hj : j ≤ i) {k : ℕ} (hk : k < ny) :
    at2 (allgenInner xs w i ny j ag) i k = at2 ag i k + xs.getD i 0 *
      ∑ q ∈ Finset.range j, at2 w i q * div0 (at2 ag q k) (xs.getD q 0) := by
  induction j with
  | zero => simp [allgenInner]
  | succ j ih =>
    rw [allgenInner]
    rw [at2_set _ _ _ _ _ (by rw [inner_length]; exact hi), if_pos rfl, getD_map_range _ hk,
      ih (by omega), inner_other _ _ _ _ _ _ hi (by omega), Finset.sum_range_succ]
    ring

theorem inner_all (xs : List ℚ) (w : List (List ℚ)) (i ny n : ℕ) (ag : List (List ℚ))
    (hi : i < ag.length) (hin : i < n) {k : ℕ} (hk : k < ny)
    (hw : ∀ q, i < q → q < n → at2 w i q = 0) (hx : xs.getD i 0 ≠ 0) :
    at2 (allgenInner xs w i ny n ag) i k = (1 + at2 w i i) * (at2 ag i k + xs.getD i 0 *
      ∑ q ∈ Finset.range i, at2 w i q * div0 (at2 ag q k) (xs.getD q 0)) := by
  obtain ⟨d, rfl⟩ : ∃ d, n = i + 1 + d := ⟨n - (i + 1), by omega⟩
  induction d with
  | zero =>
    rw [Nat.add_zero, allgenInner]
    rw [at2_set _ _ _ _ _ (by rw [inner_length]; exact hi), if_pos rfl, getD_map_range _ hk,
      inner_below _ _ _ _ _ _ hi (le_refl i) hk]
    unfold div0
    simp only [hx, if_false]
    field_simp
  | succ d ih =>
    have := ih (by omega) (fun q h1 h2 => hw q h1 (by omega))
    rw [show i + 1 + (d + 1) = (i + 1 + d) + 1 by omega, allgenInner]
    rw [at2_set _ _ _ _ _ (by rw [inner_length]; exact hi), if_pos rfl, getD_map_range _ hk,
      this, hw (i + 1 + d) (by omega) (by omega)]
    ring

theorem loop_length (fg : List (List ℚ)) (xs : List ℚ) (w : List (List ℚ)) (n ny i : ℕ) :
    (allgenLoop fg xs w n ny i).length = n := by
  induction i with
  | zero => simp [allgenLoop, tabulate_length]
  | succ i ih =>
    rw [allgenLoop]
    split_ifs
    · simp [ih]
    · rw [inner_length]; simp [ih]

/-- Rows already treated do not change any more. -/
theorem loop_stable (fg : List (List ℚ)) (xs : List ℚ) (w : List (List ℚ)) (n ny i d : ℕ)
    (hd : i + 1 + d ≤ n) (k : ℕ) :
    at2 (allgenLoop fg xs w n ny (i + 1 + d)) i k = at2 (allgenLoop fg xs w n ny (i + 1)) i k := by
  induction d with
  | zero => rfl
  | succ d ih =>
    rw [show i + 1 + (d + 1) = (i + 1 + d) + 1 by omega, allgenLoop]
    have hl := loop_length fg xs w n ny (i + 1 + d)
    rw [if_neg (by omega), inner_other _ _ _ _ _ _ (by rw [List.length_set, hl]; omega) (by omega),
      at2_set _ _ _ _ _ (by rw [hl]; omega), if_neg (by omega)]
    exact ih (by omega)

theorem loop_final (fg : List (List ℚ)) (xs : List ℚ) (w : List (List ℚ)) (n ny i : ℕ)
    (hi : i < n) (k : ℕ) :
    at2 (allgenLoop fg xs w n ny n) i k = at2 (allgenLoop fg xs w n ny (i + 1)) i k := by
  obtain ⟨d, hd⟩ : ∃ d, n = i + 1 + d := ⟨n - (i + 1), by omega⟩
  conv_lhs => rw [show allgenLoop fg xs w n ny n = allgenLoop fg xs w n ny (i + 1 + d) by rw [← hd]]
  exact loop_stable fg xs w n ny i d (by omega) k

/-- **C49.** What the code computes: with the decay probabilities `w_ij` into the bins `j ≤ i` and
population `σ`, row `i ≥ 1` is `(1 + w_ii)` times `σ_i (f_i/Σf_i + Σ_{j<i} w_ij AG_j/σ_j)`;
the lowest row is the first-generation row scaled to its population. -/
theorem C49_recursion (fg : Mat) (xs : List ℚ) (hshape : fg.Ex.length ≤ fg.Eg.length) (i k : ℕ)
    (hi : i < fg.Ex.length) (hk : k < fg.Eg.length) (hx : xs.getD i 0 ≠ 0) :
    let AG := at2 (allgenFromPrimary fg (some xs))
    let σ := fun j => xs.getD j 0
    let f := fun j => div0 (at2 fg.values i j) (fg.values.getD i []).sum
    (i = 0 → AG 0 k = f k * σ 0) ∧
    (0 < i → AG i k = (1 + decay fg.values i i) *
      (σ i * (f k + ∑ j ∈ Finset.range i, decay fg.values i j * div0 (AG j k) (σ j)))) := by
  simp only [allgenFromPrimary, Option.getD_some]
  set n := fg.Ex.length with hn
  set ny := fg.Eg.length with hny
  set w := allgenWeights fg.values n ny with hwdef
  have hl := loop_length fg.values xs w n ny
  constructor
  · rintro rfl
    rw [loop_final _ _ _ _ _ _ hi, allgenLoop]
    simp only [if_true]
    rw [at2_set _ _ _ _ _ (by rw [hl]; exact hi), if_pos rfl, getD_map_range _ hk]
    rfl
  · intro hpos
    rw [loop_final _ _ _ _ _ _ hi, allgenLoop]
    rw [if_neg (by omega), inner_all _ _ _ _ _ _ (by rw [List.length_set, hl]; exact hi) hi hk
      (fun q h1 h2 => by rw [hwdef, weights_entry _ _ _ hi (by omega) (by omega), if_neg (by omega)])
      hx]
    rw [at2_set _ _ _ _ _ (by rw [hl]; exact hi), if_pos rfl, getD_map_range _ hk, hwdef,
      weights_entry _ _ _ hi (by omega) (by omega), if_pos (le_refl i)]
    congr 1
    have hsum : ∀ q ∈ Finset.range i,
        at2 (allgenWeights fg.values n ny) i q * div0 (at2 ((allgenLoop fg.values xs
          (allgenWeights fg.values n ny) n ny i).set i ((List.range ny).map fun k : ℕ =>
            div0 ((fg.values.getD i []).getD k 0) (fg.values.getD i []).sum * xs.getD i 0)) q k)
            (xs.getD q 0)
        = decay fg.values i q * div0 (at2 (allgenLoop fg.values xs
          (allgenWeights fg.values n ny) n ny n) q k) (xs.getD q 0) := by
      intro q hq
      rw [Finset.mem_range] at hq
      rw [weights_entry _ _ _ hi (by omega) (by omega), if_pos (by omega),
        at2_set _ _ _ _ _ (by rw [loop_length]; exact hi), if_neg (by omega),
        loop_final _ _ _ _ _ _ (show q < n by omega)]
      obtain ⟨d, hd⟩ : ∃ d, i = q + 1 + d := ⟨i - (q + 1), by omega⟩
      rw [hd, loop_stable _ _ _ _ _ _ _ (by omega)]
    rw [Finset.sum_congr rfl hsum]
    unfold at2
    ring

/-- **C49** (partial). The documented recursion, in which only lower bins feed into a bin, holds for
rows without counts in the lowest gamma bin. -/
theorem C49_documented_partial (fg : Mat) (xs : List ℚ) (hshape : fg.Ex.length ≤ fg.Eg.length)
    (i k : ℕ) (hi : i < fg.Ex.length) (hk : k < fg.Eg.length) (hx : xs.getD i 0 ≠ 0)
    (h0 : at2 fg.values i 0 = 0) :
    at2 (allgenFromPrimary fg (some xs)) i k =
      div0 (at2 fg.values i k) (fg.values.getD i []).sum * xs.getD i 0 +
      ∑ j ∈ Finset.range i, xs.getD i 0 * decay fg.values i j *
        div0 (at2 (allgenFromPrimary fg (some xs)) j k) (xs.getD j 0) := by
  obtain ⟨r0, r1⟩ := C49_recursion fg xs hshape i k hi hk hx
  simp only at r0 r1
  rcases Nat.eq_zero_or_pos i with rfl | hpos
  · rw [r0 rfl]; simp
  · rw [r1 hpos]
    have : decay fg.values i i = 0 := by simp [decay, h0, div0]
    rw [this]
    have e : ∑ j ∈ Finset.range i, xs.getD i 0 * decay fg.values i j *
        div0 (at2 (allgenFromPrimary fg (some xs)) j k) (xs.getD j 0)
        = xs.getD i 0 * ∑ j ∈ Finset.range i, decay fg.values i j *
          div0 (at2 (allgenFromPrimary fg (some xs)) j k) (xs.getD j 0) := by
      rw [Finset.mul_sum]
      exact Finset.sum_congr rfl fun j _ => by ring
    rw [e]
    ring

/-- **C49** (false part). With counts in the lowest gamma bin the row also feeds into itself: the
documented sum (here with `FG` scaled to the population) gives 10 counts in bin (1, 0); the code gives
15. -/
theorem C49_self_term_fails :
    let fg : Mat := ⟨[[2, 0], [1, 1]], [0, 1], [0, 1], none, none⟩
    allgenFromPrimary fg (some [10, 10]) = [[10, 0], [15, 15/2]] ∧
      (1 : ℚ) / 2 * 10 + 10 * decay fg.values 1 0 * (10 / 10) = 10 ∧
      decay fg.values 1 0 = 1 / 2 := by
  decide +kernel

/-- Total of row `i`. -/
def agRow (fg : Mat) (xs : List ℚ) (i : ℕ) : ℚ :=
  ∑ k ∈ Finset.range fg.Eg.length, at2 (allgenFromPrimary fg (some xs)) i k

theorem decay_nonneg (fg : List (List ℚ)) (hpos : ∀ i j, 0 ≤ at2 fg i j) (i j : ℕ) :
    0 ≤ decay fg i j :=
  div0_nonneg (hpos _ _) (Finset.sum_nonneg fun _ _ => hpos _ _)

theorem decay_sum (fg : List (List ℚ)) (i : ℕ) (h0 : at2 fg i 0 = 0) :
    ∑ j ∈ Finset.range i, decay fg i j ≤ 1 := by
  have e : ∑ j ∈ Finset.range i, decay fg i j = ∑ j ∈ Finset.range (i + 1), decay fg i j := by
    rw [Finset.sum_range_succ]
    simp [decay, h0, div0]
  rw [e]
  unfold decay div0
  by_cases hz : ∑ q ∈ Finset.range (i + 1), at2 fg i q = 0
  · simp [hz]
  · simp only [hz, if_false]
    rw [← Finset.sum_div]
    have : ∑ j ∈ Finset.range (i + 1), at2 fg i (i - j) = ∑ q ∈ Finset.range (i + 1), at2 fg i q := by
      rw [← Finset.sum_range_reflect (fun q => at2 fg i q)]
      apply Finset.sum_congr rfl
      intro j hj
      rfl
    rw [this, div_self hz]

/-- **C49.** Multiplicity: for non-negative first-generation rows with counts (and none in the lowest
gamma bin) and positive populations, row `i` of the all-generations matrix holds between one and `i + 1`
gammas per population. -/
theorem C49_multiplicity_bounds (fg : Mat) (xs : List ℚ) (hc : fg.consistent = true)
    (hshape : fg.Ex.length ≤ fg.Eg.length) (hpos : ∀ i j, 0 ≤ at2 fg.values i j)
    (hx : ∀ i < fg.Ex.length, 0 < xs.getD i 0) (h0 : ∀ i < fg.Ex.length, at2 fg.values i 0 = 0)
    (hsum : ∀ i < fg.Ex.length, (fg.values.getD i []).sum ≠ 0) (i : ℕ) (hi : i < fg.Ex.length) :
    xs.getD i 0 ≤ agRow fg xs i ∧ agRow fg xs i ≤ (i + 1) * xs.getD i 0 := by
  induction i using Nat.strong_induction_on with
  | _ i ih =>
    have hxi := hx i hi
    have hrow : agRow fg xs i = xs.getD i 0 * (1 +
        ∑ j ∈ Finset.range i, decay fg.values i j * (agRow fg xs j / xs.getD j 0)) := by
      unfold agRow
      rw [Finset.sum_congr rfl fun k hk => C49_documented_partial fg xs hshape i k hi
        (Finset.mem_range.1 hk) hxi.ne' (h0 i hi), Finset.sum_add_distrib, Finset.sum_comm]
      have e1 : ∑ k ∈ Finset.range fg.Eg.length,
          div0 (at2 fg.values i k) (fg.values.getD i []).sum * xs.getD i 0 = xs.getD i 0 := by
        rw [← Finset.sum_mul]
        have : ∑ k ∈ Finset.range fg.Eg.length, div0 (at2 fg.values i k) (fg.values.getD i []).sum
            = 1 := by
          simp only [div0, hsum i hi, if_false]
          rw [← Finset.sum_div]
          have hlen : (fg.values.getD i []).length = fg.Eg.length := by
            obtain ⟨s1, s2⟩ := consistent_shape fg hc
            rw [List.getD_eq_getElem _ _ (by omega)]
            exact s2 _ (List.getElem_mem _)
          have : ∑ k ∈ Finset.range fg.Eg.length, at2 fg.values i k = (fg.values.getD i []).sum := by
            rw [list_sum_eq_range, hlen]
            rfl
          rw [this, div_self (hsum i hi)]
        rw [this, one_mul]
      rw [e1, mul_add, mul_one, Finset.mul_sum]
      congr 1
      apply Finset.sum_congr rfl
      intro j hj
      rw [Finset.mem_range] at hj
      rw [← Finset.mul_sum, mul_assoc]
      congr 2
      simp only [div0, (hx j (by omega)).ne', if_false]
      rw [Finset.sum_div]
    have hm : ∀ j ∈ Finset.range i, 0 ≤ agRow fg xs j / xs.getD j 0 ∧
        agRow fg xs j / xs.getD j 0 ≤ i := by
      intro j hj
      rw [Finset.mem_range] at hj
      have hxj := hx j (by omega)
      obtain ⟨b1, b2⟩ := ih j hj (by omega)
      refine ⟨div_nonneg (by linarith) hxj.le, ?_⟩
      rw [div_le_iff₀ hxj]
      have : ((j : ℚ) + 1) ≤ i := by exact_mod_cast hj
      nlinarith
    rw [hrow]
    constructor
    · have : 0 ≤ ∑ j ∈ Finset.range i, decay fg.values i j * (agRow fg xs j / xs.getD j 0) :=
        Finset.sum_nonneg fun j hj => mul_nonneg (decay_nonneg _ hpos _ _) (hm j hj).1
      nlinarith
    · have : ∑ j ∈ Finset.range i, decay fg.values i j * (agRow fg xs j / xs.getD j 0) ≤ i := by
        calc _ ≤ ∑ j ∈ Finset.range i, decay fg.values i j * (i : ℚ) :=
              Finset.sum_le_sum fun j hj =>
                mul_le_mul_of_nonneg_left (hm j hj).2 (decay_nonneg _ hpos _ _)
          _ = (∑ j ∈ Finset.range i, decay fg.values i j) * i := by rw [Finset.sum_mul]
          _ ≤ 1 * i := mul_le_mul_of_nonneg_right (decay_sum _ _ (h0 i hi)) (Nat.cast_nonneg i)
          _ = i := one_mul _
      nlinarith

/-- A cascade: bin 2 decays half to the ground state, half to bin 1. -/
example : allgenFromPrimary ⟨[[0, 0, 1], [0, 1, 0], [0, 1, 1]], [0, 1, 2], [0, 1, 2], none, none⟩
    (some [1, 10, 10]) = [[0, 0, 1], [0, 10, 10], [0, 10, 15]] := by
  decide +kernel

end Ompy
