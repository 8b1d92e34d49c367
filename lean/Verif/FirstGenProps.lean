import Verif.FirstGen
import Verif.MatrixProps

/-!
# C25–C28, C49: the first-generation method
-/

namespace Ompy

theorem tabulate_row (n m : ℕ) (f : ℕ → ℕ → ℚ) {i : ℕ} (hi : i < n) :
    (tabulate n m f).getD i [] = (List.range m).map fun j : ℕ => f i j := by
  simp [tabulate, List.getD_eq_getElem?_getD, hi]

theorem tabulate_row_out (n m : ℕ) (f : ℕ → ℕ → ℚ) {i : ℕ} (hi : n ≤ i) :
    (tabulate n m f).getD i [] = [] := by
  rw [List.getD_eq_default _ _ (by simp [tabulate, hi])]

theorem at2_tabulate (n m : ℕ) (f : ℕ → ℕ → ℚ) {i j : ℕ} (hi : i < n) (hj : j < m) :
    at2 (tabulate n m f) i j = f i j := by
  unfold at2
  rw [tabulate_row n m f hi, getD_map_range _ hj]

theorem tabulate_length (n m : ℕ) (f : ℕ → ℕ → ℚ) : (tabulate n m f).length = n := by
  simp [tabulate]

theorem tabulate_congr (n m : ℕ) (f g : ℕ → ℕ → ℚ) (h : ∀ i < n, ∀ j < m, f i j = g i j) :
    tabulate n m f = tabulate n m g := by
  unfold tabulate
  apply List.map_congr_left
  intro i hi
  apply List.map_congr_left
  intro j hj
  exact h i (List.mem_range.1 hi) j (List.mem_range.1 hj)

theorem map_tabulate (n m : ℕ) (f : ℕ → ℕ → ℚ) (c : ℚ → ℚ) :
    (tabulate n m f).map (fun r => r.map c) = tabulate n m fun i j => c (f i j) := by
  simp [tabulate, Function.comp_def]

theorem normalizeRows_tabulate (n m : ℕ) (f : ℕ → ℕ → ℚ) :
    normalizeRows (tabulate n m f)
      = tabulate n m fun i j => div0 (f i j) (∑ k ∈ Finset.range m, f i k) := by
  unfold normalizeRows tabulate
  rw [List.map_map]
  apply List.map_congr_left
  intro i _
  simp only [Function.comp, list_map_range_sum, List.map_map]
  rfl

/-- The weights before normalisation, entry by entry. -/
def rawWeight (iteration : ℕ) (H Wold : List (List ℚ)) (i j : ℕ) : ℚ :=
  let x := if 4 < iteration then 7 / 10 * flipWeight H i j + 3 / 10 * at2 Wold i j
    else flipWeight H i j
  if x < 0 then 0 else x

theorem newWeights_eq (it n : ℕ) (H Wold : List (List ℚ)) :
    newWeights it n H Wold = tabulate n n fun i j =>
      div0 (rawWeight it H Wold i j) (∑ k ∈ Finset.range n, rawWeight it H Wold i k) := by
  unfold newWeights
  simp only
  rw [← normalizeRows_tabulate]
  congr 1
  by_cases h : 4 < it
  · rw [if_pos h, map_tabulate]
    apply tabulate_congr
    intro i hi j hj
    simp only [at2_tabulate n n _ hi hj, rawWeight, h, if_true]
  · rw [if_neg h, map_tabulate]
    apply tabulate_congr
    intro i hi j hj
    simp only [rawWeight, h, if_false]

/-- Specification: strictly lower triangular, non-negative, rows summing to one or entirely zero. -/
def IsWeights (n : ℕ) (W : List (List ℚ)) : Prop :=
  W.length = n ∧ (∀ i < n, (W.getD i []).length = n) ∧
  (∀ i < n, ∀ j < n, 0 ≤ at2 W i j ∧ (i ≤ j → at2 W i j = 0)) ∧
  (∀ i < n, (W.getD i []).sum = 1 ∨ ∀ j < n, at2 W i j = 0)

theorem rawWeight_nonneg (it : ℕ) (H Wold : List (List ℚ)) (i j : ℕ) : 0 ≤ rawWeight it H Wold i j := by
  unfold rawWeight
  simp only
  split_ifs <;> linarith

theorem div0_sum_one (n : ℕ) (f : ℕ → ℚ) :
    (∑ j ∈ Finset.range n, div0 (f j) (∑ k ∈ Finset.range n, f k) = 1) ∨
      ∀ j < n, div0 (f j) (∑ k ∈ Finset.range n, f k) = 0 := by
  by_cases h : ∑ k ∈ Finset.range n, f k = 0
  · right
    intro j _
    simp [div0, h]
  · left
    simp only [div0, h, if_false]
    rw [← Finset.sum_div, div_self h]

/-- **C25.** One step: whatever the previous iterate is, the new weights are strictly lower triangular,
non-negative and row-normalised; from the sixth step on the previous weights must be so too. -/
theorem C25_step_weights (it n : ℕ) (H Wold : List (List ℚ))
    (hW : 4 < it → ∀ i < n, ∀ j < n, i ≤ j → at2 Wold i j = 0) :
    IsWeights n (newWeights it n H Wold) := by
  rw [newWeights_eq]
  refine ⟨tabulate_length _ _ _, ?_, ?_, ?_⟩
  · intro i hi
    rw [tabulate_row _ _ _ hi]
    simp
  · intro i hi j hj
    rw [at2_tabulate _ _ _ hi hj]
    constructor
    · unfold div0
      split_ifs
      · exact le_refl _
      · exact div_nonneg (rawWeight_nonneg _ _ _ _ _)
          (Finset.sum_nonneg fun k _ => rawWeight_nonneg _ _ _ _ _)
    · intro hij
      have : rawWeight it H Wold i j = 0 := by
        unfold rawWeight
        have hf : flipWeight H i j = 0 := by simp [flipWeight, Nat.not_lt.2 hij]
        by_cases h4 : 4 < it
        · simp [h4, hf, hW h4 i hi j hj hij]
        · simp [h4, hf]
      simp [this, div0]
  · intro i hi
    rw [tabulate_row _ _ _ hi, list_map_range_sum]
    rcases div0_sum_one n (fun j => rawWeight it H Wold i j) with h | h
    · left; exact h
    · right
      intro j hj
      rw [at2_tabulate _ _ _ hi hj]
      exact h j hj

theorem fgIter_succ {p : FGParams} {m : Mat} {valley : Option (List ℚ)} {k : ℕ}
    {s : List (List ℚ) × List (List ℚ)} (h : fgIter p m valley (k + 1) = .ok s) :
    ∃ s0 N H, fgIter p m valley k = .ok s0 ∧ multNormalization p m = .ok N ∧
      rebin2D s0.1 m.Eg.length m.Eg m.Ex 1 = .ok H ∧
      s = (subtractG m.values N (newWeights k m.Ex.length H s0.2) valley m.Ex.length m.Eg.length,
        newWeights k m.Ex.length H s0.2) := by
  rw [fgIter] at h
  cases h0 : fgIter p m valley k with
  | error e => rw [h0] at h; simp [bind, Except.bind] at h
  | ok s0 =>
    cases hN : multNormalization p m with
    | error e => rw [h0, hN] at h; simp [bind, Except.bind] at h
    | ok N =>
      rw [h0, hN] at h
      simp only [bind, Except.bind, fgStep] at h
      cases hH : rebin2D s0.1 m.Eg.length m.Eg m.Ex 1 with
      | error e => rw [hH] at h; simp at h
      | ok H =>
        rw [hH] at h
        simp only [pure, Except.pure, Except.ok.injEq] at h
        exact ⟨s0, N, H, rfl, rfl, hH, h.symm⟩

/-- **C25.** In every iteration of `apply` the weights have this form. -/
theorem C25_apply_weights (p : FGParams) (m : Mat) (valley : Option (List ℚ)) (k : ℕ)
    (H W : List (List ℚ)) (h : fgIter p m valley (k + 1) = .ok (H, W)) :
    IsWeights m.Ex.length W := by
  induction k generalizing H W with
  | zero =>
    obtain ⟨s0, N, H', h0, h1, h2, h3⟩ := fgIter_succ h
    rw [(Prod.mk.inj h3).2]
    exact C25_step_weights _ _ _ _ (by omega)
  | succ k ih =>
    obtain ⟨s0, N, H', h0, h1, h2, h3⟩ := fgIter_succ h
    rw [(Prod.mk.inj h3).2]
    obtain ⟨a, b⟩ := s0
    have := ih a b h0
    exact C25_step_weights _ _ _ _ fun _ i hi j hj hij => (this.2.2.1 i hi j hj).2 hij

/-- A sample matrix. -/
def fgSample : Mat := ⟨[[3, 0, 0], [1, 2, 0], [1, 1, 4]], [1, 2, 3], [1, 2, 3], none, none⟩

/-- The default parameters with thresholds that suit the sample. -/
def fgParams (k : ℕ) : FGParams := ⟨k, true, 1, 1, 1/3, 0, 0, false⟩

example : (fgIter (fgParams 10) fgSample none 1).map Prod.snd
    = .ok [[0, 0, 0], [1, 0, 0], [1/2, 1/2, 0]] := by
  decide +kernel

/-! ### C26 -/

theorem mapM_rows {α β ε : Type} (f : α → Except ε β) (l : List α) (out : List β)
    (h : l.mapM f = .ok out) :
    out.length = l.length ∧ ∀ i (h1 : i < l.length) (h2 : i < out.length), f l[i] = .ok out[i] := by
  induction l generalizing out with
  | nil =>
    have : out = [] := by simpa [List.mapM_nil, pure, Except.pure] using h.symm
    subst this
    simp
  | cons x xs ih =>
    rw [List.mapM_cons] at h
    cases hx : f x with
    | error e => rw [hx] at h; simp [bind, Except.bind] at h
    | ok y =>
      rw [hx] at h
      cases hxs : xs.mapM f with
      | error e => rw [hxs] at h; simp [bind, Except.bind] at h
      | ok ys =>
        rw [hxs] at h
        simp only [bind, Except.bind, pure, Except.pure, Except.ok.injEq] at h
        subst h
        obtain ⟨i1, i2⟩ := ih ys hxs
        refine ⟨by simp [i1], ?_⟩
        intro i h1 h2
        cases i with
        | zero => exact hx
        | succ i => exact i2 i (by simpa using h1) (by simpa using h2)

theorem rebin_rows {M out : List (List ℚ)} {q : ℕ} {a b : List ℚ}
    (h : rebin2D M q a b 1 = .ok out) :
    out.length = M.length ∧ ∀ i < M.length, rebin1D (M.getD i []) a b = .ok (out.getD i []) := by
  have h' : M.mapM (fun row => rebin1D row a b) = .ok out := by
    simpa [rebin2D] using h
  obtain ⟨h1, h2⟩ := mapM_rows _ _ _ h'
  refine ⟨h1, ?_⟩
  intro i hi
  rw [List.getD_eq_getElem _ _ hi, List.getD_eq_getElem _ _ (by omega)]
  exact h2 i hi (by omega)

theorem subtractG_row (M N W : List (List ℚ)) (valley : Option (List ℚ)) (n ny : ℕ) {i : ℕ}
    (hi : i < n) (hW : ∀ j < n, i ≤ j → at2 W i j = 0) :
    (subtractG M N W valley n ny).getD i [] = (List.range ny).map fun k : ℕ =>
      at2 M i k - ∑ j ∈ Finset.range i, at2 N i j * at2 W i j *
        (match valley with | some v => v.getD j 0 | none => 1) * at2 M j k := by
  unfold subtractG
  rw [tabulate_row _ _ _ hi]
  apply List.map_congr_left
  intro k _
  congr 1
  symm
  apply Finset.sum_subset
  · intro j hj
    rw [Finset.mem_range] at *
    omega
  · intro j hj hnj
    rw [Finset.mem_range] at *
    rw [hW j hj (by omega)]
    ring

/-- **C26** (partial: at least one iteration). The lowest row of the iterate is the lowest row of the
input, whatever the other rows, the multiplicities and the valley correction are. -/
theorem C26_lowest_row_partial (close : List ℚ → List ℚ → Bool) (p : FGParams)
    (valley : Option (Vec ℚ)) (m r : Mat) (hc : m.consistent = true) (hn : 0 < m.Ex.length)
    (hk : 0 < p.numIter) (h : (fgApply close p valley m).1 = .ok r) :
    r.values.getD 0 [] = m.values.getD 0 [] := by
  unfold fgApply at h
  split_ifs at h with c1 c2
  rcases hv : cutValley close valley m with ⟨vc, v'⟩
  rw [hv] at h
  cases vc with
  | error e => simp at h
  | ok vc =>
    simp only at h
    obtain ⟨k, hk'⟩ : ∃ k, p.numIter = k + 1 := ⟨p.numIter - 1, by omega⟩
    rw [hk'] at h
    cases hI : fgIter p m vc (k + 1) with
    | error e => rw [hI] at h; simp at h
    | ok s =>
      obtain ⟨H, W⟩ := s
      rw [hI] at h
      simp only [Except.ok.injEq] at h
      rw [← h]
      simp only
      have hW := C25_apply_weights p m vc k H W hI
      obtain ⟨s0, N, H', h0, h1, h2, h3⟩ := fgIter_succ hI
      obtain ⟨hH, hWe⟩ := Prod.mk.inj h3
      have hrow : H.getD 0 [] = m.values.getD 0 [] := by
        rw [hH, ← hWe, subtractG_row _ _ _ _ _ _ hn fun j hj hij => (hW.2.2.1 0 hn j hj).2 hij]
        simp only [Finset.range_zero, Finset.sum_empty, sub_zero]
        have hlen : (m.values.getD 0 []).length = m.Eg.length := by
          obtain ⟨s1, s2⟩ := consistent_shape m hc
          rw [List.getD_eq_getElem _ _ (by omega)]
          exact s2 _ (List.getElem_mem _)
        apply List.ext_getElem
        · rw [hlen, List.length_map, List.length_range]
        · intro c k1 k2
          simp only [List.getElem_map, List.getElem_range, at2]
          rw [List.getD_eq_getElem _ _ k2]
      have hpos : ∀ x ∈ m.values.getD 0 [], 0 ≤ x := by
        intro x hx
        by_contra hneg
        apply c2
        rw [List.any_eq_true]
        obtain ⟨s1, s2⟩ := consistent_shape m hc
        refine ⟨m.values.getD 0 [], ?_, ?_⟩
        · rw [List.getD_eq_getElem _ _ (by omega)]
          exact List.getElem_mem _
        · rw [List.any_eq_true]
          exact ⟨x, hx, by simpa using hneg⟩
      have hlenH : 0 < H.length := by
        rw [hH]; unfold subtractG; rw [tabulate_length]; exact hn
      unfold removeNegativeQ
      rw [List.getD_eq_getElem _ _ (by simpa using hlenH), List.getElem_map]
      rw [List.getD_eq_getElem _ _ hlenH] at hrow
      rw [hrow]
      conv_rhs => rw [← List.map_id (m.values.getD 0 [])]
      apply List.map_congr_left
      intro x hx
      have := hpos x hx
      simp only [id]
      split_ifs with h0
      · rfl
      · linarith

/-- **C26** (false part). With `num_iterations = 0` the result is the flat starting guess, also in the
lowest row. -/
theorem C26_zero_iterations_fails :
    (fgApply (fun a b => a == b) (fgParams 0) none fgSample).1.map (fun r => r.values.getD 0 [])
      = .ok [1, 0, 0] ∧ fgSample.values.getD 0 [] = [3, 0, 0] := by
  decide +kernel

theorem diag_find (v : List (List ℚ)) (ny : ℕ) (i : ℕ) :
    (diagonalElements v ny).find? (fun q => q.1 == i)
      = if i < v.length then (diagLoop ny 0 (v.getD i []).reverse).map (fun c => (i, c)) else none := by
  have gen : ∀ (v : List (List ℚ)) (off : ℕ),
      ((v.zipIdx off).filterMap fun p => (diagLoop ny 0 p.1.reverse).map fun c => (p.2, c)).find?
        (fun q => q.1 == i) = if off ≤ i ∧ i < off + v.length then
          (diagLoop ny 0 (v.getD (i - off) []).reverse).map (fun c => (i, c)) else none := by
    intro v
    induction v with
    | nil => intro off; simp
    | cons r rs ih =>
      intro off
      rw [List.zipIdx_cons, List.filterMap_cons]
      by_cases hio : i = off
      · subst hio
        simp only [Nat.sub_self, List.getD_cons_zero, le_refl, true_and, List.length_cons]
        rw [if_pos (by omega)]
        cases hd : diagLoop ny 0 r.reverse with
        | none =>
          simp only [Option.map_none]
          rw [ih, if_neg (by omega)]
        | some c => simp
      · have hrest : (List.find? (fun q => q.1 == i)
            (List.filterMap (fun p => Option.map (fun c => (p.2, c)) (diagLoop ny 0 p.1.reverse))
              (rs.zipIdx (off + 1)))) = if off ≤ i ∧ i < off + (r :: rs).length then
          (diagLoop ny 0 ((r :: rs).getD (i - off) []).reverse).map (fun c => (i, c)) else none := by
          rw [ih]
          by_cases hle : off ≤ i
          · obtain ⟨d, rfl⟩ : ∃ d, i = off + (d + 1) := ⟨i - off - 1, by omega⟩
            have e1 : off + (d + 1) - off = d + 1 := by omega
            have e2 : off + (d + 1) - (off + 1) = d := by omega
            rw [e1, e2, List.getD_cons_succ]
            simp only [List.length_cons]
            by_cases hd : d < rs.length
            · rw [if_pos (by omega), if_pos (by omega)]
            · rw [if_neg (by omega), if_neg (by omega)]
          · rw [if_neg (by omega), if_neg (by omega)]
        cases hd : diagLoop ny 0 r.reverse with
        | none =>
          simp only [Option.map_none]
          exact hrest
        | some c =>
          simp only [Option.map_some, List.find?_cons]
          have : (off == i) = false := by simpa using fun h => hio h.symm
          rw [this]
          exact hrest
  have := gen v 0
  simpa [diagonalElements] using this

theorem rowNormalized_row (v v' : List (List ℚ)) (ny i : ℕ) (hl : v.length = v'.length)
    (h : v.getD i [] = v'.getD i []) :
    (rowNormalized v ny).getD i [] = (rowNormalized v' ny).getD i [] := by
  unfold rowNormalized
  simp only
  by_cases hi : i < v.length
  · rw [tabulate_row _ _ _ hi, tabulate_row _ _ _ (by omega)]
    rw [diag_find, diag_find, h, hl]
  · rw [tabulate_row_out _ _ _ (by omega), tabulate_row_out _ _ _ (by omega)]

/-- Two matrices on the same axes that agree in rows `0..i`. -/
def AgreeUpTo (i : ℕ) (m m' : Mat) : Prop :=
  m.Eg = m'.Eg ∧ m.Ex = m'.Ex ∧ m.values.length = m.Ex.length ∧ m'.values.length = m.Ex.length ∧
    ∀ r ≤ i, m.values.getD r [] = m'.values.getD r []

theorem mult_row (p : FGParams) (m : Mat) (hl : m.values.length = m.Ex.length) {i : ℕ}
    (hi : i < m.Ex.length) :
    (multiplicities p m).length = m.Ex.length ∧ (multiplicities p m).getD i 0 =
      if p.total then multTotal m.Eg (m.Ex.getD i 0) (m.values.getD i [])
      else multStatistical p m.Eg (m.Ex.getD i 0) (m.values.getD i []) := by
  have hl2 : (multiplicities p m).length = m.Ex.length := by simp [multiplicities, hl]
  refine ⟨hl2, ?_⟩
  rw [List.getD_eq_getElem _ _ (by omega), List.getD_eq_getElem _ _ hi,
    List.getD_eq_getElem _ _ (by omega)]
  simp [multiplicities]

theorem norm_entry {p : FGParams} {m : Mat} {N : List (List ℚ)} (h : multNormalization p m = .ok N)
    (hl : m.values.length = m.Ex.length) {i j : ℕ} (hi : i < m.Ex.length) (hj : j < m.Ex.length) :
    at2 N i j = div0 ((m.values.getD i []).sum * (multiplicities p m).getD j 0)
      ((multiplicities p m).getD i 0 * (m.values.getD j []).sum) := by
  unfold multNormalization at h
  simp only at h
  split_ifs at h
  simp only [Except.ok.injEq] at h
  rw [← h, at2_tabulate _ _ _ (by rw [(mult_row p m hl hi).1]; exact hi)
    (by rw [(mult_row p m hl hi).1]; exact hj)]
  have e : ∀ k < m.Ex.length, (m.values.map List.sum).getD k 0 = (m.values.getD k []).sum := by
    intro k hk
    rw [List.getD_eq_getElem _ _ (by simp; omega), List.getD_eq_getElem _ _ (by omega)]
    simp
  rw [e i hi, e j hj]

theorem iter_lengths {p : FGParams} {m : Mat} {valley : Option (List ℚ)} {k : ℕ}
    {s : List (List ℚ) × List (List ℚ)} (hl : m.values.length = m.Ex.length)
    (h : fgIter p m valley k = .ok s) : s.1.length = m.Ex.length ∧ s.2.length = m.Ex.length := by
  cases k with
  | zero =>
    rw [fgIter] at h
    cases hN : multNormalization p m with
    | error e => rw [hN] at h; simp [bind, Except.bind] at h
    | ok N =>
      rw [hN] at h
      simp only [bind, Except.bind, pure, Except.pure, Except.ok.injEq] at h
      subst h
      simp [rowNormalized, tabulate_length, hl]
  | succ k =>
    obtain ⟨s0, N, H, _, _, _, rfl⟩ := fgIter_succ h
    simp [subtractG, tabulate_length, newWeights_eq]

/-- The iterates agree in rows `0..i`. -/
theorem iter_agree (p : FGParams) (m m' : Mat) (valley : Option (List ℚ)) (i : ℕ)
    (hA : AgreeUpTo i m m') (k : ℕ) (s s' : List (List ℚ) × List (List ℚ))
    (h : fgIter p m valley k = .ok s) (h' : fgIter p m' valley k = .ok s') :
    ∀ r ≤ i, s.1.getD r [] = s'.1.getD r [] ∧ s.2.getD r [] = s'.2.getD r [] := by
  obtain ⟨hEg, hEx, hl, hl', hrows⟩ := hA
  have hl'2 : m'.values.length = m'.Ex.length := by rw [hl', hEx]
  induction k generalizing s s' with
  | zero =>
    intro r hr
    rw [fgIter] at h h'
    cases hN : multNormalization p m with
    | error e => rw [hN] at h; simp [bind, Except.bind] at h
    | ok N =>
      cases hN' : multNormalization p m' with
      | error e => rw [hN'] at h'; simp [bind, Except.bind] at h'
      | ok N' =>
        rw [hN] at h
        rw [hN'] at h'
        simp only [bind, Except.bind, pure, Except.pure, Except.ok.injEq] at h h'
        subst h h'
        have := rowNormalized_row m.values m'.values m.Eg.length r (by omega) (hrows r hr)
        rw [← hEg]
        exact ⟨this, this⟩
  | succ k ih =>
    intro r hr
    have hW := C25_apply_weights p m valley k s.1 s.2 h
    have hW' := C25_apply_weights p m' valley k s'.1 s'.2 h'
    obtain ⟨t, N, H, g0, gN, gH, rfl⟩ := fgIter_succ h
    obtain ⟨t', N', H', g0', gN', gH', rfl⟩ := fgIter_succ h'
    simp only at hW hW' ⊢
    have hlen := iter_lengths hl g0
    have hlen' := iter_lengths hl'2 g0'
    by_cases hrn : r < m.Ex.length
    · have hrn' : r < m'.Ex.length := by rw [← hEx]; exact hrn
      have iht := ih t t' g0 g0'
      -- rebinned rows
      obtain ⟨b1, b2⟩ := rebin_rows gH
      obtain ⟨b1', b2'⟩ := rebin_rows gH'
      have hHr : H.getD r [] = H'.getD r [] := by
        have e1 := b2 r (by omega)
        have e2 := b2' r (by omega)
        rw [(iht r hr).1, hEg, hEx, e2] at e1
        simpa using e1.symm
      -- weights
      have hraw : ∀ j, rawWeight k H t.2 r j = rawWeight k H' t'.2 r j := by
        intro j
        unfold rawWeight flipWeight at2
        rw [hHr, (iht r hr).2]
      have hWr : (newWeights k m.Ex.length H t.2).getD r []
          = (newWeights k m'.Ex.length H' t'.2).getD r [] := by
        rw [newWeights_eq, newWeights_eq, ← hEx, tabulate_row _ _ _ hrn, tabulate_row _ _ _ hrn]
        simp only [hraw]
      refine ⟨?_, hWr⟩
      rw [subtractG_row _ _ _ _ _ _ hrn fun j hj hij => (hW.2.2.1 r hrn j hj).2 hij,
        subtractG_row _ _ _ _ _ _ hrn' fun j hj hij => (hW'.2.2.1 r hrn' j hj).2 hij, ← hEg]
      apply List.map_congr_left
      intro c _
      have ec : ∀ q ≤ r, at2 m.values q c = at2 m'.values q c := by
        intro q hq
        unfold at2
        rw [hrows q (by omega)]
      rw [ec r (le_refl r)]
      congr 1
      apply Finset.sum_congr rfl
      intro j hj
      rw [Finset.mem_range] at hj
      have hjn : j < m.Ex.length := by omega
      have hjn' : j < m'.Ex.length := by omega
      have hmult : ∀ q ≤ i, q < m.Ex.length →
          (multiplicities p m).getD q 0 = (multiplicities p m').getD q 0 := by
        intro q hq hqn
        rw [(mult_row p m hl hqn).2, (mult_row p m' hl'2 (by omega)).2, hEg, hEx, hrows q hq]
      have hN : at2 N r j = at2 N' r j := by
        rw [norm_entry gN hl hrn hjn, norm_entry gN' hl'2 hrn' hjn', hmult r hr hrn,
          hmult j (by omega) hjn, hrows r hr, hrows j (by omega)]
      have hWe : at2 (newWeights k m.Ex.length H t.2) r j
          = at2 (newWeights k m'.Ex.length H' t'.2) r j := by
        unfold at2
        rw [hWr]
      rw [hN, hWe, ec j (by omega)]
    · have z : ∀ (A B : List (List ℚ)), A.length ≤ r → B.length ≤ r → A.getD r [] = B.getD r [] := by
        intro A B hA hB
        rw [List.getD_eq_default _ _ hA, List.getD_eq_default _ _ hB]
      have hx : m'.Ex.length ≤ r := by rw [← hEx]; omega
      constructor
      · apply z
        · rw [subtractG, tabulate_length]; omega
        · rw [subtractG, tabulate_length]; omega
      · apply z
        · rw [newWeights_eq, tabulate_length]; omega
        · rw [newWeights_eq, tabulate_length]; omega

/-- **C26.** For every number of iterations: row `i` of the result depends only on rows `0..i` of the
input (same axes, same parameters, same valley correction). -/
theorem C26_row_dependency (close : List ℚ → List ℚ → Bool) (p : FGParams) (valley : Option (Vec ℚ))
    (m m' r r' : Mat) (i : ℕ) (hA : AgreeUpTo i m m')
    (h : (fgApply close p valley m).1 = .ok r) (h' : (fgApply close p valley m').1 = .ok r') :
    r.values.getD i [] = r'.values.getD i [] := by
  have hcv : cutValley close valley m = cutValley close valley m' := by
    unfold cutValley
    rw [hA.2.1]
  unfold fgApply at h h'
  split_ifs at h h'
  rw [hcv] at h
  rcases hv : cutValley close valley m' with ⟨vc, v'⟩
  rw [hv] at h h'
  cases vc with
  | error e => simp at h
  | ok vc =>
    simp only at h h'
    cases hI : fgIter p m vc p.numIter with
    | error e => rw [hI] at h; simp at h
    | ok s =>
      cases hI' : fgIter p m' vc p.numIter with
      | error e => rw [hI'] at h'; simp at h'
      | ok s' =>
        rw [hI] at h
        rw [hI'] at h'
        simp only [Except.ok.injEq] at h h'
        rw [← h, ← h']
        have key := (iter_agree p m m' vc i hA p.numIter s s' hI hI' i (le_refl i)).1
        have e : ∀ A : List (List ℚ), (removeNegativeQ A).getD i []
            = (A.getD i []).map fun x => if 0 < x then x else 0 := by
          intro A
          unfold removeNegativeQ
          by_cases hA : i < A.length
          · rw [List.getD_eq_getElem _ _ (by simpa using hA), List.getD_eq_getElem _ _ hA]
            simp
          · rw [List.getD_eq_default _ _ (by simpa using hA), List.getD_eq_default _ _ (by omega)]
            rfl
        simp only [e, key]

example : (fgApply (fun a b => a == b) (fgParams 3) none fgSample).1.map
    (fun r => r.values.getD 0 []) = .ok [3, 0, 0] := by
  decide +kernel

/-! ### C27 -/

/-- **C27** (partial). Whatever happens in `apply` (also if it raises): every matrix that existed
before is unchanged, every vector except the valley correction is unchanged. The valley correction is
unchanged if its energies are the excitation energies of the matrix (after the action). -/
theorem C27_frame_partial (close : List ℚ → List ℚ → Bool) (fg : FGObj) (st : Store) (u : ℕ) :
    (∀ id < st.next, (fg.apply close st u).1.mats id = st.mats id) ∧
    st.next ≤ (fg.apply close st u).1.next ∧
    (∀ k, fg.valley ≠ some k → (fg.apply close st u).1.vecs k = st.vecs k) ∧
    (∀ k, fg.valley = some k → (st.vecs k).E = (fg.action (st.mats u)).1.Ex →
      (st.vecs k).E ≠ [] → (st.vecs k).E.Pairwise (· < ·) → (st.vecs k).consistent = true →
      (fg.apply close st u).1.vecs k = st.vecs k) := by
  have hcut : ∀ k, fg.valley = some k → (st.vecs k).E = (fg.action (st.mats u)).1.Ex →
      (st.vecs k).E ≠ [] → (st.vecs k).E.Pairwise (· < ·) → (st.vecs k).consistent = true →
      (fgApply close fg.params (some (st.vecs k)) (fg.action (st.mats u)).1).2
        = some (st.vecs k) := by
    intro k _ hE hne hs hc
    have hcn := C08_cut_none (st.vecs k) hne hs hc
    unfold fgApply
    split_ifs
    · rfl
    · rfl
    · have hcv : (cutValley close (some (st.vecs k)) (fg.action (st.mats u)).1).2
          = some (st.vecs k) := by
        unfold cutValley
        simp only
        rw [← hE]
        cases hmin : listMin (st.vecs k).E with
        | error e => simp
        | ok lo =>
          cases hmax : listMax (st.vecs k).E with
          | error e => simp
          | ok hi =>
            have : (st.vecs k).cut (some lo) (some hi) = .ok (st.vecs k) := by
              rw [← hcn]
              simp [Vec.cut, orElseE, hmin, hmax]
            simp only
            rw [this]
            simp only
            split_ifs <;> rfl
      rcases hx : cutValley close (some (st.vecs k)) (fg.action (st.mats u)).1 with ⟨a, b⟩
      rw [hx] at hcv
      simp only at hcv
      subst hcv
      cases a with
      | error e => rfl
      | ok vc =>
        simp only
        cases fgIter fg.params (fg.action (st.mats u)).1 vc fg.params.numIter <;> rfl
  unfold FGObj.apply
  rcases ha : fg.action (st.mats u) with ⟨m, r⟩
  rw [ha] at hcut
  cases r with
  | error e =>
    simp only
    refine ⟨?_, by omega, by simp, by simp⟩
    intro id hid
    exact Function.update_of_ne (by omega) _ _
  | ok _ =>
    simp only
    rcases hf : fgApply close fg.params (fg.valley.map st.vecs) m with ⟨res, v'⟩
    simp only
    cases hv : fg.valley with
    | none =>
      simp only
      cases res with
      | error e =>
        refine ⟨?_, by simp, fun _ _ => rfl, fun _ h => by simp at h⟩
        intro id hid
        exact Function.update_of_ne (by omega) _ _
      | ok f =>
        refine ⟨?_, by simp; omega, fun _ _ => rfl, fun _ h => by simp at h⟩
        intro id hid
        simp only
        rw [Function.update_of_ne (by omega), Function.update_of_ne (by omega)]
    | some k =>
      rw [hv] at hf
      simp only [Option.map_some] at hf
      cases v' with
      | none =>
        simp only
        cases res with
        | error e =>
          refine ⟨?_, by simp, fun _ _ => rfl, fun _ _ _ _ _ _ => rfl⟩
          intro id hid
          exact Function.update_of_ne (by omega) _ _
        | ok f =>
          refine ⟨?_, by simp; omega, fun _ _ => rfl, fun _ _ _ _ _ _ => rfl⟩
          intro id hid
          simp only
          rw [Function.update_of_ne (by omega), Function.update_of_ne (by omega)]
      | some v =>
        have hkeep : ∀ k', some k = some k' → (st.vecs k').E = m.Ex →
            (st.vecs k').E ≠ [] → (st.vecs k').E.Pairwise (· < ·) →
            (st.vecs k').consistent = true → Function.update st.vecs k v k' = st.vecs k' := by
          intro k' hk' h1 h2 h3 h4
          have hkk : k = k' := by simpa using hk'
          subst hkk
          have := hcut k hv h1 h2 h3 h4
          simp only at this
          rw [hf] at this
          simp only [Option.some.injEq] at this
          rw [Function.update_self, this]
        have hoth : ∀ k', some k ≠ some k' → Function.update st.vecs k v k' = st.vecs k' := by
          intro k' hk'
          apply Function.update_of_ne
          rintro rfl
          exact hk' rfl
        simp only
        cases res with
        | error e =>
          refine ⟨?_, by simp, hoth, hkeep⟩
          intro id hid
          exact Function.update_of_ne (by omega) _ _
        | ok f =>
          refine ⟨?_, by simp; omega, hoth, hkeep⟩
          intro id hid
          simp only
          rw [Function.update_of_ne (by omega), Function.update_of_ne (by omega)]

/-- **C27** (partial). Any number of calls, on any matrices: the matrices that existed at the start
are unchanged, and without a valley correction so are all vectors. -/
theorem C27_history_partial (close : List ℚ → List ℚ → Bool) (fg : FGObj) (us : List ℕ) (st : Store) :
    (∀ id < st.next, (us.foldl (fun s u => (fg.apply close s u).1) st).mats id = st.mats id) ∧
    (∀ k, fg.valley ≠ some k →
      (us.foldl (fun s u => (fg.apply close s u).1) st).vecs k = st.vecs k) := by
  induction us generalizing st with
  | nil => simp
  | cons u us ih =>
    obtain ⟨f1, f2, f3, _⟩ := C27_frame_partial close fg st u
    obtain ⟨i1, i2⟩ := ih (fg.apply close st u).1
    rw [List.foldl_cons]
    refine ⟨?_, ?_⟩
    · intro id hid
      rw [i1 id (by omega), f1 id hid]
    · intro k hk
      rw [i2 k hk, f3 k hk]

/-- A store with two matrices (2 and 3 rows) and a valley correction for the larger one. -/
def fgStore : Store :=
  ⟨fun k => if k = 0 then ⟨[[3, 0], [1, 2]], [1, 2], [1, 2], none, none⟩ else fgSample,
    fun _ => ⟨[1, 2, 3], [1, 1, 1/2], none, "keV"⟩, 2⟩

/-- A first-generation object that uses it, without action. -/
def fgObj : FGObj := ⟨fgParams 1, some 0, fun m => (m, .ok ())⟩

/-- **C27** (false part). The caller's valley correction is cut to the matrix; applying the same
`FirstGeneration` object to a larger matrix, which worked before, then fails. -/
theorem C27_valley_cut_fails :
    (fgObj.apply (fun a b => a == b) fgStore 0).1.vecs 0 = ⟨[1, 2], [1, 1], none, "keV"⟩ ∧
    fgStore.vecs 0 = ⟨[1, 2, 3], [1, 1, 1/2], none, "keV"⟩ ∧
    (fgObj.apply (fun a b => a == b) fgStore 1).2 = .ok 3 ∧
    (fgObj.apply (fun a b => a == b) (fgObj.apply (fun a b => a == b) fgStore 0).1 1).2
      = .error .assertion := by
  decide +kernel

/-! ### C28 -/

theorem div0_nonneg {a b : ℚ} (ha : 0 ≤ a) (hb : 0 ≤ b) : 0 ≤ div0 a b := by
  unfold div0
  split_ifs
  · exact le_refl _
  · exact div_nonneg ha hb

/-- **C28** (partial). With non-negative excitation energy, counts, thresholds and `Ex_entry_shift` the
statistical multiplicity is non-negative. -/
theorem C28_statistical_nonneg_partial (p : FGParams) (Eg row : List ℚ) (ex : ℚ) (hex : 0 ≤ ex)
    (hrow : ∀ x ∈ row, 0 ≤ x) (hs : 0 ≤ p.shift) (hu : 0 ≤ p.upper) (hl : 0 ≤ p.lower) :
    0 ≤ multStatistical p Eg ex row := by
  unfold multStatistical
  simp only
  have hslide : 0 ≤ slideOf p ex := by
    unfold slideOf
    split_ifs
    · exact le_min (le_trans hl (le_max_right _ _)) hu
    · exact hu
  generalize slideOf p ex = s at hslide
  apply div0_nonneg
  · have : max (min (ex - p.shift) p.entryStat) 0 ≤ ex := by
      apply max_le _ hex
      exact le_trans (min_le_left _ _) (by linarith)
    linarith
  · unfold meanEg
    have hmask : ∀ x ∈ maskRow s Eg row, 0 ≤ x := by
      intro x hx
      unfold maskRow at hx
      obtain ⟨k, hk, rfl⟩ := List.mem_iff_getElem.1 hx
      simp only [List.getElem_zipWith]
      split_ifs
      · exact le_refl _
      · exact hrow _ (List.getElem_mem _)
    apply div0_nonneg
    · apply List.sum_nonneg
      intro x hx
      obtain ⟨k, hk, rfl⟩ := List.mem_iff_getElem.1 hx
      simp only [List.getElem_zipWith, maskRow]
      split_ifs with hg
      · simp
      · have hg' : s ≤ Eg[k]'(by simp only [List.length_zipWith] at hk; omega) := not_lt.1 hg
        apply mul_nonneg (le_trans hslide hg')
        exact hrow _ (List.getElem_mem _)
    · exact List.sum_nonneg hmask

/-- **C28.** The total multiplicity is never negative. -/
theorem C28_total_nonneg (Eg row : List ℚ) (ex : ℚ) : 0 ≤ multTotal Eg ex row := by
  unfold multTotal
  simp only
  split_ifs <;> linarith

/-- **C28** (false part). A negative `Ex_entry_shift` makes the entry energy exceed the excitation
energy: negative multiplicity, and `apply` ends in "Bug. Contact developers". -/
theorem C28_negative_shift_fails :
    let p : FGParams := ⟨1, false, 1, 1, 1/3, -5, 10, false⟩
    multStatistical p [1, 2] 1 [1, 1] < 0 ∧
      (fgApply (fun a b => a == b) p none fgSample).1 = .error .assertion := by
  decide +kernel

/-- **C28** (false part). So does a negative threshold on a matrix with negative gamma energies. -/
theorem C28_negative_threshold_fails :
    let p : FGParams := ⟨1, false, -10, -10, 1/3, 0, 0, false⟩
    multStatistical p [-2, -1] 1 [1, 1] < 0 := by
  decide +kernel

/-- **C28.** The division of arrays that the code uses never leaves a NaN or an infinity: with IEEE
division underneath, each entry is finite, the quotient if the denominator is not zero and otherwise 0. -/
theorem C28_div0_finite (a b : ℚ) :
    div0Num a b = .fin (div0 a b) ∧ (b ≠ 0 → div0 a b = a / b) ∧ (b = 0 → div0 a b = 0) := by
  unfold div0Num ieeeDiv div0
  by_cases hb : b = 0
  · by_cases ha : a = 0
    · simp [hb, ha]
    · by_cases hp : 0 < a <;> simp [hb, ha, hp]
  · simp [hb]

/-- **C28.** The normalisation: if no multiplicity is negative it exists, and each entry is
`(s_i m_j)/(m_i s_j)`, or 0 if `m_i = 0` or `s_j = 0`. -/
theorem C28_normalization (p : FGParams) (m : Mat) (hl : m.values.length = m.Ex.length)
    (hpos : ∀ x ∈ multiplicities p m, 0 ≤ x) :
    ∃ N, multNormalization p m = .ok N ∧ N.length = m.Ex.length ∧
      ∀ i < m.Ex.length, ∀ j < m.Ex.length,
        let s := fun k => (m.values.getD k []).sum
        let μ := fun k => (multiplicities p m).getD k 0
        (μ i ≠ 0 → s j ≠ 0 → at2 N i j = s i * μ j / (μ i * s j)) ∧
        (μ i = 0 ∨ s j = 0 → at2 N i j = 0) := by
  have hall : (multiplicities p m).all (fun x => 0 ≤ x) = true := by
    rw [List.all_eq_true]
    intro x hx
    exact decide_eq_true (hpos x hx)
  have hlm : (multiplicities p m).length = m.Ex.length := by simp [multiplicities, hl]
  obtain ⟨N, hN⟩ : ∃ N, multNormalization p m = .ok N := by
    unfold multNormalization
    simp only
    rw [if_pos hall]
    exact ⟨_, rfl⟩
  refine ⟨N, hN, ?_, ?_⟩
  · have := hN
    unfold multNormalization at this
    simp only at this
    rw [if_pos hall] at this
    simp only [Except.ok.injEq] at this
    rw [← this, tabulate_length, hlm]
  · intro i hi j hj
    simp only
    rw [norm_entry hN hl hi hj]
    constructor
    · intro h1 h2
      exact (C28_div0_finite _ _).2.1 (mul_ne_zero h1 h2)
    · intro h
      apply (C28_div0_finite _ _).2.2
      rcases h with h | h
      · rw [h, zero_mul]
      · rw [h, mul_zero]

example : multiplicities (fgParams 1) fgSample = [1, 6/5, 6/5] := by decide +kernel

end Ompy
