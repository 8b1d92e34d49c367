import Verif.CascadeProps
import Verif.FirstGenMore
import Verif.MatrixProps
import Mathlib.Algebra.Order.BigOperators.Group.Finset
import Mathlib.Tactic.FieldSimp

/-!
# C135: whether the iteration of the first generation method settles

Ladders: bins that decay step by step, and above them one bin that decays to the top of the ladder and straight to the ground state.
-/

namespace Ompy

/-! ## What is meant -/

/-- Primary spectra of a ladder: each of the bins `1..m` decays to the next lower bin (`y j` gammas of bin 1); bin `m + 1` decays `x` times to bin `m` and `c` times straight to the
ground state. -/
structure Ladder (fg : Mat) (w : ℚ) (m : ℕ) (x c : ℚ) (y : ℕ → ℚ) : Prop where
  cascade : Cascade fg w (m + 2)
  steps : 1 ≤ m
  low : ∀ j, 1 ≤ j → j ≤ m → ∀ k, at2 fg.values j k = if k = 1 then y j else 0
  top : ∀ k, at2 fg.values (m + 1) k = if k = 1 then x else if k = m + 1 then c else 0
  some_x : 0 < x
  some_c : 0 < c

/-- What is left in bin 1 of the spectrum of bin `m + 1` if the weight of bin `m` is `a`: all `(m + 1) x` gammas less those of the ladder, `m` for each of the
`(x + c) a` decays to it. -/
def leftOver (m : ℕ) (x c a : ℚ) : ℚ := (m + 1) * x - m * (x + c) * a

/-- The next weight of bin `m` in pass `it` of the loop (damped from the sixth pass on). -/
def nextWeight (m : ℕ) (x c : ℚ) (it : ℕ) (a : ℚ) : ℚ :=
  if 4 < it then
    max 0 (7 / 10 * leftOver m x c a + 3 / 10 * a) / (max 0 (7 / 10 * leftOver m x c a + 3 / 10 * a) + (7 / 10 * c + 3 / 10 * (1 - a)))
  else max 0 (leftOver m x c a) / (max 0 (leftOver m x c a) + c)

/-- The weight of bin `m` after `k + 1` passes; the first guess is as good as one half. -/
def weightAfter (m : ℕ) (x c : ℚ) : ℕ → ℚ
  | 0 => 1 / 2
  | k + 1 => nextWeight m x c (k + 1) (weightAfter m x c k)

/-- The spectrum of bin `m + 1` in the loop if the weight of bin `m` is `a`. -/
structure TopRow (m : ℕ) (x c a : ℚ) (H : List (List ℚ)) : Prop where
  rows : ∀ r ∈ H, r.length = m + 2
  one : at2 H (m + 1) 1 = leftOver m x c a
  mid : ∀ k, 2 ≤ k → k ≤ m → at2 H (m + 1) k = 0
  last : at2 H (m + 1) (m + 1) = c
  zero : at2 H (m + 1) 0 = 0
  bounds : 0 ≤ a ∧ a ≤ 1

/-- The weights of bin `m + 1` in the loop: `a` for bin `m`, `1 - a` for the ground state. -/
structure TopWeights (m : ℕ) (a : ℚ) (W : List (List ℚ)) : Prop where
  top : at2 W (m + 1) m = a
  ground : at2 W (m + 1) 0 = 1 - a
  mid : ∀ j, 1 ≤ j → j ≤ m + 1 → j ≠ m → at2 W (m + 1) j = 0

namespace Ladder

variable {fg : Mat} {w : ℚ} {m : ℕ} {x c : ℚ} {y : ℕ → ℚ} (L : Ladder fg w m x c y)
include L

theorem popLow {j : ℕ} (h1 : 1 ≤ j) (hj : j ≤ m) : popOf fg j = y j := by
  rw [L.cascade.popSum (by omega), Finset.sum_eq_single 1]
  · rw [L.low j h1 hj, if_pos rfl]
  · intro k _ hk
    rw [L.low j h1 hj, if_neg hk]
  · intro h
    exact absurd (Finset.mem_range.2 (by omega)) h

theorem yPos {j : ℕ} (h1 : 1 ≤ j) (hj : j ≤ m) : 0 < y j := by
  rw [← L.popLow h1 hj]
  exact L.cascade.pos j h1 (by omega)

theorem popTop : popOf fg (m + 1) = x + c := by
  have := L.steps
  rw [L.cascade.popSum (by omega), Finset.sum_eq_add_of_mem 1 (m + 1) (Finset.mem_range.2 (by omega)) (Finset.mem_range.2 (by omega)) (by omega)]
  · rw [L.top, L.top, if_pos rfl, if_neg (by omega), if_pos rfl]
  · intro k _ hk
    rw [L.top, if_neg hk.1, if_neg hk.2]

theorem allLow (j : ℕ) : ∀ k, 1 ≤ j → j ≤ m → k < m + 2 → at2 (allGens fg).values j k = if k = 1 then j * y j else 0 := by
  induction j with
  | zero => intro k h; omega
  | succ j ih =>
    intro k _ hj hk
    have e : at2 (allGens fg).values (j + 1) k = _ := L.cascade.agRec (by omega) (by omega) hk
    rw [e, Finset.sum_range_succ, Finset.sum_eq_zero, zero_add, L.low (j + 1) (by omega) hj, L.low (j + 1) (by omega) hj,
      if_pos (show j + 1 - j = 1 by omega)]
    · rcases Nat.eq_zero_or_pos j with rfl | h
      · rw [L.cascade.ag0 hk]
        simp
      · have : at2 (allgenFromPrimary fg none) j k = _ := ih k h (by omega) hk
        rw [this, L.popLow h (by omega)]
        have := (L.yPos h (by omega)).ne'
        split_ifs
        · push_cast
          field_simp
          ring
        · simp
    · intro l hl
      rw [Finset.mem_range] at hl
      rw [L.low (j + 1) (by omega) hj, if_neg (by omega), zero_mul]

theorem allTop {k : ℕ} (hk : k < m + 2) : at2 (allGens fg).values (m + 1) k = if k = 1 then (m + 1) * x else if k = m + 1 then c else 0 := by
  have h1 := L.steps
  have e : at2 (allGens fg).values (m + 1) k = _ := L.cascade.agRec (i := m + 1) (by omega) (by omega) hk
  rw [e, Finset.sum_eq_single m]
  · have : at2 (allgenFromPrimary fg none) m k = _ := L.allLow m k h1 (le_refl m) hk
    rw [this, L.popLow h1 (le_refl m), L.top, L.top, if_pos (show m + 1 - m = 1 by omega)]
    have := (L.yPos h1 (le_refl m)).ne'
    split_ifs with a b
    · field_simp
      ring
    · simp
    · simp
  · intro j hj hjm
    rw [Finset.mem_range] at hj
    rcases Nat.eq_zero_or_pos j with rfl | h
    · rw [L.cascade.ag0 hk]
      simp
    · rw [L.top, if_neg (by omega), if_neg (by omega), zero_mul]
  · intro h
    exact absurd (Finset.mem_range.2 (by omega)) h

/-- The spectrum of bin `m + 1` after subtraction with weights `W`. -/
theorem subtractTop (N W : List (List ℚ)) (hN : ∀ i < m + 2, ∀ j < m + 2, at2 N i j = popOf fg i / popOf fg j)
    (hW : at2 W (m + 1) (m + 1) = 0) {k : ℕ} (hk : k < m + 2) :
    at2 (subtractG (allGens fg).values N W none (m + 2) (m + 2)) (m + 1) k =
      if k = 1 then (m + 1) * x - (x + c) * ∑ j ∈ Finset.range (m + 1), j * at2 W (m + 1) j else if k = m + 1 then c else 0 := by
  have h1 := L.steps
  unfold subtractG
  rw [at2_tabulate _ _ _ (by omega) hk, L.allTop hk]
  simp only [mul_one]
  have e : ∀ j ∈ Finset.range (m + 2), at2 N (m + 1) j * at2 W (m + 1) j * at2 (allGens fg).values j k =
      if k = 1 then (if j = m + 1 then 0 else (x + c) * (j * at2 W (m + 1) j)) else 0 := by
    intro j hj
    rw [Finset.mem_range] at hj
    by_cases h : j = m + 1
    · subst h
      rw [hW]
      simp
    · rw [if_neg h]
      rcases Nat.eq_zero_or_pos j with rfl | h0
      · have : at2 (allGens fg).values 0 k = 0 := L.cascade.ag0 hk
        rw [this]
        simp
      · rw [L.allLow j k h0 (by omega) hk, hN _ (by omega) _ hj, L.popTop, L.popLow h0 (by omega)]
        have := (L.yPos h0 (by omega : j ≤ m)).ne'
        split_ifs
        · field_simp
        · simp
  rw [Finset.sum_congr rfl e]
  by_cases hk1 : k = 1
  · simp only [hk1, if_true]
    rw [Finset.sum_range_succ, if_pos rfl, add_zero, Finset.mul_sum]
    congr 1
    refine Finset.sum_congr rfl fun j hj => ?_
    rw [Finset.mem_range] at hj
    rw [if_neg (by omega)]
  · simp [hk1]

/-- One pass. -/
theorem pass (N : List (List ℚ)) (hN : ∀ i < m + 2, ∀ j < m + 2, at2 N i j = popOf fg i / popOf fg j) (it : ℕ) {a : ℚ}
    {H W : List (List ℚ)} (h : TopRow m x c a H) (hw : 4 < it → TopWeights m a W) :
    ∃ H' W', fgStep (allGens fg) N none it (H, W) = .ok (H', W') ∧ TopRow m x c (nextWeight m x c it a) H' ∧
      TopWeights m (nextWeight m x c it a) W' := by
  have h1 := L.steps
  have hc := L.some_c
  obtain ⟨b0, b1⟩ := h.bounds
  refine ⟨_, _, L.cascade.step N H W it h.rows, ?_⟩
  set r : ℚ := if 4 < it then 7 / 10 * leftOver m x c a + 3 / 10 * a else leftOver m x c a with hr
  set g : ℚ := if 4 < it then 7 / 10 * c + 3 / 10 * (1 - a) else c with hg
  have hg0 : 0 < g := by
    rw [hg]
    split_ifs
    · linarith
    · exact hc
  have hnext : nextWeight m x c it a = max 0 r / (max 0 r + g) := by
    unfold nextWeight
    by_cases h4 : 4 < it
    · simp only [h4, if_true] at hr hg ⊢
      rw [hr, hg]
    · simp only [h4, if_false] at hr hg ⊢
      rw [hr, hg]
  have hsum : 0 < max 0 r + g := by have := le_max_left 0 r; linarith
  have rTop : rawWeight it H W (m + 1) m = max 0 r := by
    unfold rawWeight flipWeight
    rw [if_pos (show m < m + 1 by omega), show m + 1 - m = 1 by omega, h.one]
    have e : (if 4 < it then 7 / 10 * leftOver m x c a + 3 / 10 * at2 W (m + 1) m else leftOver m x c a) = r := by
      rw [hr]
      split_ifs with h4
      · rw [(hw h4).top]
      · rfl
    simp only
    rw [e]
    split_ifs with h0
    · exact (max_eq_left h0.le).symm
    · exact (max_eq_right (not_lt.1 h0)).symm
  have rGround : rawWeight it H W (m + 1) 0 = g := by
    unfold rawWeight flipWeight
    rw [if_pos (show 0 < m + 1 by omega), Nat.sub_zero, h.last]
    have e : (if 4 < it then 7 / 10 * c + 3 / 10 * at2 W (m + 1) 0 else c) = g := by
      rw [hg]
      split_ifs with h4
      · rw [(hw h4).ground]
      · rfl
    simp only
    rw [e, if_neg (not_lt.2 hg0.le)]
  have rMid : ∀ j, 1 ≤ j → j ≤ m + 1 → j ≠ m → rawWeight it H W (m + 1) j = 0 := by
    intro j j1 j2 j3
    unfold rawWeight flipWeight
    have : (if j < m + 1 then at2 H (m + 1) (m + 1 - j) else 0) = 0 := by
      split_ifs with hj
      · exact h.mid _ (by omega) (by omega)
      · rfl
    rw [this]
    have e : (if 4 < it then 7 / 10 * 0 + 3 / 10 * at2 W (m + 1) j else 0) = 0 := by
      split_ifs with h4
      · rw [(hw h4).mid j j1 j2 j3]; simp
      · rfl
    simp only
    rw [e]
    simp
  have hs : ∑ k ∈ Finset.range (m + 2), rawWeight it H W (m + 1) k = max 0 r + g := by
    rw [Finset.sum_eq_add_of_mem m 0 (Finset.mem_range.2 (by omega)) (Finset.mem_range.2 (by omega)) (by omega)]
    · rw [rTop, rGround]
    · intro k hk hk'
      rw [Finset.mem_range] at hk
      exact rMid k (by omega) (by omega) hk'.1
  have ent : ∀ j, j < m + 2 → at2 (newWeights it (m + 2) H W) (m + 1) j = rawWeight it H W (m + 1) j / (max 0 r + g) := by
    intro j hj
    rw [newWeights_eq, at2_tabulate _ _ _ (by omega) hj, hs, div0_eq]
  have wT : at2 (newWeights it (m + 2) H W) (m + 1) m = nextWeight m x c it a := by
    rw [ent m (by omega), rTop, hnext]
  have wM : ∀ j, 1 ≤ j → j ≤ m + 1 → j ≠ m → at2 (newWeights it (m + 2) H W) (m + 1) j = 0 := by
    intro j j1 j2 j3
    rw [ent j (by omega), rMid j j1 j2 j3, zero_div]
  have wSum : ∑ j ∈ Finset.range (m + 1), (j : ℚ) * at2 (newWeights it (m + 2) H W) (m + 1) j = m * nextWeight m x c it a := by
    rw [Finset.sum_eq_single m]
    · rw [wT]
    · intro j hj hjm
      rw [Finset.mem_range] at hj
      rcases Nat.eq_zero_or_pos j with rfl | h0
      · simp
      · rw [wM j h0 (by omega) hjm, mul_zero]
    · intro hh
      exact absurd (Finset.mem_range.2 (by omega)) hh
  have hsub : ∀ k, k < m + 2 → at2 (subtractG (allGens fg).values N (newWeights it (m + 2) H W) none (m + 2) (m + 2)) (m + 1) k = _ :=
    fun k hk => L.subtractTop N (newWeights it (m + 2) H W) hN (wM (m + 1) (by omega) (le_refl _) (by omega)) hk
  have hrows : ∀ r ∈ subtractG (allGens fg).values N (newWeights it (m + 2) H W) none (m + 2) (m + 2), r.length = m + 2 := tabulate_rows _ _ _
  have wG : at2 (newWeights it (m + 2) H W) (m + 1) 0 = 1 - nextWeight m x c it a := by
    rw [ent 0 (by omega), rGround, hnext, eq_sub_iff_add_eq, ← add_div, add_comm, div_self hsum.ne']
  generalize subtractG (allGens fg).values N (newWeights it (m + 2) H W) none (m + 2) (m + 2) = H' at hsub hrows ⊢
  generalize newWeights it (m + 2) H W = W' at hsub wT wM wG wSum ⊢
  have e1 : at2 H' (m + 1) 1 = leftOver m x c (nextWeight m x c it a) := by
    rw [hsub 1 (by omega), if_pos rfl, wSum]
    unfold leftOver
    ring
  have e2 : ∀ k, 2 ≤ k → k ≤ m → at2 H' (m + 1) k = 0 := by
    intro k k1 k2
    rw [hsub k (by omega), if_neg (by omega), if_neg (by omega)]
  have e3 : at2 H' (m + 1) (m + 1) = c := by
    rw [hsub (m + 1) (by omega), if_neg (by omega), if_pos rfl]
  have e4 : at2 H' (m + 1) 0 = 0 := by
    rw [hsub 0 (by omega), if_neg (by omega), if_neg (by omega)]
  have e5 : 0 ≤ nextWeight m x c it a ∧ nextWeight m x c it a ≤ 1 := by
    rw [hnext]
    have := le_max_left 0 r
    exact ⟨div_nonneg this hsum.le, (div_le_one hsum).2 (by linarith)⟩
  exact ⟨⟨hrows, e1, e2, e3, e4, e5⟩, ⟨wT, wG, wM⟩⟩

theorem agRows : ∀ r ∈ (allGens fg).values, r.length = m + 2 := by
  intro r hr
  obtain ⟨i, hi, rfl⟩ := List.mem_iff_getElem.1 hr
  have hi' : i < m + 2 := by rw [L.cascade.agLen] at hi; exact hi
  have := L.cascade.agRowLen hi'
  rwa [List.getD_eq_getElem _ _ hi] at this

/-- The first guess for bin `m + 1` is flat over all its bins. -/
theorem guess {k : ℕ} (hk : k < m + 2) : at2 (rowNormalized (allGens fg).values (allGens fg).Eg.length) (m + 1) k = 1 / (m + 2) := by
  have hE : (allGens fg).Eg.length = m + 2 := L.cascade.egLen
  have hV : (allGens fg).values.length = m + 2 := L.cascade.agLen
  have h1 := L.steps
  obtain ⟨d1, -⟩ := C20_diagonal_elements_partial (allGens fg).values (m + 2) L.agRows
  have hlast : IsLastNonzero ((allGens fg).values.getD (m + 1) []) (m + 1) := by
    have hl : ((allGens fg).values.getD (m + 1) []).length = m + 2 := L.cascade.agRowLen (by omega)
    refine ⟨by omega, ?_, fun k hk => List.getD_eq_default _ _ (by omega)⟩
    have : at2 (allGens fg).values (m + 1) (m + 1) = c := by
      rw [L.allTop (by omega), if_neg (by omega), if_pos rfl]
    unfold at2 at this
    rw [this]
    exact L.some_c.ne'
  have hmem : (m + 1, ((m + 1 : ℕ) : ℤ) + 1) ∈ diagonalElements (allGens fg).values (m + 2) :=
    (d1 (m + 1) _).2 ⟨by omega, m + 1, hlast, rfl⟩
  have hf : ∃ q, (diagonalElements (allGens fg).values (m + 2)).find? (fun q => q.1 == m + 1) = some q ∧ q.2 = (m : ℤ) + 2 := by
    cases hq : (diagonalElements (allGens fg).values (m + 2)).find? (fun q => q.1 == m + 1) with
    | none =>
      have := List.find?_eq_none.1 hq _ hmem
      simp at this
    | some q =>
      refine ⟨q, rfl, ?_⟩
      have a1 := List.find?_some hq
      have a2 := List.mem_of_find?_eq_some hq
      obtain ⟨q1, q2⟩ := q
      simp only [beq_iff_eq] at a1
      subst a1
      obtain ⟨-, j, hj, rfl⟩ := (d1 _ _).1 a2
      have : j = m + 1 := by
        rcases Nat.lt_trichotomy j (m + 1) with h | h | h
        · exact absurd (hj.2.2 _ h) hlast.2.1
        · exact h
        · exact absurd (hlast.2.2 _ h) hj.2.1
      subst this
      push_cast
      ring
  obtain ⟨q, hq, hq2⟩ := hf
  unfold rowNormalized
  rw [hE, hV]
  simp only
  rw [at2_tabulate _ _ _ (by omega) hk, hq]
  obtain ⟨q1, q2⟩ := q
  simp only at hq2 ⊢
  rw [hq2, if_pos (by omega)]
  push_cast
  rw [max_eq_right]
  have : (0 : ℚ) ≤ m := by positivity
  linarith

/-- **C135.** After `k + 1` passes the spectrum of bin `m + 1` is that with the weight `weightAfter k`. -/
theorem iterate (p : FGParams) (hp : p.total = true) (k : ℕ) :
    ∃ H W, fgIter p (allGens fg) none (k + 1) = .ok (H, W) ∧ TopRow m x c (weightAfter m x c k) H ∧
      (1 ≤ k → TopWeights m (weightAfter m x c k) W) := by
  have h1 := L.steps
  obtain ⟨N, hN1, hN2⟩ := C101_normalisation fg w (m + 2) L.cascade p hp
  induction k with
  | zero =>
    set R := rowNormalized (allGens fg).values (allGens fg).Eg.length with hR
    have hE : (allGens fg).Eg.length = m + 2 := L.cascade.egLen
    have hRr : ∀ r ∈ R, r.length = m + 2 := by
      intro r hr
      rw [hR] at hr
      unfold rowNormalized at hr
      rw [hE] at hr
      exact tabulate_rows _ _ _ r hr
    have i0 : fgIter p (allGens fg) none 0 = .ok (R, R) := by
      rw [fgIter, hN1]
      rfl
    have m2 : (0 : ℚ) < (m : ℚ) + 2 := by positivity
    have raw : ∀ j, rawWeight 0 R R (m + 1) j = if j < m + 1 then 1 / ((m : ℚ) + 2) else 0 := by
      intro j
      unfold rawWeight flipWeight
      simp only [show ¬ 4 < 0 by norm_num, if_false]
      by_cases hj : j < m + 1
      · simp only [hj, if_true]
        rw [L.guess (by omega), if_neg (not_lt.2 (by positivity))]
      · simp [hj]
    have hsum : ∑ j ∈ Finset.range (m + 2), rawWeight 0 R R (m + 1) j = ((m : ℚ) + 1) / (m + 2) := by
      rw [Finset.sum_range_succ, raw (m + 1), if_neg (by omega), add_zero]
      rw [Finset.sum_congr rfl fun j hj => by rw [raw j, if_pos (Finset.mem_range.1 hj)]]
      rw [Finset.sum_const, Finset.card_range, nsmul_eq_mul]
      push_cast
      ring
    have ent : ∀ j, j < m + 2 → at2 (newWeights 0 (m + 2) R R) (m + 1) j = if j < m + 1 then 1 / ((m : ℚ) + 1) else 0 := by
      intro j hj
      rw [newWeights_eq, at2_tabulate _ _ _ (by omega) hj, hsum, div0_eq, raw j]
      split_ifs
      · have : (m : ℚ) + 1 ≠ 0 := by positivity
        field_simp
      · simp
    have hsub := fun k (hk : k < m + 2) => L.subtractTop N (newWeights 0 (m + 2) R R) hN2
      (by rw [ent (m + 1) (by omega), if_neg (by omega)]) hk
    have wS : ∑ j ∈ Finset.range (m + 1), (j : ℚ) * at2 (newWeights 0 (m + 2) R R) (m + 1) j = m / 2 := by
      rw [Finset.sum_congr rfl fun j hj => by rw [ent j (by have := Finset.mem_range.1 hj; omega), if_pos (Finset.mem_range.1 hj)]]
      rw [← Finset.sum_mul]
      have := Finset.sum_range_id_mul_two (m + 1)
      have h2 : (∑ j ∈ Finset.range (m + 1), (j : ℚ)) * 2 = (m + 1) * m := by
        rw [← Nat.cast_sum]
        exact_mod_cast this
      have : (m : ℚ) + 1 ≠ 0 := by positivity
      field_simp
      linarith
    have st : fgIter p (allGens fg) none 1 =
        .ok (subtractG (allGens fg).values N (newWeights 0 (m + 2) R R) none (m + 2) (m + 2), newWeights 0 (m + 2) R R) := by
      rw [fgIter, i0]
      simp only [bind, Except.bind]
      rw [hN1]
      exact L.cascade.step N R R 0 hRr
    refine ⟨_, _, st, ?_, fun h => by omega⟩
    · refine ⟨tabulate_rows _ _ _, ?_, fun k k1 k2 => ?_, ?_, ?_, by unfold weightAfter; norm_num⟩
      · rw [hsub 1 (by omega), if_pos rfl, wS]
        unfold leftOver weightAfter
        ring
      · rw [hsub k (by omega), if_neg (by omega), if_neg (by omega)]
      · rw [hsub (m + 1) (by omega), if_neg (by omega), if_pos rfl]
      · rw [hsub 0 (by omega), if_neg (by omega), if_neg (by omega)]
  | succ k ih =>
    obtain ⟨H, W, e, t1, t2⟩ := ih
    obtain ⟨H', W', e', t1', t2'⟩ := L.pass N hN2 (k + 1) t1 (W := W) (fun h4 => t2 (by omega))
    refine ⟨H', W', ?_, t1', fun _ => t2'⟩
    rw [fgIter, e]
    simp only [bind, Except.bind]
    rw [hN1]
    exact e'

end Ladder

/-! ## How the weight moves -/

/-- **C135.** How far the weight is from the truth `x / (x + c)` after a pass: the distance changes its sign and is multiplied by `m c / (what is left + c)`, where nothing is
cut off at zero; in the damped passes by `(0.7 m c - 0.3) / (0.7 (what is left + c) + 0.3)`, nearly the same. -/
theorem C135_deviation (m : ℕ) (x c a : ℚ) (it : ℕ) (hx : 0 < x) (hc : 0 < c) (ha : 0 ≤ a ∧ a ≤ 1) :
    (it ≤ 4 → 0 ≤ leftOver m x c a →
      nextWeight m x c it a - x / (x + c) = -(m * c / (leftOver m x c a + c)) * (a - x / (x + c))) ∧
    (4 < it → 0 ≤ 7 / 10 * leftOver m x c a + 3 / 10 * a →
      nextWeight m x c it a - x / (x + c) = -((7 / 10 * m * c - 3 / 10) / (7 / 10 * (leftOver m x c a + c) + 3 / 10)) * (a - x / (x + c))) := by
  have hxc : x + c ≠ 0 := by positivity
  refine ⟨fun hit h => ?_, fun hit h => ?_⟩
  · have hd : leftOver m x c a + c ≠ 0 := by positivity
    unfold nextWeight
    rw [if_neg (by omega), max_eq_right h, sub_eq_iff_eq_add, div_eq_iff hd]
    field_simp
    unfold leftOver
    ring
  · have hd : 0 < 7 / 10 * leftOver m x c a + 3 / 10 * a + (7 / 10 * c + 3 / 10 * (1 - a)) := by linarith [ha.2]
    have hd' : 7 / 10 * (leftOver m x c a + c) + 3 / 10 ≠ 0 := by
      have : 7 / 10 * (leftOver m x c a + c) + 3 / 10 = 7 / 10 * leftOver m x c a + 3 / 10 * a + (7 / 10 * c + 3 / 10 * (1 - a)) := by ring
      rw [this]
      exact hd.ne'
    unfold nextWeight
    rw [if_pos hit, max_eq_right h, show 7 / 10 * leftOver m x c a + 3 / 10 * a + (7 / 10 * c + 3 / 10 * (1 - a)) =
      7 / 10 * (leftOver m x c a + c) + 3 / 10 by ring]
    generalize hD : 7 / 10 * (leftOver m x c a + c) + 3 / 10 = D at hd' ⊢
    field_simp
    rw [← hD]
    unfold leftOver
    ring

lemma nextWeight_zero {m : ℕ} {x c a : ℚ} {it : ℕ} (h : (if 4 < it then 7 / 10 * leftOver m x c a + 3 / 10 * a else leftOver m x c a) ≤ 0) :
    nextWeight m x c it a = 0 := by
  unfold nextWeight
  split_ifs at h ⊢ with h4
  · rw [max_eq_left h, zero_div]
  · rw [max_eq_left h, zero_div]

/-- If the ladder has two steps or more and most decays go straight to the ground state, the weight jumps to and fro. -/
lemma weight_cycle {m : ℕ} {x c : ℚ} (hx : 0 < x) (hc : 0 < c) (h1 : (m + 2) * x ≤ m * c) (h2 : x + 6 / 7 ≤ (m - 1) * c) (d : ℕ) :
    weightAfter m x c (2 * d + 1) = 0 ∧ leftOver m x c (weightAfter m x c (2 * d + 2)) ≤ 0 := by
  have m0 : (0 : ℚ) ≤ m := by positivity
  have A0 : (0 : ℚ) < (m + 1) * x := by positivity
  have l0 : leftOver m x c 0 = (m + 1) * x := by unfold leftOver; ring
  -- one time to and fro
  have key : ∀ k, ((if 4 < k + 1 then 7 / 10 * leftOver m x c (nextWeight m x c k 0) + 3 / 10 * nextWeight m x c k 0
      else leftOver m x c (nextWeight m x c k 0)) ≤ 0) ∧ leftOver m x c (nextWeight m x c k 0) ≤ 0 := by
    intro k
    have a0 : 0 ≤ nextWeight m x c k 0 := by
      unfold nextWeight
      split_ifs
      · refine div_nonneg (le_max_left _ _) (add_nonneg (le_max_left _ _) (by linarith))
      · exact div_nonneg (le_max_left _ _) (add_nonneg (le_max_left _ _) hc.le)
    have b : 7 / 10 * leftOver m x c (nextWeight m x c k 0) + 3 / 10 * nextWeight m x c k 0 ≤ 0 := by
      unfold nextWeight
      rw [l0]
      by_cases h4 : 4 < k
      · rw [if_pos h4, mul_zero, add_zero, sub_zero, mul_one, max_eq_right (by positivity)]
        set D : ℚ := 7 / 10 * ((m + 1) * x) + (7 / 10 * c + 3 / 10) with hD
        have D0 : 0 < D := by positivity
        have e : 7 / 10 * leftOver m x c (7 / 10 * ((m + 1) * x) / D) + 3 / 10 * (7 / 10 * ((m + 1) * x) / D) =
            7 / 10 * ((m + 1) * x) * (7 / 10 * x + 7 / 10 * c + 6 / 10 - 7 / 10 * m * c) / D := by
          unfold leftOver
          field_simp
          rw [hD]
          ring
        rw [e]
        refine div_nonpos_of_nonpos_of_nonneg (mul_nonpos_of_nonneg_of_nonpos (by positivity) ?_) D0.le
        linarith
      · rw [if_neg h4, max_eq_right A0.le]
        set D : ℚ := (m + 1) * x + c with hD
        have D0 : 0 < D := by positivity
        have e : 7 / 10 * leftOver m x c ((m + 1) * x / D) + 3 / 10 * ((m + 1) * x / D) =
            (m + 1) * x * (7 / 10 * x + 7 / 10 * c + 3 / 10 - 7 / 10 * m * c) / D := by
          unfold leftOver
          field_simp
          rw [hD]
          ring
        rw [e]
        refine div_nonpos_of_nonpos_of_nonneg (mul_nonpos_of_nonneg_of_nonpos (by positivity) ?_) D0.le
        linarith
    have l : leftOver m x c (nextWeight m x c k 0) ≤ 0 := by linarith
    refine ⟨?_, l⟩
    split_ifs
    · exact b
    · exact l
  have main : weightAfter m x c (2 * d + 1) = 0 := by
    induction d with
    | zero =>
      show nextWeight m x c 1 (1 / 2) = 0
      apply nextWeight_zero
      rw [if_neg (by norm_num)]
      unfold leftOver
      linarith
    | succ d ih =>
      show nextWeight m x c (2 * d + 2 + 1) (nextWeight m x c (2 * d + 2) (weightAfter m x c (2 * d + 1))) = 0
      rw [ih]
      exact nextWeight_zero (key (2 * d + 2)).1
  refine ⟨main, ?_⟩
  show leftOver m x c (nextWeight m x c (2 * d + 2) (weightAfter m x c (2 * d + 1))) ≤ 0
  rw [main]
  exact (key _).2

lemma at2_removeNegativeQ (H : List (List ℚ)) (i k : ℕ) : at2 (removeNegativeQ H) i k = max 0 (at2 H i k) := by
  have row : ∀ (r : List ℚ), (r.map fun x => if 0 < x then x else 0).getD k 0 = max 0 (r.getD k 0) := by
    intro r
    by_cases hk : k < r.length
    · rw [List.getD_eq_getElem _ _ (by simpa using hk), List.getElem_map, List.getD_eq_getElem _ _ hk]
      split_ifs with hy
      · exact (max_eq_right hy.le).symm
      · exact (max_eq_left (not_lt.1 hy)).symm
    · rw [List.getD_eq_default _ _ (by simpa using hk), List.getD_eq_default _ _ (by simpa using hk)]
      simp
  unfold at2 removeNegativeQ
  by_cases hi : i < H.length
  · rw [List.getD_eq_getElem _ [] (by simpa using hi), List.getElem_map, row, List.getD_eq_getElem _ [] hi]
  · rw [List.getD_eq_default _ [] (by simpa using hi), List.getD_eq_default _ [] (by simpa using hi)]
    simp

/-- What `apply` returns for the spectra of all generations of a cascade. -/
lemma Cascade.applied {fg : Mat} {w : ℚ} {n : ℕ} (c : Cascade fg w n) (close : List ℚ → List ℚ → Bool) (p : FGParams) {H W : List (List ℚ)}
    (h : fgIter p (allGens fg) none p.numIter = .ok (H, W)) :
    fgApply close p none (allGens fg) = (.ok ⟨removeNegativeQ H, fg.Eg, fg.Ex, none, some .firstGeneration⟩, none) := by
  have hneg : (allGens fg).Ex.any (fun x => x < 0) = false := by
    rw [List.any_eq_false]
    intro x hx
    have hx' : x ∈ grid 0 w n := by rw [← c.ex]; exact hx
    simp only [grid, List.mem_map, List.mem_range] at hx'
    obtain ⟨k, -, rfl⟩ := hx'
    have := c.width
    have : 0 ≤ 0 + w * (k : ℚ) := by positivity
    simpa using this
  have hvneg : (allGens fg).values.any (fun r => r.any fun x => x < 0) = false := by
    rw [List.any_eq_false]
    intro r hr
    simp only [Bool.not_eq_true]
    rw [List.any_eq_false]
    intro x hx
    obtain ⟨i, hi, rfl⟩ := List.mem_iff_getElem.1 hr
    obtain ⟨k, hk, rfl⟩ := List.mem_iff_getElem.1 hx
    have hi' : i < n := by rw [c.agLen] at hi; exact hi
    have hrl := c.agRowLen hi'
    rw [List.getD_eq_getElem (allGens fg).values [] hi] at hrl
    have hk' : k < n := by omega
    have := c.agNonneg i k hi' hk'
    have e : at2 (allgenFromPrimary fg none) i k = ((allGens fg).values[i])[k] := by
      unfold at2
      have e1 : (allgenFromPrimary fg none).getD i [] = (allGens fg).values[i] := List.getD_eq_getElem (allGens fg).values [] hi
      rw [e1, List.getD_eq_getElem _ 0 hk]
    rw [e] at this
    simpa using this
  unfold fgApply
  rw [hneg, hvneg]
  simp only [Bool.false_eq_true, if_false, cutValley]
  rw [h]
  rfl

/-- What the method finds for bin `m + 1` of a ladder, after `k + 1` iterations. -/
lemma Ladder.found {fg : Mat} {w : ℚ} {m : ℕ} {x c : ℚ} {y : ℕ → ℚ} (L : Ladder fg w m x c y) (close : List ℚ → List ℚ → Bool) (p : FGParams)
    (hp : p.total = true) (k : ℕ) (hk : p.numIter = k + 1) :
    ∃ r, fgApply close p none (allGens fg) = (.ok r, none) ∧ at2 r.values (m + 1) 1 = max 0 (leftOver m x c (weightAfter m x c k)) ∧
      at2 r.values (m + 1) (m + 1) = c ∧ ∀ j ≤ m, j ≠ 1 → at2 r.values (m + 1) j = 0 := by
  obtain ⟨H, W, e, t, -⟩ := L.iterate p hp k
  rw [← hk] at e
  refine ⟨_, L.cascade.applied close p e, ?_, ?_, fun j hj h1 => ?_⟩
  · rw [at2_removeNegativeQ, t.one]
  · rw [at2_removeNegativeQ, t.last, max_eq_right L.some_c.le]
  · rw [at2_removeNegativeQ]
    rcases Nat.eq_zero_or_pos j with rfl | h0
    · rw [t.zero]; simp
    · rw [t.mid j (by omega) hj]; simp

/-- **C135 (disagreement).** For the exact spectra of all generations of a ladder of two steps or more, with most decays of the bin above it going straight to the ground state, the
iteration never settles: with every even number of iterations nothing is subtracted at all – the method finds the `(m + 1) x` gammas of all generations –, with every odd
number from three on it finds none of them. Its primary gammas are `x`. The damping does not prevent this. -/
theorem C135_settles_fails {fg : Mat} {w : ℚ} {m : ℕ} {x c : ℚ} {y : ℕ → ℚ} (L : Ladder fg w m x c y) (h1 : (m + 2) * x ≤ m * c)
    (h2 : x + 6 / 7 ≤ (m - 1) * c) (close : List ℚ → List ℚ → Bool) (p : FGParams) (hp : p.total = true) (hk : 2 ≤ p.numIter) :
    ∃ r, fgApply close p none (allGens fg) = (.ok r, none) ∧
      at2 r.values (m + 1) 1 = (if p.numIter % 2 = 0 then at2 (allGens fg).values (m + 1) 1 else 0) ∧
      at2 (allGens fg).values (m + 1) 1 = (m + 1) * x ∧ at2 fg.values (m + 1) 1 = x := by
  have m1 := L.steps
  obtain ⟨r, hr, e, -, -⟩ := L.found close p hp (p.numIter - 1) (by omega)
  have hall : at2 (allGens fg).values (m + 1) 1 = (m + 1) * x := by rw [L.allTop (by omega), if_pos rfl]
  refine ⟨r, hr, ?_, hall, by rw [L.top, if_pos rfl]⟩
  rw [e, hall]
  have hx := L.some_x
  by_cases hpar : p.numIter % 2 = 0
  · obtain ⟨d, hd⟩ : ∃ d, p.numIter - 1 = 2 * d + 1 := ⟨(p.numIter - 2) / 2, by omega⟩
    rw [if_pos hpar, hd, (weight_cycle hx L.some_c h1 h2 d).1]
    unfold leftOver
    rw [mul_zero, sub_zero, max_eq_right (by positivity)]
  · obtain ⟨d, hd⟩ : ∃ d, p.numIter - 1 = 2 * d + 2 := ⟨(p.numIter - 3) / 2, by omega⟩
    rw [if_neg hpar, hd, max_eq_left (weight_cycle hx L.some_c h1 h2 d).2]

/-- Bin 3 decays 10 times to bin 2 and 100 times to the ground state, bin 2 to bin 1 and bin 1 to the ground state. -/
def ladderSample : Mat := ⟨[[0, 0, 0, 0], [0, 20, 0, 0], [0, 100, 0, 0], [0, 10, 0, 100]], [0, 1, 2, 3], [0, 1, 2, 3], none, none⟩

theorem ladderSample_ok : Ladder ladderSample 1 2 10 100 (fun j => if j = 1 then 20 else 100) := by
  refine ⟨cascade_of _ _ _ (by norm_num) (by norm_num) (by decide +kernel) (by decide +kernel) (by decide +kernel) (by decide +kernel) (by decide +kernel),
    by norm_num, ?_, ?_, by norm_num, by norm_num⟩
  · intro j h1 h2 k
    have : j = 1 ∨ j = 2 := by omega
    rcases this with rfl | rfl <;>
    · match k with
      | 0 | 1 | 2 | 3 => decide +kernel
      | k + 4 => simp [at2, ladderSample]
  · intro k
    match k with
    | 0 | 1 | 2 | 3 => decide +kernel
    | k + 4 => simp [at2, ladderSample]

/-- The default of ten iterations, and eleven: 30 gammas or none instead of 10. -/
example : (fgApply (fun _ _ => true) (fgParams 10) none (allGens ladderSample)).1.map (fun r => r.values.getD 3 []) = .ok [0, 30, 0, 100] ∧
    (fgApply (fun _ _ => true) (fgParams 11) none (allGens ladderSample)).1.map (fun r => r.values.getD 3 []) = .ok [0, 0, 0, 100] := by decide +kernel

/-! ## Ladders of one step -/

lemma weight_contracts {x c : ℚ} (hx : 0 < x) (hc : 3 / 7 ≤ c) (it : ℕ) {a : ℚ} (ha : 0 ≤ a ∧ a ≤ 1) :
    (x / (x + c) ≤ a → nextWeight 1 x c it a ≤ x / (x + c) ∧ x / (x + c) - nextWeight 1 x c it a ≤ a - x / (x + c)) ∧
    (a ≤ x / (x + c) → x / (x + c) ≤ nextWeight 1 x c it a ∧
      nextWeight 1 x c it a - x / (x + c) ≤ c / (x + c) * (x / (x + c) - a)) := by
  have hc0 : 0 < c := by linarith
  have hxc : 0 < x + c := by positivity
  set t := x / (x + c) with ht
  have htx : t * (x + c) = x := by rw [ht]; field_simp
  have t0 : 0 < t := by positivity
  have hl : leftOver 1 x c a = x - (x + c) * (a - t) := by
    unfold leftOver
    push_cast
    linarith
  obtain ⟨d1, d2⟩ := C135_deviation 1 x c a it hx hc0 ha
  rw [← ht] at d1 d2
  push_cast at d1 d2
  refine ⟨fun h => ?_, fun h => ?_⟩
  · by_cases h4 : 4 < it
    · by_cases hr : 0 ≤ 7 / 10 * leftOver 1 x c a + 3 / 10 * a
      · have e := d2 h4 hr
        set q := (7 / 10 * 1 * c - 3 / 10) / (7 / 10 * (leftOver 1 x c a + c) + 3 / 10) with hq
        have q0 : 0 ≤ q := div_nonneg (by linarith) (by nlinarith [ha.2])
        have q1 : q ≤ 1 := by
          rw [hq, div_le_one (by nlinarith [ha.2])]
          nlinarith [ha.2]
        constructor <;> nlinarith
      · have e : nextWeight 1 x c it a = 0 := nextWeight_zero (by rw [if_pos h4]; linarith)
        rw [e]
        refine ⟨t0.le, ?_⟩
        have : (x + c) * (a - t) > x := by
          have : leftOver 1 x c a < 0 := by linarith [ha.1]
          linarith
        rw [← htx] at this
        have : t < a - t := by
          by_contra hcon
          nlinarith
        linarith
    · by_cases hr : 0 ≤ leftOver 1 x c a
      · have e := d1 (by omega) hr
        set q := 1 * c / (leftOver 1 x c a + c) with hq
        have q0 : 0 ≤ q := div_nonneg (by linarith) (by linarith)
        have q1 : q ≤ 1 := by
          rw [hq, div_le_one (by linarith)]
          linarith
        constructor <;> nlinarith
      · have e : nextWeight 1 x c it a = 0 := nextWeight_zero (by rw [if_neg h4]; linarith)
        rw [e]
        refine ⟨t0.le, ?_⟩
        have : (x + c) * (a - t) > x := by linarith
        rw [← htx] at this
        have : t < a - t := by
          by_contra hcon
          nlinarith
        linarith
  · have hlx : x ≤ leftOver 1 x c a := by
      rw [hl]
      nlinarith
    by_cases h4 : 4 < it
    · have e := d2 h4 (by nlinarith [ha.1])
      set q := (7 / 10 * 1 * c - 3 / 10) / (7 / 10 * (leftOver 1 x c a + c) + 3 / 10) with hq
      have q0 : 0 ≤ q := div_nonneg (by linarith) (by nlinarith)
      have q1 : q ≤ c / (x + c) := by
        rw [hq, div_le_div_iff₀ (by nlinarith) hxc]
        nlinarith
      constructor <;> nlinarith
    · have e := d1 (by omega) (by linarith)
      set q := 1 * c / (leftOver 1 x c a + c) with hq
      have q0 : 0 ≤ q := div_nonneg (by linarith) (by linarith)
      have q1 : q ≤ c / (x + c) := by
        rw [hq, one_mul]
        exact div_le_div_of_nonneg_left hc0.le hxc (by linarith)
      constructor <;> nlinarith

lemma weightAfter_bounds {m : ℕ} {x c : ℚ} (hc : 0 < c) (k : ℕ) : 0 ≤ weightAfter m x c k ∧ weightAfter m x c k ≤ 1 := by
  induction k with
  | zero => norm_num [weightAfter]
  | succ k ih =>
    show 0 ≤ nextWeight m x c (k + 1) _ ∧ nextWeight m x c (k + 1) _ ≤ 1
    generalize weightAfter m x c k = a at ih ⊢
    have quot : ∀ {u v : ℚ}, 0 ≤ u → 0 < v → 0 ≤ u / (u + v) ∧ u / (u + v) ≤ 1 := by
      intro u v hu hv
      exact ⟨by positivity, (div_le_one (by positivity)).2 (by linarith)⟩
    unfold nextWeight
    split_ifs
    · exact quot (le_max_left _ _) (by linarith [ih.2])
    · exact quot (le_max_left _ _) hc

/-- In a ladder of one step the weight approaches the branching ratio. -/
lemma weight_settles {x c : ℚ} (hx : 0 < x) (hc : 3 / 7 ≤ c) (k : ℕ) :
    |weightAfter 1 x c k - x / (x + c)| ≤ 1 / 2 * (c / (x + c)) ^ (k / 2) := by
  have hc0 : 0 < c := by linarith
  have hxc : 0 < x + c := by positivity
  have t1 : x / (x + c) ≤ 1 := (div_le_one hxc).2 (by linarith)
  have t0 : 0 ≤ x / (x + c) := by positivity
  have r0 : 0 ≤ c / (x + c) := by positivity
  have r1 : c / (x + c) ≤ 1 := (div_le_one hxc).2 (by linarith)
  have one : ∀ k, |weightAfter 1 x c (k + 1) - x / (x + c)| ≤ |weightAfter 1 x c k - x / (x + c)| := by
    intro k
    have b := weightAfter_bounds (m := 1) (x := x) hc0 k
    have w := weight_contracts hx hc (k + 1) b
    show |nextWeight 1 x c (k + 1) _ - _| ≤ _
    rcases le_total (x / (x + c)) (weightAfter 1 x c k) with h | h
    · obtain ⟨h1, h2⟩ := w.1 h
      rw [abs_of_nonpos (by linarith), abs_of_nonneg (by linarith)]
      linarith
    · obtain ⟨h1, h2⟩ := w.2 h
      rw [abs_of_nonneg (by linarith), abs_of_nonpos (by linarith)]
      nlinarith
  have two : ∀ k, |weightAfter 1 x c (k + 2) - x / (x + c)| ≤ c / (x + c) * |weightAfter 1 x c k - x / (x + c)| := by
    intro k
    have b := weightAfter_bounds (m := 1) (x := x) hc0 k
    have b' := weightAfter_bounds (m := 1) (x := x) hc0 (k + 1)
    have w := weight_contracts hx hc (k + 1) b
    have w' := weight_contracts hx hc (k + 2) b'
    change _ ∧ _ at w
    have s1 : weightAfter 1 x c (k + 1) = nextWeight 1 x c (k + 1) (weightAfter 1 x c k) := rfl
    have s2 : weightAfter 1 x c (k + 2) = nextWeight 1 x c (k + 2) (weightAfter 1 x c (k + 1)) := rfl
    rw [← s1] at w
    rw [← s2] at w'
    rcases le_total (x / (x + c)) (weightAfter 1 x c k) with h | h
    · obtain ⟨h1, h2⟩ := w.1 h
      obtain ⟨h3, h4⟩ := w'.2 h1
      rw [abs_of_nonneg (by linarith), abs_of_nonneg (by linarith)]
      nlinarith
    · obtain ⟨h1, h2⟩ := w.2 h
      obtain ⟨h3, h4⟩ := w'.1 h1
      rw [abs_of_nonpos (by linarith), abs_of_nonpos (by linarith)]
      nlinarith
  have even : ∀ d, |weightAfter 1 x c (2 * d) - x / (x + c)| ≤ 1 / 2 * (c / (x + c)) ^ d := by
    intro d
    induction d with
    | zero =>
      show |1 / 2 - x / (x + c)| ≤ _
      rw [abs_le]
      constructor <;> simp <;> linarith
    | succ d ih =>
      refine (two (2 * d)).trans ?_
      rw [pow_succ]
      nlinarith [mul_le_mul_of_nonneg_left ih r0]
  rcases Nat.even_or_odd' k with ⟨d, rfl | rfl⟩
  · rw [Nat.mul_div_cancel_left _ (by norm_num)]
    exact even d
  · rw [show (2 * d + 1) / 2 = d by omega]
    exact (one _).trans (even d)

/-- **C135 (partial).** For a ladder of one step with at least 3/7 counts to the ground state the iteration settles at the primary gammas; the deviation shrinks with the fraction
of the decays to the ground state, once in two passes. (For longer ladders it need not settle: `C135_settles_fails`.) -/
theorem C135_settles_partial {fg : Mat} {w : ℚ} {x c : ℚ} {y : ℕ → ℚ} (L : Ladder fg w 1 x c y) (hc : 3 / 7 ≤ c) (close : List ℚ → List ℚ → Bool)
    (p : FGParams) (hp : p.total = true) (k : ℕ) (hk : p.numIter = k + 1) :
    ∃ r, fgApply close p none (allGens fg) = (.ok r, none) ∧
      |at2 r.values 2 1 - at2 fg.values 2 1| ≤ (x + c) / 2 * (c / (x + c)) ^ (k / 2) ∧ ∀ j, j ≤ 2 → j ≠ 1 → at2 r.values 2 j = at2 fg.values 2 j := by
  obtain ⟨r, hr, e, el, ez⟩ := L.found close p hp k hk
  have hx := L.some_x
  have hc0 := L.some_c
  have hxc : 0 < x + c := by positivity
  refine ⟨r, hr, ?_, fun j hj h1 => ?_⟩
  · have et : at2 fg.values 2 1 = x := by
      have := L.top 1
      rwa [if_pos rfl] at this
    change at2 r.values 2 1 = _ at e
    rw [et, e]
    have b := weight_settles hx hc k
    have h : leftOver 1 x c (weightAfter 1 x c k) - x = -((x + c) * (weightAfter 1 x c k - x / (x + c))) := by
      unfold leftOver
      field_simp
      push_cast
      ring
    have h' : |max 0 (leftOver 1 x c (weightAfter 1 x c k)) - x| ≤ |leftOver 1 x c (weightAfter 1 x c k) - x| := by
      rcases le_total 0 (leftOver 1 x c (weightAfter 1 x c k)) with h0 | h0
      · rw [max_eq_right h0]
      · rw [max_eq_left h0, abs_of_nonpos (by linarith), abs_of_nonpos (by linarith)]
        linarith
    refine h'.trans ?_
    rw [h, abs_neg, abs_mul, abs_of_pos hxc]
    calc (x + c) * |weightAfter 1 x c k - x / (x + c)| ≤ (x + c) * (1 / 2 * (c / (x + c)) ^ (k / 2)) := mul_le_mul_of_nonneg_left b hxc.le
      _ = _ := by ring
  · have t := L.top j
    change at2 fg.values 2 j = _ at t
    rw [t, if_neg h1]
    split_ifs with h2
    · subst h2
      exact el
    · exact ez j (by omega) h1

/-- Bin 2 decays 10 times to bin 1 and 90 times to the ground state. -/
def shortSample : Mat := ⟨[[0, 0, 0], [0, 20, 0], [0, 10, 90]], [0, 1, 2], [0, 1, 2], none, none⟩

theorem shortSample_ok : Ladder shortSample 1 1 10 90 (fun _ => 20) := by
  refine ⟨cascade_of _ _ _ (by norm_num) (by norm_num) (by decide +kernel) (by decide +kernel) (by decide +kernel) (by decide +kernel) (by decide +kernel),
    by norm_num, ?_, ?_, by norm_num, by norm_num⟩
  · intro j h1 h2 k
    have : j = 1 := by omega
    subst this
    match k with
    | 0 | 1 | 2 => decide +kernel
    | k + 3 => simp [at2, shortSample]
  · intro k
    match k with
    | 0 | 1 | 2 => decide +kernel
    | k + 3 => simp [at2, shortSample]

/-- After the default of ten iterations the 10 gammas are found as more than 13, after 11 as less than 7: the approach is slow. -/
example : (fgApply (fun _ _ => true) (fgParams 10) none (allGens shortSample)).1.map (fun r => (decide (13 < at2 r.values 2 1), at2 r.values 2 2)) = .ok (true, 90) ∧
    (fgApply (fun _ _ => true) (fgParams 11) none (allGens shortSample)).1.map (fun r => decide (at2 r.values 2 1 < 7)) = .ok true := by decide +kernel

end Ompy
