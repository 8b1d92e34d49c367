import Verif.Discrete
import Mathlib.Algebra.BigOperators.Field
import Mathlib.Tactic.Linarith
import Mathlib.Tactic.Ring
import Mathlib.Tactic.FieldSimp
import Mathlib.Tactic.NormNum

/-!
# Properties of the loading of known levels (C74)
-/

namespace Ompy

/-! ### The histogram -/

/-- Number of values from `a` (inclusive) to `b` (exclusive). -/
def inBin (xs : List ℚ) (a b : ℚ) : ℕ := (xs.filter fun x => decide (a ≤ x ∧ x < b)).length

/-- Number of values from `a` to `b`, both inclusive. -/
def inClosed (xs : List ℚ) (a b : ℚ) : ℕ := (xs.filter fun x => decide (a ≤ x ∧ x ≤ b)).length

theorem countP_diff (xs : List ℚ) {a b : ℚ} (h : a ≤ b) :
    (xs.countP (· < b) : ℤ) - xs.countP (· < a) = inBin xs a b := by
  unfold inBin
  rw [← List.countP_eq_length_filter]
  induction xs with
  | nil => simp
  | cons x xs ih =>
    simp only [List.countP_cons, decide_eq_true_eq]
    push_cast
    by_cases h1 : x < a
    · have h2 : x < b := by linarith
      have h3 : ¬ (a ≤ x ∧ x < b) := fun h => absurd h.1 (not_le.2 h1)
      rw [if_pos h1, if_pos h2, if_neg h3, ← ih]
      ring
    · by_cases h2 : x < b
      · rw [if_neg h1, if_pos h2, if_pos ⟨not_lt.1 h1, h2⟩, ← ih]
        ring
      · rw [if_neg h1, if_neg h2, if_neg (fun h => h2 h.2), ← ih]
        ring

theorem countP_diff_closed (xs : List ℚ) {a b : ℚ} (h : a ≤ b) :
    (xs.countP (· ≤ b) : ℤ) - xs.countP (· < a) = inClosed xs a b := by
  unfold inClosed
  rw [← List.countP_eq_length_filter]
  induction xs with
  | nil => simp
  | cons x xs ih =>
    simp only [List.countP_cons, decide_eq_true_eq]
    push_cast
    by_cases h1 : x < a
    · have h2 : x ≤ b := by linarith
      have h3 : ¬ (a ≤ x ∧ x ≤ b) := fun h => absurd h.1 (not_le.2 h1)
      rw [if_pos h1, if_pos h2, if_neg h3, ← ih]
      ring
    · by_cases h2 : x ≤ b
      · rw [if_neg h1, if_pos h2, if_pos ⟨not_lt.1 h1, h2⟩, ← ih]
        ring
      · rw [if_neg h1, if_neg h2, if_neg (fun h => h2 h.2), ← ih]
        ring

/-- `np.histogram` counts the values of each bin; the last bin is closed. -/
theorem npHistogram_spec (xs edges : List ℚ) (h2 : 2 ≤ edges.length) (h : List ℤ)
    (he : npHistogram xs edges = .ok h) :
    h.length + 1 = edges.length ∧
    ∀ (i : ℕ) (hi : i < h.length) (h1 : i < edges.length) (h3 : i + 1 < edges.length), edges[i] ≤ edges[i + 1] ∧
      h[i] = if i + 2 = edges.length then (inClosed xs edges[i] edges[i + 1] : ℤ)
        else (inBin xs edges[i] edges[i + 1] : ℤ) := by
  unfold npHistogram at he
  split_ifs at he with hm
  dsimp only at he
  injection he with he
  set cum : List ℤ := edges.dropLast.map (fun e => (xs.countP (· < e) : ℤ)) ++
      [(xs.countP (· ≤ edges.getLastD 0) : ℤ)] with hc
  have hcl : cum.length = edges.length := by
    rw [hc]; simp; omega
  have hl : h.length + 1 = edges.length := by
    rw [← he, List.length_zipWith, List.length_tail, hcl]
    omega
  refine ⟨hl, fun i hi h1 h3 => ?_⟩
  have hmono : edges[i] ≤ edges[i + 1] := by
    by_contra hlt
    rw [not_le] at hlt
    apply hm
    rw [List.any_eq_true]
    refine ⟨(edges[i], edges[i + 1]), ?_, by simpa using hlt⟩
    rw [List.mem_iff_getElem]
    refine ⟨i, by simp; omega, ?_⟩
    simp
  have hci : ∀ (k : ℕ) (hk : k < cum.length) (hk' : k < edges.length), k + 1 < edges.length →
      cum[k] = (xs.countP (· < edges[k]) : ℤ) := by
    intro k hk hk' hk2
    simp only [hc]
    rw [List.getElem_append_left (by simp; omega), List.getElem_map, List.getElem_dropLast]
  have hcl' : ∀ (k : ℕ) (hk : k < cum.length) (hk' : k < edges.length), k + 1 = edges.length →
      cum[k] = (xs.countP (· ≤ edges[k]) : ℤ) := by
    intro k hk hk' hk2
    simp only [hc]
    rw [List.getElem_append_right (by simp; omega)]
    have : edges.getLastD 0 = edges[k] := by
      rw [List.getLastD_eq_getLast?, List.getLast?_eq_getElem?,
        List.getElem?_eq_getElem (by omega), Option.getD_some]
      congr 1
      omega
    rw [List.getElem_singleton, this]
  refine ⟨hmono, ?_⟩
  have hv : h[i] = cum[i + 1]'(by omega) - cum[i]'(by omega) := by
    simp only [← he, List.getElem_zipWith, List.getElem_tail]
  rw [hv, hci i (by omega) h1 h3]
  split_ifs with hlast
  · rw [hcl' (i + 1) (by omega) h3 (by omega), countP_diff_closed xs hmono]
  · rw [hci (i + 1) (by omega) h3 (by omega), countP_diff xs hmono]

theorem binEdges_grid (a b : ℚ) (n : ℕ) (hn : 1 ≤ n) :
    binEdges (grid a b n) b = grid (a - b / 2) b (n + 1) := by
  obtain ⟨m, rfl⟩ := Nat.exists_eq_add_of_le' hn
  have hl : (grid a b (m + 1)).getLastD 0 = a + b * m := by
    unfold grid
    rw [List.range_succ, List.map_append, List.map_singleton, List.getLastD_eq_getLast?, List.getLast?_concat,
      Option.getD_some]
  unfold binEdges
  rw [hl]
  unfold grid
  rw [List.range_succ (n := m + 1)]
  simp only [List.map_append, List.map_map, List.map_cons, List.map_nil]
  congr 1
  · refine List.map_congr_left fun k _ => ?_
    simp only [Function.comp]
    ring
  · congr 1
    push_cast
    ring

theorem hist_total (xs edges : List ℚ) (h2 : 2 ≤ edges.length) (h : List ℤ) (he : npHistogram xs edges = .ok h)
    (hs : edges.Pairwise (· ≤ ·)) :
    h.sum = inClosed xs (edges.getD 0 0) (edges.getLastD 0) := by
  unfold npHistogram at he
  split_ifs at he with hm
  dsimp only at he
  injection he with he
  have tele : ∀ (l : List ℤ) (x : ℤ), (List.zipWith (fun a b => b - a) (x :: l) l).sum = (x :: l).getLastD 0 - x := by
    intro l
    induction l with
    | nil => intro x; simp
    | cons y l ih =>
      intro x
      rw [List.zipWith_cons_cons, List.sum_cons, ih y]
      simp
  obtain ⟨e, l, rfl⟩ := List.exists_cons_of_ne_nil (List.ne_nil_of_length_pos (by omega : 0 < edges.length))
  have hl : l ≠ [] := by rintro rfl; simp at h2
  rw [← he]
  obtain ⟨e', l', rfl⟩ := List.exists_cons_of_ne_nil hl
  rw [List.dropLast_cons_of_ne_nil (by simp), List.map_cons, List.cons_append, List.tail_cons, tele]
  have hlast : (e :: e' :: l').getLastD 0 = (e' :: l').getLast (by simp) := by
    rw [List.getLastD_eq_getLast?, List.getLast?_eq_some_getLast (by simp), Option.getD_some,
      List.getLast_cons (by simp)]
  have hle : e ≤ (e :: e' :: l').getLastD 0 := by
    rw [hlast]
    exact (List.pairwise_cons.1 hs).1 _ (List.getLast_mem _)
  rw [← countP_diff_closed xs (by simpa using hle)]
  congr 1
  rw [List.getLastD_eq_getLast?]
  rw [← List.cons_append, List.getLast?_concat]
  simp

/-! ### The smoothing -/

section Reflect
variable (x : List ℝ)

/-- The array continued by reflection. -/
noncomputable def extended (i : ℤ) : ℝ := x.getD (reflectIdx x.length i) 0

theorem extended_period (i : ℤ) : extended x (i + (2 * x.length : ℕ)) = extended x i := by
  unfold extended reflectIdx
  rw [Int.add_emod_right]

theorem extended_at (i : ℕ) (hi : i < x.length) : extended x i = x.getD i 0 := by
  unfold extended reflectIdx
  have : ((i : ℤ) % (2 * x.length : ℕ)).toNat = i := by
    rw [Int.emod_eq_of_lt (by omega) (by push_cast; omega)]
    simp
  simp only [this, if_pos hi]

theorem extended_mirror (hx : 0 < x.length) (i : ℤ) : extended x (-1 - i) = extended x i := by
  unfold extended reflectIdx
  set n := x.length
  have h0 : (0 : ℤ) ≤ i % (2 * n : ℕ) := Int.emod_nonneg _ (by omega)
  have h1 : i % (2 * n : ℕ) < (2 * n : ℕ) := Int.emod_lt_of_pos _ (by omega)
  have e : (-1 - i) % (2 * n : ℕ) = (2 * n : ℕ) - 1 - i % (2 * n : ℕ) := by
    have : -1 - i = ((2 * n : ℕ) - 1 - i % (2 * n : ℕ)) + (2 * n : ℕ) * (-1 - i / (2 * n : ℕ)) := by
      have := Int.emod_add_mul_ediv i (2 * n : ℕ)
      linear_combination this
    rw [this, Int.add_mul_emod_self_left, Int.emod_eq_of_lt (by omega) (by omega)]
  rw [e]
  congr 1
  dsimp only
  split_ifs <;> omega

/-- Sum over a window of the length of the array. -/
noncomputable def windowAt (k : ℤ) : ℝ := ∑ i ∈ Finset.range x.length, extended x ((i : ℤ) + k)

theorem period_sum (k : ℤ) : ∑ i ∈ Finset.range (2 * x.length), extended x ((i : ℤ) + k) =
    ∑ i ∈ Finset.range (2 * x.length), extended x (i : ℤ) := by
  have step : ∀ k : ℤ, ∑ i ∈ Finset.range (2 * x.length), extended x ((i : ℤ) + (k + 1)) =
      ∑ i ∈ Finset.range (2 * x.length), extended x ((i : ℤ) + k) := by
    intro k
    have h1 := Finset.sum_range_succ (fun i : ℕ => extended x ((i : ℤ) + k)) (2 * x.length)
    have h2 := Finset.sum_range_succ' (fun i : ℕ => extended x ((i : ℤ) + k)) (2 * x.length)
    rw [h1] at h2
    have h3 : extended x (((2 * x.length : ℕ) : ℤ) + k) = extended x (((0 : ℕ) : ℤ) + k) := by
      rw [add_comm, extended_period]
      simp
    rw [h3] at h2
    have h4 := add_right_cancel h2
    rw [h4]
    refine Finset.sum_congr rfl fun i _ => ?_
    congr 1
    push_cast
    ring
  induction k using Int.induction_on with
  | zero => simp
  | succ k ih => rw [step, ih]
  | pred k ih => rw [← ih, ← step (-(k : ℤ) - 1)]; congr 1; funext i; congr 1; ring

theorem window_pair (hx : 0 < x.length) (k : ℤ) : windowAt x k + windowAt x (-k) = 2 * windowAt x 0 := by
  have key : ∀ k, windowAt x k + windowAt x (-k) =
      ∑ i ∈ Finset.range (2 * x.length), extended x ((i : ℤ) + k) := by
    intro k
    rw [two_mul, Finset.sum_range_add]
    unfold windowAt
    congr 1
    rw [← Finset.sum_range_reflect]
    refine Finset.sum_congr rfl fun i hi => ?_
    have hi := Finset.mem_range.1 hi
    rw [← extended_mirror x hx, ← extended_period]
    congr 1
    push_cast
    have : ((x.length - 1 - i : ℕ) : ℤ) = x.length - 1 - i := by omega
    rw [this]
    ring
  have h0 := key 0
  rw [neg_zero] at h0
  rw [key k, period_sum, two_mul (windowAt x 0), h0]
  simp

theorem smooth_conserves (hx : 0 < x.length) (w : ℤ → ℝ) (hw : ∀ k, w (-k) = w k) (r : ℤ) :
    ∑ i ∈ Finset.range x.length, ∑ k ∈ Finset.Icc (-r) r, w k * extended x ((i : ℤ) + k) =
      (∑ k ∈ Finset.Icc (-r) r, w k) * ∑ i ∈ Finset.range x.length, x.getD i 0 := by
  rw [Finset.sum_comm]
  simp only [← Finset.mul_sum]
  have e0 : windowAt x 0 = ∑ i ∈ Finset.range x.length, x.getD i 0 := by
    unfold windowAt
    refine Finset.sum_congr rfl fun i hi => ?_
    rw [add_zero, extended_at x i (Finset.mem_range.1 hi)]
  rw [← e0]
  have e1 : ∑ k ∈ Finset.Icc (-r) r, w k * windowAt x k = ∑ k ∈ Finset.Icc (-r) r, w k * windowAt x (-k) := by
    refine Finset.sum_nbij' (fun k => -k) (fun k => -k) ?_ ?_ ?_ ?_ ?_
    · intro k hk; rw [Finset.mem_Icc] at *; omega
    · intro k hk; rw [Finset.mem_Icc] at *; omega
    · intro k _; simp
    · intro k _; simp
    · intro k _; rw [hw, neg_neg]
  have e2 : ∑ k ∈ Finset.Icc (-r) r, w k * windowAt x k + ∑ k ∈ Finset.Icc (-r) r, w k * windowAt x (-k) =
      2 * ((∑ k ∈ Finset.Icc (-r) r, w k) * windowAt x 0) := by
    rw [← Finset.sum_add_distrib, Finset.sum_mul, Finset.mul_sum]
    refine Finset.sum_congr rfl fun k _ => ?_
    rw [← mul_add, window_pair x hx]
    ring
  change ∑ k ∈ Finset.Icc (-r) r, w k * windowAt x k = _
  linarith

end Reflect

theorem gaussTotal_pos {sigma : ℚ} (h : 0 ≤ sigma) :
    0 < ∑ k ∈ Finset.Icc (-truncZ (4 * sigma + 1 / 2)) (truncZ (4 * sigma + 1 / 2)), gaussWeight sigma k := by
  have : 0 ≤ truncZ (4 * sigma + 1 / 2) := by
    rw [truncZ_of_nonneg (by linarith)]
    exact Int.floor_nonneg.2 (by linarith)
  exact Finset.sum_pos (fun k _ => Real.exp_pos _) ⟨0, Finset.mem_Icc.2 (by omega)⟩

/-- **C74.** The smoothing keeps the sum: no level is lost or gained, not even at the ends of the axis. -/
theorem C74_smooth_total (x : List ℝ) (sigma : ℚ) (h : 0 ≤ sigma) : (gaussFilter x sigma).sum = x.sum := by
  rcases Nat.eq_zero_or_pos x.length with h0 | hx
  · rw [List.length_eq_zero_iff.1 h0]
    rfl
  have ht := gaussTotal_pos h
  set r := truncZ (4 * sigma + 1 / 2) with hr
  set total := ∑ k ∈ Finset.Icc (-r) r, gaussWeight sigma k with htot
  have key := smooth_conserves x hx (fun k => gaussWeight sigma k / total)
    (fun k => by simp [gaussWeight]) r
  have e1 : ∑ k ∈ Finset.Icc (-r) r, gaussWeight sigma k / total = 1 := by
    rw [← Finset.sum_div]
    exact div_self ht.ne'
  have e2 : ∀ l : List ℝ, l.sum = ∑ i ∈ Finset.range l.length, l.getD i 0 := by
    intro l
    induction l with
    | nil => simp
    | cons a l ih => rw [List.sum_cons, List.length_cons, Finset.sum_range_succ', ih]; simp [add_comm]
  rw [e1, one_mul, ← e2 x] at key
  rw [← key]
  unfold gaussFilter
  rw [← hr]
  dsimp only
  rw [← htot, e2]
  simp only [List.length_map, List.length_range]
  refine Finset.sum_congr rfl fun i hi => ?_
  rw [List.getD_eq_getElem _ 0 (by simpa using hi), List.getElem_map, List.getElem_range]
  rfl

/-- **C74.** The smoothed values stay between any bounds of the values; constants are kept. -/
theorem C74_smooth_bounds (x : List ℝ) (sigma : ℚ) (h : 0 ≤ sigma) (lo hi : ℝ) (hb : ∀ y ∈ x, lo ≤ y ∧ y ≤ hi) :
    (gaussFilter x sigma).length = x.length ∧ ∀ y ∈ gaussFilter x sigma, lo ≤ y ∧ y ≤ hi := by
  refine ⟨by simp [gaussFilter], ?_⟩
  intro y hy
  have ht := gaussTotal_pos h
  unfold gaussFilter at hy
  dsimp only at hy
  set r := truncZ (4 * sigma + 1 / 2) with hr
  set total := ∑ k ∈ Finset.Icc (-r) r, gaussWeight sigma k with htot
  obtain ⟨i, hi', rfl⟩ := List.mem_map.1 hy
  rw [List.mem_range] at hi'
  have hx : 0 < x.length := by omega
  have hidx : ∀ j : ℤ, lo ≤ x.getD (reflectIdx x.length j) 0 ∧ x.getD (reflectIdx x.length j) 0 ≤ hi := by
    intro j
    have : reflectIdx x.length j < x.length := by
      unfold reflectIdx
      have h0 : (0 : ℤ) ≤ j % (2 * x.length : ℕ) := Int.emod_nonneg _ (by omega)
      have h1 : j % (2 * x.length : ℕ) < (2 * x.length : ℕ) := Int.emod_lt_of_pos _ (by omega)
      dsimp only
      split_ifs <;> omega
    rw [List.getD_eq_getElem _ 0 this]
    exact hb _ (List.getElem_mem _)
  have e1 : ∑ k ∈ Finset.Icc (-r) r, gaussWeight sigma k / total = 1 := by
    rw [← Finset.sum_div]
    exact div_self ht.ne'
  have hw : ∀ k, 0 ≤ gaussWeight sigma k / total := fun k => div_nonneg (Real.exp_pos _).le ht.le
  constructor
  · calc lo = ∑ k ∈ Finset.Icc (-r) r, gaussWeight sigma k / total * lo := by rw [← Finset.sum_mul, e1, one_mul]
      _ ≤ _ := Finset.sum_le_sum fun k _ => mul_le_mul_of_nonneg_left (hidx _).1 (hw k)
  · calc _ ≤ ∑ k ∈ Finset.Icc (-r) r, gaussWeight sigma k / total * hi :=
          Finset.sum_le_sum fun k _ => mul_le_mul_of_nonneg_left (hidx _).2 (hw k)
      _ = hi := by rw [← Finset.sum_mul, e1, one_mul]

/-! ### The whole function -/

/-- The levels of a file in MeV. -/
def levelsOf (rows : List (List ℚ)) : List ℚ := rows.flatten.map fun x => x / 1000

theorem loadLevels_flat {rows : List (List ℚ)} {f : List ℚ × Option ℕ} (h : loadLevels rows = .ok f) :
    f.1 = rows.flatten := by
  unfold loadLevels at h
  cases rows with
  | nil => simp at h; rw [← h]; rfl
  | cons r rs =>
    dsimp only at h
    split_ifs at h
    split at h
    · injection h with h; rw [← h]; rfl
    · injection h with h; rw [← h]; simp
    · injection h with h; rw [← h]

theorem loadDiscrete_ok {rows : List (List ℚ)} {energy : List ℚ} {res : ℚ} {r : List ℚ × Option (List ℝ)}
    (h : loadDiscrete rows energy res = .ok r) :
    ∃ e0 e1 es hist, energy = e0 :: e1 :: es ∧ e1 - e0 ≠ 0 ∧
      npHistogram (levelsOf rows) (binEdges energy (e1 - e0)) = .ok hist ∧
      r.1 = hist.map (fun c : ℤ => (c : ℚ) / (e1 - e0)) ∧
      r.2 = if 0 < res then some (gaussFilter (r.1.map fun q : ℚ => (q : ℝ)) (res / (23548 / 10000) / (e1 - e0)))
        else none := by
  unfold loadDiscrete at h
  simp only [bind, Except.bind] at h
  cases hf : loadLevels rows with
  | error e => rw [hf] at h; simp at h
  | ok f =>
  rw [hf] at h
  dsimp only at h
  rw [loadLevels_flat hf] at h
  cases hl : f.2 with
  | none => rw [hl] at h; simp at h
  | some len =>
  rw [hl] at h
  dsimp only at h
  by_cases hm : 1 < len ∧ ¬ (rows.flatten.map fun x : ℚ => x / 1000).sum /
      ((rows.flatten.map fun x : ℚ => x / 1000).length : ℚ) < 20
  · rw [if_pos hm] at h; simp at h
  rw [if_neg hm] at h
  split at h
  · rename_i e0 e1 es
    cases hh : npHistogram (rows.flatten.map fun x => x / 1000) (binEdges (e0 :: e1 :: es) (e1 - e0)) with
    | error e => rw [hh] at h; simp at h
    | ok hist =>
    rw [hh] at h
    dsimp only at h
    split_ifs at h with hb hr
    · simp only [pure, Except.pure, Except.ok.injEq] at h
      refine ⟨e0, e1, es, hist, rfl, hb, hh, by rw [← h], ?_⟩
      rw [if_pos hr, ← h]
    · simp only [pure, Except.pure, Except.ok.injEq] at h
      refine ⟨e0, e1, es, hist, rfl, hb, hh, by rw [← h], ?_⟩
      rw [if_neg hr, ← h]
  · simp at h

theorem grid_sorted (a b : ℚ) (n : ℕ) (hb : 0 ≤ b) : (grid a b n).Pairwise (· ≤ ·) := by
  unfold grid
  rw [List.pairwise_map]
  refine List.Pairwise.imp (fun {i j} (h : i < j) => ?_) List.pairwise_lt_range
  have : (i : ℚ) ≤ j := by exact_mod_cast h.le
  have := mul_le_mul_of_nonneg_left this hb
  linarith

/-- **C74.** On an equidistant axis with at least two energies, bin `i` of the result times the width of a bin is the
number of levels less than half a bin away from energy `i`, the lower end included and, in the last bin, also
the upper; the sum times the width is the number of levels on the axis; the smoothed density has the same sum
and no negative value. -/
theorem C74_levels (rows : List (List ℚ)) (a b : ℚ) (n : ℕ) (hb : 0 < b) (res : ℚ)
    (r : List ℚ × Option (List ℝ)) (h : loadDiscrete rows (grid a b n) res = .ok r) :
    r.1.length = n ∧
    (∀ (i : ℕ) (hi : i < r.1.length), r.1[i] * b = if i + 1 = n
      then (inClosed (levelsOf rows) (a + b * i - b / 2) (a + b * i + b / 2) : ℚ)
      else (inBin (levelsOf rows) (a + b * i - b / 2) (a + b * i + b / 2) : ℚ)) ∧
    r.1.sum * b = inClosed (levelsOf rows) (a - b / 2) (a + b * (n - 1) + b / 2) ∧
    (res ≤ 0 → r.2 = none) ∧
    (0 < res → ∃ s, r.2 = some s ∧ s.length = n ∧ (∀ y ∈ s, 0 ≤ y) ∧
      s.sum * b = inClosed (levelsOf rows) (a - b / 2) (a + b * (n - 1) + b / 2)) := by
  obtain ⟨e0, e1, es, hist, hE, hb', hh, hr1, hr2⟩ := loadDiscrete_ok h
  have hn : 2 ≤ n := by
    have := congrArg List.length hE
    simp [grid] at this
    omega
  have h0 : e0 = a := by
    have h0 := congrArg (fun l => l.getD 0 0) hE
    rw [grid_getD a b (by omega)] at h0
    simpa using h0.symm
  have h1 : e1 = a + b := by
    have h1 := congrArg (fun l => l.getD 1 0) hE
    rw [grid_getD a b (by omega)] at h1
    simpa using h1.symm
  have hw : e1 - e0 = b := by rw [h0, h1]; ring
  rw [hw] at hh hr1 hr2
  rw [binEdges_grid a b n (by omega)] at hh
  have hgl : (grid (a - b / 2) b (n + 1)).length = n + 1 := by simp [grid]
  obtain ⟨q1, q2⟩ := npHistogram_spec _ _ (by omega) _ hh
  have q3 := hist_total _ _ (by omega) _ hh (grid_sorted _ _ _ hb.le)
  have hl : r.1.length = n := by
    rw [hr1, List.length_map]
    omega
  have hge : ∀ (k : ℕ) (hk : k < (grid (a - b / 2) b (n + 1)).length),
      (grid (a - b / 2) b (n + 1))[k] = a - b / 2 + b * k := by
    intro k hk
    simp [grid]
  have hlast : (grid (a - b / 2) b (n + 1)).getLastD 0 = a + b * (n - 1) + b / 2 := by
    unfold grid
    rw [List.range_succ, List.map_append, List.map_singleton, List.getLastD_eq_getLast?, List.getLast?_concat,
      Option.getD_some]
    ring
  rw [hlast, grid_getD _ _ (by omega)] at q3
  have hsum : r.1.sum * b = inClosed (levelsOf rows) (a - b / 2) (a + b * (n - 1) + b / 2) := by
    have e : r.1.sum = ((hist.sum : ℤ) : ℚ) / b := by
      rw [hr1]
      clear q2 q3 hh hr1 q1
      induction hist with
      | nil => simp
      | cons c hist ih => rw [List.map_cons, List.sum_cons, List.sum_cons, ih]; push_cast; ring
    rw [e, q3, div_mul_cancel₀ _ hb.ne']
    simp
  refine ⟨hl, ?_, hsum, ?_, ?_⟩
  · intro i hi
    have hi' : i < hist.length := by omega
    have := (q2 i hi' (by omega) (by omega)).2
    rw [hge, hge] at this
    have e : r.1[i] * b = ((hist[i] : ℤ) : ℚ) := by
      simp only [hr1, List.getElem_map]
      exact div_mul_cancel₀ _ hb.ne'
    rw [e, this]
    have e1 : a - b / 2 + b * (i : ℚ) = a + b * i - b / 2 := by ring
    have e2 : a - b / 2 + b * ((i + 1 : ℕ) : ℚ) = a + b * i + b / 2 := by push_cast; ring
    rw [e1, e2, hgl]
    split_ifs <;> first | omega | simp
  · intro h0
    rw [hr2, if_neg (not_lt.2 h0)]
  · intro h0
    rw [if_pos h0] at hr2
    have hs : (0 : ℚ) ≤ res / (23548 / 10000) / b := by positivity
    have hpos : ∀ y ∈ r.1, 0 ≤ y := by
      intro y hy
      obtain ⟨i, hi, rfl⟩ := List.getElem_of_mem hy
      have hi' : i < hist.length := by omega
      have := (q2 i hi' (by omega) (by omega)).2
      simp only [hr1, List.getElem_map]
      apply div_nonneg _ hb.le
      rw [this]
      split_ifs <;> positivity
    refine ⟨_, hr2, ?_, ?_, ?_⟩
    · simp [gaussFilter, hl]
    · set x := r.1.map fun q : ℚ => (q : ℝ) with hx
      obtain ⟨M, hM⟩ : ∃ M, ∀ y ∈ x, 0 ≤ y ∧ y ≤ M := by
        refine ⟨x.sum, fun y hy => ?_⟩
        have h0 : ∀ z ∈ x, 0 ≤ z := by
          intro z hz
          obtain ⟨q, hq, rfl⟩ := List.mem_map.1 hz
          exact_mod_cast hpos q hq
        exact ⟨h0 y hy, List.single_le_sum h0 y hy⟩
      exact fun y hy => ((C74_smooth_bounds x _ hs 0 M hM).2 y hy).1
    · rw [C74_smooth_total _ _ hs]
      have : ((r.1.map fun q : ℚ => (q : ℝ)).sum) = ((r.1.sum : ℚ) : ℝ) := by
        induction r.1 with
        | nil => simp
        | cons q l ih => rw [List.map_cons, List.sum_cons, List.sum_cons, ih]; push_cast; ring
      rw [this, ← Rat.cast_mul, hsum]
      simp

/-- Number of rows, or of columns of a single row. -/
def fileLength (rows : List (List ℚ)) : ℕ :=
  match rows with
  | [r] => r.length
  | _ => rows.length

/-- **C74.** When the levels can be loaded on an equidistant axis with at least two energies: all rows are equally
long, the file is not a single number, and the mean energy of two or more levels is less than 20 MeV. -/
theorem C74_accepts (rows : List (List ℚ)) (a b : ℚ) (n : ℕ) (hn : 2 ≤ n) (hb : 0 < b) (res : ℚ) :
    (∃ r, loadDiscrete rows (grid a b n) res = .ok r) ↔
      (∀ r ∈ rows, ∀ r' ∈ rows, r.length = r'.length) ∧ (∀ x, rows ≠ [[x]]) ∧
      (1 < fileLength rows → (levelsOf rows).sum / (levelsOf rows).length < 20) := by
  have hE : ∃ es, grid a b n = a :: (a + b) :: es := by
    obtain ⟨m, rfl⟩ := Nat.exists_eq_add_of_le' hn
    refine ⟨(List.range m).map fun k : ℕ => a + b * ((k + 1 + 1 : ℕ) : ℚ), ?_⟩
    unfold grid
    rw [List.range_succ_eq_map, List.map_cons, List.range_succ_eq_map]
    simp [Function.comp_def]
  have hl : (∀ r ∈ rows, ∀ r' ∈ rows, r.length = r'.length) → (∀ x, rows ≠ [[x]]) →
      loadLevels rows = .ok (rows.flatten, some (fileLength rows)) := by
    intro h1 h2
    unfold loadLevels
    cases rows with
    | nil => rfl
    | cons r rs =>
      dsimp only
      rw [if_neg]
      · cases rs with
        | nil =>
          rcases r with _ | ⟨x, _ | ⟨y, r⟩⟩
          · rfl
          · exact absurd rfl (h2 x)
          · simp [fileLength]
        | cons r' rs => rfl
      · simp only [List.any_eq_true, decide_eq_true_eq, not_exists, not_and, not_not]
        exact fun r' hr' => h1 r' (List.mem_cons_of_mem _ hr') r List.mem_cons_self
  constructor
  · rintro ⟨r, h⟩
    have h1 : ∀ r ∈ rows, ∀ r' ∈ rows, r.length = r'.length := by
      by_contra hc
      have : loadLevels rows = .error .valueError := by
        unfold loadLevels
        cases rows with
        | nil => simp at hc
        | cons r0 rs =>
          dsimp only
          rw [if_pos]
          by_contra hall
          simp only [List.any_eq_true, decide_eq_true_eq, not_exists, not_and, not_not] at hall
          apply hc
          have : ∀ r ∈ r0 :: rs, r.length = r0.length := by
            intro r hr
            rcases List.mem_cons.1 hr with rfl | hr
            · rfl
            · exact hall r hr
          intro r hr r' hr'
          rw [this r hr, this r' hr']
      unfold loadDiscrete at h
      rw [this] at h
      simp [bind, Except.bind] at h
    have h2 : ∀ x, rows ≠ [[x]] := by
      rintro x rfl
      simp [loadDiscrete, loadLevels, bind, Except.bind] at h
    refine ⟨h1, h2, fun h3 => ?_⟩
    by_contra hc
    unfold loadDiscrete at h
    rw [hl h1 h2] at h
    simp only [bind, Except.bind] at h
    rw [if_pos ⟨h3, hc⟩] at h
    simp at h
  · rintro ⟨h1, h2, h3⟩
    obtain ⟨es, hE⟩ := hE
    have hh : ∃ hist, npHistogram (levelsOf rows) (binEdges (grid a b n) b) = .ok hist := by
      unfold npHistogram
      rw [if_neg]
      · exact ⟨_, rfl⟩
      · rw [binEdges_grid a b n (by omega)]
        simp only [List.any_eq_true, decide_eq_true_eq, not_exists, not_and, not_lt]
        intro p hp
        obtain ⟨i, hi, rfl⟩ := List.getElem_of_mem hp
        rw [List.getElem_zip, List.getElem_tail]
        simp only [grid, List.getElem_map, List.getElem_range]
        push_cast
        linarith
    obtain ⟨hist, hh⟩ := hh
    have hw : a + b - a = b := by ring
    unfold loadDiscrete
    rw [hl h1 h2]
    simp only [bind, Except.bind]
    rw [if_neg (fun h => h.2 (h3 h.1))]
    rw [hE]
    dsimp only
    rw [← hE, hw]
    have hh' := hh
    unfold levelsOf at hh'
    rw [hh']
    dsimp only
    rw [if_neg hb.ne']
    by_cases hr : 0 < res
    · rw [if_pos hr]; exact ⟨_, rfl⟩
    · rw [if_neg hr]; exact ⟨_, rfl⟩

/-- The hypotheses of C74 are met: three levels, at 0, 100 and 120 keV. -/
example : ∃ r, loadDiscrete [[0], [100], [120]] (grid 0 (1 / 10) 3) (1 / 10) = .ok r :=
  (C74_accepts _ 0 (1 / 10) 3 (by norm_num) (by norm_num) _).2
    ⟨by simp, by simp, by intro _; simp [levelsOf]; norm_num⟩

/-- **C74 fails** for a nucleus with one known level: a file with a single number cannot be loaded. -/
theorem C74_single_fails (x : ℚ) (energy : List ℚ) (res : ℚ) :
    loadDiscrete [[x]] energy res = .error .typeError := by
  simp [loadDiscrete, loadLevels, bind, Except.bind]

/-- **C74.** What is refused: fewer than two energies with `IndexError`, descending energies with `ValueError`, a mean
of 20 MeV or more with `AssertionError`. -/
theorem C74_refuses (rows : List (List ℚ)) (res : ℚ) (f : List ℚ × Option ℕ) (len : ℕ)
    (hf : loadLevels rows = .ok f) (hl : f.2 = some len) :
    (∀ energy, 1 < len → 20 ≤ (levelsOf rows).sum / (levelsOf rows).length →
      loadDiscrete rows energy res = .error .assertion) ∧
    (∀ energy, energy.length ≤ 1 → len ≤ 1 → loadDiscrete rows energy res = .error .indexError) ∧
    (∀ e0 e1 es, e1 < e0 → len ≤ 1 → loadDiscrete rows (e0 :: e1 :: es) res = .error .valueError) := by
  have hfl := loadLevels_flat hf
  refine ⟨?_, ?_, ?_⟩
  · intro energy h1 h2
    unfold loadDiscrete
    rw [hf]
    simp only [bind, Except.bind]
    rw [hl, hfl]
    dsimp only
    rw [if_pos ⟨h1, not_lt.2 h2⟩]
  · intro energy h1 h2
    unfold loadDiscrete
    rw [hf]
    simp only [bind, Except.bind]
    rw [hl]
    dsimp only
    rw [if_neg (by omega)]
    rcases energy with _ | ⟨e, _ | ⟨e', es⟩⟩
    · rfl
    · rfl
    · simp at h1
  · intro e0 e1 es h1 h2
    unfold loadDiscrete
    rw [hf]
    simp only [bind, Except.bind]
    rw [hl]
    dsimp only
    rw [if_neg (by omega)]
    have : npHistogram (f.1.map fun x => x / 1000) (binEdges (e0 :: e1 :: es) (e1 - e0)) = .error .valueError := by
      unfold npHistogram
      rw [if_pos]
      simp only [binEdges, List.cons_append, List.map_cons, List.tail_cons, List.zip_cons_cons, List.any_cons,
        Bool.or_eq_true, decide_eq_true_eq]
      left
      linarith
    rw [this]

/-- **C74.** Without smoothing both functions of the normaliser give the histogram. -/
theorem C74_functions (rows : List (List ℚ)) (energy : List ℚ) (res : ℚ) (h : res ≤ 0) :
    levelsSmooth rows energy res = levelsDiscrete rows energy := by
  have key : ∀ r, loadDiscrete rows energy res = .ok r → r.2 = none := by
    intro r hr
    obtain ⟨_, _, _, _, _, _, _, _, h2⟩ := loadDiscrete_ok hr
    rw [h2, if_neg (not_lt.2 h)]
  have same : (loadDiscrete rows energy res).map (·.1) = (loadDiscrete rows energy (1 / 10)).map (·.1) := by
    unfold loadDiscrete
    cases loadLevels rows with
    | error e => rfl
    | ok f =>
      simp only [bind, Except.bind]
      cases f.2 with
      | none => rfl
      | some len =>
        dsimp only
        by_cases hm : 1 < len ∧ ¬ (f.1.map fun x : ℚ => x / 1000).sum /
            ((f.1.map fun x : ℚ => x / 1000).length : ℚ) < 20
        · rw [if_pos hm, if_pos hm]
        · rw [if_neg hm, if_neg hm]
          split
          · cases npHistogram (f.1.map fun x => x / 1000) (binEdges _ _) with
            | error e => rfl
            | ok hist =>
              dsimp only
              split_ifs <;> rfl
          · rfl
  unfold levelsSmooth levelsDiscrete
  cases h1 : loadDiscrete rows energy res with
  | error e =>
    rw [h1] at same
    cases h2 : loadDiscrete rows energy (1 / 10) with
    | error e' => rw [h2] at same; simp [Except.map] at same; subst same; rfl
    | ok r => rw [h2] at same; simp [Except.map] at same
  | ok r =>
    rw [h1] at same
    cases h2 : loadDiscrete rows energy (1 / 10) with
    | error e' => rw [h2] at same; simp [Except.map] at same
    | ok r' =>
      rw [h2] at same
      simp only [Except.map, Except.ok.injEq] at same
      simp only [bind, Except.bind]
      rw [key r h1, same]

end Ompy
