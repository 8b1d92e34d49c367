import Verif.Response
import Verif.SmoothingProps
import Verif.VectorProps
import Verif.RhoSigChiFitProps
import Verif.IndexProps

/-!
# Discrete peaks and probabilities of the response (C43)
-/

namespace Ompy

/-! ## Splitting a peak -/

theorem grid_two (a w : ℚ) {n : ℕ} (hn : 2 ≤ n) :
    grid a w n = a :: (a + w) :: (grid a w n).drop 2 := by
  obtain ⟨k, rfl⟩ : ∃ k, n = k + 2 := ⟨n - 2, by omega⟩
  simp [grid, List.range_succ_eq_map]

/-- C43: a peak between the first and the last mid-point of an equidistant axis is split between two
neighbouring existing channels, with shares between 0 and 1 whose centroid is the energy. -/
theorem C43_split (a w E : ℚ) (n : ℕ) (hn : 2 ≤ n) (hw : 0 < w) (h1 : a ≤ E)
    (h2 : E ≤ a + w * ((n : ℚ) - 1)) :
    ∃ i j d, twoChannelSplit E (grid a w n) = .ok (i, j, d) ∧ 0 ≤ i ∧ i ≤ j ∧ j ≤ i + 1 ∧
      j < n ∧ 0 ≤ d ∧ d < 1 ∧ (1 - d) * (a + w * i) + d * (a + w * j) = E := by
  set b := (E - a) / w with hb
  have hE : E = a + w * b := by rw [hb]; field_simp; ring
  have b0 : 0 ≤ b := div_nonneg (by linarith) hw.le
  have bn : b ≤ (n : ℚ) - 1 := by
    rw [hb, div_le_iff₀ hw]; linarith
  refine ⟨⌊b⌋, ⌈b⌉, b - ⌊b⌋, ?_, Int.floor_nonneg.2 b0, Int.floor_le_ceil b,
    Int.ceil_le_floor_add_one b, ?_, ?_, ?_, ?_⟩
  · rw [grid_two a w hn]
    unfold twoChannelSplit
    simp only [add_sub_cancel_left]
    rw [if_neg hw.ne', ← hb]
  · have : ⌈b⌉ ≤ (n : ℤ) - 1 := Int.ceil_le.2 (by push_cast; exact bn)
    omega
  · linarith [Int.floor_le b]
  · linarith [Int.lt_floor_add_one b]
  · have hc : ⌈b⌉ = ⌊b⌋ ∨ ⌈b⌉ = ⌊b⌋ + 1 := by
      have h1 := Int.floor_le_ceil b
      have h2 := Int.ceil_le_floor_add_one b
      omega
    rcases hc with hc | hc
    · have hbe : b = ⌊b⌋ := by
        have h1 := Int.le_ceil b
        have h2 := Int.floor_le b
        rw [hc] at h1
        linarith
      rw [hc, hE]
      rw [show b - (⌊b⌋ : ℚ) = 0 by linarith]
      rw [← hbe]
      ring
    · rw [hc, hE]
      push_cast
      ring

example : twoChannelSplit (23/2) (grid 0 5 4) = .ok (2, 3, 3/10) := by decide +kernel

theorem npIndex_in {n : ℕ} {i : ℤ} (h0 : 0 ≤ i) (h1 : i < n) : npIndex n i = .ok i.toNat := by
  unfold npIndex
  rw [if_neg (by omega), if_neg (by omega)]

/-- The first moment of a spectrum on an axis. -/
def moment (E l : List ℚ) : ℚ := ∑ i ∈ Finset.range l.length, E.getD i 0 * l.getD i 0

theorem getD_set_if (l : List ℚ) (i k : ℕ) (x : ℚ) (hi : i < l.length) :
    (l.set i x).getD k 0 = if k = i then x else l.getD k 0 := by
  rw [List.getD_eq_getElem?_getD, List.getD_eq_getElem?_getD, List.getElem?_set]
  by_cases h : i = k
  · subst h; simp [hi]
  · rw [if_neg h, if_neg (fun h' => h h'.symm)]

theorem sum_set_add (l : List ℚ) (f : ℕ → ℚ) (i : ℕ) (x : ℚ) (hi : i < l.length) :
    ∑ k ∈ Finset.range (l.set i (l.getD i 0 + x)).length, f k * (l.set i (l.getD i 0 + x)).getD k 0 =
      ∑ k ∈ Finset.range l.length, f k * l.getD k 0 + f i * x := by
  rw [List.length_set]
  have : ∀ k ∈ Finset.range l.length, f k * (l.set i (l.getD i 0 + x)).getD k 0 =
      f k * l.getD k 0 + if k = i then f i * x else 0 := by
    intro k _
    rw [getD_set_if _ _ _ _ hi]
    split_ifs with h
    · subst h; ring
    · ring
  rw [Finset.sum_congr rfl this, Finset.sum_add_distrib, Finset.sum_ite_eq']
  rw [if_pos (Finset.mem_range.2 hi)]

/-- What adding a peak of content `p` at energy `E` does to a spectrum. -/
theorem addPeak_grid (l : List ℚ) (a w E p : ℚ) (n : ℕ) (hn : 2 ≤ n) (hw : 0 < w) (h1 : a ≤ E)
    (h2 : E ≤ a + w * ((n : ℚ) - 1)) (hl : l.length = n) :
    ∃ l', addPeak l (grid a w n) E p = .ok l' ∧ l'.length = n ∧ l'.sum = l.sum + p ∧
      moment (grid a w n) l' = moment (grid a w n) l + E * p ∧
      (0 ≤ p → (∀ k, 0 ≤ l.getD k 0) → ∀ k, 0 ≤ l'.getD k 0) := by
  obtain ⟨i, j, d, hs, hi0, hij, hji, hjn, d0, d1, hc⟩ := C43_split a w E n hn hw h1 h2
  have hin : i.toNat < l.length := by omega
  set l1 := l.set i.toNat (l.getD i.toNat 0 + (1 - d) * p) with hl1
  have hl1n : l1.length = n := by rw [hl1, List.length_set, hl]
  have hjn1 : j.toNat < l1.length := by omega
  refine ⟨l1.set j.toNat (l1.getD j.toNat 0 + d * p), ?_, by rw [List.length_set, hl1n], ?_, ?_, ?_⟩
  · unfold addPeak
    rw [hs]
    simp only [bind, Except.bind, addAtZ, pure, Except.pure]
    rw [npIndex_in hi0 (by omega)]
    simp only
    rw [← hl1, npIndex_in (by omega) (by omega)]
  · have e1 := sum_set_add l (fun _ => 1) i.toNat ((1 - d) * p) hin
    have e2 := sum_set_add l1 (fun _ => 1) j.toNat (d * p) hjn1
    rw [← hl1] at e1
    simp only [one_mul] at e1 e2
    rw [list_sum_eq_range, list_sum_eq_range l, e2, e1]
    ring
  · have e1 := sum_set_add l (fun k => (grid a w n).getD k 0) i.toNat ((1 - d) * p) hin
    have e2 := sum_set_add l1 (fun k => (grid a w n).getD k 0) j.toNat (d * p) hjn1
    rw [← hl1] at e1
    unfold moment
    rw [e2, e1, grid_getD _ _ (by omega), grid_getD _ _ (by omega)]
    have ci : ((i.toNat : ℕ) : ℚ) = (i : ℚ) := by
      have : (i.toNat : ℤ) = i := Int.toNat_of_nonneg hi0
      exact_mod_cast this
    have cj : ((j.toNat : ℕ) : ℚ) = (j : ℚ) := by
      have : (j.toNat : ℤ) = j := Int.toNat_of_nonneg (by omega)
      exact_mod_cast this
    rw [ci, cj, ← hc]
    ring
  · intro hp hnn k
    have s1 : ∀ k, 0 ≤ l1.getD k 0 := by
      intro k
      rw [hl1, getD_set_if _ _ _ _ hin]
      split_ifs
      · have := hnn i.toNat
        have : 0 ≤ (1 - d) * p := mul_nonneg (by linarith) hp
        linarith [hnn i.toNat]
      · exact hnn k
    rw [getD_set_if _ _ _ _ hjn1]
    split_ifs
    · have : 0 ≤ d * p := mul_nonneg d0 hp
      linarith [s1 j.toNat]
    · exact s1 k

/-- Indicator of a condition as a number. -/
def ind (c : Prop) [Decidable c] : ℚ := if c then 1 else 0

/-- C43: the discrete peaks of every channel of an equidistant axis: no index error, the content is
that of the full-energy peak and of those other peaks whose energy is on the axis, and the centroids
are at `E`, `E - 511`, `E - 1022` and `511`; non-negative probabilities give non-negative entries. -/
theorem C43_peaks (pFE pSE pDE p511 a w : ℚ) (n i : ℕ) (hn : 2 ≤ n) (hw : 0 < w) (hi : i < n) :
    let E := a + w * i
    let cSE := ind (0 ≤ E - 511 ∧ a ≤ E - 511)
    let cDE := ind (0 ≤ E - 1022 ∧ a ≤ E - 1022)
    let c511 := ind (511 < E ∧ a ≤ 511)
    ∃ l, discretePeaks pFE pSE pDE p511 (grid a w n) i = .ok l ∧ l.length = n ∧
      l.sum = pFE + cSE * pSE + cDE * pDE + c511 * p511 ∧
      moment (grid a w n) l = E * pFE + (E - 511) * (cSE * pSE) + (E - 1022) * (cDE * pDE)
        + 511 * (c511 * p511) ∧
      (0 ≤ pFE → 0 ≤ pSE → 0 ≤ pDE → 0 ≤ p511 → ∀ k, 0 ≤ l.getD k 0) := by
  intro E cSE cDE c511
  have hin : (i : ℚ) ≤ (n : ℚ) - 1 := by
    have : (i : ℚ) + 1 ≤ n := by exact_mod_cast hi
    linarith
  have hEn : E ≤ a + w * ((n : ℚ) - 1) := by
    have := mul_le_mul_of_nonneg_left hin hw.le
    simp only [E]
    linarith
  -- one optional peak
  have step : ∀ (c : Prop) [Decidable c] (l : List ℚ) (e p : ℚ), l.length = n →
      (c → a ≤ e ∧ e ≤ a + w * ((n : ℚ) - 1)) →
      ∃ l', optPeak c l (grid a w n) e p = .ok l' ∧ l'.length = n ∧
        l'.sum = l.sum + ind c * p ∧
        moment (grid a w n) l' = moment (grid a w n) l + e * (ind c * p) ∧
        (0 ≤ p → (∀ k, 0 ≤ l.getD k 0) → ∀ k, 0 ≤ l'.getD k 0) := by
    intro c _ l e p hl hc
    unfold optPeak
    by_cases h : c
    · rw [if_pos h]
      obtain ⟨l', q1, q2, q3, q4, q5⟩ := addPeak_grid l a w e p n hn hw (hc h).1 (hc h).2 hl
      refine ⟨l', q1, q2, ?_, ?_, q5⟩
      · rw [q3, ind, if_pos h, one_mul]
      · rw [q4, ind, if_pos h, one_mul]
    · rw [if_neg h]
      refine ⟨l, rfl, hl, ?_, ?_, fun _ h => h⟩
      · rw [ind, if_neg h]; ring
      · rw [ind, if_neg h]; ring
  set l0 := (List.replicate n (0 : ℚ)).set i pFE with hl0
  have hl0n : l0.length = n := by simp [hl0]
  have hz : l0 = (List.replicate n (0 : ℚ)).set i ((List.replicate n (0 : ℚ)).getD i 0 + pFE) := by
    rw [hl0]
    congr 1
    rw [List.getD_eq_getElem _ _ (by simpa using hi)]
    simp
  have hrep : ∀ k, (List.replicate n (0 : ℚ)).getD k 0 = 0 := by
    intro k
    by_cases hk : k < n
    · rw [List.getD_eq_getElem _ _ (by simpa using hk)]; simp
    · rw [List.getD_eq_default _ _ (by simpa using hk)]
  have hi' : i < (List.replicate n (0 : ℚ)).length := by simpa using hi
  have h0s : l0.sum = pFE := by
    have e1 := sum_set_add (List.replicate n (0 : ℚ)) (fun _ => 1) i pFE hi'
    rw [← hz] at e1
    simp only [one_mul] at e1
    rw [list_sum_eq_range, e1]
    simp
  have h0m : moment (grid a w n) l0 = E * pFE := by
    have e1 := sum_set_add (List.replicate n (0 : ℚ)) (fun k => (grid a w n).getD k 0) i pFE hi'
    rw [← hz] at e1
    unfold moment
    rw [e1]
    simp only [hrep, mul_zero, Finset.sum_const_zero, zero_add]
    rw [grid_getD _ _ hi]
  obtain ⟨l1, q1, n1, s1, m1, p1⟩ := step (0 ≤ E - 511 ∧ a ≤ E - 511) l0 (E - 511) pSE hl0n
    (fun h => ⟨h.2, by linarith⟩)
  obtain ⟨l2, q2, n2, s2, m2, p2⟩ := step (0 ≤ E - 1022 ∧ a ≤ E - 1022) l1 (E - 1022) pDE n1
    (fun h => ⟨h.2, by linarith⟩)
  obtain ⟨l3, q3, n3, s3, m3, p3⟩ := step (511 < E ∧ a ≤ 511) l2 511 p511 n2
    (fun h => ⟨h.2, by linarith [h.1]⟩)
  refine ⟨l3, ?_, n3, ?_, ?_, ?_⟩
  · unfold discretePeaks
    rw [if_neg (by rw [grid_length]; omega), grid_length, grid_getD _ _ (show 0 < n by omega),
      grid_getD _ _ hi]
    simp only [Nat.cast_zero, mul_zero, add_zero, bind, Except.bind]
    have e2 : a + w * (i : ℚ) - 2 * 511 = E - 1022 := by simp only [E]; ring
    rw [e2]
    have q1' : optPeak (0 ≤ a + w * (i : ℚ) - 511 ∧ a ≤ a + w * (i : ℚ) - 511)
        ((List.replicate n 0).set i pFE) (grid a w n) (a + w * (i : ℚ) - 511) pSE = .ok l1 := q1
    rw [q1']
    simp only
    rw [q2]
    exact q3
  · rw [s3, s2, s1, h0s]
  · rw [m3, m2, m1, h0m]
  · intro f1 f2 f3 f4
    apply p3 f4
    apply p2 f3
    apply p1 f2
    intro k
    rw [hl0, getD_set_if _ _ _ _ hi', hrep]
    split_ifs
    · exact f1
    · exact le_rfl

/-- Content and first moment of a sample with all four peaks. -/
example : (discretePeaks (1/2) (1/4) (1/8) (1/8) (grid 0 500 4) 3).map
    (fun l => (l.sum, moment (grid 0 500 4) l)) =
    .ok (1, 1500 * (1/2) + 989 * (1/4) + 478 * (1/8) + 511 * (1/8)) := by decide +kernel

/-! ## Probabilities -/

/-- Inside the table, linear interpolation is the same convex combination for every column. -/
theorem interpLin_between (xs : List ℚ) (hs : xs.Pairwise (· < ·)) (hn : 2 ≤ xs.length) (x : ℚ)
    (h0 : xs.getD 0 0 ≤ x) (h1 : x ≤ xs.getD (xs.length - 1) 0) :
    ∃ k t, k + 1 < xs.length ∧ 0 ≤ t ∧ t ≤ 1 ∧
      x = (1 - t) * xs.getD k 0 + t * xs.getD (k + 1) 0 ∧
      ∀ ys, interpLin xs ys x = (1 - t) * ys k + t * ys (k + 1) := by
  have hs' : xs.Pairwise (· ≤ ·) := hs.imp fun h => h.le
  set m := searchsorted xs x false with hm
  have hss := searchsorted_left xs hs' x
  rw [← hm] at hss
  set hi := max 1 (min m (xs.length - 1)) with hhi
  have hi1 : 1 ≤ hi := le_max_left _ _
  have hi2 : hi ≤ xs.length - 1 := max_le (by omega) (min_le_right _ _)
  have hlo : xs.getD (hi - 1) 0 ≤ x := by
    by_cases hm0 : m = 0
    · have : hi = 1 := by rw [hhi, hm0]; simp
      rw [this]; exact h0
    · have : hi - 1 < m := by
        rw [hhi]
        omega
      exact ((hss (hi - 1) (by omega)).2 this).le
  have hhi' : x ≤ xs.getD hi 0 := by
    by_cases hb : hi = xs.length - 1
    · rw [hb]; exact h1
    · have : ¬ hi < m := by
        intro hc
        rw [hhi] at hb hc
        omega
      rw [← hss hi (by omega)] at this
      exact not_lt.1 this
  have hlt : xs.getD (hi - 1) 0 < xs.getD hi 0 := by
    rw [List.getD_eq_getElem _ _ (by omega), List.getD_eq_getElem _ _ (by omega)]
    exact List.pairwise_iff_getElem.1 hs _ _ _ _ (by omega)
  have hd : 0 < xs.getD hi 0 - xs.getD (hi - 1) 0 := by linarith
  refine ⟨hi - 1, (x - xs.getD (hi - 1) 0) / (xs.getD hi 0 - xs.getD (hi - 1) 0), by omega,
    div_nonneg (by linarith) hd.le, by rw [div_le_one hd]; linarith, ?_, ?_⟩
  · rw [Nat.sub_add_cancel hi1]
    field_simp
    ring
  · intro ys
    unfold interpLin
    simp only
    rw [← hm, ← hhi, Nat.sub_add_cancel hi1]
    field_simp
    ring

/-- C43: each row of the table splits into probabilities: they are non-negative and add up to one (or
are all 0 for an empty row). -/
theorem C43_table (d : RespData) (i : ℕ) (hc : ∀ x ∈ d.compton.getD i [], 0 ≤ x)
    (h1 : 0 ≤ d.FE.getD i 0) (h2 : 0 ≤ d.SE.getD i 0) (h3 : 0 ≤ d.DE.getD i 0)
    (h4 : 0 ≤ d.c511.getD i 0) :
    (0 ≤ d.pcmp i ∧ 0 ≤ d.prob d.FE i ∧ 0 ≤ d.prob d.SE i ∧ 0 ≤ d.prob d.DE i ∧
      0 ≤ d.prob d.c511 i) ∧
    d.pcmp i + d.prob d.FE i + d.prob d.SE i + d.prob d.DE i + d.prob d.c511 i =
      ind (d.sumSpec i ≠ 0) := by
  have hs : 0 ≤ d.sumSpec i := by
    unfold RespData.sumSpec
    have := List.sum_nonneg hc
    linarith
  have dn : ∀ x, 0 ≤ x → 0 ≤ div0 x (d.sumSpec i) := by
    intro x hx
    unfold div0
    split_ifs
    · exact le_rfl
    · exact div_nonneg hx hs
  refine ⟨⟨?_, dn _ h1, dn _ h2, dn _ h3, dn _ h4⟩, ?_⟩
  · apply List.sum_nonneg
    intro x hx
    unfold RespData.cmpRow at hx
    rw [List.mem_map] at hx
    obtain ⟨y, hy, rfl⟩ := hx
    exact dn _ (hc y hy)
  · unfold RespData.pcmp RespData.cmpRow RespData.prob ind div0
    by_cases h0 : d.sumSpec i = 0
    · simp only [h0, if_true, ne_eq, not_true_eq_false, if_false]
      simp
    · simp only [ne_eq, h0, not_false_eq_true, if_true, if_false]
      have hd : ∀ l : List ℚ, (l.map fun x => x / d.sumSpec i).sum = l.sum / d.sumSpec i := by
        intro l
        induction l with
        | nil => simp
        | cons x xs ih => simp only [List.map_cons, List.sum_cons, ih]; ring
      rw [hd, ← add_div, ← add_div, ← add_div, ← add_div]
      exact div_self h0

/-- C43: inside the tabulated energies the interpolated probabilities are non-negative and add up to
one. -/
theorem C43_probabilities_partial (d : RespData) (E : ℚ) (hs : d.Eg.Pairwise (· < ·))
    (hn : 2 ≤ d.Eg.length) (h0 : d.Eg.getD 0 0 ≤ E) (h1 : E ≤ d.Eg.getD (d.Eg.length - 1) 0)
    (hp : ∀ i < d.Eg.length, (∀ x ∈ d.compton.getD i [], 0 ≤ x) ∧ 0 ≤ d.FE.getD i 0 ∧
      0 ≤ d.SE.getD i 0 ∧ 0 ≤ d.DE.getD i 0 ∧ 0 ≤ d.c511.getD i 0 ∧ d.sumSpec i ≠ 0) :
    0 ≤ d.fcmp E ∧ 0 ≤ d.fFE E ∧ 0 ≤ d.fSE E ∧ 0 ≤ d.fDE E ∧ 0 ≤ d.f511 E ∧
      d.fcmp E + d.fFE E + d.fSE E + d.fDE E + d.f511 E = 1 := by
  obtain ⟨k, t, hk, t0, t1, -, hy⟩ := interpLin_between d.Eg hs hn E h0 h1
  have hz : ∀ ys, interpZero d.Eg ys E = interpLin d.Eg ys E := by
    intro ys
    unfold interpZero
    rw [if_neg]
    push Not
    exact ⟨h0, h1⟩
  unfold RespData.fcmp RespData.fFE RespData.fSE RespData.fDE RespData.f511
  simp only [hz, hy]
  obtain ⟨a1, a2, a3, a4, a5, a6⟩ := hp k (by omega)
  obtain ⟨b1, b2, b3, b4, b5, b6⟩ := hp (k + 1) hk
  obtain ⟨⟨c1, c2, c3, c4, c5⟩, c6⟩ := C43_table d k a1 a2 a3 a4 a5
  obtain ⟨⟨e1, e2, e3, e4, e5⟩, e6⟩ := C43_table d (k + 1) b1 b2 b3 b4 b5
  rw [ind, if_pos a6] at c6
  rw [ind, if_pos b6] at e6
  have t1' : 0 ≤ 1 - t := by linarith
  refine ⟨by positivity, by positivity, by positivity, by positivity, by positivity, ?_⟩
  linear_combination (1 - t) * c6 + t * e6

/-- A table with two energies. -/
def respSample : RespData :=
  ⟨[1000, 2000], [1, 9/10], [1, 1], [6, 2], [1, 1], [0, 1], [1, 2], [[1, 1, 0], [2, 1, 1]], [0, 500, 1000]⟩

example : respSample.Eg.Pairwise (· < ·) ∧ respSample.sumSpec 0 ≠ 0 ∧ respSample.sumSpec 1 ≠ 0 ∧
    respSample.fFE 1500 = 2/5 := by decide +kernel

/-- C43: outside the table the continued full-energy probability can become negative, and the others
are cut to 0. -/
theorem C43_probabilities_fails :
    respSample.fFE 3000 < 0 ∧ respSample.fcmp 3000 + respSample.fFE 3000 + respSample.fSE 3000 +
      respSample.fDE 3000 + respSample.f511 3000 ≠ 1 := by decide +kernel

/-! ## Rows of the response -/

theorem clip0_nonneg {K : Type} [Field K] [LinearOrder K] (l : List K) : ∀ x ∈ clip0 l, 0 ≤ x := by
  intro x hx
  unfold clip0 at hx
  rw [List.mem_map] at hx
  obtain ⟨y, _, rfl⟩ := hx
  split_ifs with h
  · exact le_rfl
  · exact not_lt.1 h

theorem clip0_length {K : Type} [Field K] [LinearOrder K] (l : List K) :
    (clip0 l).length = l.length := by simp [clip0]

theorem clip0_of_nonneg {K : Type} [Field K] [LinearOrder K] (l : List K) (h : ∀ x ∈ l, 0 ≤ x) :
    clip0 l = l := by
  unfold clip0
  conv_rhs => rw [← List.map_id l]
  apply List.map_congr_left
  intro x hx
  rw [if_neg (not_lt.2 (h x hx))]
  rfl

theorem zipWith_add_nonneg (l m : List ℝ) (hl : ∀ x ∈ l, 0 ≤ x) (hm : ∀ x ∈ m, 0 ≤ x) :
    ∀ x ∈ List.zipWith (· + ·) l m, 0 ≤ x := by
  intro x hx
  obtain ⟨k, hk, rfl⟩ := List.getElem_of_mem hx
  rw [List.length_zipWith] at hk
  rw [List.getElem_zipWith]
  exact add_nonneg (hl _ (List.getElem_mem _)) (hm _ (List.getElem_mem _))

theorem toR_nonneg (l : List ℚ) (h : ∀ x ∈ l, 0 ≤ x) : ∀ x ∈ toR l, 0 ≤ x := by
  intro x hx
  unfold toR at hx
  rw [List.mem_map] at hx
  obtain ⟨y, hy, rfl⟩ := hx
  exact_mod_cast h y hy

theorem toR_length (l : List ℚ) : (toR l).length = l.length := by simp [toR]

theorem toR_sum (l : List ℚ) : (toR l).sum = ((l.sum : ℚ) : ℝ) := by
  unfold toR
  induction l with
  | nil => simp
  | cons x xs ih => simp only [List.map_cons, List.sum_cons, ih]; push_cast; ring

theorem toR_grid (a w : ℚ) (n : ℕ) : toR (grid a w n) = gridR a w n := by
  unfold toR grid gridR
  rw [List.map_map]
  apply List.map_congr_left
  intro k _
  simp

theorem zerosAssign_length {n lo hi : ℕ} {src l : List ℚ} (h : zerosAssign n lo hi src = .ok l) :
    l.length = n := by
  unfold zerosAssign at h
  simp only at h
  split_ifs at h <;> · injection h with h; rw [← h]; simp

theorem fanStep_length {Eout : List ℚ} {c : Closest} {E : ℚ} {st st' : List ℝ × ℕ} {i : ℕ}
    (h : fanStep Eout c E st i = .ok st') : st'.1.length = st.1.length := by
  unfold fanStep at h
  simp only [bind, Except.bind, pure, Except.pure] at h
  split at h
  · injection h with h; rw [← h]
  split at h
  · split at h
    · simp at h
    split at h
    · simp at h
    injection h with h; rw [← h]; simp
  · injection h with h; rw [← h]

theorem fanMethod_spec {Eout : List ℚ} {c : Closest} {E : ℚ} {istart istop : ℕ} {r : List ℝ × ℕ}
    (h : fanMethod Eout c E istart istop = .ok r) :
    r.1.length = Eout.length ∧ ∀ x ∈ r.1, 0 ≤ x := by
  unfold fanMethod at h
  simp only [bind, Except.bind, pure, Except.pure] at h
  split at h
  · simp at h
  rename_i st hst
  injection h with h
  rw [← h]
  simp only
  refine ⟨?_, clip0_nonneg _⟩
  rw [clip0_length]
  have : ∀ (is : List ℕ) (s : List ℝ × ℕ) (s' : List ℝ × ℕ),
      is.foldlM (fanStep Eout c E) s = .ok s' → s'.1.length = s.1.length := by
    intro is
    induction is with
    | nil => intro s s' hs; simp only [List.foldlM_nil, pure, Except.pure] at hs; injection hs with hs; rw [hs]
    | cons i is ih =>
      intro s s' hs
      simp only [List.foldlM_cons, bind, Except.bind] at hs
      split at hs
      · simp at hs
      rename_i v hv
      rw [ih _ _ hs, fanStep_length hv]
  have := this _ _ _ hst
  simpa using this

theorem mapM_length_ok {α β : Type} (f : α → Except Err β) (l : List α) (r : List β)
    (h : l.mapM f = .ok r) : r.length = l.length := by
  induction l generalizing r with
  | nil => simp only [List.mapM_nil, pure, Except.pure] at h; injection h with h; rw [← h]; rfl
  | cons x xs ih =>
    simp only [List.mapM_cons, bind, Except.bind, pure, Except.pure] at h
    split at h
    · simp at h
    split at h
    · simp at h
    rename_i ys hys
    injection h with h
    rw [← h, List.length_cons, List.length_cons, ih _ hys]

theorem filter_range_length (n lo : ℕ) (h : lo ≤ n) :
    ((List.range n).filter fun i => lo ≤ i).length = n - lo := by
  obtain ⟨k, rfl⟩ : ∃ k, n = lo + k := ⟨n - lo, by omega⟩
  rw [List.range_add, List.filter_append]
  have h1 : (List.range lo).filter (fun i => decide (lo ≤ i)) = [] := by
    rw [List.filter_eq_nil_iff]
    intro i hi
    rw [List.mem_range] at hi
    simp [hi]
  have h2 : ((List.range k).map fun x => lo + x).filter (fun i => decide (lo ≤ i)) =
      (List.range k).map fun x => lo + x := by
    rw [List.filter_eq_self]
    intro i hi
    rw [List.mem_map] at hi
    obtain ⟨j, _, rfl⟩ := hi
    simp
  rw [h1, h2]
  simp

theorem fanToEnd_spec {Eout fwhm : List ℚ} {c : Closest} {E : ℚ} {istart istop : ℕ} {r : List ℝ}
    (h : fanToEnd Eout fwhm c E istart istop = .ok r) :
    r.length = Eout.length ∧ ∀ x ∈ r, 0 ≤ x := by
  unfold fanToEnd at h
  simp only [bind, Except.bind, throw, throwThe, MonadExceptOf.throw] at h
  split at h
  · simp at h
  rename_i hlen
  simp only [pure, Except.pure] at h
  split at h
  · simp at h
  split at h
  · simp at h
  rename_i vals hv
  injection h with h
  rw [← h]
  refine ⟨?_, clip0_nonneg _⟩
  have := mapM_length_ok _ _ _ hv
  rw [clip0_length, List.length_append, List.length_replicate, this, filter_range_length _ _ (by omega)]
  omega

theorem comptonPart_spec {d : RespData} {Eout fwhm : List ℚ} {j : ℕ} {r : List ℝ}
    (h : comptonPart d Eout fwhm j = .ok r) : r.length = Eout.length ∧ ∀ x ∈ r, 0 ≤ x := by
  unfold comptonPart at h
  simp only [bind, Except.bind, pure, Except.pure] at h
  split at h
  · simp at h
  split at h
  · simp at h
  rename_i c hc low hlow
  have hl : low.1.length = Eout.length ∧ ∀ x ∈ low.1, 0 ≤ x := by
    unfold linearBackscatter at hlow
    simp only [bind, Except.bind, pure, Except.pure] at hlow
    split at hlow
    · simp at hlow
    rename_i R hR
    injection hlow with hlow
    rw [← hlow]
    exact ⟨by rw [clip0_length, zerosAssign_length hR], clip0_nonneg _⟩
  split at h
  · simp at h
  rename_i fan hfan
  obtain ⟨f1, f2⟩ := fanMethod_spec hfan
  split at h
  · split at h
    · simp at h
    rename_i high hhigh
    have hh : high.length = Eout.length ∧ ∀ x ∈ high, 0 ≤ x := by
      unfold linearToEnd at hhigh
      simp only [bind, Except.bind, pure, Except.pure] at hhigh
      split at hhigh
      · simp at hhigh
      rename_i R hR
      injection hhigh with hhigh
      rw [← hhigh]
      exact ⟨by rw [clip0_length, zerosAssign_length hR], clip0_nonneg _⟩
    injection h with h
    rw [← h]
    refine ⟨?_, zipWith_add_nonneg _ _ (toR_nonneg _ hl.2) (toR_nonneg _ hh.2)⟩
    rw [List.length_zipWith, toR_length, toR_length, hl.1, hh.1, min_self]
  · split at h
    · simp at h
    rename_i high hhigh
    obtain ⟨g1, g2⟩ := fanToEnd_spec hhigh
    injection h with h
    rw [← h]
    refine ⟨?_, zipWith_add_nonneg _ _ (zipWith_add_nonneg _ _ (toR_nonneg _ hl.2) f2) g2⟩
    rw [List.length_zipWith, List.length_zipWith, toR_length, hl.1, f1, g1, min_self, min_self]

theorem list_sum_divR (l : List ℝ) (s : ℝ) : (l.map fun x => x / s).sum = l.sum / s := by
  induction l with
  | nil => simp
  | cons x xs ih => simp only [List.map_cons, List.sum_cons, ih]; ring

theorem normRowR_spec (l : List ℝ) (h : ∀ x ∈ l, 0 ≤ x) :
    (normRowR l).length = l.length ∧ (∀ x ∈ normRowR l, 0 ≤ x) ∧
      ((normRowR l).sum = 1 ∨ l.sum = 0 ∧ ∀ x ∈ normRowR l, x = 0) := by
  have hs := List.sum_nonneg h
  refine ⟨by simp [normRowR], ?_, ?_⟩
  · intro x hx
    unfold normRowR at hx
    rw [List.mem_map] at hx
    obtain ⟨y, hy, rfl⟩ := hx
    split_ifs
    · exact le_rfl
    · exact div_nonneg (h y hy) hs
  · by_cases h0 : l.sum = 0
    · right
      refine ⟨h0, ?_⟩
      intro x hx
      unfold normRowR at hx
      rw [List.mem_map] at hx
      obtain ⟨y, hy, rfl⟩ := hx
      rw [if_pos h0]
    · left
      unfold normRowR
      simp only [if_neg h0]
      rw [list_sum_divR, div_self h0]

/-- What the rows look like before the last division. -/
theorem responseRow_spec (d : RespData) (a w : ℚ) (n : ℕ) (hn : 2 ≤ n) (hw : 0 < w) (fwhm : List ℚ)
    (hfl : fwhm.length = n) (hf : ∀ x ∈ fwhm, 0 ≤ x) (smooth : Bool) (t : ℝ) (ht : 0 ≤ t) (j : ℕ)
    (hj : j < n) (r : List ℝ) (h : responseRow d (grid a w n) fwhm smooth t j = .ok r) :
    ∃ s : List ℝ, r = normRowR s ∧ s.length = n ∧ (∀ x ∈ s, 0 ≤ x) ∧
      (0 < d.fFE (a + w * j) → 0 ≤ d.fSE (a + w * j) → 0 ≤ d.fDE (a + w * j) →
        0 ≤ d.f511 (a + w * j) → 0 < s.sum) := by
  have hfr : ∀ i < n, 0 ≤ (toR fwhm).getD i 0 := by
    intro i hi
    rw [List.getD_eq_getElem _ _ (by rw [toR_length]; omega)]
    exact toR_nonneg _ hf _ (List.getElem_mem _)
  have smoothing : ∀ c : List ℝ, c.length = n →
      ∃ out, gaussSmoothing c (toR (grid a w n)) (toR fwhm) t = .ok out ∧ out.length = n ∧
      (∀ x ∈ out, 0 ≤ x) ∧ ((∀ x ∈ c, 0 ≤ x) → out.sum = c.sum) := by
    intro c hc
    rw [toR_grid]
    obtain ⟨out, q1, q2, -, q4⟩ := C31_conserves (a : ℝ) (w : ℝ) n hn (by exact_mod_cast hw)
      (toR fwhm) c (by rw [toR_length, hfl]) hfr t ht hc
    refine ⟨out, q1, ?_, q2, q4⟩
    unfold gaussSmoothing at q1
    split_ifs at q1
    injection q1 with q1
    rw [← q1]
    simp [hc]
  unfold responseRow at h
  simp only [bind, Except.bind, pure, Except.pure] at h
  rw [grid_getD _ _ hj] at h
  split at h
  · simp at h
  rename_i R hR
  obtain ⟨r1, r2⟩ := comptonPart_spec hR
  rw [grid_length] at r1
  set R' := (if a + w * (j : ℚ) < d.Eg.getD 0 0 then
    (List.range R.length).map fun k : ℕ => if j < k then 0 else R.getD k 0 else R) with hR'
  have hR'n : R'.length = n := by
    rw [hR']; split_ifs <;> simp [r1]
  have hR'p : ∀ x ∈ R', 0 ≤ x := by
    rw [hR']
    split_ifs
    · intro x hx
      rw [List.mem_map] at hx
      obtain ⟨k, hk, rfl⟩ := hx
      split_ifs
      · exact le_rfl
      · rw [List.mem_range] at hk
        rw [List.getD_eq_getElem _ _ hk]
        exact r2 _ (List.getElem_mem _)
    · exact r2
  obtain ⟨p, p1, p2, p3, -, p5⟩ := C43_peaks (d.fFE (a + w * j)) (d.fSE (a + w * j))
    (d.fDE (a + w * j)) (d.f511 (a + w * j)) a w n j hn hw hj
  rw [p1] at h
  simp only at h
  have pnn : 0 < d.fFE (a + w * j) → 0 ≤ d.fSE (a + w * j) → 0 ≤ d.fDE (a + w * j) →
      0 ≤ d.f511 (a + w * j) → (∀ x ∈ p, 0 ≤ x) ∧ 0 < p.sum := by
    intro k1 k2 k3 k4
    constructor
    · intro x hx
      obtain ⟨k, hk, rfl⟩ := List.getElem_of_mem hx
      rw [← List.getD_eq_getElem _ 0 hk]
      exact p5 k1.le k2 k3 k4 k
    · rw [p3]
      have ip : ∀ (c : Prop) [Decidable c], 0 ≤ ind c := by
        intro c _; unfold ind; split_ifs <;> norm_num
      have := mul_nonneg (ip (0 ≤ a + w * (j : ℚ) - 511 ∧ a ≤ a + w * (j : ℚ) - 511)) k2
      have := mul_nonneg (ip (0 ≤ a + w * (j : ℚ) - 1022 ∧ a ≤ a + w * (j : ℚ) - 1022)) k3
      have := mul_nonneg (ip (511 < a + w * (j : ℚ) ∧ a ≤ 511)) k4
      linarith
  have zsum : ∀ l m : List ℝ, l.length = m.length →
      (List.zipWith (· + ·) l m).sum = l.sum + m.sum := by
    intro l
    induction l with
    | nil => intro m hm; cases m <;> simp_all
    | cons x xs ih =>
      intro m hm
      cases m with
      | nil => simp at hm
      | cons y ys =>
        simp only [List.zipWith_cons_cons, List.sum_cons]
        rw [ih ys (by simpa using hm)]
        ring
  cases smooth with
  | true =>
    simp only [if_true] at h
    obtain ⟨out, o1, o2, o3, o4⟩ := smoothing (List.zipWith (· + ·) R' (toR p))
      (by rw [List.length_zipWith, hR'n, toR_length, p2, min_self])
    rw [o1] at h
    simp only at h
    injection h with h
    refine ⟨out, h.symm, o2, o3, ?_⟩
    intro k1 k2 k3 k4
    obtain ⟨q1, q2⟩ := pnn k1 k2 k3 k4
    rw [o4 (zipWith_add_nonneg _ _ hR'p (toR_nonneg _ q1)), zsum _ _ (by rw [hR'n, toR_length, p2]),
      toR_sum]
    have := List.sum_nonneg hR'p
    have : (0 : ℝ) < ((p.sum : ℚ) : ℝ) := by exact_mod_cast q2
    linarith
  | false =>
    simp only [Bool.false_eq_true, if_false] at h
    obtain ⟨out, o1, o2, o3, o4⟩ := smoothing (toR p) (by rw [toR_length, p2])
    rw [o1] at h
    simp only at h
    injection h with h
    refine ⟨_, h.symm, by rw [List.length_zipWith, hR'n, o2, min_self],
      zipWith_add_nonneg _ _ hR'p o3, ?_⟩
    intro k1 k2 k3 k4
    obtain ⟨q1, q2⟩ := pnn k1 k2 k3 k4
    rw [zsum _ _ (by rw [hR'n, o2]), o4 (toR_nonneg _ q1), toR_sum]
    have := List.sum_nonneg hR'p
    have : (0 : ℝ) < ((p.sum : ℚ) : ℝ) := by exact_mod_cast q2
    linarith

/-- C43: whenever `interpolate` returns, on any equidistant axis with non-negative resolution, for any
table, every row is non-negative and sums to 1 or is all 0; it sums to 1 if the interpolated
full-energy probability is positive and the others are not negative. -/
theorem C43_rows (d : RespData) (a w fwhmAbs : ℚ) (n : ℕ) (hn : 2 ≤ n) (hw : 0 < w) (smooth : Bool)
    (t : ℝ) (ht : 0 ≤ t) (hf : ∀ x ∈ d.fwhmArray fwhmAbs (grid a w n), 0 ≤ x) (R : List (List ℝ))
    (h : respInterpolate d (grid a w n) fwhmAbs smooth t = .ok R) :
    R.length = n ∧ ∀ j < n, (R.getD j []).length = n ∧ (∀ x ∈ R.getD j [], 0 ≤ x) ∧
      ((R.getD j []).sum = 1 ∨ ∀ x ∈ R.getD j [], x = 0) ∧
      (0 < d.fFE (a + w * j) → 0 ≤ d.fSE (a + w * j) → 0 ≤ d.fDE (a + w * j) →
        0 ≤ d.f511 (a + w * j) → (R.getD j []).sum = 1) := by
  unfold respInterpolate at h
  simp only [bind, Except.bind, pure, Except.pure, throw, throwThe, MonadExceptOf.throw] at h
  split at h
  · simp at h
  split at h
  · simp at h
  split at h
  · simp at h
  split at h
  · simp at h
  split at h
  · simp at h
  rename_i R0 hR0
  injection h with h
  rw [grid_length] at hR0
  have hlen := mapM_length_ok _ _ _ hR0
  rw [List.length_range] at hlen
  refine ⟨by rw [← h, List.length_map, hlen], ?_⟩
  intro j hj
  have hrow : responseRow d (grid a w n) (d.fwhmArray fwhmAbs (grid a w n)) smooth t j =
      .ok (R0.getD j []) := by
    have : ∀ (l : List ℕ) (r : List (List ℝ)), l.mapM (responseRow d (grid a w n)
        (d.fwhmArray fwhmAbs (grid a w n)) smooth t) = .ok r → ∀ k < l.length,
        responseRow d (grid a w n) (d.fwhmArray fwhmAbs (grid a w n)) smooth t (l.getD k 0) =
          .ok (r.getD k []) := by
      intro l
      induction l with
      | nil => intro r _ k hk; simp at hk
      | cons x xs ih =>
        intro r hr k hk
        simp only [List.mapM_cons, bind, Except.bind, pure, Except.pure] at hr
        split at hr
        · simp at hr
        rename_i y hy
        split at hr
        · simp at hr
        rename_i ys hys
        injection hr with hr
        rw [← hr]
        cases k with
        | zero => simpa using hy
        | succ k => simpa using ih ys hys k (by simpa using hk)
    have := this _ _ hR0 j (by simpa using hj)
    rwa [List.getD_eq_getElem _ _ (by simpa using hj), List.getElem_range] at this
  obtain ⟨s, s1, s2, s3, s4⟩ := responseRow_spec d a w n hn hw _
    (by simp [RespData.fwhmArray]) hf smooth t ht j hj _ hrow
  obtain ⟨g1, g2, g3⟩ := normRowR_spec s s3
  have e : R.getD j [] = normRowR s := by
    have : (R0.map clip0).getD j [] = clip0 (R0.getD j []) := by
      simp [List.getD_eq_getElem?_getD, show j < R0.length by omega]
    rw [← h, this, s1]
    exact clip0_of_nonneg _ g2
  rw [e]
  refine ⟨by rw [g1, s2], g2, g3.imp id (fun h => h.2), ?_⟩
  intro k1 k2 k3 k4
  rcases g3 with g3 | g3
  · exact g3
  · have := s4 k1 k2 k3 k4
    exact absurd g3.1 this.ne'

end Ompy
