import Verif.Matrix
import Verif.VectorProps
import Verif.RebinProps

/-!
# Properties of `Matrix`: C07, C15, C16, C19, C20, C21
-/

namespace Ompy

/-! ### C07: cut -/

theorem low_bound {E : List ℚ} (hs : E.Pairwise (· < ·)) {e : ℚ} {i : ℕ} (hi : IsClosest E e i)
    (k : ℕ) (hk : k < E.length) :
    E.getD k 0 < e ↔ k < (if E.getD i 0 < e then i + 1 else i) := by
  split_ifs with h
  · constructor
    · intro hke
      by_contra hlt
      push Not at hlt
      have h1 := getD_strictMono hs (show i < k by omega) hk
      have h2 := hi.2 k hk
      rw [abs_of_neg (by linarith), abs_of_neg (by linarith)] at h2
      linarith
    · intro hlt
      rcases Nat.lt_or_ge k i with h1 | h1
      · have := getD_strictMono hs h1 hi.1
        linarith
      · have : k = i := by omega
        rw [this]; exact h
  · push Not at h
    constructor
    · intro hke
      by_contra hlt
      push Not at hlt
      rcases Nat.lt_or_ge i k with h1 | h1
      · have := getD_strictMono hs h1 hk
        linarith
      · have : k = i := by omega
        rw [this] at hke; linarith
    · intro hlt
      by_contra hge
      push Not at hge
      have h1 := getD_strictMono hs hlt hi.1
      have h2 := hi.2 k hk
      rw [abs_of_nonneg (by linarith), abs_of_nonneg (by linarith)] at h2
      linarith

theorem high_bound {E : List ℚ} (hs : E.Pairwise (· < ·)) {e : ℚ} {i : ℕ} (hi : IsClosest E e i)
    (k : ℕ) (hk : k < E.length) :
    E.getD k 0 ≤ e ↔ k < (if E.getD i 0 > e then i else i + 1) := by
  split_ifs with h
  · constructor
    · intro hke
      by_contra hlt
      push Not at hlt
      rcases Nat.lt_or_ge i k with h1 | h1
      · have := getD_strictMono hs h1 hk
        linarith
      · have : k = i := by omega
        rw [this] at hke; linarith
    · intro hlt
      by_contra hge
      push Not at hge
      have h1 := getD_strictMono hs hlt hi.1
      have h2 := hi.2 k hk
      rw [abs_of_pos (by linarith), abs_of_pos (by linarith)] at h2
      linarith
  · push Not at h
    constructor
    · intro hke
      by_contra hlt
      push Not at hlt
      have h1 := getD_strictMono hs (show i < k by omega) hk
      have h2 := hi.2 k hk
      rw [abs_of_nonpos (by linarith), abs_of_nonpos (by linarith)] at h2
      linarith
    · intro hlt
      rcases Nat.lt_or_ge k i with h1 | h1
      · have := getD_strictMono hs h1 hi.1
        linarith
      · have : k = i := by omega
        rw [this]; exact h

/-- Specification: the window a caller asks for, given the two flags. -/
def inWindow (lo hi : ℚ) (minIncl maxIncl : Bool) (e : ℚ) : Bool :=
  (if minIncl then decide (lo ≤ e) else decide (lo < e)) &&
    (if maxIncl then decide (e ≤ hi) else decide (e < hi))

/-- The bounds of `cut` select exactly the window: for inclusive limits always, for an exclusive
limit if the limit is one of the energies of the axis. -/
theorem cutBounds_spec (E : List ℚ) (lo hi : ℚ) (minIncl maxIncl : Bool) (hE : E ≠ [])
    (hs : E.Pairwise (· < ·)) (hmin : minIncl = true ∨ lo ∈ E) (hmax : maxIncl = true ∨ hi ∈ E) :
    ∃ a b : ℕ, cutBounds E (some lo) (some hi) minIncl maxIncl = .ok ((a : ℤ), (b : ℤ)) ∧
      ∀ k < E.length, inWindow lo hi minIncl maxIncl (E.getD k 0) = true ↔ a ≤ k ∧ k < b := by
  obtain ⟨i, h1, h2, _⟩ := C05_index_closest E lo hE (hs.imp le_of_lt)
  obtain ⟨j, h3, h4, _⟩ := C05_index_closest E hi hE (hs.imp le_of_lt)
  have low := low_bound hs h2
  have high := high_bound hs h4
  obtain ⟨a, ha, ha'⟩ : ∃ a : ℕ,
      (if minIncl = true then (if E.getD i 0 < lo then (i : ℤ) + 1 else i)
        else (if E.getD i 0 < lo then (i : ℤ) + 1 else i) + 1) = (a : ℤ) ∧
      ∀ k < E.length, (if minIncl then decide (lo ≤ E.getD k 0) else decide (lo < E.getD k 0))
        = true ↔ a ≤ k := by
    cases hm : minIncl with
    | true =>
      refine ⟨if E.getD i 0 < lo then i + 1 else i, by simp only [if_true]; split_ifs <;> simp, ?_⟩
      intro k hk
      have := low k hk
      simp only [if_true, decide_eq_true_eq]
      rw [← not_lt, this, not_lt]
    | false =>
      rw [hm] at hmin
      obtain ⟨t, ht, rfl⟩ := List.getElem_of_mem (hmin.resolve_left (by simp))
      rw [← List.getD_eq_getElem E 0 ht] at *
      have hit : i = t := closest_of_hit hs ht h2
      subst hit
      refine ⟨i + 1, by simp, ?_⟩
      intro k hk
      simp only [Bool.false_eq_true, if_false, decide_eq_true_eq]
      constructor
      · intro hlt
        by_contra hle
        push Not at hle
        rcases Nat.lt_or_ge k i with g | g
        · have := getD_strictMono hs g ht
          linarith
        · have : k = i := by omega
          rw [this] at hlt; exact lt_irrefl _ hlt
      · intro hle
        exact getD_strictMono hs (by omega) hk
  obtain ⟨b, hb, hb'⟩ : ∃ b : ℕ,
      (if maxIncl = true then (if E.getD j 0 > hi then (j : ℤ) - 1 else j)
        else (if E.getD j 0 > hi then (j : ℤ) - 1 else j) - 1) + 1 = (b : ℤ) ∧
      ∀ k < E.length, (if maxIncl then decide (E.getD k 0 ≤ hi) else decide (E.getD k 0 < hi))
        = true ↔ k < b := by
    cases hm : maxIncl with
    | true =>
      refine ⟨if E.getD j 0 > hi then j else j + 1, by simp only [if_true]; split_ifs <;> simp, ?_⟩
      intro k hk
      have := high k hk
      simp only [if_true, decide_eq_true_eq]
      exact this
    | false =>
      rw [hm] at hmax
      obtain ⟨t, ht, rfl⟩ := List.getElem_of_mem (hmax.resolve_left (by simp))
      rw [← List.getD_eq_getElem E 0 ht] at *
      have hit : j = t := closest_of_hit hs ht h4
      subst hit
      refine ⟨j, by simp, ?_⟩
      intro k hk
      simp only [Bool.false_eq_true, if_false, decide_eq_true_eq]
      constructor
      · intro hlt
        by_contra hle
        push Not at hle
        rcases Nat.lt_or_ge j k with g | g
        · have := getD_strictMono hs g hk
          linarith
        · have : k = j := by omega
          rw [this] at hlt; exact lt_irrefl _ hlt
      · intro hle
        exact getD_strictMono hs (by omega) ht
  refine ⟨a, b, ?_, ?_⟩
  · simp only [cutBounds, orElseE, h1, h3, bind, Except.bind, pure, Except.pure]
    rw [ha, hb]
  · intro k hk
    rw [inWindow, Bool.and_eq_true, ha' k hk, hb' k hk]

theorem zip_slice {α β : Type} (l : List α) (m : List β) (a b : ℕ) :
    ((l.take b).drop a).zip ((m.take b).drop a) = ((l.zip m).take b).drop a := by
  rw [List.zip_eq_zipWith, List.zip_eq_zipWith, List.take_zipWith, List.drop_zipWith]

theorem slice_zip_filter {α : Type} (E : List ℚ) (l : List α) (p : ℚ → Bool) (a b : ℕ)
    (h : ∀ k < E.length, p (E.getD k 0) = true ↔ a ≤ k ∧ k < b) :
    (pySlice E (a : ℤ) (b : ℤ)).zip (pySlice l (a : ℤ) (b : ℤ))
      = (E.zip l).filter fun q => p q.1 := by
  rw [pySlice_nat, pySlice_nat, zip_slice, filter_eq_slice _ _ a b]
  intro k hk
  have hk' : k < E.length := by simp at hk; omega
  have := h k hk'
  rw [List.getD_eq_getElem _ _ hk'] at this
  simpa using this

theorem slice_axis_filter (E : List ℚ) (p : ℚ → Bool) (a b : ℕ)
    (h : ∀ k < E.length, p (E.getD k 0) = true ↔ a ≤ k ∧ k < b) :
    pySlice E (a : ℤ) (b : ℤ) = E.filter p := by
  rw [pySlice_nat, filter_eq_slice _ _ a b]
  intro k hk
  have := h k hk
  rwa [List.getD_eq_getElem _ _ hk] at this

/-- **C07 (partial).** Cutting along `Ex` keeps exactly the (energy, row) pairs in the window.
Missing against the full property: an exclusive limit has to be an energy of the axis (else a
bin too many is dropped or the slice wraps around, see the `_fails` theorems). -/
theorem C07_cut_Ex_window_partial (m : Mat) (lo hi : ℚ) (minIncl maxIncl : Bool) (hE : m.Ex ≠ [])
    (hs : m.Ex.Pairwise (· < ·)) (hmin : minIncl = true ∨ lo ∈ m.Ex)
    (hmax : maxIncl = true ∨ hi ∈ m.Ex) :
    ∃ m', m.cut 1 (some lo) (some hi) minIncl maxIncl = .ok m' ∧
      m'.Ex = m.Ex.filter (inWindow lo hi minIncl maxIncl) ∧
      m'.Ex.zip m'.values = (m.Ex.zip m.values).filter
        (fun p => inWindow lo hi minIncl maxIncl p.1) ∧
      m'.Eg = m.Eg := by
  obtain ⟨a, b, h1, h2⟩ := cutBounds_spec m.Ex lo hi minIncl maxIncl hE hs hmin hmax
  refine ⟨{ m with values := pySlice m.values a b, Ex := pySlice m.Ex a b }, ?_,
    slice_axis_filter _ _ a b h2, slice_zip_filter _ _ _ a b h2, rfl⟩
  simp [Mat.cut, h1]

/-- **C07 (partial).** The same along `Eg`: in every row exactly the entries in the window stay. -/
theorem C07_cut_Eg_window_partial (m : Mat) (lo hi : ℚ) (minIncl maxIncl : Bool) (hE : m.Eg ≠ [])
    (hs : m.Eg.Pairwise (· < ·)) (hmin : minIncl = true ∨ lo ∈ m.Eg)
    (hmax : maxIncl = true ∨ hi ∈ m.Eg) :
    ∃ m', m.cut 0 (some lo) (some hi) minIncl maxIncl = .ok m' ∧
      m'.Eg = m.Eg.filter (inWindow lo hi minIncl maxIncl) ∧
      m'.values.length = m.values.length ∧
      (∀ i < m.values.length, m'.Eg.zip (m'.values.getD i []) =
        (m.Eg.zip (m.values.getD i [])).filter (fun p => inWindow lo hi minIncl maxIncl p.1)) ∧
      m'.Ex = m.Ex := by
  obtain ⟨a, b, h1, h2⟩ := cutBounds_spec m.Eg lo hi minIncl maxIncl hE hs hmin hmax
  refine ⟨{ m with values := m.values.map fun r => pySlice r a b, Eg := pySlice m.Eg a b }, ?_,
    slice_axis_filter _ _ a b h2, by simp, ?_, rfl⟩
  · simp [Mat.cut, h1]
  · intro i hi
    have : (m.values.map fun r => pySlice r (a : ℤ) (b : ℤ)).getD i []
        = pySlice (m.values.getD i []) (a : ℤ) (b : ℤ) := by
      simp [List.getD_eq_getElem?_getD, hi]
    simp only [this]
    exact slice_zip_filter _ _ _ a b h2

/-- **C07.** With the default (inclusive) flags there is no restriction on the limits, on
either axis. -/
theorem C07_inclusive_exact (m : Mat) (lo hi : ℚ) :
    (m.Ex ≠ [] → m.Ex.Pairwise (· < ·) →
      ∃ m', m.cut 1 (some lo) (some hi) true true = .ok m' ∧
        m'.Ex = m.Ex.filter (fun e => decide (lo ≤ e ∧ e ≤ hi)) ∧
        m'.Ex.zip m'.values = (m.Ex.zip m.values).filter (fun p => decide (lo ≤ p.1 ∧ p.1 ≤ hi)) ∧
        m'.Eg = m.Eg) ∧
    (m.Eg ≠ [] → m.Eg.Pairwise (· < ·) →
      ∃ m', m.cut 0 (some lo) (some hi) true true = .ok m' ∧
        m'.Eg = m.Eg.filter (fun e => decide (lo ≤ e ∧ e ≤ hi)) ∧
        (∀ i < m.values.length, m'.Eg.zip (m'.values.getD i []) =
          (m.Eg.zip (m.values.getD i [])).filter (fun p => decide (lo ≤ p.1 ∧ p.1 ≤ hi))) ∧
        m'.Ex = m.Ex) := by
  have hw : ∀ e, inWindow lo hi true true e = decide (lo ≤ e ∧ e ≤ hi) := by
    intro e; simp [inWindow]
  have hw' : inWindow lo hi true true = fun e => decide (lo ≤ e ∧ e ≤ hi) := funext hw
  constructor
  · intro hE hs
    obtain ⟨m', h1, h2, h3, h4⟩ :=
      C07_cut_Ex_window_partial m lo hi true true hE hs (.inl rfl) (.inl rfl)
    refine ⟨m', h1, by rw [h2, hw'], by rw [h3]; simp only [hw], h4⟩
  · intro hE hs
    obtain ⟨m', h1, h2, _, h3, h4⟩ :=
      C07_cut_Eg_window_partial m lo hi true true hE hs (.inl rfl) (.inl rfl)
    refine ⟨m', h1, by rw [h2, hw'], ?_, h4⟩
    intro i hi'
    rw [h3 i hi']; simp only [hw]

/-- **C07.** Limits that are not given are the ends of the axis. -/
theorem C07_default_limits (E : List ℚ) (a b : ℚ) (ha : listMin E = .ok a) (hb : listMax E = .ok b)
    (emin emax : Option ℚ) (f g : Bool) :
    cutBounds E emin emax f g = cutBounds E (some (emin.getD a)) (some (emax.getD b)) f g := by
  cases emin <;> cases emax <;> simp [cutBounds, orElseE, ha, hb]

/-- C07 is false: an exclusive limit between two bins drops a bin that is inside the window. -/
theorem C07_exclusive_offgrid_fails :
    let m : Mat := ⟨[[1, 2, 3]], [0, 1, 2], [0], none, none⟩
    m.cut 0 (some (1/2)) (some 2) false true = .ok ⟨[[3]], [2], [0], none, none⟩ ∧
      m.Eg.filter (inWindow (1/2) 2 false true) = [1, 2] := by decide +kernel

/-- C07 is false: a window below the axis with exclusive upper limit keeps nearly everything
because the slice end is −1. -/
theorem C07_window_below_fails :
    let m : Mat := ⟨[[1, 2, 3]], [0, 1, 2], [0], none, none⟩
    m.cut 0 (some (-5)) (some (-4)) true false = .ok ⟨[[1, 2]], [0, 1], [0], none, none⟩ ∧
      m.Eg.filter (inWindow (-5) (-4) true false) = [] := by decide +kernel

/-- `cut` in place does not cut `std`: the matrix is inconsistent afterwards. -/
theorem C07_std_not_cut_fails :
    let m : Mat := ⟨[[1, 2, 3]], [0, 1, 2], [0], some [[1, 1, 1]], none⟩
    m.consistent = true ∧ ∃ m', m.cut 0 (some 1) (some 2) true true = .ok m' ∧
      m'.consistent = false := by
  refine ⟨by decide +kernel, ⟨[[2, 3]], [1, 2], [0], some [[1, 1, 1]], none⟩, ?_, ?_⟩ <;>
    decide +kernel

example : (2 : ℚ) ∈ ([1, 2, 3] : List ℚ) ∧ ([1, 2, 3] : List ℚ).Pairwise (· < ·) ∧
    Mat.cut ⟨[[1], [2], [3]], [0], [1, 2, 3], none, none⟩ 1 (some 2) (some (7/2)) false true
      = .ok ⟨[[3]], [0], [3], none, none⟩ := by decide +kernel

/-! ### C15: projections -/

theorem consistent_shape (m : Mat) (h : m.consistent) :
    m.values.length = m.Ex.length ∧ ∀ r ∈ m.values, r.length = m.Eg.length := by
  simp only [Mat.consistent, Bool.and_eq_true, hasShape, beq_iff_eq, List.all_eq_true] at h
  exact ⟨h.1.1, fun r hr => h.1.2 r hr⟩

theorem pySlice_all {α : Type} (l : List α) (n : ℕ) (h : l.length = n) (hn : n ≠ 0) :
    pySlice l ((0 : ℕ) : ℤ) (((n - 1 : ℕ) : ℤ) + 1) = l := by
  have : (((n - 1 : ℕ) : ℤ) + 1) = ((n : ℕ) : ℤ) := by omega
  rw [this, pySlice_nat, ← h]
  simp

theorem sum_slice (l : List ℚ) (a b : ℕ) :
    (pySlice l (a : ℤ) ((b : ℤ) + 1)).sum
      = ∑ k ∈ (Finset.range l.length).filter (fun k => a ≤ k ∧ k ≤ b), l.getD k 0 := by
  have : ((b : ℤ) + 1) = ((b + 1 : ℕ) : ℤ) := by push_cast; rfl
  rw [this, pySlice_nat, list_sum_eq_range]
  rw [Finset.sum_filter, ← Finset.sum_filter]
  refine Finset.sum_bij (fun k _ => a + k) ?_ ?_ ?_ ?_
  · intro k hk
    simp only [Finset.mem_range, List.length_drop, List.length_take] at hk
    simp only [Finset.mem_filter, Finset.mem_range]
    omega
  · intro x _ y _ h
    omega
  · intro k hk
    simp only [Finset.mem_filter, Finset.mem_range] at hk
    refine ⟨k - a, ?_, by omega⟩
    simp only [Finset.mem_range, List.length_drop, List.length_take]
    omega
  · intro k hk
    simp only [Finset.mem_range, List.length_drop, List.length_take] at hk
    have h2 : a + k < b + 1 := by omega
    simp only [List.getD_eq_getElem?_getD, List.getElem?_drop, List.getElem?_take, h2, if_true]

/-- **C15.** Without limits the projected counts add up to the counts of the matrix; the second
component is the axis projected onto (`axis = 1`: `Ex`, `axis = 0`: `Eg`). -/
theorem C15_projection_total (m : Mat) (hc : m.consistent) (hx : m.Ex ≠ []) (hg : m.Eg ≠ []) :
    (∃ p, m.projection 1 none none false = .ok (p, m.Ex) ∧ p.length = m.Ex.length ∧
      p.sum = matSum m.values) ∧
    (∃ p, m.projection 0 none none false = .ok (p, m.Eg) ∧ p.length = m.Eg.length ∧
      p.sum = matSum m.values) := by
  obtain ⟨h1, h2⟩ := consistent_shape m hc
  have nx : m.Ex.length ≠ 0 := by simpa using hx
  have ng : m.Eg.length ≠ 0 := by simpa using hg
  constructor
  · refine ⟨m.values.map List.sum, ?_, by simp [h1], rfl⟩
    simp only [Mat.projection, projWindow, hg, if_false, if_true, bind, Except.bind, pure,
      Except.pure, Bool.false_eq_true]
    congr 2
    apply List.map_congr_left
    intro r hr
    rw [pySlice_all r _ (h2 r hr) ng]
  · refine ⟨(List.range m.Eg.length).map fun j : ℕ => (colOf m.values j).sum, ?_, by simp, ?_⟩
    · simp only [Mat.projection, projWindow, hx, if_false, if_true, bind, Except.bind, pure,
        Except.pure, Bool.false_eq_true, zero_ne_one]
      rw [pySlice_all m.values _ h1 nx]
    · rw [matSum_eq m.values _ _ rfl h2, list_map_range_sum, Finset.sum_comm]
      apply Finset.sum_congr rfl
      intro j _
      rw [list_sum_eq_range]
      simp only [colOf, List.length_map]
      apply Finset.sum_congr rfl
      intro i hi
      have hi' : i < m.values.length := Finset.mem_range.1 hi
      simp [List.getD_eq_getElem?_getD, hi']

/-- **C15.** With limits, entry `i` of the projection onto `Ex` is the sum over exactly the `Eg`
bins between the bins closest to `Emin` and `Emax`. -/
theorem C15_projection_window_Ex (m : Mat) (hc : m.consistent) (hg : m.Eg ≠ [])
    (hs : m.Eg.Pairwise (· ≤ ·)) (lo hi : ℚ) :
    ∃ a b p, IsLimit m.Eg lo a ∧ IsLimit m.Eg hi b ∧
      m.projection 1 (some lo) (some hi) false = .ok (p, m.Ex) ∧ p.length = m.Ex.length ∧
      ∀ i < m.Ex.length, p.getD i 0 =
        ∑ k ∈ (Finset.range m.Eg.length).filter (fun k => a ≤ k ∧ k ≤ b),
          (m.values.getD i []).getD k 0 := by
  obtain ⟨h1, h2⟩ := consistent_shape m hc
  obtain ⟨a, ha, ha'⟩ := C05_index_closest m.Eg lo hg hs
  obtain ⟨b, hb, hb'⟩ := C05_index_closest m.Eg hi hg hs
  refine ⟨a, b, m.values.map fun r => (pySlice r a (b + 1)).sum, ha', hb', ?_, by simp [h1], ?_⟩
  · simp [Mat.projection, projWindow, ha, hb, bind, Except.bind, pure, Except.pure]
  · intro i hi
    have hi' : i < m.values.length := by omega
    have : (m.values.map fun r => (pySlice r (a : ℤ) ((b : ℤ) + 1)).sum).getD i 0
        = (pySlice (m.values.getD i []) (a : ℤ) ((b : ℤ) + 1)).sum := by
      simp [List.getD_eq_getElem?_getD, hi']
    rw [this, sum_slice]
    have : (m.values.getD i []).length = m.Eg.length := by
      rw [List.getD_eq_getElem _ _ hi']
      exact h2 _ (List.getElem_mem _)
    rw [this]

/-- **C15.** The same for the projection onto `Eg`. -/
theorem C15_projection_window_Eg (m : Mat) (hc : m.consistent) (hx : m.Ex ≠ [])
    (hs : m.Ex.Pairwise (· ≤ ·)) (lo hi : ℚ) :
    ∃ a b p, IsLimit m.Ex lo a ∧ IsLimit m.Ex hi b ∧
      m.projection 0 (some lo) (some hi) false = .ok (p, m.Eg) ∧ p.length = m.Eg.length ∧
      ∀ j < m.Eg.length, p.getD j 0 =
        ∑ k ∈ (Finset.range m.Ex.length).filter (fun k => a ≤ k ∧ k ≤ b),
          (m.values.getD k []).getD j 0 := by
  obtain ⟨h1, h2⟩ := consistent_shape m hc
  obtain ⟨a, ha, ha'⟩ := C05_index_closest m.Ex lo hx hs
  obtain ⟨b, hb, hb'⟩ := C05_index_closest m.Ex hi hx hs
  refine ⟨a, b, (List.range m.Eg.length).map fun j : ℕ =>
    (colOf (pySlice m.values a (b + 1)) j).sum, ha', hb', ?_, by simp, ?_⟩
  · simp [Mat.projection, projWindow, ha, hb, bind, Except.bind, pure, Except.pure]
  · intro j hj
    have : ((List.range m.Eg.length).map fun j : ℕ =>
        (colOf (pySlice m.values (a : ℤ) ((b : ℤ) + 1)) j).sum).getD j 0
        = (colOf (pySlice m.values (a : ℤ) ((b : ℤ) + 1)) j).sum := by
      simp [List.getD_eq_getElem?_getD, hj]
    rw [this]
    have e : colOf (pySlice m.values (a : ℤ) ((b : ℤ) + 1)) j
        = pySlice (colOf m.values j) (a : ℤ) ((b : ℤ) + 1) := by
      have : ((b : ℤ) + 1) = ((b + 1 : ℕ) : ℤ) := by push_cast; rfl
      rw [this, pySlice_nat, pySlice_nat]
      simp [colOf, List.map_drop, List.map_take]
    rw [e, sum_slice]
    simp only [colOf, List.length_map, h1]
    apply Finset.sum_congr rfl
    intro k hk
    have hk' : k < m.values.length := by
      simp only [Finset.mem_filter, Finset.mem_range] at hk; omega
    simp [List.getD_eq_getElem?_getD, hk']

/-- **C15.** Normalised projections sum to 1 whenever the plain projection does not sum to 0, else
they are all 0. -/
theorem C15_projection_normalized (m : Mat) (axis : ℕ) (lo hi : Option ℚ) (p e : List ℚ)
    (h : m.projection axis lo hi false = .ok (p, e)) :
    ∃ q, m.projection axis lo hi true = .ok (q, e) ∧
      (p.sum ≠ 0 → q.sum = 1) ∧ (p.sum = 0 → ∀ x ∈ q, x = 0) := by
  have hsum : ∀ (p : List ℚ) (s : ℚ), s ≠ 0 → (p.map fun x => div0 x s).sum = p.sum / s := by
    intro p s hs
    induction p with
    | nil => simp
    | cons x xs ih =>
      rw [List.map_cons, List.sum_cons, ih, List.sum_cons, add_div]
      simp [div0, hs]
  have hgoal : ∀ p : List ℚ, (p.sum ≠ 0 → (p.map fun x => div0 x p.sum).sum = 1) ∧
      (p.sum = 0 → ∀ x ∈ (p.map fun x => div0 x p.sum), x = 0) := by
    intro p
    refine ⟨fun hp => by rw [hsum p _ hp, div_self hp], ?_⟩
    intro hp x hx
    obtain ⟨y, _, rfl⟩ := List.mem_map.1 hx
    simp [div0, hp]
  unfold Mat.projection at h ⊢
  by_cases c1 : axis = 1
  · simp only [c1, if_true, Bool.false_eq_true, if_false] at h ⊢
    cases hw : projWindow m.Eg lo hi with
    | error _ => simp [hw] at h
    | ok ab =>
      simp only [hw, Except.ok.injEq, Prod.mk.injEq] at h ⊢
      obtain ⟨hp, rfl⟩ := h
      exact ⟨_, ⟨rfl, rfl⟩, by rw [hp]; exact hgoal p⟩
  · by_cases c2 : axis = 0
    · simp only [c2, zero_ne_one, if_true, Bool.false_eq_true, if_false] at h ⊢
      cases hw : projWindow m.Ex lo hi with
      | error _ => simp [hw] at h
      | ok ab =>
        simp only [hw, Except.ok.injEq, Prod.mk.injEq] at h ⊢
        obtain ⟨hp, rfl⟩ := h
        exact ⟨_, ⟨rfl, rfl⟩, by rw [hp]; exact hgoal p⟩
    · simp [c1, c2] at h

/-- **C15.** Any other axis is a ValueError. -/
theorem C15_bad_axis (m : Mat) (axis : ℕ) (h0 : axis ≠ 0) (h1 : axis ≠ 1) (lo hi : Option ℚ)
    (n : Bool) : m.projection axis lo hi n = .error .valueError := by
  simp [Mat.projection, h0, h1]

example : Mat.projection ⟨[[1, 2, 3], [4, 5, 6]], [0, 1, 2], [0, 1], none, none⟩ 1 (some 1) none
    false = .ok ([5, 11], [0, 1]) ∧
    Mat.projection ⟨[[1, 2, 3], [4, 5, 6]], [0, 1, 2], [0, 1], none, none⟩ 0 none none
    false = .ok ([5, 7, 9], [0, 1, 2]) := by decide +kernel

/-! ### C16: fill -/

/-- Entry `(i, j)` of a list of rows (0 outside). -/
def entry (v : List (List ℚ)) (i j : ℕ) : ℚ := (v.getD i []).getD j 0

theorem entry_addAt (v : List (List ℚ)) (i j i' j' : ℕ) (c : ℚ) (hi : i < v.length)
    (hj : j < (v.getD i []).length) :
    entry (addAt v i j c) i' j' = entry v i' j' + if i' = i ∧ j' = j then c else 0 := by
  unfold entry addAt
  rw [List.getD_eq_getElem _ _ hi] at hj
  by_cases h1 : i' = i
  · subst h1
    by_cases h2 : j' = j
    · subst h2
      simp [List.getD_eq_getElem?_getD, List.getElem?_modify, hi, hj]
    · have h2' : ¬ j = j' := fun h => h2 h.symm
      simp [List.getD_eq_getElem?_getD, List.getElem?_modify, hi, h2, h2']
  · have h1' : ¬ i = i' := fun h => h1 h.symm
    simp [List.getD_eq_getElem?_getD, List.getElem?_modify, h1, h1']

theorem addAt_shape (v : List (List ℚ)) (i j : ℕ) (c : ℚ) (n : ℕ) (h : ∀ r ∈ v, r.length = n) :
    (addAt v i j c).length = v.length ∧ ∀ r ∈ addAt v i j c, r.length = n := by
  refine ⟨by simp [addAt], ?_⟩
  intro r hr
  obtain ⟨k, hk, rfl⟩ := List.getElem_of_mem hr
  simp only [addAt, List.length_modify] at hk
  simp only [addAt, List.getElem_modify]
  split_ifs
  · simp [h _ (List.getElem_mem hk)]
  · exact h _ (List.getElem_mem hk)

/-- Two equally shaped arrays with equal entries are equal. -/
theorem ext_entry (v w : List (List ℚ)) (n : ℕ) (hl : v.length = w.length)
    (hv : ∀ r ∈ v, r.length = n) (hw : ∀ r ∈ w, r.length = n)
    (h : ∀ i j, entry v i j = entry w i j) : v = w := by
  apply List.ext_getElem hl
  intro i h1 h2
  apply List.ext_getElem
  · rw [hv _ (List.getElem_mem _), hw _ (List.getElem_mem _)]
  · intro j g1 g2
    have := h i j
    unfold entry at this
    rw [List.getD_eq_getElem _ _ h1, List.getD_eq_getElem _ _ h2, List.getD_eq_getElem _ _ g1,
      List.getD_eq_getElem _ _ g2] at this
    exact this

/-- Specification: a fill command. -/
structure Fill where
  eg : ℚ
  ex : ℚ
  count : ℚ

/-- A sequence of `fill` calls. -/
def fillAll : List Fill → Mat → Except Err Mat
  | [], m => .ok m
  | f :: fs, m => m.fill f.eg f.ex f.count >>= fillAll fs

/-- Specification: does the fill go into bin `(i, j)`? (the highest of the closest bins) -/
def hits (m : Mat) (f : Fill) (i j : ℕ) : Prop := IsLimit m.Ex f.ex i ∧ IsLimit m.Eg f.eg j

open Classical in
/-- Specification: what a list of fills adds to bin `(i, j)`. -/
noncomputable def filled (m : Mat) (fs : List Fill) (i j : ℕ) : ℚ :=
  (fs.map fun f => if hits m f i j then f.count else 0).sum

theorem limit_unique {l : List ℚ} {e : ℚ} {i j : ℕ} (hi : IsLimit l e i) (hj : IsLimit l e j) :
    i = j := le_antisymm (hj.2 i hi.1) (hi.2 j hj.1)

theorem fill_step (m : Mat) (hc : m.values.length = m.Ex.length ∧ ∀ r ∈ m.values,
      r.length = m.Eg.length) (hx : m.Ex ≠ []) (hg : m.Eg ≠ [])
    (sx : m.Ex.Pairwise (· ≤ ·)) (sg : m.Eg.Pairwise (· ≤ ·)) (f : Fill) :
    ∃ m' i j, m.fill f.eg f.ex f.count = .ok m' ∧ hits m f i j ∧
      m' = { m with values := addAt m.values i j f.count } ∧
      (∀ i' j', entry m'.values i' j' = entry m.values i' j'
        + if i' = i ∧ j' = j then f.count else 0) := by
  obtain ⟨i, h1, h2⟩ := C05_index_closest m.Ex f.ex hx sx
  obtain ⟨j, h3, h4⟩ := C05_index_closest m.Eg f.eg hg sg
  refine ⟨{ m with values := addAt m.values i j f.count }, i, j, ?_, ⟨h2, h4⟩, rfl, ?_⟩
  · simp [Mat.fill, h1, h3, bind, Except.bind, pure, Except.pure]
  · intro i' j'
    have hi : i < m.values.length := by rw [hc.1]; exact h2.1.1
    refine entry_addAt _ _ _ _ _ _ hi ?_
    rw [List.getD_eq_getElem _ _ hi, hc.2 _ (List.getElem_mem _)]
    exact h4.1.1

/-- **C16.** After any sequence of fills every bin holds its old content plus the counts of the
fills that are closest to it; axes, std and shape are unchanged. -/
theorem C16_fill_history (fs : List Fill) (m : Mat) (hc : m.consistent) (hx : m.Ex ≠ [])
    (hg : m.Eg ≠ []) (sx : m.Ex.Pairwise (· ≤ ·)) (sg : m.Eg.Pairwise (· ≤ ·)) :
    ∃ m', fillAll fs m = .ok m' ∧ m'.Ex = m.Ex ∧ m'.Eg = m.Eg ∧ m'.std = m.std ∧
      m'.state = m.state ∧ m'.values.length = m.values.length ∧
      (∀ r ∈ m'.values, r.length = m.Eg.length) ∧
      ∀ i j, entry m'.values i j = entry m.values i j + filled m fs i j := by
  have hs := consistent_shape m hc
  clear hc
  induction fs generalizing m with
  | nil => exact ⟨m, rfl, rfl, rfl, rfl, rfl, rfl, hs.2, by simp [filled]⟩
  | cons f fs ih =>
    obtain ⟨m1, a, b, h1, h2, h3, h4⟩ := fill_step m hs hx hg sx sg f
    have hsh := addAt_shape m.values a b f.count m.Eg.length hs.2
    have e1 : m1.Ex = m.Ex := by rw [h3]
    have e2 : m1.Eg = m.Eg := by rw [h3]
    have hs1 : m1.values.length = m1.Ex.length ∧ ∀ r ∈ m1.values, r.length = m1.Eg.length := by
      rw [h3]; exact ⟨by simp only; rw [hsh.1, hs.1], hsh.2⟩
    obtain ⟨m', g1, g2, g3, g4, g5, g6, g7, g8⟩ := ih m1 (by rw [e1]; exact hx)
      (by rw [e2]; exact hg) (by rw [e1]; exact sx) (by rw [e2]; exact sg) hs1
    refine ⟨m', ?_, by rw [g2, e1], by rw [g3, e2], by rw [g4, h3], by rw [g5, h3], ?_, ?_, ?_⟩
    · simp only [fillAll, h1, bind, Except.bind]
      exact g1
    · rw [g6, h3]; exact hsh.1
    · rw [← e2]; exact g7
    · intro i j
      rw [g8, h4]
      have : filled m1 fs i j = filled m fs i j := by
        have hh : ∀ f : Fill, hits m1 f i j = hits m f i j := by
          intro f; simp only [hits, e1, e2]
        unfold filled
        congr 1
        apply List.map_congr_left
        intro f _
        by_cases hc : hits m f i j
        · rw [if_pos hc, if_pos (by rw [hh]; exact hc)]
        · rw [if_neg hc, if_neg (by rw [hh]; exact hc)]
      rw [this]
      simp only [filled, List.map_cons, List.sum_cons]
      have hh : (i = a ∧ j = b) ↔ hits m f i j := by
        constructor
        · rintro ⟨rfl, rfl⟩; exact h2
        · rintro ⟨p, q⟩; exact ⟨limit_unique p h2.1, limit_unique q h2.2⟩
      by_cases hcase : hits m f i j
      · rw [if_pos (hh.2 hcase), if_pos hcase]; ring
      · rw [if_neg (fun h => hcase (hh.1 h)), if_neg hcase]; ring

/-- **C16.** The order of fills does not matter. -/
theorem C16_fill_order (fs gs : List Fill) (hp : fs.Perm gs) (m : Mat) (hc : m.consistent)
    (hx : m.Ex ≠ []) (hg : m.Eg ≠ []) (sx : m.Ex.Pairwise (· ≤ ·)) (sg : m.Eg.Pairwise (· ≤ ·)) :
    fillAll fs m = fillAll gs m := by
  obtain ⟨m1, a1, a2, a3, a4, a5, a6, a7, a8⟩ := C16_fill_history fs m hc hx hg sx sg
  obtain ⟨m2, b1, b2, b3, b4, b5, b6, b7, b8⟩ := C16_fill_history gs m hc hx hg sx sg
  rw [a1, b1]
  congr 1
  have hv : m1.values = m2.values := by
    apply ext_entry _ _ m.Eg.length (by rw [a6, b6]) a7 b7
    intro i j
    rw [a8, b8]
    congr 1
    exact (hp.map _).sum_eq
  obtain ⟨v1, g1, x1, s1, t1⟩ := m1
  obtain ⟨v2, g2, x2, s2, t2⟩ := m2
  simp only at *
  subst hv a2 a3 a4 a5
  simp [b2, b3, b4, b5]

/-- **C16.** One fill adds its count to exactly one bin, and the total grows by exactly the
count. -/
theorem C16_fill_one_bin (f : Fill) (m : Mat) (hc : m.consistent) (hx : m.Ex ≠ [])
    (hg : m.Eg ≠ []) (sx : m.Ex.Pairwise (· ≤ ·)) (sg : m.Eg.Pairwise (· ≤ ·)) :
    ∃ m' i j, m.fill f.eg f.ex f.count = .ok m' ∧ IsLimit m.Ex f.ex i ∧ IsLimit m.Eg f.eg j ∧
      entry m'.values i j = entry m.values i j + f.count ∧
      (∀ i' j', (i' ≠ i ∨ j' ≠ j) → entry m'.values i' j' = entry m.values i' j') ∧
      matSum m'.values = matSum m.values + f.count := by
  have hs := consistent_shape m hc
  obtain ⟨m', i, j, h1, h2, h3, h4⟩ := fill_step m hs hx hg sx sg f
  refine ⟨m', i, j, h1, h2.1, h2.2, by simp [h4], ?_, ?_⟩
  · intro i' j' h
    rw [h4, if_neg (by tauto), add_zero]
  · have hsh := addAt_shape m.values i j f.count m.Eg.length hs.2
    have hi : i < m.values.length := by rw [hs.1]; exact h2.1.1.1
    have hj : j < m.Eg.length := h2.2.1.1
    have e1 : matSum m'.values = ∑ a ∈ Finset.range m.values.length,
        ∑ b ∈ Finset.range m.Eg.length, entry m'.values a b := by
      rw [h3]
      exact matSum_eq _ _ _ hsh.1 hsh.2
    have e2 : matSum m.values = ∑ a ∈ Finset.range m.values.length,
        ∑ b ∈ Finset.range m.Eg.length, entry m.values a b := matSum_eq _ _ _ rfl hs.2
    rw [e1, e2]
    simp only [h4, Finset.sum_add_distrib]
    congr 1
    rw [Finset.sum_eq_single i]
    · rw [Finset.sum_eq_single j]
      · simp
      · intro b _ hb; simp [hb]
      · intro hb; exact absurd (Finset.mem_range.2 hj) hb
    · intro a _ ha
      apply Finset.sum_eq_zero
      intro b _
      simp [ha]
    · intro ha; exact absurd (Finset.mem_range.2 hi) ha

example : fillAll [⟨9/10, 0, 5⟩, ⟨1/2, 2, 1⟩] ⟨[[0, 0], [0, 0]], [0, 1], [0, 1], none, none⟩
    = .ok ⟨[[0, 5], [0, 1]], [0, 1], [0, 1], none, none⟩ := by decide +kernel

/-! ### C19: remove_negative -/

/-- Specification: what an entry becomes. -/
def IsClamped : Num → Num → Prop
  | .fin q, y => (0 < q ∧ y = .fin q) ∨ (q ≤ 0 ∧ y = .fin 0)
  | .pinf, y => y = .pinf
  | .ninf, y => y = .fin 0
  | .nan, y => y = .fin 0

/-- **C19.** Positive entries (and +∞) stay, every other entry becomes 0. -/
theorem C19_remove_negative (v : List (List Num)) (i j : ℕ) (x : Num)
    (h : (v.getD i [])[j]? = some x) :
    ∃ y, ((removeNegative v).getD i [])[j]? = some y ∧ IsClamped x y := by
  have : ((removeNegative v).getD i [])[j]? = ((v.getD i [])[j]?).map clampNum := by
    unfold removeNegative
    simp only [List.getD_eq_getElem?_getD, List.getElem?_map]
    cases v[i]? <;> simp
  rw [this, h]
  refine ⟨clampNum x, rfl, ?_⟩
  cases x with
  | fin q =>
    rcases lt_or_ge 0 q with hq | hq
    · exact .inl ⟨hq, by simp [clampNum, hq]⟩
    · exact .inr ⟨hq, by simp [clampNum, not_lt.2 hq]⟩
  | nan => rfl
  | pinf => rfl
  | ninf => rfl

/-- **C19.** Idempotent, shape preserving and without negative or NaN entries. -/
theorem C19_idempotent (v : List (List Num)) :
    removeNegative (removeNegative v) = removeNegative v ∧
    (removeNegative v).map List.length = v.map List.length ∧
    ∀ r ∈ removeNegative v, ∀ x ∈ r, x = .pinf ∨ ∃ q : ℚ, 0 ≤ q ∧ x = .fin q := by
  refine ⟨?_, ?_, ?_⟩
  · unfold removeNegative
    rw [List.map_map]
    apply List.map_congr_left
    intro r _
    simp only [Function.comp_apply, List.map_map]
    apply List.map_congr_left
    intro x _
    cases x <;> simp only [Function.comp_apply, clampNum]
    · split_ifs with h
      · simp [h]
      · simp
    all_goals simp
  · simp [removeNegative, Function.comp_def]
  · intro r hr x hx
    obtain ⟨r0, _, rfl⟩ := List.mem_map.1 hr
    obtain ⟨y, _, rfl⟩ := List.mem_map.1 hx
    cases y <;> simp only [clampNum]
    · split_ifs with h
      · exact .inr ⟨_, h.le, rfl⟩
      · exact .inr ⟨0, le_refl _, rfl⟩
    · exact .inr ⟨0, le_refl _, rfl⟩
    · exact .inl trivial
    · exact .inr ⟨0, le_refl _, rfl⟩

/-- **C19.** Whatever the preceding `fill_negative` did, after `fill_and_remove_negative`
(ompy/matrix.py:784-794: fill, then remove) no entry is negative. -/
theorem C19_fill_and_remove (fill : List (List ℚ) → List (List ℚ)) (v : List (List ℚ)) :
    ∀ r ∈ removeNegativeQ (fill v), ∀ x ∈ r, 0 ≤ x := by
  intro r hr x hx
  obtain ⟨r0, _, rfl⟩ := List.mem_map.1 hr
  obtain ⟨y, _, rfl⟩ := List.mem_map.1 hx
  split_ifs with h
  · exact h.le
  · exact le_refl _

example : removeNegative [[.fin (-3), .fin 2], [.nan, .pinf]]
    = [[.fin 0, .fin 2], [.fin 0, .pinf]] := by decide +kernel

/-! ### C20: diagonal_elements -/

/-- Specification: `j` is the column of the last non-zero element of the row. -/
def IsLastNonzero (r : List ℚ) (j : ℕ) : Prop :=
  j < r.length ∧ r.getD j 0 ≠ 0 ∧ ∀ k, j < k → r.getD k 0 = 0

theorem diagLoop_spec (r : List ℚ) (ny k : ℕ) (hny : ny = r.length + k) :
    (∀ c, diagLoop ny k r.reverse = some c → ∃ j, IsLastNonzero r j ∧ c = (j : ℤ) + 1) ∧
    (diagLoop ny k r.reverse = none → ∀ j, r.getD j 0 = 0) := by
  induction r using List.reverseRecOn generalizing k with
  | nil => simp [diagLoop]
  | append_singleton xs x ih =>
    rw [List.reverse_append]
    simp only [List.reverse_cons, List.reverse_nil, List.nil_append, List.singleton_append,
      diagLoop, List.length_append, List.length_cons, List.length_nil] at *
    obtain ⟨ih1, ih2⟩ := ih (k + 1) (by omega)
    by_cases hx : x ≠ 0
    · rw [if_pos hx]
      refine ⟨?_, by simp⟩
      intro c hc
      injection hc with hc
      refine ⟨xs.length, ⟨by simp, by simpa [List.getD_eq_getElem?_getD] using hx, ?_⟩, by omega⟩
      intro m hm
      rw [List.getD_eq_default]
      simp; omega
    · rw [if_neg hx]
      push Not at hx
      refine ⟨?_, ?_⟩
      · intro c hc
        obtain ⟨j, ⟨h1, h2, h3⟩, h4⟩ := ih1 c hc
        refine ⟨j, ⟨by simp; omega, ?_, ?_⟩, h4⟩
        · rwa [List.getD_append _ _ _ _ h1]
        · intro m hm
          rcases lt_trichotomy m xs.length with g | g | g
          · rw [List.getD_append _ _ _ _ g]; exact h3 m hm
          · subst g; simpa [List.getD_eq_getElem?_getD] using hx
          · rw [List.getD_eq_default]; simp; omega
      · intro hn m
        rcases lt_trichotomy m xs.length with g | g | g
        · rw [List.getD_append _ _ _ _ g]; exact ih2 hn m
        · subst g; simpa [List.getD_eq_getElem?_getD] using hx
        · rw [List.getD_eq_default]; simp; omega

/-- **C20 (partial).** `diagonal_elements` yields, for exactly the rows with a non-zero element and in
row order, the row and **one plus** the column of its last non-zero element.  Missing against the
documented property: the column is one too high. -/
theorem C20_diagonal_elements_partial (v : List (List ℚ)) (ny : ℕ) (h : ∀ r ∈ v, r.length = ny) :
    (∀ i c, (i, c) ∈ diagonalElements v ny ↔
      i < v.length ∧ ∃ j : ℕ, IsLastNonzero (v.getD i []) j ∧ c = (j : ℤ) + 1) ∧
    ((diagonalElements v ny).map Prod.fst).Pairwise (· < ·) := by
  constructor
  · intro i c
    unfold diagonalElements
    simp only [List.mem_filterMap, Option.map_eq_some_iff, Prod.mk.injEq, Prod.exists,
      List.mem_zipIdx_iff_getElem?]
    constructor
    · rintro ⟨r, k, hr, c', hc', rfl, rfl⟩
      have hk : k < v.length := by
        by_contra hge
        rw [List.getElem?_eq_none (by omega)] at hr
        cases hr
      have hlen : r.length = ny := h r (List.mem_of_getElem? hr)
      refine ⟨hk, ?_⟩
      have hg : v.getD k [] = r := by simp [List.getD_eq_getElem?_getD, hr]
      rw [hg]
      exact (diagLoop_spec r ny 0 (by omega)).1 c' hc'
    · rintro ⟨hi, j, hj, rfl⟩
      have hr : v[i]? = some v[i] := List.getElem?_eq_getElem hi
      have hg : v.getD i [] = v[i] := List.getD_eq_getElem _ _ hi
      rw [hg] at hj
      have hlen : v[i].length = ny := h _ (List.getElem_mem _)
      obtain ⟨s1, s2⟩ := diagLoop_spec v[i] ny 0 (by omega)
      cases hd : diagLoop ny 0 v[i].reverse with
      | none => exact absurd (s2 hd j) hj.2.1
      | some c =>
        obtain ⟨j', hj', rfl⟩ := s1 c hd
        refine ⟨v[i], i, hr, _, hd, rfl, ?_⟩
        have : j' = j := by
          rcases lt_trichotomy j' j with g | g | g
          · exact absurd (hj'.2.2 j g) hj.2.1
          · exact g
          · exact absurd (hj.2.2 j' g) hj'.2.1
        rw [this]
  · unfold diagonalElements
    have key : ∀ (v : List (List ℚ)) (n : ℕ), (((v.zipIdx n).filterMap fun p =>
        (diagLoop ny 0 p.1.reverse).map fun c => (p.2, c)).map Prod.fst).Pairwise (· < ·) ∧
        ∀ i ∈ (((v.zipIdx n).filterMap fun p =>
        (diagLoop ny 0 p.1.reverse).map fun c => (p.2, c)).map Prod.fst), n ≤ i := by
      intro v
      induction v with
      | nil => intro n; simp
      | cons r rs ih =>
        intro n
        obtain ⟨p1, p2⟩ := ih (n + 1)
        rw [List.zipIdx_cons, List.filterMap_cons]
        cases hd : (diagLoop ny 0 r.reverse).map fun c => ((n : ℕ), c) with
        | none =>
          simp only
          exact ⟨p1, fun i hi => by have := p2 i hi; omega⟩
        | some q =>
          simp only
          obtain ⟨c, _, rfl⟩ := Option.map_eq_some_iff.1 hd
          rw [List.map_cons, List.pairwise_cons]
          refine ⟨⟨fun i hi => by have := p2 i hi; omega, p1⟩, ?_⟩
          intro i hi
          rcases List.mem_cons.1 hi with rfl | hi
          · exact le_refl _
          · have := p2 i hi; omega
    exact (key v 0).1

/-- C20 is false as documented: the yielded column is not the last non-zero one, and it can even
be outside of the matrix. -/
theorem C20_column_off_by_one_fails :
    diagonalElements [[1, 2, 0], [0, 0, 0], [1, 2, 3]] 3 = [(0, 2), (2, 3)] ∧
    IsLastNonzero [1, 2, 0] 1 ∧ IsLastNonzero [1, 2, 3] 2 := by
  refine ⟨by decide +kernel, ⟨by decide, by decide +kernel, ?_⟩, ⟨by decide, by decide +kernel, ?_⟩⟩
  · intro k hk
    match k, hk with
    | 2, _ => rfl
    | n + 3, _ => simp
  · intro k hk
    match k, hk with
    | n + 3, _ => simp

/-! ### C21: bin-edge conversions -/

/-- **C21.** `to_lower_bin` followed by `to_mid_bin` restores the matrix, for every axis with at least
two entries; values and std are untouched in between. -/
theorem C21_bin_round_trip (m : Mat) (hx : 2 ≤ m.Ex.length) (hg : 2 ≤ m.Eg.length) :
    ∃ m', m.toLowerBin = .ok m' ∧ m'.values = m.values ∧ m'.std = m.std ∧
      m'.toMidBin = .ok m ∧
      m'.Ex = m.Ex.map (fun e => e - (m.Ex.getD 1 0 - m.Ex.getD 0 0) / 2) ∧
      m'.Eg = m.Eg.map (fun e => e - (m.Eg.getD 1 0 - m.Eg.getD 0 0) / 2) := by
  obtain ⟨v, g, x, s, t⟩ := m
  match x, g, hx, hg with
  | x0 :: x1 :: xs, g0 :: g1 :: gs, _, _ =>
    refine ⟨⟨v, (g0 :: g1 :: gs).map (fun e => e - (g1 - g0) / 2),
      (x0 :: x1 :: xs).map (fun e => e - (x1 - x0) / 2), s, t⟩, rfl, rfl, rfl, ?_, rfl, rfl⟩
    simp only [Mat.toMidBin, List.map_cons, halfBin, bind, Except.bind, pure, Except.pure]
    congr 2
    · have : g1 - (g1 - g0) / 2 - (g0 - (g1 - g0) / 2) = g1 - g0 := by ring
      simp [this, List.map_map, Function.comp_def]
    · have : x1 - (x1 - x0) / 2 - (x0 - (x1 - x0) / 2) = x1 - x0 := by ring
      simp [this, List.map_map, Function.comp_def]

/-- **C21.** Shorter axes raise IndexError instead of giving a wrong axis. -/
theorem C21_short_axis (m : Mat) (h : m.Ex.length < 2 ∨ m.Eg.length < 2) :
    m.toLowerBin = .error .indexError ∧ m.toMidBin = .error .indexError := by
  have key : ∀ l : List ℚ, l.length < 2 → halfBin l = .error .indexError := by
    intro l hl
    match l, hl with
    | [], _ => rfl
    | [_], _ => rfl
  have key2 : ∀ l : List ℚ, (∃ q, halfBin l = .ok q) ∨ halfBin l = .error .indexError := by
    intro l
    match l with
    | [] => exact .inr rfl
    | [_] => exact .inr rfl
    | a :: b :: t => exact .inl ⟨_, rfl⟩
  unfold Mat.toLowerBin Mat.toMidBin
  rcases key2 m.Ex with ⟨q, hq⟩ | hq
  · rcases h with h | h
    · rw [key _ h] at hq; cases hq
    · simp [hq, key _ h, bind, Except.bind]
  · simp [hq, bind, Except.bind]

example : Mat.toLowerBin ⟨[[1, 2], [3, 4]], [1, 3], [10, 14], none, none⟩
    = .ok ⟨[[1, 2], [3, 4]], [0, 2], [8, 12], none, none⟩ := by decide +kernel

end Ompy
