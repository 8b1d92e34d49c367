import Verif.Draw
import Verif.MatrixProps
import Verif.IndexLemmas
import Verif.VectorProps
import Verif.LibraryProps
import Verif.DiscreteProps

/-!
# C97: what is drawn belongs to the bins
-/

namespace Ompy

/-! ## The bins -/

/-- **C97.** `plot` leaves the matrix as it was, whatever its axes, and hands `n + 1` edges to the drawing. -/
theorem C97_unchanged (m : Mat) (scale : Option String) (vmin : Option ℚ) (p : Plotted) (h : m.plot scale vmin = .ok p) :
    p.mat = m ∧ p.eg.length = m.Eg.length + 1 ∧ p.ex.length = m.Ex.length + 1 := by
  unfold Mat.plot at h
  by_cases hl : m.Ex.length ≤ 1 ∨ m.Eg.length ≤ 1
  · rw [if_pos hl] at h; cases h
  · rw [if_neg hl] at h
    push Not at hl
    obtain ⟨m', h1, -, -, h4, h5, h6⟩ := C21_bin_round_trip m (by omega) (by omega)
    cases hz : zScale m.countsSum scale vmin with
    | error e => simp [hz, bind, Except.bind] at h
    | ok z =>
      simp only [hz, h1, h4, bind, Except.bind, pure, Except.pure, Except.ok.injEq] at h
      subst h
      refine ⟨rfl, ?_, ?_⟩
      · simp [extendEdge, h6]
      · simp [extendEdge, h5]

/-- **C97.** `plot` refuses axes with less than two bins, unknown scales and a logarithmic scale starting at 0 or below, and nothing else. By default the
scale is logarithmic above 1000 counts. -/
theorem C97_refused (m : Mat) (scale : Option String) (vmin : Option ℚ) :
    ((∃ p, m.plot scale vmin = .ok p) ↔ 2 ≤ m.Ex.length ∧ 2 ≤ m.Eg.length ∧
      (scale = some "linear" ∨ (scale = none ∧ m.countsSum ≤ 1000) ∨
        ((scale = some "log" ∨ (scale = none ∧ 1000 < m.countsSum)) ∧ ∀ v, vmin = some v → 0 < v))) ∧
    ((¬ ∃ p, m.plot scale vmin = .ok p) → m.plot scale vmin = .error .valueError) := by
  by_cases hl : m.Ex.length ≤ 1 ∨ m.Eg.length ≤ 1
  · have he : m.plot scale vmin = .error .valueError := by unfold Mat.plot; rw [if_pos hl]
    refine ⟨⟨?_, ?_⟩, fun _ => he⟩
    · rintro ⟨p, hp⟩; rw [he] at hp; cases hp
    · rintro ⟨h1, h2, -⟩; omega
  · push Not at hl
    obtain ⟨m', h1, -, -, h4, -, -⟩ := C21_bin_round_trip m (by omega) (by omega)
    have hp : m.plot scale vmin = (zScale m.countsSum scale vmin).map fun z => ⟨m, extendEdge m'.Eg, extendEdge m'.Ex, z⟩ := by
      unfold Mat.plot
      rw [if_neg (by omega)]
      simp only [h1, h4, bind, Except.bind, pure, Except.pure]
      cases zScale m.countsSum scale vmin <;> rfl
    have hz : ((∃ z, zScale m.countsSum scale vmin = .ok z) ↔
        (scale = some "linear" ∨ (scale = none ∧ m.countsSum ≤ 1000) ∨
        ((scale = some "log" ∨ (scale = none ∧ 1000 < m.countsSum)) ∧ ∀ v, vmin = some v → 0 < v))) ∧
        ((¬ ∃ z, zScale m.countsSum scale vmin = .ok z) → zScale m.countsSum scale vmin = .error .valueError) := by
      unfold zScale
      cases scale with
      | none =>
        by_cases hc : 1000 < m.countsSum
        · cases vmin with
          | none => simp [hc]
          | some v =>
            by_cases hv : v ≤ 0
            · simp [hc, hv, not_lt.2 hv]
            · simp [hc, hv, not_le.1 hv]
        · simp [hc, not_lt.1 hc]
      | some s =>
        by_cases h1 : s = "log"
        · subst h1
          cases vmin with
          | none => simp
          | some v =>
            by_cases hv : v ≤ 0
            · simp [hv, not_lt.2 hv]
            · simp [hv, not_le.1 hv]
        · by_cases h2 : s = "linear"
          · subst h2; simp
          · simp [h1, h2]
    rw [hp]
    refine ⟨⟨?_, ?_⟩, ?_⟩
    · rintro ⟨p, hp⟩
      refine ⟨by omega, by omega, hz.1.1 ?_⟩
      cases hzz : zScale m.countsSum scale vmin with
      | error e => rw [hzz] at hp; cases hp
      | ok z => exact ⟨z, rfl⟩
    · rintro ⟨-, -, h3⟩
      obtain ⟨z, hzz⟩ := hz.1.2 h3
      exact ⟨_, by rw [hzz]; rfl⟩
    · intro hn
      rw [hz.2 ?_]
      · rfl
      · rintro ⟨z, hzz⟩
        exact hn ⟨_, by rw [hzz]; rfl⟩

example : Mat.plot ⟨[[1, 2], [3, 4]], [1, 3], [10, 14], none, none⟩ none none =
    .ok ⟨⟨[[1, 2], [3, 4]], [1, 3], [10, 14], none, none⟩, [0, 2, 4], [8, 12, 16], .linear⟩ := by decide +kernel

theorem extend_grid (b w : ℚ) (n : ℕ) (hn : 2 ≤ n) : extendEdge (grid b w n) = grid b w (n + 1) := by
  unfold extendEdge
  rw [grid_length, grid_getD b w (by omega : n - 1 < n), grid_getD b w (by omega : n - 2 < n)]
  unfold grid
  rw [List.range_succ, List.map_append]
  congr 1
  simp only [List.map_cons, List.map_nil]
  congr 1
  have h1 : ((n - 1 : ℕ) : ℚ) = n - 1 := by rw [Nat.cast_sub (by omega)]; simp
  have h2 : ((n - 2 : ℕ) : ℚ) = n - 2 := by rw [Nat.cast_sub (by omega)]; simp
  rw [h1, h2]
  ring

theorem lower_grid (a w : ℚ) (n : ℕ) (d : ℚ) : (grid a w n).map (fun e => e - d) = grid (a - d) w n := by
  unfold grid
  rw [List.map_map]
  refine List.map_congr_left fun k _ => ?_
  simp only [Function.comp]
  ring

theorem edgeBin_grid (b w : ℚ) (n : ℕ) (hw : 0 < w) (x : ℚ) (k : ℕ) :
    edgeBin (grid b w (n + 1)) x = some k ↔ k < n ∧ b + w * k < x ∧ x ≤ b + w * (k + 1) := by
  have hs : (grid b w (n + 1)).Pairwise (· ≤ ·) := grid_sorted b w (n + 1) hw.le
  have hss := searchsorted_left (grid b w (n + 1)) hs x
  have h0 : (grid b w (n + 1)).getD 0 0 = b := by rw [grid_getD b w (by omega)]; simp
  have hl : (grid b w (n + 1)).getD ((grid b w (n + 1)).length - 1) 0 = b + w * n := by
    rw [grid_length, grid_getD b w (by omega)]; simp
  unfold edgeBin
  rw [h0, hl]
  set s := searchsorted (grid b w (n + 1)) x false with hsd
  have hv : ∀ j, j < n + 1 → (b + w * j < x ↔ j < s) := by
    intro j hj
    have := hss j (by rw [grid_length]; exact hj)
    rw [grid_getD b w hj] at this
    exact this
  constructor
  · intro h
    by_cases hc : b < x ∧ x ≤ b + w * n
    · rw [if_pos hc] at h
      have hs1 : 0 < s := (hv 0 (by omega)).1 (by simpa using hc.1)
      have hsn : ¬ n < s := fun hh => not_lt.2 hc.2 ((hv n (by omega)).2 hh)
      have hk : s - 1 = k := Option.some.inj h
      refine ⟨by omega, (hv k (by omega)).2 (by omega), ?_⟩
      have := (hv (k + 1) (by omega)).not
      push_cast at this
      exact not_lt.1 (this.2 (by omega))
    · rw [if_neg hc] at h; cases h
  · rintro ⟨h1, h2, h3⟩
    have hkn : (k : ℚ) + 1 ≤ n := by exact_mod_cast h1
    have hk0 : (0 : ℚ) ≤ k := Nat.cast_nonneg k
    rw [if_pos ⟨by nlinarith, by nlinarith⟩]
    have a := (hv k (by omega)).1 h2
    have b' := (hv (k + 1) (by omega)).not
    push_cast at b'
    have := b'.1 (not_lt.2 h3)
    congr 1
    omega

/-- **C97 (partial: equidistant axes).** The value shown at a position is that of the bin the position lies in: the energies differ from the middle of the bin by at
most half its width. Outside the bins nothing is shown. -/
theorem C97_coord_partial (m : Mat) (a w b v : ℚ) (ng nx : ℕ) (hg : m.Eg = grid a w ng) (hx : m.Ex = grid b v nx) (hng : 2 ≤ ng) (hnx : 2 ≤ nx)
    (hw : 0 < w) (hv : 0 < v) (scale : Option String) (vmin : Option ℚ) (p : Plotted) (h : m.plot scale vmin = .ok p) (x y : ℚ) (row col : ℕ) :
    formatCoord p x y = some (row, col) ↔
      row < nx ∧ col < ng ∧ a + w * col - w / 2 < x ∧ x ≤ a + w * col + w / 2 ∧ b + v * row - v / 2 < y ∧ y ≤ b + v * row + v / 2 := by
  have hlx : m.Ex.length = nx := by rw [hx, grid_length]
  have hlg : m.Eg.length = ng := by rw [hg, grid_length]
  obtain ⟨m', h1, -, -, h4, h5, h6⟩ := C21_bin_round_trip m (by omega) (by omega)
  have e1 : m.Eg.getD 1 0 - m.Eg.getD 0 0 = w := by
    rw [hg, grid_getD a w (by omega), grid_getD a w (by omega)]; push_cast; ring
  have e2 : m.Ex.getD 1 0 - m.Ex.getD 0 0 = v := by
    rw [hx, grid_getD b v (by omega), grid_getD b v (by omega)]; push_cast; ring
  rw [e1, hg, lower_grid] at h6
  rw [e2, hx, lower_grid] at h5
  have hp : p.eg = grid (a - w / 2) w (ng + 1) ∧ p.ex = grid (b - v / 2) v (nx + 1) := by
    unfold Mat.plot at h
    rw [if_neg (by omega)] at h
    cases hz : zScale m.countsSum scale vmin with
    | error e => simp [hz, bind, Except.bind] at h
    | ok z =>
      simp only [hz, h1, h4, bind, Except.bind, pure, Except.pure, Except.ok.injEq] at h
      subst h
      exact ⟨by rw [h6, extend_grid _ _ _ hng], by rw [h5, extend_grid _ _ _ hnx]⟩
  have ec := edgeBin_grid (a - w / 2) w ng hw x
  have er := edgeBin_grid (b - v / 2) v nx hv y
  unfold formatCoord
  rw [hp.1, hp.2]
  constructor
  · intro hf
    cases hc : edgeBin (grid (a - w / 2) w (ng + 1)) x with
    | none => simp [hc] at hf
    | some c =>
      cases hr : edgeBin (grid (b - v / 2) v (nx + 1)) y with
      | none => simp [hc, hr] at hf
      | some r =>
        simp only [hc, hr, Option.some.injEq, Prod.mk.injEq] at hf
        obtain ⟨rfl, rfl⟩ := hf
        obtain ⟨c1, c2, c3⟩ := (ec c).1 hc
        obtain ⟨r1, r2, r3⟩ := (er r).1 hr
        exact ⟨r1, c1, by linarith, by linarith, by linarith, by linarith⟩
  · rintro ⟨r1, c1, c2, c3, r2, r3⟩
    rw [(ec col).2 ⟨c1, by linarith, by linarith⟩, (er row).2 ⟨r1, by linarith, by linarith⟩]

/-- **C97 (disagreement).** With bins of unequal width the edges drawn are shifted by half the width of the first bin: at 8 the value of the bin at 1 is
shown, not that of the bin at 10. -/
theorem C97_coord_fails : ∃ (m : Mat) (p : Plotted), m.Eg = [0, 1, 10] ∧ m.plot none none = .ok p ∧ formatCoord p 8 0 = some (0, 1) ∧
    |(8 : ℚ) - 10| < |8 - 1| := by
  refine ⟨⟨[[1, 2, 3], [4, 5, 6]], [0, 1, 10], [0, 1], none, none⟩,
    ⟨⟨[[1, 2, 3], [4, 5, 6]], [0, 1, 10], [0, 1], none, none⟩, [-1 / 2, 1 / 2, 19 / 2, 37 / 2], [-1 / 2, 1 / 2, 3 / 2], .linear⟩, rfl,
    by decide +kernel, by decide +kernel, ?_⟩
  rw [abs_lt]
  constructor <;> norm_num [abs_of_pos]

/-! ## The ticks -/

/-- The closest index grows with the energy. -/
theorem closest_mono (l : List ℚ) (hs : l.Pairwise (· < ·)) (v1 v2 : ℚ) (h : v1 ≤ v2) (i j : ℕ) (hi : iFromE v1 l = .ok i) (hj : iFromE v2 l = .ok j) :
    i ≤ j ∧ i < l.length ∧ j < l.length := by
  have hne : l ≠ [] := by
    rintro rfl
    cases hi
  have hd : ∀ v : ℚ, l.map (fun x => |x - v|) ≠ [] := fun v hc => hne (List.map_eq_nil_iff.1 hc)
  obtain ⟨i', ei, li, mi, fi⟩ := argmin_spec _ (hd v1)
  obtain ⟨j', ej, lj, mj, fj⟩ := argmin_spec _ (hd v2)
  have hi' : i' = i := by
    unfold iFromE at hi; rw [ei] at hi; exact Except.ok.inj hi
  have hj' : j' = j := by
    unfold iFromE at hj; rw [ej] at hj; exact Except.ok.inj hj
  subst hi' hj'
  rw [List.length_map] at li lj
  refine ⟨?_, li, lj⟩
  by_contra hc
  push Not at hc
  have g : ∀ v k, k < l.length → (l.map fun x => |x - v|).getD k 0 = |l.getD k 0 - v| := by
    intro v k hk
    rw [List.getD_eq_getElem _ _ (by simpa using hk), List.getElem_map, List.getD_eq_getElem _ _ hk]
  have a := fi j' hc
  have b := mj i' (by simpa using li)
  rw [g _ _ li, g _ _ lj] at a
  rw [g _ _ li, g _ _ lj] at b
  have hlt : l.getD j' 0 < l.getD i' 0 := by
    rw [List.getD_eq_getElem _ _ lj, List.getD_eq_getElem _ _ li]
    exact List.pairwise_iff_getElem.1 hs _ _ lj li hc
  have sa : (l.getD i' 0 - v1) ^ 2 < (l.getD j' 0 - v1) ^ 2 := sq_lt_sq.2 a
  have sb : (l.getD j' 0 - v2) ^ 2 ≤ (l.getD i' 0 - v2) ^ 2 := sq_le_sq.2 b
  nlinarith [mul_nonneg (sub_nonneg.2 h) (sub_pos.2 hlt).le]

theorem step_count (d nbins : ℕ) (hn : 0 < nbins) : d / max ((d + nbins - 1) / nbins) 1 ≤ nbins := by
  rw [Nat.div_le_iff_le_mul_add_pred (by omega)]
  have h1 : nbins * ((d + nbins - 1) / nbins) + (d + nbins - 1) % nbins = d + nbins - 1 := Nat.div_add_mod _ _
  have h2 := Nat.mod_lt (d + nbins - 1) hn
  have h3 : (d + nbins - 1) / nbins ≤ max ((d + nbins - 1) / nbins) 1 := le_max_left _ _
  have h4 : nbins * ((d + nbins - 1) / nbins) ≤ nbins * max ((d + nbins - 1) / nbins) 1 := Nat.mul_le_mul_left _ h3
  have h5 : nbins * max ((d + nbins - 1) / nbins) 1 = max ((d + nbins - 1) / nbins) 1 * nbins := Nat.mul_comm _ _
  omega

theorem stepSlice_sub (l : List ℚ) (hs : l.Pairwise (· < ·)) (i j s : ℕ) (h : i ≤ j) (hj : j < l.length) (hs0 : 0 < s) :
    (∀ t ∈ stepSlice l i j s, t ∈ l) ∧ (stepSlice l i j s).Pairwise (· < ·) ∧ (stepSlice l i j s).head? = some (l.getD i 0) ∧
      (stepSlice l i j s).length = (j - i) / s + 1 := by
  have hb : ∀ k, k < (j - i) / s + 1 → i + k * s < l.length := by
    intro k hk
    have : k * s ≤ (j - i) / s * s := Nat.mul_le_mul_right s (by omega)
    have := Nat.div_mul_le_self (j - i) s
    omega
  unfold stepSlice
  rw [if_pos h]
  refine ⟨?_, ?_, ?_, by simp⟩
  · intro t ht
    obtain ⟨k, hk, rfl⟩ := List.mem_map.1 ht
    have := hb k (List.mem_range.1 hk)
    rw [List.getD_eq_getElem _ _ this]
    exact List.getElem_mem this
  · rw [List.pairwise_map]
    refine List.Pairwise.imp_of_mem ?_ (List.pairwise_lt_range (n := (j - i) / s + 1))
    intro a b ha hb' hab
    have h1 := hb a (List.mem_range.1 ha)
    have h2 := hb b (List.mem_range.1 hb')
    rw [List.getD_eq_getElem _ _ h1, List.getD_eq_getElem _ _ h2]
    refine List.pairwise_iff_getElem.1 hs _ _ h1 h2 ?_
    have : a * s < b * s := Nat.mul_lt_mul_of_pos_right hab hs0
    omega
  · rw [List.range_succ_eq_map]
    simp

/-- **C97 (partial: without the rounding).** The ticks are middles of bins in ascending order, at most `nbins + 1` of them, starting with the bin closest to the
lower end of what is shown. -/
theorem C97_ticks_partial (locs : List ℚ) (hs : locs.Pairwise (· < ·)) (hne : locs ≠ []) (nbins : ℕ) (hn : 0 < nbins) (dmin dmax vmin vmax : ℚ)
    (hv : vmin < vmax) (hd : vmax - vmin ≤ 8 / 10 * (dmax - dmin)) :
    ∃ t, tickValues locs nbins dmin dmax vmin vmax = .ok t ∧ (∀ x ∈ t, x ∈ locs) ∧ t.Pairwise (· < ·) ∧ t.length ≤ nbins + 1 ∧
      ∃ x, t.head? = some x ∧ ∀ y ∈ locs, |x - vmin| ≤ |y - vmin| := by
  have hd' : ∀ v : ℚ, locs.map (fun x => |x - v|) ≠ [] := fun v hc => hne (List.map_eq_nil_iff.1 hc)
  obtain ⟨i, ei, li, mi, fi⟩ := argmin_spec _ (hd' vmin)
  obtain ⟨j, ej, lj, mj, fj⟩ := argmin_spec _ (hd' vmax)
  obtain ⟨hij, hi, hj⟩ := closest_mono locs hs vmin vmax hv.le i j ei ej
  have hst : 0 < tickStep i j nbins := by unfold tickStep; omega
  obtain ⟨s1, s2, s3, s4⟩ := stepSlice_sub locs hs i j (tickStep i j nbins) hij hj hst
  refine ⟨stepSlice locs i j (tickStep i j nbins), ?_, s1, s2, ?_, locs.getD i 0, s3, ?_⟩
  · unfold tickValues
    have e1 : iFromE vmin locs = .ok i := ei
    have e2 : iFromE vmax locs = .ok j := ej
    simp only [not_lt.2 hv.le, if_false, hv.ne, e1, e2, bind, Except.bind, not_lt.2 hd, false_and, pure, Except.pure]
  · rw [s4]
    have := step_count (j - i) nbins hn
    unfold tickStep
    omega
  · intro y hy
    obtain ⟨k, hk, rfl⟩ := List.mem_iff_getElem.1 hy
    have := mi k (by simpa using hk)
    rw [List.getD_eq_getElem _ _ li, List.getElem_map, List.getD_eq_getElem _ _ (by simpa using hk), List.getElem_map] at this
    rw [List.getD_eq_getElem _ _ hi]
    exact this

example : tickValues ((List.range 30).map fun k : ℕ => (k : ℚ)) 10 0 100 3 20 = .ok [3, 5, 7, 9, 11, 13, 15, 17, 19] := by decide +kernel

theorem around_small (i : ℕ) (hi : 1 ≤ i) (t : ℚ) (ht : |t| < 5) : aroundTens i t = 0 := by
  have hp : (10 : ℚ) ≤ 10 ^ i := by
    calc (10 : ℚ) = 10 ^ 1 := by norm_num
      _ ≤ 10 ^ i := pow_le_pow_right₀ (by norm_num) hi
  have hpos : (0 : ℚ) < 10 ^ i := by linarith
  have hq : |t / 10 ^ i| < 1 / 2 := by
    rw [abs_div, abs_of_pos hpos, div_lt_iff₀ hpos]
    linarith
  have hr := roundHalfEven_near (t / 10 ^ i)
  have : |(roundHalfEven (t / 10 ^ i) : ℚ)| < 1 := by
    calc |(roundHalfEven (t / 10 ^ i) : ℚ)| = |((roundHalfEven (t / 10 ^ i) : ℚ) - t / 10 ^ i) + t / 10 ^ i| := by ring_nf
      _ ≤ |(roundHalfEven (t / 10 ^ i) : ℚ) - t / 10 ^ i| + |t / 10 ^ i| := abs_add_le _ _
      _ < 1 := by linarith
  have hz : roundHalfEven (t / 10 ^ i) = 0 := by
    have : |roundHalfEven (t / 10 ^ i)| < 1 := by exact_mod_cast this
    rw [abs_lt] at this
    omega
  unfold aroundTens
  rw [hz]
  simp

theorem unique_const (l : List ℚ) (c : ℚ) (hne : l ≠ []) (h : ∀ x ∈ l, x = c) : uniqueQ l = [c] := by
  have hd : l.dedup = [c] := by
    have hnd := List.nodup_dedup l
    have hm : ∀ x ∈ l.dedup, x = c := fun x hx => h x (List.mem_dedup.1 hx)
    cases hl : l.dedup with
    | nil =>
      obtain ⟨a, ha⟩ := List.exists_mem_of_ne_nil l hne
      have := List.mem_dedup.2 ha
      rw [hl] at this
      cases this
    | cons a as =>
      rw [hl] at hnd hm
      have ha := hm a List.mem_cons_self
      cases as with
      | nil => rw [ha]
      | cons b bs =>
        have hb := hm b (by simp)
        exact absurd (ha.trans hb.symm) (by
          intro hab
          subst hab
          simp at hnd)
  unfold uniqueQ
  rw [hd]
  rfl

/-- **C97 (disagreement).** When (nearly) the whole axis is shown and it has more than 21 bins, the ticks are rounded to tens: on an axis in MeV below 5 MeV only one
tick, at 0, is left. -/
theorem C97_ticks_fails (locs : List ℚ) (hs : locs.Pairwise (· < ·)) (h5 : ∀ x ∈ locs, |x| < 5) (nbins : ℕ) (dmin dmax vmin vmax : ℚ) (i j : ℕ)
    (hv : vmin < vmax) (hd : 8 / 10 * (dmax - dmin) < vmax - vmin) (hi : iFromE vmin locs = .ok i) (hj : iFromE vmax locs = .ok j)
    (h20 : 20 < j - i) (h0 : locs.getD j 0 ≠ 0) : tickValues locs nbins dmin dmax vmin vmax = .ok [0] := by
  obtain ⟨hij, li, lj⟩ := closest_mono locs hs vmin vmax hv.le i j hi hj
  have hst : 0 < tickStep i j nbins := by unfold tickStep; omega
  obtain ⟨s1, -, s3, -⟩ := stepSlice_sub locs hs i j (tickStep i j nbins) hij lj hst
  have he : ¬ 100 ≤ |locs.getD j 0| := by
    rw [List.getD_eq_getElem _ _ lj]
    have := h5 _ (List.getElem_mem lj)
    intro hc
    linarith
  unfold tickValues
  simp only [not_lt.2 hv.le, if_false, hv.ne, hi, hj, bind, Except.bind, hd, h20, and_self, if_true, tickExp, h0, he, Except.map]
  rw [unique_const]
  · intro hc
    rw [List.map_eq_nil_iff] at hc
    rw [hc] at s3
    cases s3
  · intro x hx
    obtain ⟨t, ht, rfl⟩ := List.mem_map.1 hx
    exact around_small 1 le_rfl t (h5 t (s1 t ht))

example : tickValues ((List.range 41).map fun k : ℕ => (k : ℚ) / 10) 10 0 4 0 4 = .ok [0] := by decide +kernel

/-- **C97 (disagreement).** If the bin at the upper end lies at energy 0, the rounding raises OverflowError. -/
theorem C97_ticks_zero_fails : tickValues ((List.range 22).map fun k : ℕ => (k : ℚ) - 21) 10 (-21) 0 (-21) 0 = .error .runtimeError := by
  decide +kernel

/-! ## Characters -/

theorem positive_sorted (values : List (List ℚ)) : (positiveCounts values).Pairwise (· < ·) := by
  unfold positiveCounts uniqueQ
  refine List.Pairwise.filter _ ?_
  have h1 : (values.flatten.dedup.insertionSort (· ≤ ·)).Pairwise (· ≤ ·) := List.pairwise_insertionSort (· ≤ ·) _
  have h2 : (values.flatten.dedup.insertionSort (· ≤ ·)).Nodup :=
    (List.perm_insertionSort (· ≤ ·) _).nodup_iff.2 (List.nodup_dedup _)
  exact (h1.and h2).imp fun h => lt_of_le_of_ne h.1 h.2

theorem mem_positive (values : List (List ℚ)) (x : ℚ) : x ∈ positiveCounts values ↔ 0 < x ∧ ∃ row ∈ values, x ∈ row := by
  unfold positiveCounts uniqueQ
  simp only [List.mem_filter, decide_eq_true_eq, (List.perm_insertionSort (· ≤ ·) values.flatten.dedup).mem_iff, List.mem_dedup, List.mem_flatten]
  exact and_comm

theorem shade_ok (vals : List ℚ) (hne : vals ≠ []) (c : ℚ) :
    ∃ i, iFromE c vals = .ok i ∧ i < vals.length ∧ shade vals c = .ok (4 * i / vals.length) ∧ 4 * i / vals.length < 4 := by
  have hd : vals.map (fun x => |x - c|) ≠ [] := fun hc => hne (List.map_eq_nil_iff.1 hc)
  obtain ⟨i, ei, li, -, -⟩ := argmin_spec _ hd
  rw [List.length_map] at li
  have hlt : 4 * i / vals.length < 4 := Nat.div_lt_of_lt_mul (by omega)
  refine ⟨i, ei, li, ?_, hlt⟩
  have hsym : (vals.map fun x => |c - x|) = vals.map fun x => |x - c| := List.map_congr_left fun x _ => abs_sub_comm c x
  have hf : ⌊(i : ℚ) / ((vals.length : ℚ) / 4)⌋.toNat = 4 * i / vals.length := by
    have : (i : ℚ) / ((vals.length : ℚ) / 4) = ((4 * i : ℕ) : ℚ) / ((vals.length : ℕ) : ℚ) := by
      have : (vals.length : ℚ) ≠ 0 := by
        have : vals.length ≠ 0 := by omega
        exact_mod_cast this
      field_simp
      push_cast
      ring
    rw [this, Rat.floor_natCast_div_natCast]
    norm_cast
  unfold shade
  rw [hsym]
  simp only [ei, bind, Except.bind, hf, if_pos hlt, pure, Except.pure]

/-- **C97.** Every count gets one of the four shades, and a larger count never a lighter one. -/
theorem C97_shade (values : List (List ℚ)) (x y : ℚ) (hp : ∃ row ∈ values, ∃ c ∈ row, 0 < c) (hxy : x ≤ y) :
    ∃ b c, shade (positiveCounts values) x = .ok b ∧ shade (positiveCounts values) y = .ok c ∧ b ≤ c ∧ c < 4 := by
  obtain ⟨row, hr, c, hc, h0⟩ := hp
  have hne : positiveCounts values ≠ [] := by
    intro hn
    have := (mem_positive values c).2 ⟨h0, row, hr, hc⟩
    rw [hn] at this
    cases this
  obtain ⟨i, hi, li, si, -⟩ := shade_ok _ hne x
  obtain ⟨j, hj, lj, sj, b4⟩ := shade_ok _ hne y
  have := (closest_mono _ (positive_sorted values) x y hxy i j hi hj).1
  exact ⟨_, _, si, sj, Nat.div_le_div_right (by omega), b4⟩

theorem mapM_list_ok {α β : Type} (f : α → Except Err β) (l : List α) (h : ∀ x ∈ l, ∃ y, f x = .ok y) :
    ∃ ys, l.mapM f = .ok ys ∧ ys.length = l.length ∧ ∀ k (h1 : k < l.length) (h2 : k < ys.length), f l[k] = .ok ys[k] := by
  induction l with
  | nil => exact ⟨[], rfl, rfl, fun k hk => by simp at hk⟩
  | cons x xs ih =>
    obtain ⟨y, hy⟩ := h x List.mem_cons_self
    obtain ⟨ys, h1, h2, h3⟩ := ih fun z hz => h z (List.mem_cons_of_mem _ hz)
    refine ⟨y :: ys, ?_, by simp [h2], ?_⟩
    · simp only [List.mapM_cons, hy, h1, bind, Except.bind, pure, Except.pure]
    · intro k a b
      cases k with
      | zero => simpa using hy
      | succ k => simpa using h3 k (by simpa using a) (by simpa using b)

/-- **C97.** A matrix with a positive count (or with zeros only) is drawn: line `r` from the top is the row `r` from the end, and blank exactly where the count is 0. -/
theorem C97_ascii (values : List (List ℚ)) (hp : (∃ row ∈ values, ∃ c ∈ row, 0 < c) ∨ ∀ row ∈ values, ∀ c ∈ row, c = 0) :
    ∃ out, asciiPlot values = .ok out ∧ out.length = values.length ∧ ∀ r (h : r < values.length) (ho : r < out.length),
      out[r].length = (values[values.length - 1 - r]'(by omega)).length ∧
      ∀ k (h1 : k < (values[values.length - 1 - r]'(by omega)).length) (h2 : k < out[r].length),
        (out[r][k] = none ↔ (values[values.length - 1 - r]'(by omega))[k] = 0) ∧ ∀ b, out[r][k] = some b → b < 4 := by
  have hcell : ∀ row ∈ values, ∀ x ∈ row, ∃ y, asciiCell (positiveCounts values) x = .ok y ∧ (y = none ↔ x = 0) ∧ ∀ b, y = some b → b < 4 := by
    intro row hr x hx
    unfold asciiCell
    by_cases h0 : x = 0
    · exact ⟨none, by rw [if_pos h0], by simp [h0], by simp⟩
    · rw [if_neg h0]
      rcases hp with hp | hp
      · obtain ⟨b, -, hb, -, h1, h4⟩ := C97_shade values x x hp le_rfl
        obtain ⟨b', c', e1, e2, e3, e4⟩ := C97_shade values x x hp le_rfl
        refine ⟨some b', by rw [e1]; rfl, by simp [h0], ?_⟩
        intro b hb
        cases hb
        omega
      · exact absurd (hp row hr x hx) h0
  have hrow : ∀ row ∈ values.reverse, ∃ ys, row.mapM (asciiCell (positiveCounts values)) = .ok ys := by
    intro row hr
    obtain ⟨ys, h, -⟩ := mapM_list_ok (asciiCell (positiveCounts values)) row fun x hx => by
      obtain ⟨y, hy, -⟩ := hcell row (List.mem_reverse.1 hr) x hx
      exact ⟨y, hy⟩
    exact ⟨ys, h⟩
  obtain ⟨out, h1, h2, h3⟩ := mapM_list_ok (fun row => row.mapM (asciiCell (positiveCounts values))) values.reverse hrow
  refine ⟨out, h1, by simpa using h2, ?_⟩
  intro r hr ho
  have hr' : r < values.reverse.length := by simpa using hr
  have e := h3 r hr' ho
  have hm : values.reverse[r] ∈ values := List.mem_reverse.1 (List.getElem_mem hr')
  obtain ⟨ys, g1, g2, g3⟩ := mapM_list_ok (asciiCell (positiveCounts values)) values.reverse[r] fun x hx => by
    obtain ⟨y, hy, -⟩ := hcell _ hm x hx
    exact ⟨y, hy⟩
  have e' : (values.reverse[r]).mapM (asciiCell (positiveCounts values)) = .ok out[r] := e
  rw [g1] at e'
  have eo : ys = out[r] := Except.ok.inj e'
  rw [← eo]
  simp only [List.getElem_reverse] at g1 g2 g3 hm
  refine ⟨g2, ?_⟩
  intro k h1 h2
  obtain ⟨y, hy, hy1, hy2⟩ := hcell _ hm _ (List.getElem_mem h1)
  have := g3 k h1 h2
  rw [hy] at this
  have := Except.ok.inj this
  rw [← this]
  exact ⟨hy1, hy2⟩

example : asciiPlot [[1, 0], [2, 8]] = .ok [[some 1, some 2], [some 0, none]] := by decide +kernel

/-- **C97 (disagreement).** A matrix with negative counts and no positive one cannot be drawn (ValueError); beside positive counts a negative one is drawn like the smallest
positive one. -/
theorem C97_ascii_fails :
    (∀ x : ℚ, x < 0 → asciiPlot [[x]] = .error .valueError) ∧ asciiPlot [[-100, 1, 0]] = .ok [[some 0, some 0, none]] := by
  refine ⟨?_, by decide +kernel⟩
  intro x hx
  have : positiveCounts [[x]] = [] := by
    refine List.eq_nil_iff_forall_not_mem.2 fun y hy => ?_
    obtain ⟨h0, row, hr, hy⟩ := (mem_positive _ _).1 hy
    simp only [List.mem_singleton] at hr
    subst hr
    simp only [List.mem_singleton] at hy
    subst hy
    linarith
  unfold asciiPlot
  rw [this]
  simp [asciiCell, hx.ne, shade, argmin, bind, Except.bind, Except.map]

end Ompy
