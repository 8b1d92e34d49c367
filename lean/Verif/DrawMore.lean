import Verif.DrawProps

/-!
# C97, tightened: the interval of the ticks, their rounding and the scale
-/

namespace Ompy

/-- **C97.** The ends of what is shown may come in either order, and a single energy is widened by 1 on both sides. -/
theorem C97_window (locs : List ℚ) (nbins : ℕ) (dmin dmax a b : ℚ) :
    tickValues locs nbins dmin dmax a b = tickValues locs nbins dmin dmax b a ∧
      tickValues locs nbins dmin dmax a a = tickValues locs nbins dmin dmax (a - 1) (a + 1) := by
  constructor
  · unfold tickValues
    rcases lt_trichotomy a b with h | h | h
    · simp only [not_lt.2 h.le, if_false, h, if_true]
    · rw [h]
    · simp only [not_lt.2 h.le, if_false, h, if_true]
  · unfold tickValues
    have h1 : ¬ (a + 1 < a - 1) := by linarith
    have h2 : ¬ (a - 1 = a + 1) := by intro h; linarith
    simp only [lt_irrefl, if_false, if_true, h1, h2]

example : tickValues [0, 1, 2, 3] 10 0 100 3 1 = .ok [1, 2, 3] ∧ tickValues [0, 1, 2, 3] 10 0 100 2 2 = .ok [1, 2, 3] := by decide +kernel

theorem around_near (i : ℕ) (t : ℚ) : |aroundTens i t - t| ≤ 10 ^ i / 2 := by
  have h := roundHalfEven_near (t / 10 ^ i)
  have hp : (0 : ℚ) < 10 ^ i := by positivity
  unfold aroundTens
  have e : (roundHalfEven (t / 10 ^ i) : ℚ) * 10 ^ i - t = ((roundHalfEven (t / 10 ^ i) : ℚ) - t / 10 ^ i) * 10 ^ i := by
    field_simp
  rw [e, abs_mul, abs_of_pos hp]
  nlinarith

/-- **C97.** When the ticks are rounded, the upper bin decides to what: all ticks are multiples of 100 within 50 of the middle of a bin if it lies at 100 or above, otherwise
multiples of 10 within 5. -/
theorem C97_rounded (locs : List ℚ) (hs : locs.Pairwise (· < ·)) (nbins : ℕ) (dmin dmax vmin vmax : ℚ) (i j : ℕ)
    (hv : vmin < vmax) (hi : iFromE vmin locs = .ok i) (hj : iFromE vmax locs = .ok j)
    (hd : 8 / 10 * (dmax - dmin) < vmax - vmin) (h20 : 20 < j - i) (h0 : locs.getD j 0 ≠ 0) :
    ∃ t, tickValues locs nbins dmin dmax vmin vmax = .ok t ∧ t ≠ [] ∧ ∀ x ∈ t, ∃ y ∈ locs,
      (100 ≤ |locs.getD j 0| → |x - y| ≤ 50 ∧ ∃ k : ℤ, x = k * 100) ∧ (|locs.getD j 0| < 100 → |x - y| ≤ 5 ∧ ∃ k : ℤ, x = k * 10) := by
  obtain ⟨hij, li, lj⟩ := closest_mono locs hs vmin vmax hv.le i j hi hj
  have hst : 0 < tickStep i j nbins := by unfold tickStep; omega
  obtain ⟨s1, s2, s3, s4⟩ := stepSlice_sub locs hs i j (tickStep i j nbins) hij lj hst
  have key : ∀ e : ℕ, ∀ x ∈ uniqueQ ((stepSlice locs i j (tickStep i j nbins)).map (aroundTens e)), ∃ y ∈ locs, |x - y| ≤ 10 ^ e / 2 ∧ ∃ k : ℤ, x = k * 10 ^ e := by
    intro e x hx
    unfold uniqueQ at hx
    rw [List.mem_insertionSort, List.mem_dedup, List.mem_map] at hx
    obtain ⟨y, hy, rfl⟩ := hx
    exact ⟨y, s1 y hy, around_near e y, _, rfl⟩
  have hne : ∀ e : ℕ, uniqueQ ((stepSlice locs i j (tickStep i j nbins)).map (aroundTens e)) ≠ [] := by
    intro e hc
    have hm : aroundTens e (locs.getD i 0) ∈ uniqueQ ((stepSlice locs i j (tickStep i j nbins)).map (aroundTens e)) := by
      unfold uniqueQ
      rw [List.mem_insertionSort, List.mem_dedup]
      exact List.mem_map_of_mem (List.mem_of_mem_head? s3)
    rw [hc] at hm
    cases hm
  have ht : tickValues locs nbins dmin dmax vmin vmax = (tickExp (locs.getD j 0)).map fun e =>
      uniqueQ ((stepSlice locs i j (tickStep i j nbins)).map (aroundTens e)) := by
    unfold tickValues
    simp only [not_lt.2 hv.le, if_false, hv.ne, hi, hj, bind, Except.bind, hd, h20, and_self, if_true]
  rw [ht]
  unfold tickExp
  rw [if_neg h0]
  by_cases h100 : 100 ≤ |locs.getD j 0|
  · rw [if_pos h100]
    refine ⟨_, rfl, hne 2, fun x hx => ?_⟩
    obtain ⟨y, hy, a, k, b⟩ := key 2 x hx
    exact ⟨y, hy, fun _ => ⟨by norm_num at a; exact a, k, by rw [b]; norm_num⟩, fun h => absurd h100 (not_le.2 h)⟩
  · rw [if_neg h100]
    refine ⟨_, rfl, hne 1, fun x hx => ?_⟩
    obtain ⟨y, hy, a, k, b⟩ := key 1 x hx
    exact ⟨y, hy, fun h => absurd h h100, fun _ => ⟨by norm_num at a; exact a, k, by rw [b]; norm_num⟩⟩

example : tickValues ((List.range 30).map fun k : ℕ => 40 * (k : ℚ)) 4 0 1160 0 1160 = .ok [0, 300, 600, 1000] := by decide +kernel

/-- **C97.** Without a scale given, the sum of all entries decides: logarithmic colours above 1000 counts, linear ones otherwise. -/
theorem C97_default_scale (m : Mat) (vmin : Option ℚ) (p : Plotted) (h : m.plot none vmin = .ok p) :
    (p.scale = .log ↔ 1000 < m.values.flatten.sum) := by
  have hc : m.countsSum = m.values.flatten.sum := by
    unfold Mat.countsSum
    rw [List.sum_flatten]
  rw [← hc]
  unfold Mat.plot at h
  split_ifs at h with h1
  cases hz : zScale m.countsSum none vmin with
  | error e => rw [hz] at h; cases h
  | ok z =>
    rw [hz] at h
    have hp : p.scale = z := by
      simp only [bind, Except.bind, pure, Except.pure] at h
      cases hl : m.toLowerBin with
      | error e => rw [hl] at h; cases h
      | ok l =>
        rw [hl] at h
        simp only at h
        cases hb : l.toMidBin with
        | error e => rw [hb] at h; cases h
        | ok b => rw [hb] at h; simp only at h; rw [← Except.ok.inj h]
    rw [hp]
    unfold zScale at hz
    by_cases hlog : 1000 < m.countsSum
    · simp only [hlog, if_true, Option.getD_none] at hz
      refine ⟨fun _ => hlog, fun _ => ?_⟩
      cases vmin with
      | none => exact (Except.ok.inj hz).symm
      | some v =>
        simp only at hz
        split_ifs at hz
        exact (Except.ok.inj hz).symm
    · simp only [hlog, if_false, Option.getD_none] at hz
      rw [if_neg (by decide), if_pos trivial] at hz
      rw [← Except.ok.inj hz]
      simp [hlog]

example : ∃ p, (⟨[[1000, 2], [3, 4]], [0, 1], [0, 1], none, none⟩ : Mat).plot none none = .ok p ∧ p.scale = .log :=
  ⟨⟨⟨[[1000, 2], [3, 4]], [0, 1], [0, 1], none, none⟩, [-1 / 2, 1 / 2, 3 / 2], [-1 / 2, 1 / 2, 3 / 2], .log⟩, by decide +kernel, rfl⟩

end Ompy
