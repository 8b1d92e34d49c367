import Verif.RhoSigChiFit
import Verif.MatrixRebinProps

/-!
# Properties of the rhosigchi setup (C55 – C58)
-/

namespace Ompy

/-! ## Axis and limits -/

theorem rscCalib_grid (e0 a1 extend : ℚ) (n : ℕ) (hn : 2 ≤ n) (ha : 0 < a1) :
    rscCalib (grid e0 a1 n) extend = .ok (a1,
      e0 - a1 * ((truncZ (e0 / a1) : ℚ) + (truncZ (extend / a1 + 1 / 2) : ℚ))) := by
  obtain ⟨k, rfl⟩ : ∃ k, n = k + 2 := ⟨n - 2, by omega⟩
  have h : grid e0 a1 (k + 2) = e0 :: (e0 + a1) :: (grid e0 a1 (k + 2)).drop 2 := by
    simp [grid, List.range_succ_eq_map]
  rw [h]
  unfold rscCalib
  simp only [add_sub_cancel_left]
  rw [if_neg ha.ne']
  congr 2
  field_simp
  ring

theorem arange_grid (a0 a1 : ℚ) (ha : 0 < a1) (m : ℕ) :
    arange a0 (a0 + a1 * ((m : ℚ) - 1) + a1) a1 = grid a0 a1 m := by
  unfold arange grid
  have : (a0 + a1 * ((m : ℚ) - 1) + a1 - a0) / a1 = ((m : ℤ) : ℚ) := by
    field_simp
    push_cast
    ring
  rw [this, Int.ceil_intCast, Int.toNat_natCast]

/-- C55: the axis made by `pyrhosigchi` continues the axis of the matrices to lower energies with the
same bins: the old mid-points are the last `n` of the new ones, and both matrices get the same
axis. -/
theorem C55_axis (e0 a1 extend : ℚ) (n : ℕ) (hn : 2 ≤ n) (ha : 0 < a1) (he : 0 ≤ e0)
    (hx : 0 ≤ extend) :
    ∃ a0 : ℚ, ∃ k : ℕ, rscCalib (grid e0 a1 n) extend = .ok (a1, a0) ∧
      arange a0 (e0 + a1 * ((n : ℚ) - 1) + a1) a1 = grid a0 a1 (k + n) ∧
      (∀ i < n, (grid a0 a1 (k + n)).getD (k + i) 0 = (grid e0 a1 n).getD i 0) ∧
      -- the axis for the uncertainties is computed from the rebinned first matrix
      (∀ last, (grid a0 a1 (k + n)).getLast? = some last →
        arange a0 (last + a1) a1 = grid a0 a1 (k + n)) := by
  set z := truncZ (e0 / a1) + truncZ (extend / a1 + 1 / 2) with hz
  have z0 : 0 ≤ z := by
    have h1 : 0 ≤ truncZ (e0 / a1) := by
      rw [truncZ_of_nonneg (by positivity)]
      exact Int.floor_nonneg.2 (by positivity)
    have h2 : 0 ≤ truncZ (extend / a1 + 1 / 2) := by
      rw [truncZ_of_nonneg (by positivity)]
      exact Int.floor_nonneg.2 (by positivity)
    omega
  refine ⟨e0 - a1 * z, z.toNat, ?_, ?_, ?_, ?_⟩
  · rw [rscCalib_grid e0 a1 extend n hn ha]
    congr 2
    rw [hz]; push_cast; ring
  · have hzc : ((z.toNat : ℕ) : ℚ) = (z : ℚ) := by
      have : ((z.toNat : ℤ)) = z := Int.toNat_of_nonneg z0
      exact_mod_cast this
    rw [← arange_grid _ _ ha]
    congr 1
    push_cast
    rw [hzc]; ring
  · intro i hi
    have hzc : ((z.toNat : ℕ) : ℚ) = (z : ℚ) := by
      have : ((z.toNat : ℤ)) = z := Int.toNat_of_nonneg z0
      exact_mod_cast this
    rw [grid_getD _ _ (by omega), grid_getD _ _ hi]
    push_cast
    rw [hzc]; ring
  · intro last hl
    rw [grid_getLast _ _ (by omega)] at hl
    injection hl with hl
    rw [← hl]
    exact arange_grid _ _ ha _

example : (0 : ℚ) < 120 ∧ (0 : ℚ) ≤ 30 ∧ (0 : ℚ) ≤ 800 := by norm_num

/-- Rounding `int(x + 0.5)` of a non-negative number is a closest integer. -/
theorem trunc_half_close {x : ℚ} (hx : 0 ≤ x) : |(truncZ (x + 1 / 2) : ℚ) - x| ≤ 1 / 2 := by
  rw [truncZ_of_nonneg (by linarith)]
  have h1 := Int.floor_le (x + 1 / 2)
  have h2 := Int.lt_floor_add_one (x + 1 / 2)
  rw [abs_le]
  constructor <;> linarith

theorem sub_truncZ_abs (q : ℚ) : |q - (truncZ q : ℚ)| < 1 := by
  unfold truncZ
  split_ifs with h
  · rw [abs_lt]
    have h1 := Int.floor_le q
    have h2 := Int.lt_floor_add_one q
    constructor <;> linarith
  · rw [abs_lt]
    have h1 := Int.le_ceil q
    have h2 := Int.ceil_lt_add_one q
    constructor <;> linarith

/-- C55: if the diagonal is extended by at least half a bin, the energy written on the level density
bin of the pair `(x, g)` is within half a bin of `Ex(x) - Eg(g)`; all pairs have the same offset. -/
theorem C55_labels_partial (e0 a1 extend ExMin ExMax EgMin a0 : ℚ) (n : ℕ) (hn : 2 ≤ n)
    (ha : 0 < a1) (hx : a1 / 2 ≤ extend)
    (hc : rscCalib (grid e0 a1 n) extend = .ok (a1, a0)) :
    ∃ off : ℚ, |off| ≤ a1 / 2 ∧ ∀ x g : ℤ,
      rscLabel a0 a1 (x - g + (rscLimits a0 a1 ExMin ExMax EgMin).2.2.2) =
        (rscLabel a0 a1 x - rscLabel a0 a1 g) + off := by
  rw [rscCalib_grid e0 a1 extend n hn ha] at hc
  simp only [Except.ok.injEq, Prod.mk.injEq, true_and] at hc
  set N := truncZ (extend / a1 + 1 / 2) with hN
  have hN1 : 1 ≤ N := by
    have h0 : (1 : ℚ) ≤ extend / a1 + 1 / 2 := by
      have : (1 : ℚ) / 2 ≤ extend / a1 := by
        rw [le_div_iff₀ ha]; linarith
      linarith
    rw [hN, truncZ_of_nonneg (by linarith)]
    exact Int.le_floor.2 (by exact_mod_cast h0)
  have hq : a0 / a1 = (e0 / a1 - (truncZ (e0 / a1) : ℚ)) - N := by
    rw [← hc]
    field_simp
    ring
  have hfr := sub_truncZ_abs (e0 / a1)
  rw [abs_lt] at hfr
  have hN1' : (1 : ℚ) ≤ N := by exact_mod_cast hN1
  have hneg : a0 / a1 < 0 := by rw [hq]; linarith
  set u := truncZ (|a0 / a1| + 1 / 2) with hu
  have hclose := trunc_half_close (abs_nonneg (a0 / a1))
  rw [← hu, abs_of_neg hneg] at hclose
  refine ⟨(u : ℚ) * a1 + a0, ?_, ?_⟩
  · have : (u : ℚ) * a1 + a0 = a1 * ((u : ℚ) - -(a0 / a1)) := by
      field_simp
      ring
    rw [this, abs_mul, abs_of_pos ha]
    nlinarith
  · intro x g
    unfold rscLabel rscLimits
    simp only
    rw [← hu]
    push_cast
    ring

/-- C55: without extension the labels can be off by almost two bins. -/
theorem C55_labels_fails :
    rscCalib (grid (9/10) 1 5) 0 = .ok (1, 9/10) ∧
    rscLabel (9/10) 1 (3 - 1 + (rscLimits (9/10) 1 0 0 0).2.2.2) -
      (rscLabel (9/10) 1 3 - rscLabel (9/10) 1 1) = 19/10 := by
  constructor <;> decide +kernel

/-- C55: the limits are the bins closest to the requested energies. -/
theorem C55_limits (a0 a1 ExMin ExMax EgMin : ℚ) (ha : 0 < a1) (h1 : a0 ≤ EgMin) (h2 : a0 ≤ ExMin)
    (h3 : a0 ≤ ExMax) :
    let l := rscLimits a0 a1 ExMin ExMax EgMin
    |rscLabel a0 a1 l.1 - EgMin| ≤ a1 / 2 ∧ |rscLabel a0 a1 l.2.1 - ExMin| ≤ a1 / 2 ∧
      |rscLabel a0 a1 (l.2.2.1 - 1) - ExMax| ≤ a1 / 2 := by
  have key : ∀ E, a0 ≤ E → |rscLabel a0 a1 (truncZ ((E - a0) / a1 + 1 / 2)) - E| ≤ a1 / 2 := by
    intro E hE
    have h := trunc_half_close (x := (E - a0) / a1) (div_nonneg (by linarith) ha.le)
    have : rscLabel a0 a1 (truncZ ((E - a0) / a1 + 1 / 2)) - E =
        a1 * ((truncZ ((E - a0) / a1 + 1 / 2) : ℚ) - (E - a0) / a1) := by
      unfold rscLabel
      field_simp
      ring
    rw [this, abs_mul, abs_of_pos ha]
    nlinarith
  refine ⟨key _ h1, key _ h2, ?_⟩
  have := key _ h3
  unfold rscLimits
  simpa using this

theorem rscIgmax_aux (row : List ℚ) (igmin : ℕ) : ∀ n,
    let m := (List.range n).foldl (fun m ig => if igmin ≤ ig ∧ row.getD ig 0 > 0 ∧ m < ig + 1
      then ig + 1 else m) 0
    m ≤ n ∧ (m = 0 ∨ igmin + 1 ≤ m ∧ 0 < row.getD (m - 1) 0) ∧
      ∀ ig, igmin ≤ ig → m ≤ ig → ig < n → row.getD ig 0 ≤ 0 := by
  intro n
  induction n with
  | zero => simp
  | succ n ih =>
    simp only at ih ⊢
    rw [List.range_succ, List.foldl_append]
    obtain ⟨h1, h2, h3⟩ := ih
    set m := (List.range n).foldl (fun m ig => if igmin ≤ ig ∧ row.getD ig 0 > 0 ∧ m < ig + 1
      then ig + 1 else m) 0
    simp only [List.foldl_cons, List.foldl_nil]
    by_cases hc : igmin ≤ n ∧ row.getD n 0 > 0 ∧ m < n + 1
    · rw [if_pos hc]
      refine ⟨le_rfl, Or.inr ⟨by omega, by simpa using hc.2.1⟩, ?_⟩
      intro ig _ k2 k3
      omega
    · rw [if_neg hc]
      refine ⟨by omega, h2, ?_⟩
      intro ig k1 k2 k3
      by_cases hig : ig = n
      · subst hig
        by_contra hpos
        exact hc ⟨k1, by linarith, by omega⟩
      · exact h3 ig k1 k2 (by omega)

/-- C55: `igmax` is one more than the last gamma bin of the fit range with a positive entry, and 0 if
there is none. -/
theorem C55_igmax (row : List ℚ) (igmin : ℕ) :
    (rscIgmax row igmin = 0 ∨
      igmin + 1 ≤ rscIgmax row igmin ∧ 0 < row.getD (rscIgmax row igmin - 1) 0) ∧
    ∀ ig, igmin ≤ ig → rscIgmax row igmin ≤ ig → ig < row.length → row.getD ig 0 ≤ 0 := by
  have := rscIgmax_aux row igmin row.length
  exact ⟨this.2.1, this.2.2⟩

example : rscIgmax [1, 0, 3, 0, -1] 1 = 3 := by decide +kernel

/-! ## Whole ensembles -/

theorem rebinOne_Ex_axis {m m' : Mat} {mids : List ℚ}
    (h : m.rebinOne true (some mids) none = (m', .ok ())) : m'.Ex = mids := by
  unfold Mat.rebinOne at h
  simp only [rebinMids, if_true] at h
  split at h
  · simp at h
  · simp only [Prod.mk.injEq] at h
    rw [← h.1]

theorem rebinBoth_axis {m m' : Mat} {mids : List ℚ}
    (h : m.rebinInplace 2 (some mids) none = (m', .ok ())) : m'.Ex = mids := by
  unfold Mat.rebinInplace at h
  rw [if_pos rfl] at h
  split at h
  · simp at h
  · exact rebinOne_Ex_axis h

theorem rscHead_std {close : List ℚ → List ℚ → Except Err Bool} {extend e0 a1 : ℚ} {fg std : Mat}
    {n : ℕ} {h : RscHead} (hn : 2 ≤ n) (ha : 0 < a1) (he : 0 ≤ e0) (hx : 0 ≤ extend)
    (hEx : fg.Ex = grid e0 a1 n) (hh : rscHead close extend fg std = .ok h) :
    (h.std.Ex.length : ℤ) = n + truncZ (e0 / a1) + truncZ (extend / a1 + 1 / 2) := by
  unfold rscHead at hh
  split at hh
  · simp at hh
  simp only [bind, Except.bind, pure, Except.pure, throw, throwThe, MonadExceptOf.throw] at hh
  split at hh
  · simp at hh
  split at hh
  · simp at hh
  split at hh
  · simp at hh
  split at hh
  · simp at hh
  rw [hEx, rscCalib_grid e0 a1 extend n hn ha] at hh
  simp only at hh
  set z := truncZ (e0 / a1) + truncZ (extend / a1 + 1 / 2) with hz
  have z0 : 0 ≤ z := by
    have h1 : 0 ≤ truncZ (e0 / a1) := by
      rw [truncZ_of_nonneg (by positivity)]
      exact Int.floor_nonneg.2 (by positivity)
    have h2 : 0 ≤ truncZ (extend / a1 + 1 / 2) := by
      rw [truncZ_of_nonneg (by positivity)]
      exact Int.floor_nonneg.2 (by positivity)
    omega
  have ea : e0 - a1 * ((truncZ (e0 / a1) : ℚ) + (truncZ (extend / a1 + 1 / 2) : ℚ)) =
      e0 - a1 * z := by rw [hz]; push_cast; ring
  rw [ea, grid_getLast _ _ (by omega)] at hh
  simp only at hh
  have hzc : ((z.toNat : ℕ) : ℚ) = (z : ℚ) := by
    have : ((z.toNat : ℤ)) = z := Int.toNat_of_nonneg z0
    exact_mod_cast this
  have e1 : arange (e0 - a1 * z) (e0 + a1 * ((n : ℚ) - 1) + a1) a1 =
      grid (e0 - a1 * z) a1 (z.toNat + n) := by
    rw [← arange_grid _ _ ha]
    congr 1
    push_cast
    rw [hzc]; ring
  rw [e1] at hh
  split at hh
  · simp at hh
  rename_i u hu
  have hfx : (fg.rebinInplace 2 (some (grid (e0 - a1 * z) a1 (z.toNat + n))) none).1.Ex =
      grid (e0 - a1 * z) a1 (z.toNat + n) :=
    rebinBoth_axis (Prod.ext rfl hu)
  rw [hfx, grid_getLast _ _ (by omega)] at hh
  simp only at hh
  rw [arange_grid _ _ ha] at hh
  split at hh
  · simp at hh
  rename_i u2 hu2
  have hsx := rebinBoth_axis (m := std) (Prod.ext rfl hu2)
  simp only [Except.ok.injEq] at hh
  rw [← hh]
  simp only
  rw [hsx, grid_length]
  push_cast
  rw [Int.toNat_of_nonneg z0]
  ring

/-- C56: `Extractor.rhosigchi` never succeeds for an ensemble with two or more members whose nld and
gsf are not on disk: the first fit rebins the shared uncertainty matrix in place, and the second
refuses it because of its shape.  This holds whatever the rest of the fit does, for every binning
with at least one bin of extension. -/
theorem C56_second_member_fails {R : Type} (close : List ℚ → List ℚ → Except Err Bool)
    (extend e0 a1 : ℚ) (n : ℕ) (fit : RscHead → Except Err R) (m1 m2 : Mat) (ms : List Mat)
    (std : Mat) (hn : 2 ≤ n) (ha : 0 < a1) (he : 0 ≤ e0) (hx : a1 / 2 ≤ extend)
    (h1 : m1.Ex = grid e0 a1 n) (h2 : m2.Ex.length = n) :
    ∃ e, extractRsc close extend fit (m1 :: m2 :: ms) std = .error e := by
  unfold extractRsc
  cases hh : rscHead close extend m1 std with
  | error e => exact ⟨e, rfl⟩
  | ok h =>
    simp only [bind, Except.bind]
    cases hf : fit h with
    | error e => exact ⟨e, rfl⟩
    | ok r =>
      simp only
      have hl := rscHead_std hn ha he (by linarith) h1 hh
      have hN1 : 1 ≤ truncZ (extend / a1 + 1 / 2) := by
        have h0 : (1 : ℚ) ≤ extend / a1 + 1 / 2 := by
          have : (1 : ℚ) / 2 ≤ extend / a1 := by
            rw [le_div_iff₀ ha]; linarith
          linarith
        rw [truncZ_of_nonneg (by linarith)]
        exact Int.le_floor.2 (by exact_mod_cast h0)
      have h0 : 0 ≤ truncZ (e0 / a1) := by
        rw [truncZ_of_nonneg (by positivity)]
        exact Int.floor_nonneg.2 (by positivity)
      have hne : (m2.Ex.length, m2.Eg.length) ≠ (h.std.Ex.length, h.std.Eg.length) := by
        intro hc
        simp only [Prod.mk.injEq] at hc
        omega
      unfold extractRsc
      unfold rscHead
      rw [if_pos hne]
      exact ⟨.valueError, rfl⟩

/-- The sample meets the hypotheses of `C56_second_member_fails`, and one member alone works. -/
example :
    let m : Mat := ⟨[[1, 0], [1, 2]], grid 0 1 2, grid 0 1 2, none, none⟩
    m.Ex = grid 0 1 2 ∧ (1 : ℚ) / 2 ≤ 1 ∧
    (extractRsc (fun _ _ => .ok true) 1 (fun h => .ok h.fg.Ex.length) [m] m) = .ok [3] := by
  decide +kernel

/-- C56: what is handed to the fits as standard deviation is the mean of the members. -/
theorem C56_std_is_mean_fails :
    (∀ members i j, (rscMember members i j).2 = (rscMember members i j).1) ∧
    rscMember [[[1]], [[3]]] 0 0 = (2, 2) := by
  refine ⟨fun _ _ _ => rfl, ?_⟩
  decide +kernel

/-! ## Normalisation and chi-square -/

/-- C57: a row that can be normalised sums to one in its window, keeps the ratios of its entries and
is zero outside. -/
theorem C57_rows (row : List ℚ) (lo hi : ℕ) (out : List ℚ) (h : rscNormRow row lo hi = .ok out)
    (hlo : lo < min hi row.length) :
    out.length = row.length ∧ out.sum = 1 ∧
      (∀ j, ¬ (lo ≤ j ∧ j < hi) → out.getD j 0 = 0) ∧
      ∀ j k, lo ≤ j → j < min hi row.length → lo ≤ k → k < min hi row.length →
        out.getD j 0 * row.getD k 0 = out.getD k 0 * row.getD j 0 := by
  unfold rscNormRow at h
  simp only at h
  split at h
  · simp at h
  rename_i hne
  simp only [Except.ok.injEq] at h
  set s := ∑ j ∈ Finset.Ico lo (min hi row.length), row.getD j 0 with hs
  have hs0 : s ≠ 0 := fun h0 => hne ⟨hlo, h0⟩
  have hget : ∀ j < row.length, out.getD j 0 =
      if lo ≤ j ∧ j < hi then row.getD j 0 / s else 0 := by
    intro j hj
    rw [← h, getD_map_range _ hj]
  have hlen : out.length = row.length := by rw [← h]; simp
  refine ⟨hlen, ?_, ?_, ?_⟩
  · rw [← h, list_map_range_sum]
    rw [← Finset.sum_filter]
    have : Finset.filter (fun j => lo ≤ j ∧ j < hi) (Finset.range row.length) =
        Finset.Ico lo (min hi row.length) := by
      ext j
      simp only [Finset.mem_filter, Finset.mem_range, Finset.mem_Ico, lt_min_iff]
      tauto
    rw [this, ← Finset.sum_div, ← hs, div_self hs0]
  · intro j hj
    by_cases hjl : j < row.length
    · rw [hget j hjl, if_neg hj]
    · rw [List.getD_eq_default _ _ (by omega)]
  · intro j k j1 j2 k1 k2
    rw [lt_min_iff] at j2 k2
    rw [hget j j2.2, hget k k2.2, if_pos ⟨j1, j2.1⟩, if_pos ⟨k1, k2.1⟩]
    ring

example : rscNormRow [1, 2, 6, 5] 1 3 = .ok [0, 1/4, 3/4, 0] := by decide +kernel

/-- C57: the uncertainties returned are those handed in, whatever the norm. -/
theorem C57_std_unscaled_fails :
    (∀ mat std imin imax igmin igmax r,
      rscNormalize mat std imin imax igmin igmax = .ok r → r.2 = std) ∧
    -- ten times the statistics: the same spectrum, ten times the uncertainty
    rscNormalize [[1, 3]] [[1, 1]] 0 1 0 [2] = .ok ([[1/4, 3/4]], [[1, 1]]) ∧
    rscNormalize [[10, 30]] [[10, 10]] 0 1 0 [2] = .ok ([[1/4, 3/4]], [[10, 10]]) := by
  refine ⟨?_, by decide +kernel, by decide +kernel⟩
  intro mat std imin imax igmin igmax r h
  unfold rscNormalize at h
  simp only [bind, Except.bind, pure, Except.pure, throw, throwThe, MonadExceptOf.throw] at h
  split at h
  · simp at h
  split at h
  · simp at h
  split at h
  · simp at h
  simp only [Except.ok.injEq] at h
  rw [← h]

/-- C57: contributions to the chi-square are non-negative. -/
theorem C57_elem_nonneg (fg F s rho sig sRho sSig x : ℚ)
    (h : rscChiElem fg F s rho sig sRho sSig = some x) : 0 ≤ x := by
  unfold rscChiElem at h
  generalize (if fg > 0 then fg ^ 2 * ((sRho / rho) ^ 2 + (sSig / sig) ^ 2) else 0) = v at h
  by_cases hc : s > 0 ∧ v > 0
  · simp only [if_pos hc, Option.some.injEq] at h
    rw [← h]
    have := hc.2
    positivity
  · simp [hc] at h

/-- C57: so the chi-square is. -/
theorem C57_nonneg (rows : List (List (Option ℚ))) (degrees : ℤ)
    (h : ∀ r ∈ rows, ∀ x ∈ r, 0 ≤ x.getD 0) : 0 ≤ rscChi rows degrees := by
  unfold rscChi rscChiRows
  suffices ∀ (rows : List (List (Option ℚ))) (st : ℚ × ℤ),
      (∀ r ∈ rows, ∀ x ∈ r, 0 ≤ x.getD 0) → 0 ≤ st.1 →
      0 ≤ (rows.foldl (fun (st : ℚ × ℤ) (row : List (Option ℚ)) =>
        let chi := st.1 + (row.map fun x => x.getD 0).sum
        let deg := st.2 - ((row.filter fun x => x.isNone).length : ℤ)
        (if deg > 0 then chi / deg else chi, deg)) st).1 from
    this rows (0, degrees) h le_rfl
  intro rows
  induction rows with
  | nil => intro st _ h; exact h
  | cons r rows ih =>
    intro st hr hst
    rw [List.foldl_cons]
    apply ih _ fun r' hr' => hr r' (by simp [hr'])
    have hsum : 0 ≤ (r.map fun x => x.getD 0).sum := by
      apply List.sum_nonneg
      intro y hy
      rw [List.mem_map] at hy
      obtain ⟨x, hx, rfl⟩ := hy
      exact hr r (by simp) x hx
    simp only
    split_ifs with hd
    · apply div_nonneg (by linarith)
      exact_mod_cast hd.le
    · linarith

/-- C57: for a single row `chisquare` is the reduced chi-square. -/
theorem C57_reduced_partial (row : List (Option ℚ)) (degrees : ℤ)
    (hd : 0 < degrees - ((row.filter fun x => x.isNone).length : ℤ)) :
    rscChi [row] degrees = (row.map fun x => x.getD 0).sum /
      ((degrees - ((row.filter fun x => x.isNone).length : ℤ) : ℤ) : ℚ) := by
  unfold rscChi rscChiRows
  simp only [List.foldl_cons, List.foldl_nil, zero_add]
  rw [if_pos hd]

/-- What the rows contribute when all elements are measured: row `k` of `n` is divided by the degrees
of freedom `n - k` times. -/
def chiWeighted (deg : ℚ) : List ℚ → ℚ
  | [] => 0
  | c :: cs => c / deg ^ (cs.length + 1) + chiWeighted deg cs

/-- C57: with more rows the division is repeated for every row, so earlier rows hardly count. -/
theorem C57_rows_weight (rows : List (List (Option ℚ))) (degrees : ℤ) (hd : 0 < degrees)
    (hm : ∀ r ∈ rows, ∀ x ∈ r, x.isSome) :
    rscChi rows degrees = chiWeighted degrees (rows.map fun r => (r.map fun x => x.getD 0).sum) := by
  unfold rscChi
  have hd' : ((degrees : ℤ) : ℚ) ≠ 0 := by exact_mod_cast hd.ne'
  have aux : ∀ (rows : List (List (Option ℚ))) (c : ℚ), (∀ r ∈ rows, ∀ x ∈ r, x.isSome) →
      rscChiRows rows (c, degrees) = (c / (degrees : ℚ) ^ rows.length +
        chiWeighted degrees (rows.map fun r => (r.map fun x => x.getD 0).sum), degrees) := by
    intro rows
    induction rows with
    | nil => intro c _; simp [rscChiRows, chiWeighted]
    | cons r rows ih =>
      intro c hm
      have hf : (r.filter fun x => x.isNone) = [] := by
        rw [List.filter_eq_nil_iff]
        intro x hx
        have := hm r (by simp) x hx
        cases x with
        | none => simp at this
        | some y => simp
      have := ih ((c + (r.map fun x => x.getD 0).sum) / degrees)
        (fun r' hr' => hm r' (by simp [hr']))
      unfold rscChiRows at this ⊢
      rw [List.foldl_cons]
      simp only [hf, List.length_nil, Nat.cast_zero, sub_zero]
      rw [if_pos hd, this]
      congr 1
      simp only [List.map_cons, chiWeighted, List.length_cons, List.length_map]
      rw [pow_succ]
      field_simp
      ring
  rw [aux rows 0 hm]
  simp

/-- C57: two rows with contributions 8 and 8 and four degrees of freedom: 5/2 instead of 4. -/
theorem C57_chisquare_fails : rscChi [[some 8], [some 8]] 4 = 5 / 2 ∧ (8 + 8) / 4 = (4 : ℚ) := by
  constructor
  · decide +kernel
  · norm_num

/-! ## `pad_matrix` and `find_limits` -/

/-- C58: padding puts `n` empty bins in front of both axes: the axis is continued with the same step,
every old element is found `n` further, and the rest is 0. -/
theorem C58_pad (close : List ℚ → List ℚ → Except Err Bool) (m : Mat) (n k : ℕ) (e0 a1 : ℚ)
    (hk : 2 ≤ k) (hc : m.consistent = true) (hEx : m.Ex = grid e0 a1 k) (hEg : m.Eg = grid e0 a1 k)
    (hcl : close m.Ex m.Eg = .ok true) :
    ∃ m', padMatrix close m n = .ok m' ∧ m'.Ex = grid (e0 - a1 * n) a1 (n + k) ∧ m'.Eg = m'.Ex ∧
      (∀ i < k, ∀ j < k, (m'.values.getD (n + i) []).getD (n + j) 0 =
        (m.values.getD i []).getD j 0) ∧
      (∀ i j, i < n ∨ j < n → (m'.values.getD i []).getD j 0 = 0) := by
  obtain ⟨h1, h2⟩ := consistent_shape m hc
  obtain ⟨q, rfl⟩ : ∃ q, k = q + 2 := ⟨k - 2, by omega⟩
  have hg : grid e0 a1 (q + 2) = e0 :: (e0 + a1) :: (grid e0 a1 (q + 2)).drop 2 := by
    simp [grid, List.range_succ_eq_map]
  have hl : m.Eg.length = q + 2 := by rw [hEg, grid_length]
  have hlx : m.Ex.length = q + 2 := by rw [hEx, grid_length]
  have hE : ((List.range n).map fun k : ℕ => -((n : ℚ) - (k : ℚ)) * (e0 + a1 - e0) + e0) ++ m.Ex =
      grid (e0 - a1 * n) a1 (n + (q + 2)) := by
    rw [hEx]
    unfold grid
    rw [List.range_add (n := n) (m := q + 2), List.map_append, List.map_map]
    congr 1
    · apply List.map_congr_left
      intro i _
      ring
    · apply List.map_congr_left
      intro i _
      simp only [Function.comp]
      push_cast
      ring
  unfold padMatrix
  rw [hcl]
  simp only [bind, Except.bind, pure, Except.pure, not_true_eq_false, if_false]
  rw [show m.Ex = e0 :: (e0 + a1) :: (grid e0 a1 (q + 2)).drop 2 by rw [hEx]; exact hg]
  simp only
  rw [show e0 :: (e0 + a1) :: (grid e0 a1 (q + 2)).drop 2 = m.Ex by rw [hEx]; exact hg.symm, hE]
  rw [hl]
  have hv : (⟨List.replicate n (List.replicate (n + (q + 2)) 0) ++
        (m.values.map fun r => List.replicate n 0 ++ r),
      grid (e0 - a1 * n) a1 (n + (q + 2)), grid (e0 - a1 * n) a1 (n + (q + 2)),
      none, none⟩ : Mat).verify = .ok () := by
    unfold Mat.verify
    rw [if_pos]
    simp only [Mat.consistent, Bool.and_true, hasShape, grid_length, Bool.and_eq_true, beq_iff_eq,
      List.all_eq_true, List.length_append, List.length_replicate, List.length_map]
    refine ⟨by omega, ?_⟩
    intro r hr
    rw [List.mem_append] at hr
    rcases hr with hr | hr
    · rw [List.eq_of_mem_replicate hr, List.length_replicate]
    · rw [List.mem_map] at hr
      obtain ⟨r', hr', rfl⟩ := hr
      rw [List.length_append, List.length_replicate, h2 r' hr', hl]
  rw [hv]
  refine ⟨_, rfl, rfl, rfl, ?_, ?_⟩
  · intro i hi j hj
    simp only
    rw [List.getD_append_right _ _ _ _ (by simp)]
    have : i < m.values.length := by omega
    simp only [List.length_replicate, Nat.add_sub_cancel_left]
    rw [getD_map_of_lt _ _ this, List.getD_append_right _ _ _ _ (by simp)]
    simp
  · intro i j hij
    simp only
    by_cases hi : i < n
    · rw [List.getD_append _ _ _ i (by simpa using hi),
        List.getD_eq_getElem (List.replicate n (List.replicate (n + (q + 2)) (0 : ℚ))) []
          (by simpa using hi), List.getElem_replicate]
      by_cases hj : j < n + (q + 2)
      · rw [List.getD_eq_getElem _ _ (by simpa using hj), List.getElem_replicate]
      · rw [List.getD_eq_default _ _ (by simpa using hj)]
    · have hj : j < n := by tauto
      rw [List.getD_append_right _ _ _ _ (by simpa using hi)]
      simp only [List.length_replicate]
      by_cases hb : i - n < m.values.length
      · rw [getD_map_of_lt _ _ hb, List.getD_append _ _ _ _ (by simpa using hj),
          List.getD_eq_getElem _ _ (by simpa using hj), List.getElem_replicate]
      · rw [List.getD_eq_default (m.values.map fun r => List.replicate n 0 ++ r) []
          (by simpa using hb)]
        simp

example : (padMatrix (fun _ _ => .ok true)
    ⟨[[1, 2], [3, 4]], grid 5 1 2, grid 5 1 2, none, none⟩ 1).map (fun m => m.values) =
    .ok [[0, 0, 0], [0, 1, 2], [0, 3, 4]] := by decide +kernel

/-- C58: the limits of `find_limits` select exactly the bins whose mid-points lie between the
energies asked for. -/
theorem C58_limits (gain shift ExMin ExMax EgMin : ℚ) (hg : 0 < gain) (i : ℤ) :
    let l := findLimits gain shift ExMin ExMax EgMin
    ((l.1 ≤ i ∧ i < l.2.1) ↔ (ExMin ≤ shift + gain * i ∧ shift + gain * i ≤ ExMax)) ∧
    (l.2.2.1 ≤ i ↔ EgMin ≤ shift + gain * i) := by
  have lo : ∀ E, ⌈(E - shift) / gain⌉ ≤ i ↔ E ≤ shift + gain * i := by
    intro E
    rw [Int.ceil_le, div_le_iff₀ hg]
    constructor <;> intro h <;> linarith
  have hi : i < ⌊(ExMax - shift) / gain⌋ + 1 ↔ shift + gain * i ≤ ExMax := by
    rw [Int.lt_add_one_iff, Int.le_floor, le_div_iff₀ hg]
    constructor <;> intro h <;> linarith
  unfold findLimits
  simp only
  exact ⟨and_congr (lo _) hi, lo _⟩

end Ompy
