import Verif.Unfolder
import Verif.Extractor
import Verif.FirstGenProps
import Verif.UnfolderProps
import Mathlib.Tactic.Linarith
import Mathlib.Tactic.FieldSimp
import Mathlib.Tactic.Ring

/-!
# C100: counting `c` times as long

All counts of the raw matrix multiplied by `c > 0`: the unfolded and the first generation matrix should be multiplied by `c`, too, and the normalised matrix handed to
the decomposition should stay the same.
-/

namespace Ompy

/-- An array multiplied by a number. -/
def sc (c : ℚ) (M : List (List ℚ)) : List (List ℚ) := M.map fun r => r.map fun x => c * x

/-- A matrix with all counts multiplied by a number. -/
def Mat.longer (c : ℚ) (m : Mat) : Mat := { m with values := sc c m.values }

theorem sc_row (c : ℚ) (M : List (List ℚ)) (i : ℕ) : (sc c M).getD i [] = (M.getD i []).map fun x => c * x := by
  unfold sc
  by_cases h : i < M.length
  · rw [List.getD_eq_getElem _ _ (by simpa using h), List.getD_eq_getElem _ _ h]
    simp
  · rw [List.getD_eq_default _ _ (by simpa using h), List.getD_eq_default _ _ (by simpa using h)]
    rfl

theorem scale_getD (c : ℚ) (l : List ℚ) (i : ℕ) : (l.map fun x => c * x).getD i 0 = c * l.getD i 0 := by
  by_cases h : i < l.length
  · rw [List.getD_eq_getElem _ _ (by simpa using h), List.getD_eq_getElem _ _ h]
    simp
  · rw [List.getD_eq_default _ _ (by simpa using h), List.getD_eq_default _ _ (by simpa using h)]
    ring

theorem sc_at2 (c : ℚ) (M : List (List ℚ)) (i j : ℕ) : at2 (sc c M) i j = c * at2 M i j := by
  unfold at2
  rw [sc_row, scale_getD]

theorem sc_tabulate (c : ℚ) (n m : ℕ) (f : ℕ → ℕ → ℚ) : tabulate n m (fun i j => c * f i j) = sc c (tabulate n m f) := by
  simp [tabulate, sc, List.map_map, Function.comp_def]

theorem scale_sum (c : ℚ) (l : List ℚ) : (l.map fun x => c * x).sum = c * l.sum := by
  induction l with
  | nil => simp
  | cons x xs ih => simp [ih, mul_add]

theorem div0_scale (c a b : ℚ) (hc : c ≠ 0) : div0 (c * a) (c * b) = div0 a b := by
  unfold div0
  by_cases hb : b = 0
  · simp [hb]
  · rw [if_neg (mul_ne_zero hc hb), if_neg hb, mul_div_mul_left _ _ hc]

theorem div0_left (c a b : ℚ) : div0 (c * a) b = c * div0 a b := by
  unfold div0
  split_ifs
  · ring
  · rw [mul_div_assoc]

theorem zipWith_scale (c : ℚ) (f : ℚ → ℚ → ℚ) (g : ℚ → ℚ → ℚ) (h : ∀ x y, f (c * x) (c * y) = g x y) (a b : List ℚ) :
    List.zipWith f (a.map fun x => c * x) (b.map fun x => c * x) = List.zipWith g a b := by
  rw [List.zipWith_map]
  congr 1
  funext x y
  exact h x y

/-! ## First generation method -/

theorem diagLoop_scale (c : ℚ) (hc : c ≠ 0) (ny : ℕ) (l : List ℚ) : ∀ j, diagLoop ny j (l.map fun x => c * x) = diagLoop ny j l := by
  induction l with
  | nil => intro j; rfl
  | cons x xs ih =>
    intro j
    show (if c * x ≠ 0 then _ else diagLoop ny (j + 1) (xs.map fun x => c * x)) = if x ≠ 0 then _ else diagLoop ny (j + 1) xs
    rw [ih]
    by_cases hx : x = 0 <;> simp [hx, hc]

theorem diag_scale (c : ℚ) (hc : c ≠ 0) (M : List (List ℚ)) (ny : ℕ) : diagonalElements (sc c M) ny = diagonalElements M ny := by
  unfold diagonalElements sc
  rw [List.zipIdx_map, List.filterMap_map]
  congr 1
  funext p
  simp only [Function.comp_apply, Prod.map_fst, Prod.map_snd, ← List.map_reverse, diagLoop_scale c hc, id]

theorem rowNormalized_scale (c : ℚ) (hc : c ≠ 0) (M : List (List ℚ)) (ny : ℕ) : rowNormalized (sc c M) ny = rowNormalized M ny := by
  unfold rowNormalized
  rw [diag_scale c hc]
  simp [sc]

theorem maskRow_scale (c s : ℚ) (Eg row : List ℚ) : maskRow s Eg (row.map fun x => c * x) = (maskRow s Eg row).map fun x => c * x := by
  unfold maskRow
  rw [List.zipWith_map_right, List.map_zipWith]
  congr 1
  funext g x
  split_ifs <;> simp

theorem meanEg_scale (c : ℚ) (hc : c ≠ 0) (Eg row : List ℚ) : meanEg Eg (row.map fun x => c * x) = meanEg Eg row := by
  unfold meanEg
  have : List.zipWith (fun g x => g * x) Eg (row.map fun x => c * x) = (List.zipWith (fun g x => g * x) Eg row).map fun x => c * x := by
    rw [List.zipWith_map_right, List.map_zipWith]
    congr 1
    funext g x
    ring
  rw [this, scale_sum, scale_sum, div0_scale c _ _ hc]

theorem multiplicities_scale (c : ℚ) (hc : c ≠ 0) (p : FGParams) (m : Mat) : multiplicities p (m.longer c) = multiplicities p m := by
  unfold multiplicities Mat.longer sc
  dsimp only
  rw [List.zipWith_map_right]
  congr 1
  funext ex row
  simp only [multTotal, multStatistical, maskRow_scale, meanEg_scale c hc]

theorem multNormalization_scale (c : ℚ) (hc : c ≠ 0) (p : FGParams) (m : Mat) : multNormalization p (m.longer c) = multNormalization p m := by
  unfold multNormalization
  simp only [multiplicities_scale c hc]
  have hs : ∀ i, ((m.longer c).values.map List.sum).getD i 0 = c * (m.values.map List.sum).getD i 0 := by
    intro i
    rw [← scale_getD]
    congr 1
    unfold Mat.longer sc
    simp [List.map_map, Function.comp_def, scale_sum]
  simp only [hs]
  split_ifs
  · congr 1
    congr 1
    funext i j
    rw [show c * (m.values.map List.sum).getD i 0 * (multiplicities p m).getD j 0 = c * ((m.values.map List.sum).getD i 0 * (multiplicities p m).getD j 0) by ring,
      show (multiplicities p m).getD i 0 * (c * (m.values.map List.sum).getD j 0) = c * ((multiplicities p m).getD i 0 * (m.values.map List.sum).getD j 0) by ring,
      div0_scale c _ _ hc]
  · rfl

theorem rebin1D_scale (c : ℚ) (x a b : List ℚ) : rebin1D (x.map fun y => c * y) a b = (rebin1D x a b).map fun l => l.map fun y => c * y := by
  unfold rebin1D
  split
  · rename_i m0 m1 ms n0 n1 ns
    dsimp only
    by_cases h1 : m1 - m0 = 0
    · rw [if_pos h1, if_pos h1]; rfl
    rw [if_neg h1, if_neg h1, List.length_map]
    by_cases h2 : x.length < (m0 :: m1 :: ms).length
    · rw [if_pos h2, if_pos h2]; rfl
    rw [if_neg h2, if_neg h2]
    · simp only [Except.map, List.map_map]
      congr 1
      refine List.map_congr_left fun i _ => ?_
      simp only [Function.comp_apply, rebinBin]
      rw [← scale_sum, List.map_map]
      congr 1
      refine List.map_congr_left fun k _ => ?_
      simp only [Function.comp_apply, rebinTerm, scale_getD]
      ring
  · rfl

theorem mapM_scale {α β : Type} (f g : α → Except Err β) (φ : β → β) (l : List α) (h : ∀ x, f x = (g x).map φ) :
    l.mapM f = (l.mapM g).map fun ys => ys.map φ := by
  induction l with
  | nil => rfl
  | cons x xs ih =>
    rw [List.mapM_cons, List.mapM_cons, ih, h]
    cases g x with
    | error e => rfl
    | ok y =>
      cases xs.mapM g with
      | error e => rfl
      | ok ys => rfl

theorem rebin2D_scale (c : ℚ) (H : List (List ℚ)) (ncol : ℕ) (a b : List ℚ) : rebin2D (sc c H) ncol a b 1 = (rebin2D H ncol a b 1).map (sc c) := by
  unfold rebin2D
  rw [if_neg (by decide), if_neg (by decide), if_neg (by decide), if_neg (by decide)]
  unfold sc
  rw [List.mapM_map]
  exact mapM_scale (fun row : List ℚ => rebin1D (row.map fun y => c * y) a b) (fun row => rebin1D row a b) (fun l : List ℚ => l.map fun y => c * y) H
    fun row => rebin1D_scale c row a b

theorem normalizeRows_scale (c : ℚ) (hc : c ≠ 0) (W : List (List ℚ)) : normalizeRows (sc c W) = normalizeRows W := by
  unfold normalizeRows sc
  rw [List.map_map]
  refine List.map_congr_left fun r _ => ?_
  simp only [Function.comp_apply, List.map_map, scale_sum]
  refine List.map_congr_left fun x _ => ?_
  simp only [Function.comp_apply, div0_scale c _ _ hc]

theorem clip_scale (c : ℚ) (hc : 0 < c) (W : List (List ℚ)) :
    ((sc c W).map fun r => r.map fun x => if x < 0 then 0 else x) = sc c (W.map fun r => r.map fun x => if x < 0 then 0 else x) := by
  unfold sc
  simp only [List.map_map]
  refine List.map_congr_left fun r _ => ?_
  simp only [Function.comp_apply, List.map_map]
  refine List.map_congr_left fun x _ => ?_
  simp only [Function.comp_apply]
  by_cases hx : x < 0
  · rw [if_pos hx, if_pos (mul_neg_of_pos_of_neg hc hx), mul_zero]
  · rw [if_neg hx, if_neg (not_lt.2 (mul_nonneg hc.le (not_lt.1 hx)))]

theorem newWeights_scale (c : ℚ) (hc : 0 < c) (it n : ℕ) (hit : it ≤ 4) (H W : List (List ℚ)) : newWeights it n (sc c H) W = newWeights it n H W := by
  unfold newWeights
  dsimp only
  rw [if_neg (by omega), if_neg (by omega)]
  have : tabulate n n (flipWeight (sc c H)) = sc c (tabulate n n (flipWeight H)) := by
    rw [← sc_tabulate]
    congr 1
    funext i j
    unfold flipWeight
    split_ifs
    · rw [sc_at2]
    · ring
  rw [this, clip_scale c hc, normalizeRows_scale c hc.ne']

theorem subtractG_scale (c : ℚ) (M N W : List (List ℚ)) (v : Option (List ℚ)) (n ny : ℕ) : subtractG (sc c M) N W v n ny = sc c (subtractG M N W v n ny) := by
  unfold subtractG
  rw [← sc_tabulate]
  congr 1
  funext i k
  simp only [sc_at2]
  rw [mul_sub, Finset.mul_sum]
  congr 1
  refine Finset.sum_congr rfl fun j _ => ?_
  ring

/-- One pass: whether or not the old array is multiplied, too. -/
theorem fgStep_scale (c : ℚ) (hc : 0 < c) (m : Mat) (N : List (List ℚ)) (v : Option (List ℚ)) (it : ℕ) (hit : it ≤ 4) (H W H' : List (List ℚ))
    (hH : H' = H ∨ H' = sc c H) : fgStep (m.longer c) N v it (H', W) = (fgStep m N v it (H, W)).map fun s => (sc c s.1, s.2) := by
  have hr : ∃ k : ℚ, 0 < k ∧ rebin2D H' m.Eg.length m.Eg m.Ex 1 = (rebin2D H m.Eg.length m.Eg m.Ex 1).map (sc k) := by
    rcases hH with rfl | rfl
    · refine ⟨1, one_pos, ?_⟩
      have : sc 1 = id := by
        funext M
        simp [sc]
      rw [this]
      cases rebin2D H' m.Eg.length m.Eg m.Ex 1 <;> rfl
    · exact ⟨c, hc, rebin2D_scale c H _ _ _⟩
  obtain ⟨k, hk, hr⟩ := hr
  unfold fgStep
  show (do let H ← rebin2D H' m.Eg.length m.Eg m.Ex 1
           let W := newWeights it m.Ex.length H W
           pure (subtractG (sc c m.values) N W v m.Ex.length m.Eg.length, W)) = _
  rw [hr]
  cases rebin2D H m.Eg.length m.Eg m.Ex 1 with
  | error e => rfl
  | ok R =>
    simp only [Except.map, bind, Except.bind, pure, Except.pure]
    rw [newWeights_scale k hk it _ hit, subtractG_scale]

theorem fgIter_scale (c : ℚ) (hc : 0 < c) (p : FGParams) (m : Mat) (v : Option (List ℚ)) :
    fgIter p (m.longer c) v 0 = fgIter p m v 0 ∧
    ∀ k, 1 ≤ k → k ≤ 5 → fgIter p (m.longer c) v k = (fgIter p m v k).map fun s => (sc c s.1, s.2) := by
  have h0 : fgIter p (m.longer c) v 0 = fgIter p m v 0 := by
    unfold fgIter
    rw [multNormalization_scale c hc.ne']
    show (multNormalization p m >>= fun _ => pure (rowNormalized (sc c m.values) m.Eg.length, rowNormalized (sc c m.values) m.Eg.length)) = _
    rw [rowNormalized_scale c hc.ne']
  refine ⟨h0, ?_⟩
  intro k
  induction k with
  | zero => intro h; omega
  | succ k ih =>
    intro _ hk
    have hstep : ∀ q : FGParams, ∀ mm : Mat, fgIter q mm v (k + 1) = (fgIter q mm v k >>= fun s => multNormalization q mm >>= fun N => fgStep mm N v k s) := fun _ _ => rfl
    rw [hstep, hstep, multNormalization_scale c hc.ne']
    rcases Nat.eq_zero_or_pos k with rfl | hk0
    · rw [h0]
      cases fgIter p m v 0 with
      | error e => rfl
      | ok s =>
        cases multNormalization p m with
        | error e => rfl
        | ok N => exact fgStep_scale c hc m N v 0 (by omega) s.1 s.2 s.1 (Or.inl rfl)
    · rw [ih hk0 (by omega)]
      cases fgIter p m v k with
      | error e => rfl
      | ok s =>
        cases multNormalization p m with
        | error e => rfl
        | ok N => exact fgStep_scale c hc m N v k (by omega) s.1 s.2 (sc c s.1) (Or.inr rfl)

theorem removeNegative_scale (c : ℚ) (hc : 0 < c) (M : List (List ℚ)) : removeNegativeQ (sc c M) = sc c (removeNegativeQ M) := by
  unfold removeNegativeQ sc
  simp only [List.map_map]
  refine List.map_congr_left fun r _ => ?_
  simp only [Function.comp_apply, List.map_map]
  refine List.map_congr_left fun x _ => ?_
  simp only [Function.comp_apply]
  by_cases hx : 0 < x
  · rw [if_pos hx, if_pos (mul_pos hc hx)]
  · rw [if_neg hx, if_neg (not_lt.2 (mul_nonpos_of_nonneg_of_nonpos hc.le (not_lt.1 hx))), mul_zero]

theorem any_neg_scale (c : ℚ) (hc : 0 < c) (M : List (List ℚ)) :
    ((sc c M).any fun r => r.any fun x => decide (x < 0)) = M.any fun r => r.any fun x => decide (x < 0) := by
  unfold sc
  simp only [List.any_map]
  congr 1
  funext r
  simp only [Function.comp_apply, List.any_map]
  congr 1
  funext x
  simp only [Function.comp_apply, decide_eq_decide]
  constructor
  · intro h; by_contra hx; exact absurd h (not_lt.2 (mul_nonneg hc.le (not_lt.1 hx)))
  · exact mul_neg_of_pos_of_neg hc

/-- **C100 (partial: one to five iterations).** Counting `c` times as long multiplies the first generation matrix by `c`; errors, and what happens to the valley
correction, are the same. -/
theorem C100_firstgen_partial (close : List ℚ → List ℚ → Bool) (p : FGParams) (h1 : 1 ≤ p.numIter) (h5 : p.numIter ≤ 5) (valley : Option (Vec ℚ)) (m : Mat) (c : ℚ)
    (hc : 0 < c) : fgApply close p valley (m.longer c) = ((fgApply close p valley m).1.map (Mat.longer c), (fgApply close p valley m).2) := by
  have hE : (m.longer c).Ex = m.Ex := rfl
  have hG : (m.longer c).Eg = m.Eg := rfl
  have hV : (m.longer c).values = sc c m.values := rfl
  have hcv : cutValley close valley (m.longer c) = cutValley close valley m := by
    unfold cutValley
    rw [hE]
  unfold fgApply
  rw [hE, hV, any_neg_scale c hc, hcv, hG]
  split_ifs
  · rfl
  · rfl
  · rcases hcut : cutValley close valley m with ⟨_ | vc, v'⟩
    · rfl
    · dsimp only
      rw [(fgIter_scale c hc p m vc).2 p.numIter h1 h5]
      cases fgIter p m vc p.numIter with
      | error e => rfl
      | ok s =>
        simp only [Except.map]
        rw [removeNegative_scale c hc]
        rfl

/-- The hypotheses can be met: two levels and a ground state. -/
def scaleParams (k : ℕ) : FGParams := ⟨k, true, 430, 200, 3 / 10, 200, 0, false⟩

/-- Three excitation bins. -/
def scaleMat : Mat := ⟨[[4, 0, 0], [2, 3, 0], [5, 2, 3]], [1, 2, 3], [1, 2, 3], none, none⟩

example : (fgApply (fun _ _ => true) (scaleParams 5) none scaleMat).1 =
    .ok ⟨[[4, 0, 0], [0, 3, 0], [14 / 151, 109 / 302, 3]], [1, 2, 3], [1, 2, 3], none, some .firstGeneration⟩ := by decide +kernel

/-- **C100 (disagreement).** From the sixth iteration on the new weights, in counts, are added to the old ones, which are normalised: twice the counts do not give twice
the first generation matrix. -/
theorem C100_firstgen_fails : ∃ p m, p.numIter = 6 ∧ (fgApply (fun _ _ => true) p none (m.longer 2)).1 ≠ (fgApply (fun _ _ => true) p none m).1.map (Mat.longer 2) ∧
    ∃ r, (fgApply (fun _ _ => true) p none m).1 = .ok r :=
  ⟨scaleParams 6, scaleMat, rfl, by decide +kernel, ⟨[[4, 0, 0], [0, 3, 0], [0, 22207 / 16022, 3]], [1, 2, 3], [1, 2, 3], none, some .firstGeneration⟩, by decide +kernel⟩

theorem tab_row (n m : ℕ) (f : ℕ → ℕ → ℚ) {i : ℕ} (hi : i < n) : (tabulate n m f).getD i [] = (List.range m).map (f i) := by
  unfold tabulate
  rw [List.getD_eq_getElem _ _ (by simpa using hi)]
  simp

theorem tab_at (n m : ℕ) (f : ℕ → ℕ → ℚ) {i j : ℕ} (hi : i < n) (hj : j < m) : at2 (tabulate n m f) i j = f i j := by
  unfold at2
  rw [tab_row n m f hi, List.getD_eq_getElem _ _ (by simpa using hj)]
  simp

/-- **C100.** What the damping does to a row whose weights have the sum `S` (in counts): the share of the old weights is `0.3 / (0.7 S + 0.3)` instead of 0.3, and the
new weights differ from those without damping by less than `3 / (7 S)`. -/
theorem C100_damping (it n : ℕ) (hit : 4 < it) (H Wold : List (List ℚ)) (i : ℕ) (hi : i < n) (hH : ∀ j < n, 0 ≤ flipWeight H i j) (hW : ∀ j < n, 0 ≤ at2 Wold i j)
    (S : ℚ) (hS : S = ((List.range n).map fun j : ℕ => flipWeight H i j).sum) (hS0 : 0 < S) (hW1 : ((List.range n).map fun j : ℕ => at2 Wold i j).sum = 1)
    (j : ℕ) (hj : j < n) :
    at2 (newWeights it n H Wold) i j = (7 / 10 * S) / (7 / 10 * S + 3 / 10) * (flipWeight H i j / S) + (3 / 10) / (7 / 10 * S + 3 / 10) * at2 Wold i j ∧
    |at2 (newWeights it n H Wold) i j - flipWeight H i j / S| < 3 / (7 * S) := by
  set W2 : List (List ℚ) := tabulate n n fun i j => if 7 / 10 * flipWeight H i j + 3 / 10 * at2 Wold i j < 0 then 0 else 7 / 10 * flipWeight H i j + 3 / 10 * at2 Wold i j with h2
  have hnew : newWeights it n H Wold = normalizeRows W2 := by
    unfold newWeights
    dsimp only
    rw [if_pos hit]
    congr 1
    rw [h2]
    unfold tabulate
    rw [List.map_map]
    refine List.map_congr_left fun a ha => ?_
    simp only [Function.comp_apply, List.map_map]
    refine List.map_congr_left fun b hb => ?_
    have := tab_at n n (flipWeight H) (List.mem_range.1 ha) (List.mem_range.1 hb)
    unfold tabulate at this
    simp only [Function.comp_apply, this]
  have hpos : ∀ k < n, (if 7 / 10 * flipWeight H i k + 3 / 10 * at2 Wold i k < 0 then (0 : ℚ) else 7 / 10 * flipWeight H i k + 3 / 10 * at2 Wold i k) =
      7 / 10 * flipWeight H i k + 3 / 10 * at2 Wold i k := by
    intro k hk
    rw [if_neg]
    have := hH k hk
    have := hW k hk
    linarith
  have hrow : W2.getD i [] = (List.range n).map fun k : ℕ => 7 / 10 * flipWeight H i k + 3 / 10 * at2 Wold i k := by
    rw [h2, tab_row _ _ _ hi]
    exact List.map_congr_left fun k hk => hpos k (List.mem_range.1 hk)
  have hsum : (W2.getD i []).sum = 7 / 10 * S + 3 / 10 := by
    rw [hrow, hS]
    have : ∀ l : List ℕ, (l.map fun k : ℕ => 7 / 10 * flipWeight H i k + 3 / 10 * at2 Wold i k).sum =
        7 / 10 * (l.map fun j : ℕ => flipWeight H i j).sum + 3 / 10 * (l.map fun j : ℕ => at2 Wold i j).sum := by
      intro l
      induction l with
      | nil => simp
      | cons x xs ih => simp only [List.map_cons, List.sum_cons, ih]; ring
    rw [this, hW1]
    ring
  have hlen : W2.length = n := by simp [h2, tabulate]
  have hT : (0 : ℚ) < 7 / 10 * S + 3 / 10 := by linarith
  have hval : at2 (newWeights it n H Wold) i j = (7 / 10 * flipWeight H i j + 3 / 10 * at2 Wold i j) / (7 / 10 * S + 3 / 10) := by
    rw [hnew]
    have hr : (normalizeRows W2).getD i [] = (W2.getD i []).map fun x => div0 x (W2.getD i []).sum := by
      unfold normalizeRows
      rw [List.getD_eq_getElem _ _ (by simpa [hlen] using hi), List.getD_eq_getElem _ _ (by simpa [hlen] using hi), List.getElem_map]
    show ((normalizeRows W2).getD i []).getD j 0 = _
    rw [hr, hsum, hrow, List.getD_eq_getElem _ _ (by simpa using hj)]
    simp only [List.getElem_map, List.getElem_range]
    unfold div0
    rw [if_neg hT.ne']
  have hfrac : flipWeight H i j / S ≤ 1 ∧ 0 ≤ flipWeight H i j / S := by
    refine ⟨?_, div_nonneg (hH j hj) hS0.le⟩
    rw [div_le_one hS0, hS]
    exact List.single_le_sum (by
      intro x hx
      obtain ⟨k, hk, rfl⟩ := List.mem_map.1 hx
      exact hH k (List.mem_range.1 hk)) _ (List.mem_map.2 ⟨j, List.mem_range.2 hj, rfl⟩)
  have hold : at2 Wold i j ≤ 1 := by
    rw [← hW1]
    exact List.single_le_sum (by
      intro x hx
      obtain ⟨k, hk, rfl⟩ := List.mem_map.1 hx
      exact hW k (List.mem_range.1 hk)) _ (List.mem_map.2 ⟨j, List.mem_range.2 hj, rfl⟩)
  refine ⟨?_, ?_⟩
  · rw [hval]
    field_simp
  · have hd : at2 (newWeights it n H Wold) i j - flipWeight H i j / S = (3 / 10) / (7 / 10 * S + 3 / 10) * (at2 Wold i j - flipWeight H i j / S) := by
      rw [hval]
      field_simp
      ring
    have h0 := hW j hj
    have habs : |at2 Wold i j - flipWeight H i j / S| ≤ 1 := by
      rw [abs_le]
      constructor <;> linarith [hfrac.1, hfrac.2]
    rw [hd, abs_mul, abs_of_pos (div_pos (by norm_num) hT)]
    calc (3 / 10) / (7 / 10 * S + 3 / 10) * |at2 Wold i j - flipWeight H i j / S| ≤ (3 / 10) / (7 / 10 * S + 3 / 10) * 1 :=
          mul_le_mul_of_nonneg_left habs (div_pos (by norm_num) hT).le
      _ = (3 / 10) / (7 / 10 * S + 3 / 10) := mul_one _
      _ < 3 / (7 * S) := by
          rw [div_lt_div_iff₀ hT (by linarith)]
          nlinarith

example : at2 (newWeights 5 3 [[], [], [0, 4, 6]] [[], [], [1, 0, 0]]) 2 0 = 45 / 73 ∧ (6 : ℚ) / 10 ≠ 45 / 73 ∧ (7 / 10) * (6 / 10) + 3 / 10 * 1 ≠ (45 / 73 : ℚ) := by
  decide +kernel

/-! ## Unfolding -/

theorem matMul_scale (c : ℚ) (A B : List (List ℚ)) (n q m : ℕ) : matMul (sc c A) B n q m = sc c (matMul A B n q m) := by
  unfold matMul
  rw [← sc_tabulate]
  congr 1
  funext i k
  rw [Finset.mul_sum]
  refine Finset.sum_congr rfl fun j _ => ?_
  rw [sc_at2]
  ring

theorem unfoldIter_scale (c : ℚ) (r R : List (List ℚ)) (n m k : ℕ) : unfoldIter (sc c r) R n m k = (sc c (unfoldIter r R n m k).1, sc c (unfoldIter r R n m k).2) := by
  induction k with
  | zero =>
    unfold unfoldIter unfoldStep
    simp only [lt_irrefl, if_false]
    rw [matMul_scale]
  | succ k ih =>
    unfold unfoldIter unfoldStep
    simp only [Nat.succ_pos, if_true, ih]
    have : (tabulate n m fun i k' => at2 (sc c (unfoldIter r R n m k).1) i k' + (at2 (sc c r) i k' - at2 (sc c (unfoldIter r R n m k).2) i k')) =
        sc c (tabulate n m fun i k' => at2 (unfoldIter r R n m k).1 i k' + (at2 r i k' - at2 (unfoldIter r R n m k).2 i k')) := by
      rw [← sc_tabulate]
      congr 1
      funext i j
      simp only [sc_at2]
      ring
    rw [this, matMul_scale]

theorem chi_scale (c : ℚ) (hc : 0 < c) (r f : List ℚ) : chiSquareRow (r.map fun x => c * x) (f.map fun x => c * x) = c * chiSquareRow r f := by
  unfold chiSquareRow
  rw [← scale_sum, zipWith_scale c _ (fun fi ri => c * div0 ((fi - ri) ^ 2) (if 0 < ri then ri else 0)), List.map_zipWith]
  intro x y
  by_cases hy : 0 < y
  · rw [if_pos (mul_pos hc hy), if_pos hy]
    unfold div0
    rw [if_neg (mul_pos hc hy).ne', if_neg hy.ne']
    field_simp
  · rw [if_neg (not_lt.2 (mul_nonpos_of_nonneg_of_nonpos hc.le (not_lt.1 hy))), if_neg hy]
    simp [div0]

theorem fluct_scale (c : ℚ) (hc : 0 < c) (smooth : List ℚ → List ℚ) (hs : ∀ l, smooth (l.map fun x => c * x) = (smooth l).map fun x => c * x) (l : List ℚ) :
    fluctRow smooth (l.map fun x => c * x) = fluctRow smooth l := by
  unfold fluctRow
  rw [hs, zipWith_scale c]
  intro x y
  rw [← mul_sub, div0_scale c _ _ hc.ne']

/-- Multiplication of a score. -/
def Num.times (c : ℚ) : Num → Num
  | .fin x => .fin (c * x)
  | x => x

theorem better_times (c : ℚ) (hc : 0 < c) (x y : Num) : argminBetter (x.times c) (y.times c) = argminBetter x y := by
  cases x <;> cases y <;> simp [argminBetter, Num.times, Num.isNan, numLt, mul_lt_mul_iff_right₀ hc]

theorem argminFrom_times (c : ℚ) (hc : 0 < c) (l : List Num) : ∀ b bi i, argminNumFrom (b.times c) bi i (l.map (Num.times c)) = argminNumFrom b bi i l := by
  induction l with
  | nil => intro b bi i; rfl
  | cons x xs ih =>
    intro b bi i
    show (if argminBetter (x.times c) (b.times c) then argminNumFrom (x.times c) i (i + 1) (xs.map (Num.times c)) else
      argminNumFrom (b.times c) bi (i + 1) (xs.map (Num.times c))) = if argminBetter x b then argminNumFrom x i (i + 1) xs else argminNumFrom b bi (i + 1) xs
    rw [better_times c hc, ih, ih]

theorem argmin_times (c : ℚ) (hc : 0 < c) (l : List Num) : argminNum (l.map (Num.times c)) = argminNum l := by
  cases l with
  | nil => rfl
  | cons a as =>
    show Except.ok (argminNumFrom (a.times c) 0 1 (as.map (Num.times c))) = _
    rw [argminFrom_times c hc]
    rfl

/-- The scores when counts are multiplied: only the chi-square is. -/
theorem rowScores_scale (c : ℚ) (hc : 0 < c) (smooth : List ℚ → List ℚ) (hs : ∀ l, smooth (l.map fun x => c * x) = (smooth l).map fun x => c * x) (w : ℚ)
    (r R : List (List ℚ)) (n m numIter i : ℕ) : rowScores smooth w (sc c r) R n m numIter i = (List.range numIter).map fun k : ℕ =>
      scoreNum w (c * chiSquareRow (r.getD i []) ((unfoldIter r R n m k).2.getD i []))
        (fluctRatio (fluctRow smooth (r.getD i [])) (fluctRow smooth ((unfoldIter r R n m k).1.getD i []))) := by
  unfold rowScores
  refine List.map_congr_left fun k _ => ?_
  dsimp only
  rw [unfoldIter_scale]
  dsimp only
  rw [sc_row, sc_row, sc_row, chi_scale c hc, fluct_scale c hc smooth hs, fluct_scale c hc smooth hs]

theorem select_scale (c : ℚ) (hc : 0 < c) (smooth : List ℚ → List ℚ) (hs : ∀ l, smooth (l.map fun x => c * x) = (smooth l).map fun x => c * x) (w : ℚ)
    (hw : w = 0 ∨ w = 1) (r R : List (List ℚ)) (n m numIter i minIter : ℕ) :
    selectIter minIter (rowScores smooth w (sc c r) R n m numIter i) = selectIter minIter (rowScores smooth w r R n m numIter i) := by
  unfold selectIter
  rw [rowScores_scale c hc smooth hs]
  congr 1
  rcases hw with rfl | rfl
  · rw [← argmin_times c hc (rowScores smooth 0 r R n m numIter i)]
    congr 1
    unfold rowScores
    rw [List.map_map]
    refine List.map_congr_left fun k _ => ?_
    simp only [Function.comp_apply]
    generalize fluctRatio _ _ = f
    cases f <;> simp [scoreNum, Num.times]
  · congr 1
    unfold rowScores
    refine List.map_congr_left fun k _ => ?_
    dsimp only
    generalize fluctRatio _ _ = f
    cases f <;> simp [scoreNum]

theorem update_scale (c : ℚ) (hc : 0 < c) (close : List ℚ → List ℚ → Bool) (R : Option Mat) (raw : Mat) : updateValues close R (raw.longer c) = updateValues close R raw := by
  cases R with
  | none => rfl
  | some R =>
    unfold updateValues
    have : (raw.longer c).values = sc c raw.values := rfl
    dsimp only
    rw [this, any_neg_scale c hc]
    rfl

theorem mulL_scale (c : ℚ) (a b : List ℚ) : mulL a (b.map fun x => c * x) = (mulL a b).map fun x => c * x := by
  unfold mulL
  rw [List.zipWith_map_right, List.map_zipWith]
  congr 1
  funext x y
  ring

theorem addL_scale (c : ℚ) (a b : List ℚ) : addL (a.map fun x => c * x) (b.map fun x => c * x) = (addL a b).map fun x => c * x := by
  unfold addL
  rw [zipWith_scale c _ (fun x y => c * (x + y)) (fun x y => by ring), List.map_zipWith]

theorem subL_scale (c : ℚ) (a b : List ℚ) : subL (a.map fun x => c * x) (b.map fun x => c * x) = (subL a b).map fun x => c * x := by
  unfold subL
  rw [zipWith_scale c _ (fun x y => c * (x - y)) (fun x y => by ring), List.map_zipWith]

theorem div0L_scale (c : ℚ) (a b : List ℚ) : List.zipWith div0 (a.map fun x => c * x) b = (List.zipWith div0 a b).map fun x => c * x := by
  rw [List.zipWith_map_left, List.map_zipWith]
  congr 1
  funext x y
  exact div0_left c x y

theorem spike_scale (c : ℚ) (n i : ℕ) (x : ℚ) : (List.replicate n 0).set i (c * x) = ((List.replicate n (0 : ℚ)).set i x).map fun x => c * x := by
  rw [List.map_set, List.map_replicate, mul_zero]

theorem parts_scale (c : ℚ) (gs : List ℚ → List ℚ → List ℚ → Except Err (List ℚ))
    (hg : ∀ l E f, gs (l.map fun x => c * x) E f = (gs l E f).map fun l => l.map fun x => c * x) (t : RespTab) (tw : ℚ × ℚ × ℚ × ℚ) (u : List ℚ) :
    comptonParts gs t tw (u.map fun x => c * x) = (comptonParts gs t tw u).map fun p => (p.1.map fun x => c * x, p.2.map fun x => c * x) := by
  unfold comptonParts
  simp only [mulL_scale, hg, List.length_map, scale_sum, spike_scale]
  cases gs (mulL t.pf u) t.E (t.fwhm.map fun f => 1 / 2 * tw.1 * f) with
  | error e => rfl
  | ok uf =>
    cases gs (mulL t.ps u) t.E (t.fwhm.map fun f => 1 / 2 * tw.2.1 * f) with
    | error e => rfl
    | ok us0 =>
      simp only [Except.map, bind, Except.bind, shiftRow, rebin1D_scale]
      cases rebin1D us0 (t.E.map fun x => x + -511) t.E with
      | error e => rfl
      | ok us =>
        cases gs (mulL t.pd u) t.E (t.fwhm.map fun f => 1 / 2 * tw.2.2.1 * f) with
        | error e => rfl
        | ok ud0 =>
          simp only [Except.map, rebin1D_scale]
          cases rebin1D ud0 (t.E.map fun x => x + -1024) t.E with
          | error e => rfl
          | ok ud =>
            simp only [Except.map]
            cases iFromE 511 t.E with
            | error e => rfl
            | ok i =>
              dsimp only
              cases gs ((List.replicate u.length 0).set i (mulL t.pa u).sum) t.E (t.fwhm.map fun f => tw.2.2.2 * f) with
              | error e => rfl
              | ok ua =>
                simp only [pure, Except.pure, addL_scale]

theorem row_scale (c : ℚ) (gs : List ℚ → List ℚ → List ℚ → Except Err (List ℚ))
    (hg : ∀ l E f, gs (l.map fun x => c * x) E f = (gs l E f).map fun l => l.map fun x => c * x) (t : RespTab) (tw : ℚ × ℚ × ℚ × ℚ) (r u : List ℚ) :
    comptonRow gs t tw (r.map fun x => c * x) (u.map fun x => c * x) = (comptonRow gs t tw r u).map fun l => l.map fun x => c * x := by
  unfold comptonRow
  rw [parts_scale c gs hg]
  cases comptonParts gs t tw u with
  | error e => rfl
  | ok p =>
    simp only [Except.map, bind, Except.bind, addL_scale, subL_scale, hg]
    cases gs (subL r (addL p.1 p.2)) t.E (t.fwhm.map fun f => 1 * f) with
    | error e => rfl
    | ok q => simp only [Except.map, pure, Except.pure, subL_scale, div0L_scale]

theorem compton_scale (c : ℚ) (gs : List ℚ → List ℚ → List ℚ → Except Err (List ℚ))
    (hg : ∀ l E f, gs (l.map fun x => c * x) E f = (gs l E f).map fun l => l.map fun x => c * x) (o : Unf) (R raw : Mat) (u : List (List ℚ)) :
    comptonSubtraction gs o R (raw.longer c) (sc c u) = (comptonSubtraction gs o R raw u).map (sc c) := by
  unfold comptonSubtraction
  cases o.tab with
  | none => rfl
  | some t =>
    dsimp only
    by_cases h1 : t.E.length ≠ R.Eg.length
    · rw [if_pos h1, if_pos h1]; rfl
    rw [if_neg h1, if_neg h1]
    by_cases h2 : t.E ≠ R.Eg
    · rw [if_pos h2, if_pos h2]; rfl
    rw [if_neg h2, if_neg h2]
    cases tweakOf o.tweak with
    | error e => rfl
    | ok tw =>
      show ((List.zip (sc c raw.values) (sc c u)).mapM fun p => comptonRow gs t tw p.1 p.2) = ((List.zip raw.values u).mapM fun p => comptonRow gs t tw p.1 p.2).map (sc c)
      have : List.zip (sc c raw.values) (sc c u) = (List.zip raw.values u).map fun p => (p.1.map fun x => c * x, p.2.map fun x => c * x) := by
        unfold sc
        rw [List.zip_map]
        rfl
      rw [this, List.mapM_map]
      exact mapM_scale (fun p : List ℚ × List ℚ => comptonRow gs t tw (p.1.map fun x => c * x) (p.2.map fun x => c * x)) (fun p => comptonRow gs t tw p.1 p.2)
        (fun l : List ℚ => l.map fun x => c * x) _ fun p => row_scale c gs hg t tw p.1 p.2

/-- **C100 (partial: weight of the fluctuations 0 or 1).** Counting `c` times as long multiplies the unfolded matrix by `c`; the same iterations are selected, errors are
the same.  The smoothing may be any that multiplies with its argument. -/
theorem C100_unfold_partial (smooth : List ℚ → List ℚ) (close : List ℚ → List ℚ → Bool) (gs : List ℚ → List ℚ → List ℚ → Except Err (List ℚ)) (c : ℚ) (hc : 0 < c)
    (hs : ∀ l, smooth (l.map fun x => c * x) = (smooth l).map fun x => c * x)
    (hg : ∀ l E f, gs (l.map fun x => c * x) E f = (gs l E f).map fun l => l.map fun x => c * x) (o : Unf) (hw : o.weight = 0 ∨ o.weight = 1) (raw : Mat)
    (response : Option Mat) : o.apply smooth close gs (raw.longer c) response =
      ((o.apply smooth close gs raw response).1, (o.apply smooth close gs raw response).2.map (Mat.longer c)) := by
  unfold Unf.apply
  dsimp only
  rw [update_scale c hc]
  cases updateValues close (response.orElse fun _ => o.R) raw with
  | error e => rfl
  | ok R =>
    dsimp only
    have hEg : (raw.longer c).Eg = raw.Eg := rfl
    have hEx : (raw.longer c).Ex = raw.Ex := rfl
    have hV : (raw.longer c).values = sc c raw.values := rfl
    rw [hEg, hEx, hV]
    by_cases h2 : raw.Eg.length < 2
    · rw [if_pos h2, if_pos h2]; rfl
    rw [if_neg h2, if_neg h2]
    simp only [select_scale c hc smooth hs o.weight hw]
    cases (List.range raw.Ex.length).mapM fun i : ℕ => selectIter (min o.minIter o.numIter)
        (rowScores smooth o.weight raw.values R.values raw.Ex.length raw.Eg.length o.numIter i) with
    | error e => rfl
    | ok sel =>
      dsimp only
      have hcube : ((List.range raw.Ex.length).mapM fun i : ℕ => cubeRow (sc c raw.values) R.values raw.Ex.length raw.Eg.length o.numIter i (sel.getD i 0)) =
          ((List.range raw.Ex.length).mapM fun i : ℕ => cubeRow raw.values R.values raw.Ex.length raw.Eg.length o.numIter i (sel.getD i 0)).map (sc c) := by
        refine mapM_scale _ _ (fun l : List ℚ => l.map fun x => c * x) _ fun i => ?_
        unfold cubeRow
        split_ifs
        · rw [unfoldIter_scale]
          dsimp only
          rw [sc_row]
          rfl
        · rfl
      rw [hcube]
      cases (List.range raw.Ex.length).mapM fun i : ℕ => cubeRow raw.values R.values raw.Ex.length raw.Eg.length o.numIter i (sel.getD i 0) with
      | error e => rfl
      | ok u =>
        simp only [Except.map]
        cases o.useCompton with
        | false =>
          simp only [Bool.false_eq_true, if_false]
          rw [removeNegative_scale c hc]
          rfl
        | true =>
          simp only [if_true]
          rw [compton_scale c gs hg]
          cases comptonSubtraction gs _ R raw u with
          | error e => rfl
          | ok u' =>
            simp only [Except.map]
            rw [removeNegative_scale c hc]
            rfl

/-- The mean of a spectrum in every bin: a smoothing over many bins. -/
def meanSmooth (l : List ℚ) : List ℚ := l.map fun _ => l.sum / l.length

/-- **C100 (disagreement).** With weights between 0 and 1 (0.2 by default) chi-square, which is multiplied, and fluctuations, which are not, are added: twice the counts
can select another iteration, and the unfolded matrix is not twice the old one. -/
theorem C100_unfold_fails : ∃ (o : Unf) (raw : Mat), o.weight = 2 / 10 ∧
    (∃ u, (o.apply meanSmooth (fun _ _ => true) (fun l _ _ => .ok l) raw none).2 = .ok u ∧
      (o.apply meanSmooth (fun _ _ => true) (fun l _ _ => .ok l) (raw.longer 2) none).2 ≠ .ok (u.longer 2)) ∧
    (o.apply meanSmooth (fun _ _ => true) (fun l _ _ => .ok l) raw none).1.iscores = some [1] ∧
    (o.apply meanSmooth (fun _ _ => true) (fun l _ _ => .ok l) (raw.longer 2) none).1.iscores = some [2] :=
  ⟨⟨3, 0, 2 / 10, some ⟨[[9 / 10, 1 / 10], [3 / 10, 7 / 10]], [1, 2], [1, 2], none, none⟩, false, none, none, none⟩, ⟨[[3, 5]], [1, 2], [1], none, none⟩, rfl,
    ⟨⟨[[9 / 5, 31 / 5]], [1, 2], [1], none, some .unfolded⟩, by decide +kernel, by decide +kernel⟩, by decide +kernel, by decide +kernel⟩

example : ∃ u, ((⟨3, 0, 0, some ⟨[[9 / 10, 1 / 10], [3 / 10, 7 / 10]], [1, 2], [1, 2], none, none⟩, false, none, none, none⟩ : Unf).apply meanSmooth (fun _ _ => true)
    (fun l _ _ => .ok l) ⟨[[3, 5]], [1, 2], [1], none, none⟩ none).2 = .ok u ∧ u.values ≠ [[3, 5]] :=
  ⟨⟨[[33 / 25, 167 / 25]], [1, 2], [1], none, some .unfolded⟩, by decide +kernel, by decide +kernel⟩

theorem meanSmooth_scale (c : ℚ) (l : List ℚ) : meanSmooth (l.map fun x => c * x) = (meanSmooth l).map fun x => c * x := by
  unfold meanSmooth
  rw [List.map_map, List.map_map, scale_sum, List.length_map]
  refine List.map_congr_left fun x _ => ?_
  simp only [Function.comp_apply]
  rw [mul_div_assoc]

/-! ## Decomposition -/

theorem normUncRow_scale (c : ℚ) (hc : c ≠ 0) (row std : List ℚ) (h0 : row.sum = 0 → (std.map fun s => s ^ 2).sum = 0 → (∀ x ∈ row, x = 0) ∧ ∀ s ∈ std, s = 0) :
    normUncRow (row.map fun x => c * x) (std.map fun x => c * x) = normUncRow row std := by
  have hv : ((std.map fun x => c * x).map fun s => s ^ 2).sum = c ^ 2 * (std.map fun s => s ^ 2).sum := by
    rw [← scale_sum, List.map_map, List.map_map]
    congr 1
    refine List.map_congr_left fun x _ => ?_
    simp only [Function.comp_apply]
    ring
  unfold normUncRow
  simp only [scale_sum, hv]
  by_cases ht : row.sum = 0
  · by_cases hz : (std.map fun s => s ^ 2).sum = 0
    · rw [if_pos ⟨by simp [ht], by simp [hz]⟩, if_pos ⟨ht, hz⟩]
      obtain ⟨a, b⟩ := h0 ht hz
      congr 2
      · rw [show row = row.map id by simp, List.map_map]
        refine List.map_congr_left fun x hx => ?_
        simp [a x hx]
      · rw [List.map_map]
        refine List.map_congr_left fun x hx => ?_
        simp [b x hx]
    · have hcz : c ^ 2 * (std.map fun s => s ^ 2).sum ≠ 0 := mul_ne_zero (pow_ne_zero 2 hc) hz
      rw [if_neg (fun h => hcz h.2)]
      conv_rhs => rw [if_neg (fun h => hz h.2)]
      by_cases hr : row = []
      · rw [if_neg (by simp [hr]), if_neg (by simp [hr])]
        simp [hr]
      · rw [if_pos ⟨by simp [ht], by simpa using hr⟩, if_pos ⟨ht, hr⟩]
  · have hct : c * row.sum ≠ 0 := mul_ne_zero hc ht
    rw [if_neg (by simp [hct]), if_neg (by simp [hct]), if_neg (by simp [ht]), if_neg (by simp [ht])]
    congr 2
    · rw [List.map_map]
      refine List.map_congr_left fun x _ => ?_
      simp only [Function.comp_apply]
      rw [mul_div_mul_left _ _ hc]
    · rw [zipWith_scale c]
      intro x y
      field_simp

theorem sum_sq_zero (l : List ℚ) (h : (l.map fun s => s ^ 2).sum = 0) : ∀ s ∈ l, s = 0 := by
  induction l with
  | nil => simp
  | cons x xs ih =>
    rw [List.map_cons, List.sum_cons] at h
    have hn : 0 ≤ (xs.map fun s => s ^ 2).sum := List.sum_nonneg (by
      intro y hy
      obtain ⟨z, -, rfl⟩ := List.mem_map.1 hy
      positivity)
    have hx : 0 ≤ x ^ 2 := sq_nonneg x
    intro s hs
    rcases List.mem_cons.1 hs with rfl | hs
    · have : s ^ 2 = 0 := by linarith
      exact pow_eq_zero_iff (two_ne_zero) |>.1 this
    · exact ih (by linarith) s hs

theorem sum_pos_zero (l : List ℚ) (hl : ∀ x ∈ l, 0 ≤ x) (h : l.sum = 0) : ∀ x ∈ l, x = 0 := by
  induction l with
  | nil => simp
  | cons x xs ih =>
    rw [List.sum_cons] at h
    have hn : 0 ≤ xs.sum := List.sum_nonneg fun y hy => hl y (List.mem_cons_of_mem _ hy)
    have hx := hl x (by simp)
    intro s hs
    rcases List.mem_cons.1 hs with rfl | hs
    · linarith
    · exact ih (fun y hy => hl y (List.mem_cons_of_mem _ hy)) (by linarith) s hs

/-- **C100.** Counts and standard deviations multiplied by the same number give the same normalised matrix and the same uncertainties, so the same level density and
strength function. -/
theorem C100_decompose (c : ℚ) (hc : c ≠ 0) (values : List (List ℚ)) (hv : ∀ r ∈ values, ∀ x ∈ r, 0 ≤ x) (std : Option (List (List ℚ))) :
    normalizeUnc (sc c values) (std.map (sc c)) = normalizeUnc values std := by
  cases std with
  | none => rfl
  | some s =>
    unfold normalizeUnc
    show ((List.zip (sc c values) (sc c s)).mapM (fun p => normUncRow p.1 p.2) >>= _) = _
    have hz : List.zip (sc c values) (sc c s) = (List.zip values s).map fun p => (p.1.map fun x => c * x, p.2.map fun x => c * x) := by
      unfold sc
      rw [List.zip_map]
      rfl
    have hm : ∀ l : List (List ℚ × List ℚ), (∀ p ∈ l, ∀ x ∈ p.1, 0 ≤ x) →
        (l.mapM fun p => normUncRow (p.1.map fun x => c * x) (p.2.map fun x => c * x)) = l.mapM fun p => normUncRow p.1 p.2 := by
      intro l
      induction l with
      | nil => intro _; rfl
      | cons p ps ih =>
        intro hp
        rw [List.mapM_cons, List.mapM_cons, ih fun q hq => hp q (List.mem_cons_of_mem _ hq),
          normUncRow_scale c hc _ _ fun h1 h2 => ⟨sum_pos_zero _ (hp p (by simp)) h1, sum_sq_zero _ h2⟩]
    rw [hz, List.mapM_map]
    have := hm (List.zip values s) fun p hp => hv p.1 (List.of_mem_zip hp).1
    rw [show ((List.zip values s).mapM ((fun p : List ℚ × List ℚ => normUncRow p.1 p.2) ∘ fun p => (p.1.map fun x => c * x, p.2.map fun x => c * x))) =
      (List.zip values s).mapM fun p => normUncRow p.1 p.2 from this]

example : normalizeUnc (sc 3 [[1, 3]]) (some (sc 3 [[1, 2]])) = .ok ([[1 / 4, 3 / 4]], [[13 / 256, 13 / 256]]) := by decide +kernel

/-- The chain from the raw matrix to the probabilities of decay. -/
def decayChain (smooth : List ℚ → List ℚ) (close : List ℚ → List ℚ → Bool) (gs : List ℚ → List ℚ → List ℚ → Except Err (List ℚ)) (o : Unf) (p : FGParams)
    (valley : Option (Vec ℚ)) (raw : Mat) : Except Err (List (List ℚ)) :=
  (o.apply smooth close gs raw none).2.bind fun u => (fgApply close p valley u).1.map fun f => normalizeRows f.values

/-- **C100 (partial: as above).** The probabilities of decay do not depend on how long was counted. -/
theorem C100_chain_partial (smooth : List ℚ → List ℚ) (close : List ℚ → List ℚ → Bool) (gs : List ℚ → List ℚ → List ℚ → Except Err (List ℚ)) (c : ℚ) (hc : 0 < c)
    (hs : ∀ l, smooth (l.map fun x => c * x) = (smooth l).map fun x => c * x)
    (hg : ∀ l E f, gs (l.map fun x => c * x) E f = (gs l E f).map fun l => l.map fun x => c * x) (o : Unf) (hw : o.weight = 0 ∨ o.weight = 1) (p : FGParams)
    (h1 : 1 ≤ p.numIter) (h5 : p.numIter ≤ 5) (valley : Option (Vec ℚ)) (raw : Mat) :
    decayChain smooth close gs o p valley (raw.longer c) = decayChain smooth close gs o p valley raw := by
  unfold decayChain
  rw [C100_unfold_partial smooth close gs c hc hs hg o hw raw none]
  cases (o.apply smooth close gs raw none).2 with
  | error e => rfl
  | ok u =>
    simp only [Except.map, Except.bind]
    rw [C100_firstgen_partial close p h1 h5 valley u c hc]
    cases (fgApply close p valley u).1 with
    | error e => rfl
    | ok f =>
      simp only [Except.map]
      congr 1
      exact normalizeRows_scale c hc.ne' f.values

end Ompy
