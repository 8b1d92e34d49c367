import Verif.FirstGenRounding
import Verif.FirstGenMore
import Verif.RebinRoundingProps
import Verif.UnfoldRoundingProps

/-!
# Properties of the first generation method in floating point (C124)
-/

namespace Ompy

/-! ### Weights -/

theorem rawWeightF_nonneg (fl : ℚ → ℚ) (it : ℕ) (H Wold : List (List ℚ)) (i j : ℕ) : 0 ≤ rawWeightF fl it H Wold i j := by
  unfold rawWeightF
  simp only
  split_ifs <;> linarith

theorem rawWeightF_above {fl : ℚ → ℚ} (h0 : fl 0 = 0) (it : ℕ) (H Wold : List (List ℚ)) {i j : ℕ} (hij : i ≤ j)
    (hW : 4 < it → at2 Wold i j = 0) : rawWeightF fl it H Wold i j = 0 := by
  unfold rawWeightF
  have hf : flipWeight H i j = 0 := by simp [flipWeight, Nat.not_lt.2 hij]
  by_cases h4 : 4 < it
  · simp [h4, hf, hW h4, h0]
  · simp [h4, hf]

/-- Entries of the new weights. -/
theorem newWeightsF_at (fl : ℚ → ℚ) (sum : List ℚ → ℚ) (it n : ℕ) (H Wold : List (List ℚ)) {i j : ℕ} (hi : i < n)
    (hj : j < n) : at2 (newWeightsF fl sum it n H Wold) i j =
      div0F fl (rawWeightF fl it H Wold i j) (sum ((List.range n).map fun k => rawWeightF fl it H Wold i k)) := by
  have hl : i < (tabulate n n (rawWeightF fl it H Wold)).length := by rw [tabulate_length]; exact hi
  unfold newWeightsF normalizeRowsF at2
  rw [List.getD_eq_getElem (List.map _ _) [] (by simpa using hl), List.getElem_map]
  have e : (tabulate n n (rawWeightF fl it H Wold))[i] = (List.range n).map fun k => rawWeightF fl it H Wold i k := by
    have := tabulate_row n n (rawWeightF fl it H Wold) hi
    rwa [List.getD_eq_getElem _ _ hl] at this
  rw [e, List.getD_eq_getElem (List.map _ _) 0 (by simpa using hj), List.getElem_map, List.getElem_map, List.getElem_range]
  rfl

/-- Specification: strictly lower triangular, not negative, rows summing to one up to `K` roundings or entirely zero. -/
def IsWeightsF (u : ℚ) (K n : ℕ) (W : List (List ℚ)) : Prop :=
  (∀ i < n, ∀ j < n, 0 ≤ at2 W i j ∧ (i ≤ j → at2 W i j = 0)) ∧
  (∀ i < n, Within u K 1 (∑ j ∈ Finset.range n, at2 W i j) ∨ ∀ j < n, at2 W i j = 0)

theorem within_finset {u : ℚ} {k : ℕ} (n : ℕ) (f g : ℕ → ℚ) (h : ∀ j < n, Within u k (f j) (g j)) :
    Within u k (∑ j ∈ Finset.range n, f j) (∑ j ∈ Finset.range n, g j) := by
  induction n with
  | zero => simp [Within]
  | succ n ih =>
    rw [Finset.sum_range_succ, Finset.sum_range_succ]
    exact (ih fun j hj => h j (by omega)).add (h n (by omega))

/-- Computed weights are the exact ones of the same numbers up to `D n + 1` roundings. -/
theorem weights_near {fl : ℚ → ℚ} {u : ℚ} (hfl : Rounding fl u) (hu : 0 ≤ u) (hu1 : u < 1) {D : ℕ → ℕ}
    {sum : List ℚ → ℚ} (hs : Summation fl D sum) (n : ℕ) (x : ℕ → ℚ) (hx : ∀ j < n, 0 ≤ x j) {j : ℕ} (hj : j < n) :
    Within u (D n + 1) (div0 (x j) (∑ k ∈ Finset.range n, x k)) (div0F fl (x j) (sum ((List.range n).map x))) := by
  have hr : ∀ y ∈ (List.range n).map x, 0 ≤ y := by
    intro y hy
    obtain ⟨k, hk, rfl⟩ := List.mem_map.1 hy
    exact hx k (List.mem_range.1 hk)
  obtain ⟨h1, h2⟩ := hs.spec hfl hu hu1 hr
  rw [list_map_range_sum] at h1 h2
  simp only [List.length_map, List.length_range] at h1
  unfold div0 div0F
  by_cases hz : ∑ k ∈ Finset.range n, x k = 0
  · rw [if_pos hz, if_pos (h2.2 hz)]
    simp [Within]
  · rw [if_neg hz, if_neg fun h => hz (h2.1 h)]
    have s0 : 0 ≤ ∑ k ∈ Finset.range n, x k := Finset.sum_nonneg fun k hk => hx k (Finset.mem_range.1 hk)
    have sp : 0 < ∑ k ∈ Finset.range n, x k := lt_of_le_of_ne s0 (Ne.symm hz)
    have d := Within.div hu1 (Within.refl' (u := u) (x j)) h1 (hx j hj) sp
    rw [zero_add] at d
    exact Within.trans hu1 d (Within.rounded hu hu1 hfl (d.nonneg hu1 (div_nonneg (hx j hj) s0)))

/-- **C124.** One step: the new weights are strictly lower triangular and not negative exactly, and every row sums to
one up to `D n + 1` roundings or is zero. -/
theorem C124_step_weights {fl : ℚ → ℚ} {u : ℚ} (hfl : Rounding fl u) (hu : 0 ≤ u) (hu1 : u < 1) {D : ℕ → ℕ}
    {sum : List ℚ → ℚ} (hs : Summation fl D sum) (it n : ℕ) (H Wold : List (List ℚ))
    (hW : 4 < it → ∀ i < n, ∀ j < n, i ≤ j → at2 Wold i j = 0) :
    IsWeightsF u (D n + 1) n (newWeightsF fl sum it n H Wold) := by
  have near : ∀ i < n, ∀ j < n, Within u (D n + 1)
      (div0 (rawWeightF fl it H Wold i j) (∑ k ∈ Finset.range n, rawWeightF fl it H Wold i k))
      (at2 (newWeightsF fl sum it n H Wold) i j) := by
    intro i hi j hj
    rw [newWeightsF_at _ _ _ _ _ _ hi hj]
    exact weights_near hfl hu hu1 hs n (fun k => rawWeightF fl it H Wold i k) (fun k _ => rawWeightF_nonneg _ _ _ _ _ _) hj
  have nn : ∀ i j, 0 ≤ div0 (rawWeightF fl it H Wold i j) (∑ k ∈ Finset.range n, rawWeightF fl it H Wold i k) :=
    fun i j => div0_nonneg (rawWeightF_nonneg _ _ _ _ _ _) (Finset.sum_nonneg fun k _ => rawWeightF_nonneg _ _ _ _ _ _)
  constructor
  · intro i hi j hj
    refine ⟨(near i hi j hj).nonneg hu1 (nn i j), fun hij => ?_⟩
    rw [newWeightsF_at _ _ _ _ _ _ hi hj, rawWeightF_above hfl.zero it H Wold hij fun h => hW h i hi j hj hij]
    unfold div0F
    split_ifs
    · rfl
    · rw [zero_div, hfl.zero]
  · intro i hi
    rcases div0_sum_one n (fun j => rawWeightF fl it H Wold i j) with h | h
    · left
      rw [← h]
      exact within_finset n _ _ fun j hj => near i hi j hj
    · right
      intro j hj
      have w := near i hi j hj
      rw [h j hj] at w
      have h1 := w.nonneg hu1 le_rfl
      have h2 := w.2
      have p : (0 : ℚ) < (1 - u) ^ (D n + 1) := pow_pos (by linarith) _
      have : at2 (newWeightsF fl sum it n H Wold) i j ≤ 0 := by
        by_contra hc
        push Not at hc
        have := mul_pos p hc
        linarith
      linarith

theorem fgIterF_succ {fl : ℚ → ℚ} {sum : List ℚ → ℚ} {dot : ℕ → ℕ → ℕ → List ℚ → List ℚ → ℚ} {p : FGParams} {m : Mat}
    {valley : Option (List ℚ)} {k : ℕ} {s : List (List ℚ) × List (List ℚ)}
    (h : fgIterF fl sum dot p m valley (k + 1) = .ok s) :
    ∃ s0 N H, fgIterF fl sum dot p m valley k = .ok s0 ∧ multNormalizationF fl sum p m = .ok N ∧
      (s0.1.mapM fun row => rebin1DF fl row m.Eg m.Ex) = .ok H ∧
      s = (subtractGF fl (dot k) m.values N (newWeightsF fl sum k m.Ex.length H s0.2) valley m.Ex.length m.Eg.length,
        newWeightsF fl sum k m.Ex.length H s0.2) := by
  rw [fgIterF] at h
  cases h0 : fgIterF fl sum dot p m valley k with
  | error e => rw [h0] at h; simp [bind, Except.bind] at h
  | ok s0 =>
    rw [h0] at h
    cases hN : multNormalizationF fl sum p m with
    | error e => rw [hN] at h; simp [bind, Except.bind] at h
    | ok N =>
      rw [hN] at h
      simp only [bind, Except.bind, fgStepF] at h
      cases hH : s0.1.mapM fun row => rebin1DF fl row m.Eg m.Ex with
      | error e => rw [hH] at h; simp at h
      | ok H =>
        rw [hH] at h
        simp only [pure, Except.pure, Except.ok.injEq] at h
        exact ⟨s0, N, H, rfl, rfl, hH, h.symm⟩

/-- **C124.** In every iteration of `apply` the weights are like this: the deviations do not add up. -/
theorem C124_weights {fl : ℚ → ℚ} {u : ℚ} (hfl : Rounding fl u) (hu : 0 ≤ u) (hu1 : u < 1) {D : ℕ → ℕ}
    {sum : List ℚ → ℚ} (hs : Summation fl D sum) (dot : ℕ → ℕ → ℕ → List ℚ → List ℚ → ℚ) (p : FGParams) (m : Mat)
    (valley : Option (List ℚ)) (k : ℕ) (H W : List (List ℚ)) (h : fgIterF fl sum dot p m valley (k + 1) = .ok (H, W)) :
    IsWeightsF u (D m.Ex.length + 1) m.Ex.length W := by
  induction k generalizing H W with
  | zero =>
    obtain ⟨s0, N, H', _, _, _, h3⟩ := fgIterF_succ h
    rw [(Prod.mk.inj h3).2]
    exact C124_step_weights hfl hu hu1 hs _ _ _ _ (by omega)
  | succ k ih =>
    obtain ⟨⟨a, b⟩, N, H', h0, _, _, h3⟩ := fgIterF_succ h
    rw [(Prod.mk.inj h3).2]
    have := ih a b h0
    exact C124_step_weights hfl hu hu1 hs _ _ _ _ fun _ i hi j hj hij => (this.1 i hi j hj).2 hij

/-! ### Rows -/

/-- Specification: a dot product looks at the products only and gives zero for products that are all zero. -/
def ProductDot (dot : List ℚ → List ℚ → ℚ) : Prop :=
  (∀ a b a' b', List.zipWith (fun x y => x * y) a b = List.zipWith (fun x y => x * y) a' b' → dot a b = dot a' b') ∧
  ∀ a b, (∀ x ∈ List.zipWith (fun x y => x * y) a b, x = 0) → dot a b = 0

/-- The dot products with a rounding after every multiplication are like this. -/
theorem productDot_dotF {fl : ℚ → ℚ} {u : ℚ} (hfl : Rounding fl u) (hu : 0 ≤ u) (hu1 : u < 1) {D : ℕ → ℕ}
    {sum : List ℚ → ℚ} (hs : Summation fl D sum) : ProductDot (dotF fl sum) := by
  have e : ∀ a b, List.zipWith (fun x y => fl (x * y)) a b = (List.zipWith (fun x y => x * y) a b).map fl := by
    intro a b
    rw [List.map_zipWith]
  constructor
  · intro a b a' b' h
    unfold dotF
    rw [e, e, h]
  · intro a b h
    unfold dotF
    rw [e]
    have z : ∀ y ∈ (List.zipWith (fun x y => x * y) a b).map fl, y = 0 := by
      intro y hy
      obtain ⟨x, hx, rfl⟩ := List.mem_map.1 hy
      rw [h x hx, hfl.zero]
    have nn : ∀ y ∈ (List.zipWith (fun x y => x * y) a b).map fl, 0 ≤ y := fun y hy => (z y hy).ge
    exact (hs.spec hfl hu hu1 nn).2.2 ((sum_zero_iff nn).2 z)

theorem factorF_zero {fl : ℚ → ℚ} (h0 : fl 0 = 0) (N W : List (List ℚ)) (valley : Option (List ℚ)) {i j : ℕ}
    (h : at2 W i j = 0) : factorF fl N W valley i j = 0 := by
  unfold factorF
  cases valley <;> simp [h, h0]

theorem subtractGF_at (fl : ℚ → ℚ) (dot : ℕ → ℕ → List ℚ → List ℚ → ℚ) (M N W : List (List ℚ))
    (valley : Option (List ℚ)) (n ny : ℕ) {i k : ℕ} (hi : i < n) (hk : k < ny) :
    at2 (subtractGF fl dot M N W valley n ny) i k = fl (at2 M i k -
      dot i k ((List.range n).map fun j => factorF fl N W valley i j) ((List.range n).map fun j => at2 M j k)) :=
  at2_tabulate _ _ _ hi hk

/-- **C124.** The lowest row of every iterate is the lowest row of the input to the last bit, whatever the other rows,
the multiplicities and the valley correction are and whatever the order of additions is. -/
theorem C124_lowest_row {fl : ℚ → ℚ} {u : ℚ} (hfl : Rounding fl u) (hu : 0 ≤ u) (hu1 : u < 1) {D : ℕ → ℕ}
    {sum : List ℚ → ℚ} (hs : Summation fl D sum) (dot : ℕ → ℕ → ℕ → List ℚ → List ℚ → ℚ)
    (hd : ∀ it i k, ProductDot (dot it i k)) (p : FGParams) (m : Mat) (hn : 0 < m.Ex.length)
    (hv : ∀ k, fl (at2 m.values 0 k) = at2 m.values 0 k) (valley : Option (List ℚ)) (it : ℕ) (H W : List (List ℚ))
    (h : fgIterF fl sum dot p m valley (it + 1) = .ok (H, W)) {k : ℕ} (hk : k < m.Eg.length) :
    at2 H 0 k = at2 m.values 0 k := by
  have hw := C124_weights hfl hu hu1 hs dot p m valley it H W h
  obtain ⟨s0, N, H', _, _, _, he⟩ := fgIterF_succ h
  obtain ⟨rfl, rfl⟩ := Prod.mk.inj he
  rw [subtractGF_at _ _ _ _ _ _ _ _ hn hk, (hd it 0 k).2, sub_zero, hv]
  intro x hx
  obtain ⟨q, hq, rfl⟩ := List.mem_iff_getElem.1 hx
  simp only [List.length_zipWith, List.length_map, List.length_range, min_self] at hq
  rw [List.getElem_zipWith, List.getElem_map, List.getElem_range,
    factorF_zero hfl.zero N _ valley ((hw.1 0 hn q hq).2 (Nat.zero_le q)), zero_mul]

/-! ### Multiplicities -/

theorem div0F_nonneg {fl : ℚ → ℚ} {u : ℚ} (hfl : Rounding fl u) {a b : ℚ} (ha : 0 ≤ a) (hb : 0 ≤ b) : 0 ≤ div0F fl a b := by
  unfold div0F
  split_ifs
  · exact le_rfl
  · rw [← hfl.zero]
    exact hfl.mono (div_nonneg ha hb)

/-- **C124.** The assertion about multiplicities never fails: they are not negative, for statistical multiplicities if
the parameters are not negative and the excitation energies are floating point numbers. -/
theorem C124_multiplicities {fl : ℚ → ℚ} {u : ℚ} (hfl : Rounding fl u) (hu : 0 ≤ u) (hu1 : u < 1) {D : ℕ → ℕ}
    {sum : List ℚ → ℚ} (hs : Summation fl D sum) (p : FGParams) (m : Mat) (hex : ∀ e ∈ m.Ex, 0 ≤ e ∧ fl e = e)
    (hrow : ∀ r ∈ m.values, ∀ x ∈ r, 0 ≤ x) (h : p.total = false → 0 ≤ p.shift ∧ 0 ≤ p.upper ∧ 0 ≤ p.lower) :
    (∀ x ∈ multiplicitiesF fl sum p m, 0 ≤ x) ∧ ∃ N, multNormalizationF fl sum p m = .ok N := by
  have nn : ∀ q : ℚ, 0 ≤ q → 0 ≤ fl q := fun q hq => by
    rw [← hfl.zero]
    exact hfl.mono hq
  have sn : ∀ l : List ℚ, (∀ x ∈ l, 0 ≤ x) → 0 ≤ sum l := fun l hl =>
    (hs.spec hfl hu hu1 hl).1.nonneg hu1 (List.sum_nonneg hl)
  have main : ∀ x ∈ multiplicitiesF fl sum p m, 0 ≤ x := by
    intro x hx
    obtain ⟨k, hk, rfl⟩ := List.mem_iff_getElem.1 hx
    simp only [multiplicitiesF, List.getElem_zipWith]
    simp only [multiplicitiesF, List.length_zipWith] at hk
    have he := hex _ (List.getElem_mem (show k < m.Ex.length by omega))
    have hr := hrow _ (List.getElem_mem (show k < m.values.length by omega))
    generalize m.Ex[k] = ex at *
    generalize m.values[k] = row at *
    split_ifs with ht
    · unfold multTotalF
      simp only
      split_ifs <;> linarith
    · obtain ⟨h1, h2, h3⟩ := h (by simpa using ht)
      unfold multStatisticalF
      simp only
      have hslide : 0 ≤ slideOfF fl p ex := by
        unfold slideOfF
        split_ifs
        · exact le_min (le_trans h3 (le_max_right _ _)) h2
        · exact h2
      generalize slideOfF fl p ex = s at hslide
      apply div0F_nonneg hfl
      · apply nn
        have : fl (ex - p.shift) ≤ ex := by
          rw [← he.2]
          exact hfl.mono (by rw [he.2]; linarith)
        have : max (min (fl (ex - p.shift)) p.entryStat) 0 ≤ ex :=
          max_le (le_trans (min_le_left _ _) this) he.1
        linarith
      · have hmask : ∀ x ∈ maskRow s m.Eg row, 0 ≤ x := by
          intro x hx
          unfold maskRow at hx
          obtain ⟨k, hk, rfl⟩ := List.mem_iff_getElem.1 hx
          simp only [List.getElem_zipWith]
          split_ifs
          · exact le_refl _
          · exact hr _ (List.getElem_mem _)
        apply div0F_nonneg hfl
        · apply sn
          intro x hx
          obtain ⟨k, hk, rfl⟩ := List.mem_iff_getElem.1 hx
          simp only [List.getElem_zipWith, maskRow]
          apply nn
          split_ifs with hg
          · simp
          · have hg' : s ≤ m.Eg[k]'(by simp only [List.length_zipWith] at hk; omega) := not_lt.1 hg
            exact mul_nonneg (le_trans hslide hg') (hr _ (List.getElem_mem _))
        · exact sn _ hmask
  refine ⟨main, ?_⟩
  unfold multNormalizationF
  simp only
  rw [if_pos (by simpa using main)]
  exact ⟨_, rfl⟩

/-! ### Without rounding -/

/-- **C124.** Without rounding this is the method of C25 to C28. -/
theorem C124_exact (p : FGParams) (m : Mat) (valley : Option (List ℚ)) (k : ℕ) :
    fgIterF id List.sum (fun _ _ _ a b => (List.zipWith (fun x y => x * y) a b).sum) p m valley k = fgIter p m valley k := by
  have d0 : ∀ a b : ℚ, div0F id a b = div0 a b := fun a b => rfl
  have me : ∀ Eg row, meanEgF id List.sum Eg row = meanEg Eg row := fun Eg row => rfl
  have mu : multiplicitiesF id List.sum p m = multiplicities p m := rfl
  have mn : multNormalizationF id List.sum p m = multNormalization p m := rfl
  have rn : rowNormalizedF id m.values m.Eg.length = rowNormalized m.values m.Eg.length := rfl
  have rw' : ∀ it H W i j, rawWeightF id it H W i j = rawWeight it H W i j := fun it H W i j => rfl
  have nw : ∀ it n H W, newWeightsF id List.sum it n H W = newWeights it n H W := by
    intro it n H W
    rw [newWeights_eq, ← normalizeRows_tabulate]
    rfl
  have sg : ∀ N W n ny, subtractGF id (fun _ _ a b => (List.zipWith (fun x y => x * y) a b).sum) m.values N W valley n ny =
      subtractG m.values N W valley n ny := by
    intro N W n ny
    unfold subtractGF subtractG
    apply tabulate_congr
    intro i _ k _
    show _ - (List.zipWith (fun x y => x * y) _ _).sum = _
    rw [zipWith_sum _ _ _ n (by simp) (by simp)]
    congr 1
    apply Finset.sum_congr rfl
    intro j hj
    rw [Finset.mem_range] at hj
    rw [getD_map_range _ hj, getD_map_range _ hj]
    unfold factorF
    cases valley
    · simp
    · rfl
  have rb : ∀ H : List (List ℚ), (H.mapM fun row => rebin1DF id row m.Eg m.Ex) = rebin2D H m.Eg.length m.Eg m.Ex 1 := by
    intro H
    simp only [C112_exact]
    simp [rebin2D]
  induction k with
  | zero => rfl
  | succ k ih =>
    rw [fgIterF, fgIter, ih, mn]
    congr 1
    funext s
    congr 1
    funext N
    unfold fgStepF fgStep
    rw [rb]
    congr 1
    funext H
    simp only [nw, sg]

/-! ### Rows below -/

theorem multF_row (fl : ℚ → ℚ) (sum : List ℚ → ℚ) (p : FGParams) (m : Mat) (hl : m.values.length = m.Ex.length) {i : ℕ}
    (hi : i < m.Ex.length) :
    (multiplicitiesF fl sum p m).length = m.Ex.length ∧ (multiplicitiesF fl sum p m).getD i 0 =
      if p.total then multTotalF fl sum m.Eg (m.Ex.getD i 0) (m.values.getD i [])
      else multStatisticalF fl sum p m.Eg (m.Ex.getD i 0) (m.values.getD i []) := by
  have hl2 : (multiplicitiesF fl sum p m).length = m.Ex.length := by simp [multiplicitiesF, hl]
  refine ⟨hl2, ?_⟩
  rw [List.getD_eq_getElem _ _ (by omega), List.getD_eq_getElem _ _ hi,
    List.getD_eq_getElem _ _ (by omega)]
  simp [multiplicitiesF]

theorem normF_entry {fl : ℚ → ℚ} {sum : List ℚ → ℚ} {p : FGParams} {m : Mat} {N : List (List ℚ)}
    (h : multNormalizationF fl sum p m = .ok N) (hl : m.values.length = m.Ex.length) {i j : ℕ} (hi : i < m.Ex.length)
    (hj : j < m.Ex.length) :
    at2 N i j = div0F fl (fl (sum (m.values.getD i []) * (multiplicitiesF fl sum p m).getD j 0))
      (fl ((multiplicitiesF fl sum p m).getD i 0 * sum (m.values.getD j []))) := by
  unfold multNormalizationF at h
  simp only at h
  split_ifs at h
  simp only [Except.ok.injEq] at h
  rw [← h, at2_tabulate _ _ _ (by rw [(multF_row fl sum p m hl hi).1]; exact hi)
    (by rw [(multF_row fl sum p m hl hi).1]; exact hj)]
  have e : ∀ k < m.Ex.length, (m.values.map sum).getD k 0 = sum (m.values.getD k []) := by
    intro k hk
    rw [List.getD_eq_getElem _ _ (by simp; omega), List.getD_eq_getElem _ _ (by omega)]
    simp
  rw [e i hi, e j hj]

theorem rowNormalizedF_row (fl : ℚ → ℚ) (v v' : List (List ℚ)) (ny i : ℕ) (hl : v.length = v'.length)
    (h : v.getD i [] = v'.getD i []) :
    (rowNormalizedF fl v ny).getD i [] = (rowNormalizedF fl v' ny).getD i [] := by
  unfold rowNormalizedF
  simp only
  by_cases hi : i < v.length
  · rw [tabulate_row _ _ _ hi, tabulate_row _ _ _ (by omega)]
    rw [diag_find, diag_find, h, hl]
  · rw [tabulate_row_out _ _ _ (by omega), tabulate_row_out _ _ _ (by omega)]

theorem newWeightsF_length (fl : ℚ → ℚ) (sum : List ℚ → ℚ) (it n : ℕ) (H W : List (List ℚ)) :
    (newWeightsF fl sum it n H W).length = n := by
  simp [newWeightsF, normalizeRowsF, tabulate_length]

theorem iterF_lengths {fl : ℚ → ℚ} {sum : List ℚ → ℚ} {dot : ℕ → ℕ → ℕ → List ℚ → List ℚ → ℚ} {p : FGParams} {m : Mat}
    {valley : Option (List ℚ)} {k : ℕ} {s : List (List ℚ) × List (List ℚ)} (hl : m.values.length = m.Ex.length)
    (h : fgIterF fl sum dot p m valley k = .ok s) : s.1.length = m.Ex.length ∧ s.2.length = m.Ex.length := by
  cases k with
  | zero =>
    rw [fgIterF] at h
    cases hN : multNormalizationF fl sum p m with
    | error e => rw [hN] at h; simp [bind, Except.bind] at h
    | ok N =>
      rw [hN] at h
      simp only [bind, Except.bind, pure, Except.pure, Except.ok.injEq] at h
      subst h
      simp [rowNormalizedF, tabulate_length, hl]
  | succ k =>
    obtain ⟨s0, N, H, _, _, _, rfl⟩ := fgIterF_succ h
    exact ⟨by simp [subtractGF, tabulate_length], newWeightsF_length _ _ _ _ _ _⟩

theorem newWeightsF_row {fl : ℚ → ℚ} {sum : List ℚ → ℚ} {it n : ℕ} {H W H' W' : List (List ℚ)} {r : ℕ} (hr : r < n)
    (hH : H.getD r [] = H'.getD r []) (hW : W.getD r [] = W'.getD r []) :
    (newWeightsF fl sum it n H W).getD r [] = (newWeightsF fl sum it n H' W').getD r [] := by
  have hraw : ∀ j, rawWeightF fl it H W r j = rawWeightF fl it H' W' r j := by
    intro j
    unfold rawWeightF flipWeight at2
    rw [hH, hW]
  have row : ∀ f : ℕ → ℕ → ℚ, (normalizeRowsF fl sum (tabulate n n f)).getD r [] =
      ((List.range n).map (f r)).map fun x => if sum ((List.range n).map (f r)) = 0 then 0 else fl (x / sum ((List.range n).map (f r))) := by
    intro f
    have hl : r < (tabulate n n f).length := by rw [tabulate_length]; exact hr
    unfold normalizeRowsF
    rw [List.getD_eq_getElem (List.map _ _) [] (by simpa using hl), List.getElem_map]
    have e : (tabulate n n f)[r] = (List.range n).map (f r) := by
      have := tabulate_row n n f hr
      rwa [List.getD_eq_getElem _ _ hl] at this
    rw [e]
  unfold newWeightsF
  rw [row, row, show rawWeightF fl it H W r = rawWeightF fl it H' W' r from funext hraw]

/-- **C124.** Rounding does not change what depends on what: rows `0..i` of every iterate depend on rows `0..i` of the
input only, to the last bit. -/
theorem C124_row_dependency {fl : ℚ → ℚ} {u : ℚ} (hfl : Rounding fl u) (hu : 0 ≤ u) (hu1 : u < 1) {D : ℕ → ℕ}
    {sum : List ℚ → ℚ} (hs : Summation fl D sum) (dot : ℕ → ℕ → ℕ → List ℚ → List ℚ → ℚ)
    (hd : ∀ it i k, ProductDot (dot it i k)) (p : FGParams) (m m' : Mat) (valley : Option (List ℚ)) (i : ℕ)
    (hA : AgreeUpTo i m m') (k : ℕ) (s s' : List (List ℚ) × List (List ℚ))
    (h : fgIterF fl sum dot p m valley k = .ok s) (h' : fgIterF fl sum dot p m' valley k = .ok s') :
    ∀ r ≤ i, s.1.getD r [] = s'.1.getD r [] ∧ s.2.getD r [] = s'.2.getD r [] := by
  obtain ⟨hEg, hEx, hl, hl', hrows⟩ := hA
  have hl'2 : m'.values.length = m'.Ex.length := by rw [hl', hEx]
  induction k generalizing s s' with
  | zero =>
    intro r hr
    rw [fgIterF] at h h'
    cases hN : multNormalizationF fl sum p m with
    | error e => rw [hN] at h; simp [bind, Except.bind] at h
    | ok N =>
      cases hN' : multNormalizationF fl sum p m' with
      | error e => rw [hN'] at h'; simp [bind, Except.bind] at h'
      | ok N' =>
        rw [hN] at h
        rw [hN'] at h'
        simp only [bind, Except.bind, pure, Except.pure, Except.ok.injEq] at h h'
        subst h h'
        have := rowNormalizedF_row fl m.values m'.values m.Eg.length r (by omega) (hrows r hr)
        rw [← hEg]
        exact ⟨this, this⟩
  | succ k ih =>
    intro r hr
    have hW := C124_weights hfl hu hu1 hs dot p m valley k s.1 s.2 h
    have hW' := C124_weights hfl hu hu1 hs dot p m' valley k s'.1 s'.2 h'
    obtain ⟨t, N, H, g0, gN, gH, rfl⟩ := fgIterF_succ h
    obtain ⟨t', N', H', g0', gN', gH', rfl⟩ := fgIterF_succ h'
    simp only at hW hW' ⊢
    have hlen := iterF_lengths hl g0
    have hlen' := iterF_lengths hl'2 g0'
    by_cases hrn : r < m.Ex.length
    · have hrn' : r < m'.Ex.length := by rw [← hEx]; exact hrn
      have iht := ih t t' g0 g0'
      obtain ⟨b1, b2⟩ := mapM_rows _ _ _ gH
      obtain ⟨b1', b2'⟩ := mapM_rows _ _ _ gH'
      have hHr : H.getD r [] = H'.getD r [] := by
        have e1 := b2 r (by omega) (by omega)
        have e2 := b2' r (by omega) (by omega)
        have e3 : t.1[r]'(by omega) = t'.1[r]'(by omega) := by
          have := (iht r hr).1
          rwa [List.getD_eq_getElem _ _ (by omega), List.getD_eq_getElem _ _ (by omega)] at this
        rw [e3, hEg, hEx, e2] at e1
        rw [List.getD_eq_getElem _ _ (by omega), List.getD_eq_getElem _ _ (by omega)]
        simpa using e1.symm
      have hWr : (newWeightsF fl sum k m.Ex.length H t.2).getD r []
          = (newWeightsF fl sum k m'.Ex.length H' t'.2).getD r [] := by
        rw [← hEx]
        exact newWeightsF_row hrn hHr (iht r hr).2
      refine ⟨?_, hWr⟩
      have ec : ∀ q ≤ r, ∀ c, at2 m.values q c = at2 m'.values q c := by
        intro q hq c
        unfold at2
        rw [hrows q (by omega)]
      have hmult : ∀ q ≤ i, q < m.Ex.length →
          (multiplicitiesF fl sum p m).getD q 0 = (multiplicitiesF fl sum p m').getD q 0 := by
        intro q hq hqn
        rw [(multF_row fl sum p m hl hqn).2, (multF_row fl sum p m' hl'2 (by omega)).2, hEg, hEx, hrows q hq]
      unfold subtractGF
      rw [tabulate_row _ _ _ hrn, tabulate_row _ _ _ hrn', ← hEg]
      apply List.map_congr_left
      intro c _
      rw [ec r (le_refl r)]
      congr 2
      apply (hd k r c).1
      rw [← hEx]
      apply List.ext_getElem
      · simp
      · intro q q1 q2
        simp only [List.length_zipWith, List.length_map, List.length_range, min_self] at q1
        simp only [List.getElem_zipWith, List.getElem_map, List.getElem_range]
        by_cases hq : q < r
        · have hN : at2 N r q = at2 N' r q := by
            rw [normF_entry gN hl hrn q1, normF_entry gN' hl'2 hrn' (by omega), hmult r hr hrn, hmult q (by omega) q1,
              hrows r hr, hrows q (by omega)]
          have hWe : at2 (newWeightsF fl sum k m.Ex.length H t.2) r q
              = at2 (newWeightsF fl sum k m'.Ex.length H' t'.2) r q := by
            unfold at2
            rw [hWr]
          rw [ec q (by omega)]
          unfold factorF
          rw [hN, hWe, ← hEx]
        · rw [factorF_zero hfl.zero _ _ _ ((hW.1 r hrn q q1).2 (by omega)), zero_mul]
          have z := (hW'.1 r hrn' q (by omega)).2 (by omega)
          rw [← hEx] at z
          rw [factorF_zero hfl.zero _ _ _ z, zero_mul]
    · have z : ∀ (A B : List (List ℚ)), A.length ≤ r → B.length ≤ r → A.getD r [] = B.getD r [] := by
        intro A B hA hB
        rw [List.getD_eq_default _ _ hA, List.getD_eq_default _ _ hB]
      have hx : m'.Ex.length ≤ r := by rw [← hEx]; omega
      constructor
      · apply z
        · rw [subtractGF, tabulate_length]; omega
        · rw [subtractGF, tabulate_length]; omega
      · apply z
        · rw [newWeightsF_length]; omega
        · rw [newWeightsF_length]; omega

/-! ### Distance from the exact step -/

/-- **C124.** The multiplicity normalisation with total multiplicities is the exact one up to `6 D + 9` roundings. -/
theorem C124_normalization {fl : ℚ → ℚ} {u : ℚ} (hfl : Rounding fl u) (hu : 0 ≤ u) (hu1 : u < 1) {D : ℕ → ℕ}
    {sum : List ℚ → ℚ} (hs : Summation fl D sum) (p : FGParams) (hp : p.total = true) (m : Mat)
    (hl : m.values.length = m.Ex.length) (hc : ∀ r ∈ m.values, r.length = m.Eg.length) (hex : ∀ e ∈ m.Ex, 0 ≤ e)
    (heg : ∀ e ∈ m.Eg, 0 ≤ e) (hrow : ∀ r ∈ m.values, ∀ x ∈ r, 0 ≤ x) (N N' : List (List ℚ))
    (hN : multNormalization p m = .ok N) (hN' : multNormalizationF fl sum p m = .ok N') {i j : ℕ} (hi : i < m.Ex.length)
    (hj : j < m.Ex.length) : Within u (6 * D m.Eg.length + 9) (at2 N i j) (at2 N' i j) := by
  -- quotients
  have quot : ∀ {k l : ℕ} {a b a' b' : ℚ}, Within u k a a' → Within u l b b' → 0 ≤ a → 0 ≤ b →
      Within u (k + l + 1) (div0 a b) (div0F fl a' b') ∧ 0 ≤ div0 a b := by
    intro k l a b a' b' ha hb a0 b0
    refine ⟨?_, div0_nonneg a0 b0⟩
    unfold div0 div0F
    by_cases hz : b = 0
    · have : b' = 0 := by
        by_contra h
        have hb' : 0 < b' := lt_of_le_of_ne (hb.nonneg hu1 b0) (Ne.symm h)
        have := (hb.pos_iff hu1).2 hb'
        exact absurd hz this.ne'
      rw [if_pos hz, if_pos this]
      simp [Within]
    · have bp : 0 < b := lt_of_le_of_ne b0 (Ne.symm hz)
      have bp' := (hb.pos_iff hu1).1 bp
      rw [if_neg hz, if_neg bp'.ne']
      have d := Within.div hu1 ha hb a0 bp
      exact Within.trans hu1 d (Within.rounded hu hu1 hfl (div_nonneg (ha.nonneg hu1 a0) bp'.le))
  -- sums of rows
  have srow : ∀ k < m.Ex.length, Within u (D m.Eg.length) (m.values.getD k []).sum (sum (m.values.getD k [])) ∧
      0 ≤ (m.values.getD k []).sum := by
    intro k hk
    have hm : m.values.getD k [] ∈ m.values := by
      rw [List.getD_eq_getElem _ _ (by omega)]
      exact List.getElem_mem _
    have := hs.spec hfl hu hu1 (hrow _ hm)
    rw [hc _ hm] at this
    exact ⟨this.1, List.sum_nonneg (hrow _ hm)⟩
  -- mean energies
  have smean : ∀ k < m.Ex.length, Within u (2 * D m.Eg.length + 2) (meanEg m.Eg (m.values.getD k []))
      (meanEgF fl sum m.Eg (m.values.getD k [])) ∧ 0 ≤ meanEg m.Eg (m.values.getD k []) := by
    intro k hk
    have hm : m.values.getD k [] ∈ m.values := by
      rw [List.getD_eq_getElem _ _ (by omega)]
      exact List.getElem_mem _
    obtain ⟨s1, s2⟩ := srow k hk
    have hr := hrow _ hm
    have hlen := hc _ hm
    generalize m.values.getD k [] = row at *
    have pn : ∀ x ∈ List.zipWith (fun g x => g * x) m.Eg row, 0 ≤ x := by
      intro x hx
      obtain ⟨q, hq, rfl⟩ := List.mem_iff_getElem.1 hx
      rw [List.getElem_zipWith]
      exact mul_nonneg (heg _ (List.getElem_mem _)) (hr _ (List.getElem_mem _))
    have e : List.zipWith (fun g x => fl (g * x)) m.Eg row = (List.zipWith (fun g x => g * x) m.Eg row).map fl := by
      rw [List.map_zipWith]
    have w1 : Within u 1 (List.zipWith (fun g x => g * x) m.Eg row).sum ((List.zipWith (fun g x => g * x) m.Eg row).map fl).sum := by
      have := within_sum (u := u) (k := 1) (f := id) (g := fl) (l := List.zipWith (fun g x => g * x) m.Eg row)
        (fun x hx => Within.rounded hu hu1 hfl (pn x hx))
      simpa using this
    have pn' : ∀ x ∈ (List.zipWith (fun g x => g * x) m.Eg row).map fl, 0 ≤ x := by
      intro x hx
      obtain ⟨y, hy, rfl⟩ := List.mem_map.1 hx
      rw [← hfl.zero]
      exact hfl.mono (pn y hy)
    have w2 := (hs.spec hfl hu hu1 pn').1
    have hlen' : ((List.zipWith (fun g x => g * x) m.Eg row).map fl).length = m.Eg.length := by simp [hlen]
    rw [hlen'] at w2
    have w3 := Within.trans hu1 w1 w2
    unfold meanEg meanEgF
    rw [e]
    obtain ⟨q1, q2⟩ := quot w3 s1 (List.sum_nonneg pn) s2
    refine ⟨?_, q2⟩
    rwa [show 1 + D m.Eg.length + D m.Eg.length + 1 = 2 * D m.Eg.length + 2 by ring] at q1
  -- multiplicities
  have smult : ∀ k < m.Ex.length, Within u (2 * D m.Eg.length + 3) ((multiplicities p m).getD k 0)
      ((multiplicitiesF fl sum p m).getD k 0) ∧ 0 ≤ (multiplicities p m).getD k 0 := by
    intro k hk
    rw [(mult_row p m hl hk).2, (multF_row fl sum p m hl hk).2, if_pos hp, if_pos hp]
    have he : 0 ≤ m.Ex.getD k 0 := by
      rw [List.getD_eq_getElem _ _ hk]
      exact hex _ (List.getElem_mem _)
    obtain ⟨s1, s2⟩ := smean k hk
    obtain ⟨q1, q2⟩ := quot (Within.refl' (u := u) (m.Ex.getD k 0)) s1 he s2
    unfold multTotal multTotalF
    simp only
    rw [if_neg (not_lt.2 q2), if_neg (not_lt.2 (q1.nonneg hu1 q2))]
    refine ⟨?_, q2⟩
    rwa [show 0 + (2 * D m.Eg.length + 2) + 1 = 2 * D m.Eg.length + 3 by ring] at q1
  rw [norm_entry hN hl hi hj, normF_entry hN' hl hi hj]
  obtain ⟨a1, a2⟩ := srow i hi
  obtain ⟨b1, b2⟩ := srow j hj
  obtain ⟨c1, c2⟩ := smult i hi
  obtain ⟨d1, d2⟩ := smult j hj
  have n1 := Within.mul hu1 a1 d1 a2 d2
  have n2 := Within.trans hu1 n1 (Within.rounded hu hu1 hfl (n1.nonneg hu1 (mul_nonneg a2 d2)))
  have e1 := Within.mul hu1 c1 b1 c2 b2
  have e2 := Within.trans hu1 e1 (Within.rounded hu hu1 hfl (e1.nonneg hu1 (mul_nonneg c2 b2)))
  have := (quot n2 e2 (mul_nonneg a2 d2) (mul_nonneg c2 b2)).1
  rwa [show D m.Eg.length + (2 * D m.Eg.length + 3) + 1 + (2 * D m.Eg.length + 3 + D m.Eg.length + 1) + 1 =
    6 * D m.Eg.length + 9 by ring] at this

/-- Specification: a computed dot product of lists that are not negative is the exact one up to `K` roundings. -/
def NearDot (u : ℚ) (K n : ℕ) (dot : List ℚ → List ℚ → ℚ) : Prop :=
  ∀ a b : List ℚ, a.length = n → b.length = n → (∀ x ∈ a, 0 ≤ x) → (∀ x ∈ b, 0 ≤ x) →
    Within u K (List.zipWith (fun x y => x * y) a b).sum (dot a b)

/-- **C124.** Dot products with a rounding after every product are like this, in any order of additions. -/
theorem C124_dot {fl : ℚ → ℚ} {u : ℚ} (hfl : Rounding fl u) (hu : 0 ≤ u) (hu1 : u < 1) {D : ℕ → ℕ}
    {sum : List ℚ → ℚ} (hs : Summation fl D sum) (n : ℕ) : NearDot u (D n + 1) n (dotF fl sum) := by
  intro a b ha hb a0 b0
  have e : List.zipWith (fun x y => fl (x * y)) a b = (List.zipWith (fun x y => x * y) a b).map fl := by
    rw [List.map_zipWith]
  have pn : ∀ x ∈ List.zipWith (fun x y => x * y) a b, 0 ≤ x := by
    intro x hx
    obtain ⟨q, hq, rfl⟩ := List.mem_iff_getElem.1 hx
    rw [List.getElem_zipWith]
    exact mul_nonneg (a0 _ (List.getElem_mem _)) (b0 _ (List.getElem_mem _))
  have w1 : Within u 1 (List.zipWith (fun x y => x * y) a b).sum ((List.zipWith (fun x y => x * y) a b).map fl).sum := by
    have := within_sum (u := u) (k := 1) (f := id) (g := fl) (l := List.zipWith (fun x y => x * y) a b)
      (fun x hx => Within.rounded hu hu1 hfl (pn x hx))
    simpa using this
  have pn' : ∀ x ∈ (List.zipWith (fun x y => x * y) a b).map fl, 0 ≤ x := by
    intro x hx
    obtain ⟨y, hy, rfl⟩ := List.mem_map.1 hx
    rw [← hfl.zero]
    exact hfl.mono (pn y hy)
  have w2 := (hs.spec hfl hu hu1 pn').1
  have hlen : ((List.zipWith (fun x y => x * y) a b).map fl).length = n := by simp [ha, hb]
  rw [hlen] at w2
  unfold dotF
  rw [e, add_comm]
  exact Within.trans hu1 w1 w2

/-- The higher generations the exact method subtracts at one place, ompy/firstgeneration.py:154-158. -/
def higherGen (M N W : List (List ℚ)) (valley : Option (List ℚ)) (n i k : ℕ) : ℚ :=
  ∑ j ∈ Finset.range n, at2 N i j * at2 W i j * valleyAt valley j * at2 M j k

/-- **C124.** One step from the same rebinned matrix, with the same normalisation up to `L` roundings, before old
weights are mixed in: what is subtracted is the exact amount up to `K + L + D n + 3` roundings and the difference is
rounded once. -/
theorem C124_step_near {fl : ℚ → ℚ} {u : ℚ} (hfl : Rounding fl u) (hu : 0 ≤ u) (hu1 : u < 1) {D : ℕ → ℕ}
    {sum : List ℚ → ℚ} (hs : Summation fl D sum) (dot : ℕ → ℕ → List ℚ → List ℚ → ℚ) (K L n ny it : ℕ)
    (hd : ∀ i k, NearDot u K n (dot i k)) (hit : it ≤ 4) (M N N' H W : List (List ℚ)) (valley : Option (List ℚ))
    (hM : ∀ i < n, ∀ k < ny, 0 ≤ at2 M i k) (hN : ∀ i < n, ∀ j < n, 0 ≤ at2 N i j)
    (hN' : ∀ i < n, ∀ j < n, Within u L (at2 N i j) (at2 N' i j))
    (hv : ∀ v, valley = some v → ∀ j < n, 0 ≤ v.getD j 0) {i k : ℕ} (hi : i < n) (hk : k < ny) :
    ∃ g, Within u (K + L + D n + 3) (higherGen M N (newWeights it n H W) valley n i k) g ∧
      at2 (subtractGF fl dot M N' (newWeightsF fl sum it n H W) valley n ny) i k = fl (at2 M i k - g) ∧
      at2 (subtractG M N (newWeights it n H W) valley n ny) i k =
        at2 M i k - higherGen M N (newWeights it n H W) valley n i k := by
  have raw : ∀ j, rawWeightF fl it H W i j = rawWeight it H W i j := by
    intro j
    unfold rawWeightF rawWeight
    simp only [if_neg (show ¬ 4 < it by omega)]
  have w0 : ∀ j < n, Within u (D n + 1) (at2 (newWeights it n H W) i j) (at2 (newWeightsF fl sum it n H W) i j) ∧
      0 ≤ at2 (newWeights it n H W) i j := by
    intro j hj
    have rn : ∀ j, 0 ≤ rawWeight it H W i j := fun j => by
      rw [← raw j]
      exact rawWeightF_nonneg _ _ _ _ _ _
    rw [newWeightsF_at _ _ _ _ _ _ hi hj, newWeights_eq, at2_tabulate _ _ _ hi hj]
    simp only [raw]
    exact ⟨weights_near hfl hu hu1 hs n (fun k => rawWeight it H W i k) (fun k _ => rn k) hj,
      div0_nonneg (rn j) (Finset.sum_nonneg fun k _ => rn k)⟩
  have fac : ∀ j < n, Within u (L + D n + 3) (at2 N i j * at2 (newWeights it n H W) i j *
      valleyAt valley j) (factorF fl N' (newWeightsF fl sum it n H W) valley i j) ∧
      0 ≤ at2 N i j * at2 (newWeights it n H W) i j * valleyAt valley j := by
    intro j hj
    obtain ⟨a1, a2⟩ := w0 j hj
    have b1 := Within.mul hu1 (hN' i hi j hj) a1 (hN i hi j hj) a2
    have b0 := mul_nonneg (hN i hi j hj) a2
    have b2 := Within.trans hu1 b1 (Within.rounded hu hu1 hfl (b1.nonneg hu1 b0))
    unfold factorF
    cases valley with
    | none =>
      simp only [valleyAt, Option.map_none, Option.getD_none, mul_one]
      exact ⟨b2.mono hu hu1 b0 (by omega), b0⟩
    | some v =>
      have v0 := hv v rfl j hj
      have c1 := Within.mul hu1 b2 (Within.refl' (u := u) (v.getD j 0)) b0 v0
      have c0 := mul_nonneg b0 v0
      have c2 := Within.trans hu1 c1 (Within.rounded hu hu1 hfl (c1.nonneg hu1 c0))
      simp only [valleyAt, Option.map_some, Option.getD_some]
      exact ⟨c2.mono hu hu1 c0 (by omega), c0⟩
  refine ⟨dot i k ((List.range n).map fun j => factorF fl N' (newWeightsF fl sum it n H W) valley i j)
    ((List.range n).map fun j => at2 M j k), ?_, subtractGF_at _ _ _ _ _ _ _ _ hi hk, ?_⟩
  swap
  · unfold subtractG
    rw [at2_tabulate _ _ _ hi hk]
    unfold higherGen valleyAt
    cases valley <;> rfl
  have d := hd i k ((List.range n).map fun j => factorF fl N' (newWeightsF fl sum it n H W) valley i j)
    ((List.range n).map fun j => at2 M j k) (by simp) (by simp)
    (by
      intro x hx
      obtain ⟨j, hj, rfl⟩ := List.mem_map.1 hx
      obtain ⟨f1, f2⟩ := fac j (List.mem_range.1 hj)
      exact f1.nonneg hu1 f2)
    (by
      intro x hx
      obtain ⟨j, hj, rfl⟩ := List.mem_map.1 hx
      exact hM j (List.mem_range.1 hj) k hk)
  rw [zipWith_sum _ _ _ n (by simp) (by simp)] at d
  have e : Within u (L + D n + 3) (higherGen M N (newWeights it n H W) valley n i k)
      (∑ q ∈ Finset.range n, ((List.range n).map fun j => factorF fl N' (newWeightsF fl sum it n H W) valley i j).getD q 0 *
        ((List.range n).map fun j => at2 M j k).getD q 0) := by
    unfold higherGen
    apply within_finset
    intro j hj
    rw [getD_map_range _ hj, getD_map_range _ hj]
    obtain ⟨f1, f2⟩ := fac j hj
    have := Within.mul hu1 f1 (Within.refl' (u := u) (at2 M j k)) f2 (hM j hj k hk)
    rwa [add_zero] at this
  have := Within.trans hu1 e d
  rwa [show L + D n + 3 + K = K + L + D n + 3 by ring] at this

/-! ### What rounding changes -/

/-- A matrix whose first iterate is zero in the second and third rows. -/
def unstableSample : Mat := ⟨[[1, 0, 0, 0], [1, 2, 0, 0], [3, 6, 0, 0], [4, 3, 0, 0]], [1, 2, 3, 4], [1, 2, 3, 4], none, none⟩

def unstableParams : FGParams := ⟨2, true, 430, 200, 3 / 10, 200, 300, false⟩

/-- **C124.** The result as a whole is not near the exact one: what should have cancelled leaves some `10^-16`, the next
iteration scales these remainders to weights that sum to one and the row becomes another one. -/
theorem C124_unstable_fails :
    (fgApply (fun _ _ => true) unstableParams none unstableSample).1.map (fun m => m.values.getD 3 []) = .ok [4, 3, 0, 0] ∧
    (fgValuesF dbl (loopSum dbl) (fun _ _ _ => dotF dbl (loopSum dbl)) unstableParams unstableSample none).map
      (fun v => v.getD 3 []) = .ok [5 / 2, 1 / 2 ^ 51, 0, 0] ∧
    (fgValuesF dbl (npSum dbl) (fun _ _ _ => dotF dbl (npSum dbl)) unstableParams unstableSample none).map
      (fun v => v.getD 3 []) = .ok [5 / 2, 1 / 2 ^ 51, 0, 0] := by
  refine ⟨by decide +kernel, by decide +kernel, by decide +kernel⟩

/-- **C124.** A bin exactly at the sliding threshold of `0.28 * 750 = 210` counts as below it. -/
theorem C124_threshold_fails :
    maskRow (slideOf ⟨1, false, 430, 200, 28 / 100, 200, 300, true⟩ 750) [205, 210, 215] [1, 1, 1] = [0, 1, 1] ∧
    maskRow (slideOfF dbl ⟨1, false, 430, 200, dbl (28 / 100), 200, 300, true⟩ 750) [205, 210, 215] [1, 1, 1] = [0, 0, 1] := by
  refine ⟨by decide +kernel, by decide +kernel⟩

/-- The hypotheses of the theorems above hold for doubles, numpy's order of additions and a matrix. -/
example : ∃ s, fgIterF dbl (npSum dbl) (fun _ _ _ => dotF dbl (npSum dbl)) (fgParams 10) fgSample none 2 = .ok s ∧
    IsWeightsF (1 / 2 ^ 53) (26 + Nat.log 2 3 + 1) 3 s.2 ∧ at2 s.1 0 0 = 3 ∧ at2 s.2 2 0 ≠ 0 := by
  have u0 : (0 : ℚ) ≤ 1 / 2 ^ 53 := by norm_num
  have u1 : (1 : ℚ) / 2 ^ 53 < 1 := by norm_num
  have h : (fgIterF dbl (npSum dbl) (fun _ _ _ => dotF dbl (npSum dbl)) (fgParams 10) fgSample none 2).map
      (fun s => decide (at2 s.2 2 0 ≠ 0)) = .ok true := by decide +kernel
  cases hs : fgIterF dbl (npSum dbl) (fun _ _ _ => dotF dbl (npSum dbl)) (fgParams 10) fgSample none 2 with
  | error e => rw [hs] at h; simp [Except.map] at h
  | ok s =>
    rw [hs] at h
    simp only [Except.map, Except.ok.injEq, decide_eq_true_eq] at h
    refine ⟨s, rfl, C124_weights dbl_rounding u0 u1 (C117_numpy dbl) _ _ fgSample none 1 s.1 s.2 hs,
      C124_lowest_row dbl_rounding u0 u1 (C117_numpy dbl) _
        (fun _ _ _ => productDot_dotF dbl_rounding u0 u1 (C117_numpy dbl)) (fgParams 10) fgSample (by decide) ?_ none 1 s.1 s.2
        hs (k := 0) (by decide), h⟩
    intro k
    match k with
    | 0 => decide +kernel
    | 1 => decide +kernel
    | 2 => decide +kernel
    | k + 3 => simp [at2, fgSample, dbl_rounding.zero]

example : ∃ N N', multNormalization (fgParams 10) fgSample = .ok N ∧
    multNormalizationF dbl (npSum dbl) (fgParams 10) fgSample = .ok N' ∧ at2 N 1 0 ≠ at2 N' 1 0 ∧
    Within (1 / 2 ^ 53) (6 * (26 + Nat.log 2 3) + 9) (at2 N 1 0) (at2 N' 1 0) := by
  have u0 : (0 : ℚ) ≤ 1 / 2 ^ 53 := by norm_num
  have u1 : (1 : ℚ) / 2 ^ 53 < 1 := by norm_num
  have h : (do
      let N ← multNormalization (fgParams 10) fgSample
      let N' ← multNormalizationF dbl (npSum dbl) (fgParams 10) fgSample
      pure (decide (at2 N 1 0 ≠ at2 N' 1 0)) : Except Err Bool) = .ok true := by decide +kernel
  cases h1 : multNormalization (fgParams 10) fgSample with
  | error e => rw [h1] at h; simp [bind, Except.bind] at h
  | ok N =>
    cases h2 : multNormalizationF dbl (npSum dbl) (fgParams 10) fgSample with
    | error e => rw [h1, h2] at h; simp [bind, Except.bind] at h
    | ok N' =>
      rw [h1, h2] at h
      simp only [bind, Except.bind, pure, Except.pure, Except.ok.injEq, decide_eq_true_eq] at h
      exact ⟨N, N', rfl, rfl, h, C124_normalization dbl_rounding u0 u1 (C117_numpy dbl) (fgParams 10) rfl fgSample rfl
        (by decide) (by decide) (by decide) (by decide) N N' h1 h2 (by decide) (by decide)⟩

end Ompy
