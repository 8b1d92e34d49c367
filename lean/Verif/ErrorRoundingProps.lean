import Verif.ErrorRounding
import Verif.WidthRoundingProps
import Verif.UnitRoundingProps

/-!
# C153: the weighted χ² of two vectors with rounded numbers
-/

namespace Ompy

/-- The exact variance of entry `k`: the sum of the squared standard deviations that are given, 1 if there are none. -/
def sigmaSq (s t : Option (List ℚ)) (k : ℕ) : ℚ :=
  if s = none ∧ t = none then 1 else ((s.map fun l => l.getD k 0 ^ 2).getD 0) + ((t.map fun l => l.getD k 0 ^ 2).getD 0)

theorem sigmaSq_nonneg (s t : Option (List ℚ)) (k : ℕ) : 0 ≤ sigmaSq s t k := by
  unfold sigmaSq
  split_ifs
  · norm_num
  · cases s <;> cases t <;> simp <;> positivity

/-- The terms of the exact χ². -/
def chiEntry (v w : List ℚ) (s t : Option (List ℚ)) (k : ℕ) : ℚ := (v.getD k 0 - w.getD k 0) ^ 2 / sigmaSq s t k

theorem chiEntry_nonneg (v w : List ℚ) (s t : Option (List ℚ)) (k : ℕ) : 0 ≤ chiEntry v w s t k :=
  div_nonneg (sq_nonneg _) (sigmaSq_nonneg s t k)

theorem within_square {fl : ℚ → ℚ} {u : ℚ} (hfl : Rounding fl u) (hu : 0 ≤ u) (hu1 : u < 1) (q : ℚ) : Within u 1 (q ^ 2) (fl (q * q)) := by
  rw [sq]
  exact Within.rounded hu hu1 hfl (mul_self_nonneg q)

theorem sigmasqF_within {fl : ℚ → ℚ} {u : ℚ} (hfl : Rounding fl u) (hu : 0 ≤ u) (hu1 : u < 1) (s t : Option (List ℚ)) (k : ℕ) :
    Within u 2 (sigmaSq s t k) (sigmasqF fl s t k) := by
  cases s with
  | none =>
    cases t with
    | none =>
      simp only [sigmaSq, sigmasqF, and_self, if_true]
      exact (Within.refl' (u := u) 1).mono hu hu1 (by norm_num) (by omega)
    | some t =>
      simp only [sigmaSq, sigmasqF]
      have := (within_square hfl hu hu1 (t.getD k 0)).mono hu hu1 (sq_nonneg _) (show 1 ≤ 2 by omega)
      simpa using this
  | some s =>
    cases t with
    | none =>
      simp only [sigmaSq, sigmasqF]
      have := (within_square hfl hu hu1 (s.getD k 0)).mono hu hu1 (sq_nonneg _) (show 1 ≤ 2 by omega)
      simpa using this
    | some t =>
      simp only [sigmaSq, sigmasqF]
      have h := (within_square hfl hu hu1 (s.getD k 0)).add (within_square hfl hu hu1 (t.getD k 0))
      have := h.trans hu1 (Within.rounded hu hu1 hfl (h.nonneg hu1 (by positivity)))
      simpa using this

theorem within_diff_sq {fl : ℚ → ℚ} {u : ℚ} (hfl : Rounding fl u) (hu : 0 ≤ u) (hu1 : u < 1) (q : ℚ) :
    Within u 3 (q ^ 2) (fl (fl q * fl q)) := by
  have h : Within u 2 (q ^ 2) (fl q * fl q) := by
    have a : Within u 1 |q| |fl q| := by
      have r := hfl.rel q
      have r1 := abs_sub_abs_le_abs_sub (fl q) q
      have r2 := abs_sub_abs_le_abs_sub q (fl q)
      rw [abs_sub_comm q] at r2
      constructor
      · rw [pow_one]; linarith
      · rw [pow_one]
        nlinarith [abs_nonneg q, abs_nonneg (fl q), mul_nonneg (mul_nonneg hu hu) (abs_nonneg q),
          mul_le_mul_of_nonneg_left (show |fl q| ≤ (1 + u) * |q| by linarith) (show (0 : ℚ) ≤ 1 - u by linarith)]
    have := a.mul hu1 a (abs_nonneg _) (abs_nonneg _)
    rwa [abs_mul_abs_self, abs_mul_abs_self, ← sq] at this
  exact h.trans hu1 (Within.rounded hu hu1 hfl (mul_self_nonneg _))

theorem chiTermF_within {fl : ℚ → ℚ} {u : ℚ} (hfl : Rounding fl u) (hu : 0 ≤ u) (hu1 : u < 1) (v w : List ℚ) (s t : Option (List ℚ)) (k : ℕ) :
    Within u 6 (chiEntry v w s t k) (chiTermF fl (v.getD k 0) (w.getD k 0) (sigmasqF fl s t k)) := by
  have hs := sigmasqF_within hfl hu hu1 s t k
  have hp := hs.pos_iff hu1
  have h0 := hs.nonneg hu1 (sigmaSq_nonneg s t k)
  unfold chiTermF chiEntry
  split_ifs with h
  · have : sigmaSq s t k = 0 := by
      by_contra hc
      have := hp.1 (lt_of_le_of_ne (sigmaSq_nonneg s t k) (Ne.symm hc))
      linarith
    rw [this, div_zero]
    simp [Within]
  · have hv : 0 < sigmaSq s t k := hp.2 (lt_of_le_of_ne h0 (Ne.symm h))
    have d := (within_diff_sq hfl hu hu1 (v.getD k 0 - w.getD k 0)).div hu1 hs (sq_nonneg _) hv
    exact d.trans hu1 (Within.rounded hu hu1 hfl (d.nonneg hu1 (by positivity)))

theorem within_range_sum {u : ℚ} {k n : ℕ} {f g : ℕ → ℚ} (h : ∀ i < n, Within u k (f i) (g i)) :
    Within u k ((List.range n).map f).sum ((List.range n).map g).sum := by
  induction n with
  | zero => simp [Within]
  | succ n ih =>
    simp only [List.range_succ, List.map_append, List.sum_append, List.map_cons, List.map_nil, List.sum_cons, List.sum_nil, add_zero]
    exact (ih fun i hi => h i (by omega)).add (h n (by omega))

/-- The bins of two vectors agree, entry by entry. -/
def BinsAgree (close : ℚ → ℚ → Bool) (v w : Vec ℚ) : Prop :=
  v.values.length = w.values.length ∧ v.E.length = w.E.length ∧ ∀ k < v.E.length, close (v.E.getD k 0) (w.E.getD k 0) = true

theorem bins_iff (close : ℚ → ℚ → Bool) (v w : Vec ℚ) :
    (v.values.length == w.values.length && v.E.length == w.E.length && (List.zipWith close v.E w.E).all id) = true ↔ BinsAgree close v w := by
  unfold BinsAgree
  rw [Bool.and_eq_true, Bool.and_eq_true, beq_iff_eq, beq_iff_eq, and_assoc]
  refine and_congr_right fun _ => and_congr_right fun he => ?_
  rw [List.all_eq_true]
  constructor
  · intro h k hk
    have := h (close (v.E.getD k 0) (w.E.getD k 0)) (by
      rw [List.mem_iff_getElem]
      refine ⟨k, by simp [← he, hk], ?_⟩
      rw [List.getElem_zipWith, List.getD_eq_getElem _ _ hk, List.getD_eq_getElem _ _ (he ▸ hk)])
    simpa using this
  · intro h b hb
    obtain ⟨k, hk, rfl⟩ := List.mem_iff_getElem.1 hb
    have hk' : k < v.E.length := by
      rw [List.length_zipWith] at hk
      omega
    have := h k hk'
    rw [List.getD_eq_getElem _ _ hk', List.getD_eq_getElem _ _ (he ▸ hk')] at this
    rw [List.getElem_zipWith]
    simpa using this

/-- **C153.** `error` gives a number exactly if the bins agree; the number is the exact χ² up to six roundings and those of the sum,
whatever cancels in the differences. -/
theorem C153_chi {fl : ℚ → ℚ} {u : ℚ} (hfl : Rounding fl u) (hu : 0 ≤ u) (hu1 : u < 1) {D : ℕ → ℕ} {sum : List ℚ → ℚ} (hs : Summation fl D sum)
    (close : ℚ → ℚ → Bool) (v w : Vec ℚ) (t : Option (List ℚ)) :
    (¬ BinsAgree close v w → v.errorF fl sum close w t = .error .valueError) ∧
      (BinsAgree close v w → ∃ x, v.errorF fl sum close w t = .ok x ∧
        Within u (6 + D v.values.length) ((List.range v.values.length).map (chiEntry v.values w.values v.std t)).sum x) := by
  constructor
  · intro h
    rw [← bins_iff] at h
    unfold Vec.errorF
    rw [if_neg h]
  · intro h
    rw [← bins_iff] at h
    unfold Vec.errorF
    rw [if_pos h]
    refine ⟨_, rfl, ?_⟩
    have a := within_range_sum (n := v.values.length) fun k _ => chiTermF_within hfl hu hu1 v.values w.values v.std t k
    have n0 : ∀ x ∈ (List.range v.values.length).map (fun k : ℕ =>
        chiTermF fl (v.values.getD k 0) (w.values.getD k 0) (sigmasqF fl v.std t k)), 0 ≤ x := by
      intro x hx
      obtain ⟨k, _, rfl⟩ := List.mem_map.1 hx
      exact (chiTermF_within hfl hu hu1 v.values w.values v.std t k).nonneg hu1 (chiEntry_nonneg _ _ _ _ _)
    have b := (hs.spec hfl hu hu1 n0).1
    rw [List.length_map, List.length_range] at b
    exact a.trans hu1 b

/-- **C153.** In double precision and with numpy's sum the relative error is at most `(32 + log2 n) / 2^53`. -/
theorem C153_double (close : ℚ → ℚ → Bool) (v w : Vec ℚ) (t : Option (List ℚ)) (x : ℚ) (h : v.errorF dbl (npSum dbl) close w t = .ok x) :
    |x - ((List.range v.values.length).map (chiEntry v.values w.values v.std t)).sum| ≤
      (32 + Nat.log 2 v.values.length : ℕ) * (1 / 2 ^ 53) * max ((List.range v.values.length).map (chiEntry v.values w.values v.std t)).sum x := by
  have c := C153_chi dbl_rounding (by norm_num) (by norm_num) (C117_numpy dbl) close v w t
  by_cases hb : BinsAgree close v w
  · obtain ⟨y, hy, hw⟩ := c.2 hb
    rw [h] at hy
    cases hy
    have n0 : 0 ≤ ((List.range v.values.length).map (chiEntry v.values w.values v.std t)).sum := by
      apply List.sum_nonneg
      intro y hy
      obtain ⟨k, _, rfl⟩ := List.mem_map.1 hy
      exact chiEntry_nonneg _ _ _ _ _
    have := hw.abs_sub_le (by norm_num) (by norm_num) n0
    rwa [show 6 + (26 + Nat.log 2 v.values.length) = 32 + Nat.log 2 v.values.length by omega] at this
  · rw [c.1 hb] at h
    cases h

/-- Two vectors for the examples. -/
def chiA : Vec ℚ := ⟨[1, 2, 3], [1 / 2, 5, 7], some [1 / 4, 3, 0], "keV"⟩
def chiB : Vec ℚ := ⟨[1, 2, 3], [1 / 4, 4, 9], none, "keV"⟩

example : BinsAgree (fun a b => decide (a = b)) chiA chiB ∧
    ((List.range 3).map (chiEntry chiA.values chiB.values chiA.std none)).sum = 10 / 9 ∧
    chiA.errorF dbl (npSum dbl) (fun a b => decide (a = b)) chiB none = .ok (dbl (10 / 9)) ∧
    chiB.errorF dbl (npSum dbl) (fun a b => decide (a = b)) chiA none = .ok (81 / 16) := by
  refine ⟨⟨rfl, rfl, ?_⟩, ?_⟩
  all_goals decide +kernel

/-- **C153.** The computed χ² is zero exactly if every entry agrees or has no uncertainty. -/
theorem C153_zero {fl : ℚ → ℚ} {u : ℚ} (hfl : Rounding fl u) (hu : 0 ≤ u) (hu1 : u < 1) {D : ℕ → ℕ} {sum : List ℚ → ℚ} (hs : Summation fl D sum)
    (close : ℚ → ℚ → Bool) (v w : Vec ℚ) (t : Option (List ℚ)) (hb : BinsAgree close v w) :
    v.errorF fl sum close w t = .ok 0 ↔
      ∀ k < v.values.length, v.values.getD k 0 = w.values.getD k 0 ∨ sigmaSq v.std t k = 0 := by
  obtain ⟨x, hx, hw⟩ := (C153_chi hfl hu hu1 hs close v w t).2 hb
  have n0 : ∀ y ∈ (List.range v.values.length).map (chiEntry v.values w.values v.std t), 0 ≤ y := by
    intro y hy
    obtain ⟨k, _, rfl⟩ := List.mem_map.1 hy
    exact chiEntry_nonneg _ _ _ _ _
  have hp := hw.pos_iff hu1
  have x0 := hw.nonneg hu1 (List.sum_nonneg n0)
  rw [hx]
  have e : (Except.ok x : Except Err ℚ) = .ok 0 ↔ ((List.range v.values.length).map (chiEntry v.values w.values v.std t)).sum = 0 := by
    constructor
    · intro h
      cases h
      by_contra hc
      exact absurd (hp.1 (lt_of_le_of_ne (List.sum_nonneg n0) (Ne.symm hc))) (lt_irrefl _)
    · intro h
      congr 1
      by_contra hc
      have := hp.2 (lt_of_le_of_ne x0 (Ne.symm hc))
      linarith
  rw [e, sum_zero_iff n0]
  constructor
  · intro h k hk
    have := h _ (List.mem_map.2 ⟨k, List.mem_range.2 hk, rfl⟩)
    unfold chiEntry at this
    rcases div_eq_zero_iff.1 this with q | q
    · left
      have := pow_eq_zero_iff (two_ne_zero) |>.1 q
      linarith
    · exact .inr q
  · intro h y hy
    obtain ⟨k, hk, rfl⟩ := List.mem_map.1 hy
    unfold chiEntry
    rcases h k (List.mem_range.1 hk) with q | q
    · rw [q]; simp
    · rw [q, div_zero]

example : sigmaSq chiA.std none 2 = 0 ∧
    (⟨[1], [2], some [0], "keV"⟩ : Vec ℚ).errorF dbl (npSum dbl) (fun _ _ => true) ⟨[1], [3], none, "keV"⟩ none = .ok 0 := by
  decide +kernel

/-- **C153.** With the same uncertainties the two vectors can be exchanged: the computed numbers are the same, bit for bit. -/
theorem C153_symmetric (sum : List ℚ → ℚ) (close : ℚ → ℚ → Bool) (hc : ∀ a b, close a b = close b a) (v w : Vec ℚ) (t : Option (List ℚ))
    (hs : v.std = w.std) : v.errorF dbl sum close w t = w.errorF dbl sum close v t := by
  have e : ∀ x y q, chiTermF dbl x y q = chiTermF dbl y x q := by
    intro x y q
    unfold chiTermF
    rw [show x - y = -(y - x) by ring, dbl_odd, neg_mul_neg]
  by_cases hb : BinsAgree close v w
  · have hb' : BinsAgree close w v := ⟨hb.1.symm, hb.2.1.symm, fun k hk => by rw [hc]; exact hb.2.2 k (hb.2.1 ▸ hk)⟩
    unfold Vec.errorF
    rw [if_pos ((bins_iff close v w).2 hb), if_pos ((bins_iff close w v).2 hb'), hs, hb.1]
    congr 2
    exact List.map_congr_left fun k _ => e _ _ _
  · have hb' : ¬ BinsAgree close w v := fun h => hb ⟨h.1.symm, h.2.1.symm, fun k hk => by rw [hc]; exact h.2.2 k (h.2.1 ▸ hk)⟩
    unfold Vec.errorF
    rw [if_neg (fun h => hb ((bins_iff close v w).1 h)), if_neg (fun h => hb' ((bins_iff close w v).1 h))]

example : chiB.errorF dbl (npSum dbl) (fun a b => decide (a = b)) { chiA with std := none } (some [1, 2, 3]) =
    ({ chiA with std := none }).errorF dbl (npSum dbl) (fun a b => decide (a = b)) chiB (some [1, 2, 3]) := by decide +kernel

/-- A vector in other units: values and uncertainties times `q`. -/
def Vec.times (v : Vec ℚ) (q : ℚ) : Vec ℚ := ⟨v.E, v.values.map (q * ·), v.std.map fun l => l.map (q * ·), v.units⟩

theorem getD_times (l : List ℚ) (q : ℚ) (k : ℕ) : (l.map (q * ·)).getD k 0 = q * l.getD k 0 := by
  rw [List.getD_eq_getElem?_getD, List.getElem?_map, List.getD_eq_getElem?_getD]
  cases l[k]? <;> simp

/-- **C153.** Values and uncertainties in units that differ by a power of two give the same number, bit for bit. -/
theorem C153_scale (sum : List ℚ → ℚ) (close : ℚ → ℚ → Bool) (v w : Vec ℚ) (t : Option (List ℚ)) (z : ℤ) (hst : v.std ≠ none ∨ t ≠ none) :
    (v.times (2 ^ z)).errorF dbl sum close (w.times (2 ^ z)) (t.map fun l => l.map ((2 : ℚ) ^ z * ·)) = v.errorF dbl sum close w t := by
  have p : (2 : ℚ) ^ z ≠ 0 := by positivity
  have sq' : ∀ a : ℚ, dbl ((2 : ℚ) ^ z * a * ((2 : ℚ) ^ z * a)) = (2 : ℚ) ^ (2 * z) * dbl (a * a) := by
    intro a
    rw [← dbl_scale, two_mul, zpow_add₀ (by norm_num)]
    congr 1
    ring
  have hsig : ∀ k, sigmasqF dbl (v.times (2 ^ z)).std (t.map fun l => l.map ((2 : ℚ) ^ z * ·)) k = (2 : ℚ) ^ (2 * z) * sigmasqF dbl v.std t k := by
    intro k
    unfold Vec.times
    rcases hv : v.std with _ | s <;> rcases t with _ | t
    · rw [hv] at hst; simp at hst
    · simp only [Option.map_none, Option.map_some, sigmasqF, getD_times, sq']
    · simp only [Option.map_none, Option.map_some, sigmasqF, getD_times, sq']
    · simp only [Option.map_some, sigmasqF, getD_times, sq']
      rw [← mul_add, dbl_scale]
  have ht : ∀ x y q : ℚ, chiTermF dbl ((2 : ℚ) ^ z * x) ((2 : ℚ) ^ z * y) ((2 : ℚ) ^ (2 * z) * q) = chiTermF dbl x y q := by
    intro x y q
    have p2 : (2 : ℚ) ^ (2 * z) ≠ 0 := by positivity
    unfold chiTermF
    by_cases hq : q = 0
    · rw [hq, mul_zero, if_pos rfl, if_pos rfl]
    · rw [if_neg hq, if_neg (mul_ne_zero p2 hq), ← mul_sub, dbl_scale, sq', mul_div_mul_left _ _ p2]
  unfold Vec.errorF
  simp only [hsig]
  unfold Vec.times
  simp only [List.length_map, getD_times, ht]

example : (chiA.times (2 ^ (3 : ℤ))).values = [4, 40, 56] ∧ (chiA.times (2 ^ (3 : ℤ))).std = some [2, 24, 0] ∧ chiA.std ≠ none := by decide +kernel

/-- **C153.** In other units the number can differ: a factor of 1000 changes the last bit, although the scaled numbers are doubles. -/
theorem C153_scale_fails : ∃ v w : Vec ℚ, (∀ x ∈ v.values ++ w.values, dbl x = x ∧ dbl (1000 * x) = 1000 * x) ∧
    (v.times 1000).errorF dbl (npSum dbl) (fun _ _ => true) (w.times 1000) none ≠ v.errorF dbl (npSum dbl) (fun _ _ => true) w none :=
  ⟨⟨[1], [1073741867], some [3], "MeV"⟩, ⟨[1], [0], none, "MeV"⟩, by decide +kernel, by decide +kernel⟩

/-- Smaller deviations with the same or larger computed variances never give a larger number. -/
theorem errorF_le (close : ℚ → ℚ → Bool) (v w v' w' : Vec ℚ) (t t' : Option (List ℚ)) (x x' : ℚ)
    (h : v.errorF dbl (npSum dbl) close w t = .ok x) (h' : v'.errorF dbl (npSum dbl) close w' t' = .ok x')
    (hl : v.values.length = v'.values.length)
    (hd : ∀ k < v.values.length, |v.values.getD k 0 - w.values.getD k 0| ≤ |v'.values.getD k 0 - w'.values.getD k 0|)
    (hs : ∀ k < v.values.length, 0 < sigmasqF dbl v'.std t' k ∧ sigmasqF dbl v'.std t' k ≤ sigmasqF dbl v.std t k) : x ≤ x' := by
  have mono := C111_double_mono
  unfold Vec.errorF at h h'
  split_ifs at h h'
  cases h
  cases h'
  rw [← hl]
  apply related_npSum (R := (· ≤ ·)) le_rfl (fun a b c d h1 h2 => mono (add_le_add h1 h2))
  rw [List.forall₂_map_left_iff, List.forall₂_map_right_iff, List.forall₂_same]
  intro k hk
  have hk' := List.mem_range.1 hk
  obtain ⟨s0, s1⟩ := hs k hk'
  have d := hd k hk'
  unfold chiTermF
  rw [if_neg s0.ne', if_neg (by linarith)]
  have dabs : ∀ q : ℚ, |dbl q| = dbl |q| := by
    intro q
    rcases le_total 0 q with h | h
    · have : 0 ≤ dbl q := by rw [← dbl_zero]; exact mono h
      rw [abs_of_nonneg h, abs_of_nonneg this]
    · have : dbl q ≤ 0 := by rw [← dbl_zero]; exact mono h
      rw [abs_of_nonpos h, abs_of_nonpos this, dbl_odd]
  apply mono
  have n1 : dbl (dbl (v.values.getD k 0 - w.values.getD k 0) * dbl (v.values.getD k 0 - w.values.getD k 0)) ≤
      dbl (dbl (v'.values.getD k 0 - w'.values.getD k 0) * dbl (v'.values.getD k 0 - w'.values.getD k 0)) := by
    apply mono
    rw [← abs_mul_abs_self, ← abs_mul_abs_self (dbl (v'.values.getD k 0 - w'.values.getD k 0)), dabs, dabs]
    have : 0 ≤ dbl |v.values.getD k 0 - w.values.getD k 0| := by rw [← dbl_zero]; exact mono (abs_nonneg _)
    exact mul_self_le_mul_self this (mono d)
  have n0 : 0 ≤ dbl (dbl (v'.values.getD k 0 - w'.values.getD k 0) * dbl (v'.values.getD k 0 - w'.values.getD k 0)) := by
    rw [← dbl_zero]
    exact mono (by rw [dbl_zero]; exact mul_self_nonneg _)
  exact div_le_div₀ n0 n1 s0 s1

/-- **C153.** Smaller deviations with the same uncertainties never give a larger number, rounding included. -/
theorem C153_monotone (close : ℚ → ℚ → Bool) (v w v' w' : Vec ℚ) (t : Option (List ℚ)) (x x' : ℚ)
    (h : v.errorF dbl (npSum dbl) close w t = .ok x) (h' : v'.errorF dbl (npSum dbl) close w' t = .ok x')
    (hl : v.values.length = v'.values.length) (hs : v.std = v'.std) (h0 : ∀ k < v.values.length, sigmaSq v.std t k ≠ 0)
    (hd : ∀ k < v.values.length, |v.values.getD k 0 - w.values.getD k 0| ≤ |v'.values.getD k 0 - w'.values.getD k 0|) : x ≤ x' := by
  refine errorF_le close v w v' w' t t x x' h h' hl hd fun k hk => ?_
  rw [← hs]
  refine ⟨?_, le_rfl⟩
  exact ((sigmasqF_within dbl_rounding (by norm_num) (by norm_num) v.std t k).pos_iff (by norm_num)).1
    (lt_of_le_of_ne (sigmaSq_nonneg _ _ _) (Ne.symm (h0 k hk)))

/-- **C153.** Larger uncertainties never give a larger number, rounding included. -/
theorem C153_uncertainty (close : ℚ → ℚ → Bool) (E vals s s' : List ℚ) (un : String) (w : Vec ℚ) (x x' : ℚ)
    (h : (⟨E, vals, some s, un⟩ : Vec ℚ).errorF dbl (npSum dbl) close w none = .ok x)
    (h' : (⟨E, vals, some s', un⟩ : Vec ℚ).errorF dbl (npSum dbl) close w none = .ok x')
    (hs : ∀ k < vals.length, 0 < s'.getD k 0 ∧ s'.getD k 0 ≤ s.getD k 0) : x ≤ x' := by
  refine errorF_le close _ w _ w none none x x' h h' rfl (fun k _ => le_rfl) fun k hk => ?_
  obtain ⟨a, b⟩ := hs k hk
  constructor
  · exact ((sigmasqF_within dbl_rounding (by norm_num) (by norm_num) (some s') none k).pos_iff (by norm_num)).1 (by
      unfold sigmaSq
      simp
      positivity)
  · simp only [sigmasqF]
    exact C111_double_mono (mul_self_le_mul_self a.le b)

example : chiB.errorF dbl (npSum dbl) (fun _ _ => true) chiA none = .ok (81 / 16) ∧
    chiB.errorF dbl (npSum dbl) (fun _ _ => true) ⟨[1, 2, 3], [0, 4, 9], none, "keV"⟩ none = .ok (1 / 16) ∧
    chiB.errorF dbl (npSum dbl) (fun _ _ => true) ⟨[1, 2, 3], [0, 4, 9], none, "keV"⟩ (some [2, 2, 2]) = .ok (1 / 64) := by decide +kernel

/-- A rational vector as a real one. -/
noncomputable def Vec.real (v : Vec ℚ) : Vec ℝ := ⟨v.E, toReal v.values, v.std.map toReal, v.units⟩
where
  /-- Cast of a list. -/
  toReal (l : List ℚ) : List ℝ := l.map fun q : ℚ => (q : ℝ)

theorem chiTermF_cast (x y q : ℚ) : ((chiTermF id x y q : ℚ) : ℝ) = div0R (((x : ℝ) - y) ^ 2) (q : ℝ) := by
  unfold chiTermF div0R
  by_cases h : q = 0
  · rw [if_pos h, if_pos (by exact_mod_cast h)]; simp
  · rw [if_neg h, if_neg (by exact_mod_cast h)]
    simp only [id]
    push_cast
    rw [sq]

theorem list_eq_range {l : List ℝ} {n : ℕ} (hn : l.length = n) {f : ℕ → ℚ} (h : ∀ k (hk : k < l.length), l[k] = (f k : ℝ)) :
    l.sum = (((List.range n).map f).sum : ℚ) := by
  have : l = ((List.range n).map f).map fun q : ℚ => (q : ℝ) := by
    apply List.ext_getElem
    · simp [hn]
    · intro k h1 h2
      rw [h k h1]
      simp
  rw [this]
  exact (map_list_sum (Rat.castHom ℝ) ((List.range n).map f)).symm

/-- **C153.** Without rounding it is the model of C64. -/
theorem C153_exact (close : ℚ → ℚ → Bool) (v w : Vec ℚ) (t : Option (List ℚ)) (hs : ∀ s, v.std = some s → s.length = v.values.length)
    (ht : ∀ s, t = some s → s.length = v.values.length) :
    v.real.error close w.real (t.map Vec.real.toReal) = (v.errorF id List.sum close w t).map fun q : ℚ => (q : ℝ) := by
  have hsame : sameBins close v.real w.real = (v.values.length == w.values.length && v.E.length == w.E.length && (List.zipWith close v.E w.E).all id) := by
    simp [sameBins, Vec.real, Vec.real.toReal]
  unfold Vec.error Vec.errorF
  rw [hsame]
  by_cases hb : (v.values.length == w.values.length && v.E.length == w.E.length && (List.zipWith close v.E w.E).all id) = true
  · have hl := ((bins_iff close v w).1 hb).1
    rw [if_pos hb, if_pos hb]
    simp only [Vec.real, Except.map]
    rcases hv : v.std with _ | s <;> rcases t with _ | t
    · simp only [Option.map_none]
      congr 1
      apply list_eq_range (by simp [Vec.real.toReal, hl])
      intro k hk
      have hk1 : k < v.values.length := by simp [Vec.real.toReal] at hk; omega
      simp only [Vec.real.toReal, List.getElem_map, List.getElem_zipWith, chiTermF_cast, sigmasqF]
      rw [List.getD_eq_getElem _ _ hk1, List.getD_eq_getElem _ _ (hl ▸ hk1)]
      simp
    · have h2 := ht t rfl
      simp only [Option.map_none, Option.map_some]
      congr 1
      apply list_eq_range (by simp [Vec.real.toReal, hl, h2])
      intro k hk
      have hk1 : k < v.values.length := by simp [Vec.real.toReal] at hk; omega
      simp only [Vec.real.toReal, List.getElem_map, List.getElem_zipWith, chiTermF_cast, sigmasqF, id]
      rw [List.getD_eq_getElem _ _ hk1, List.getD_eq_getElem _ _ (hl ▸ hk1), List.getD_eq_getElem _ _ (h2 ▸ hk1)]
      push_cast
      congr 1
      ring
    · have h2 := hs s hv
      simp only [Option.map_none, Option.map_some]
      congr 1
      apply list_eq_range (by simp [Vec.real.toReal, hl, h2])
      intro k hk
      have hk1 : k < v.values.length := by simp [Vec.real.toReal] at hk; omega
      simp only [Vec.real.toReal, List.getElem_map, List.getElem_zipWith, chiTermF_cast, sigmasqF, id]
      rw [List.getD_eq_getElem _ _ hk1, List.getD_eq_getElem _ _ (hl ▸ hk1), List.getD_eq_getElem _ _ (h2 ▸ hk1)]
      push_cast
      congr 1
      ring
    · have h2 := hs s hv
      have h3 := ht t rfl
      simp only [Option.map_some]
      congr 1
      apply list_eq_range (by simp [Vec.real.toReal, hl, h2, h3])
      intro k hk
      have hk1 : k < v.values.length := by simp [Vec.real.toReal] at hk; omega
      simp only [Vec.real.toReal, List.getElem_map, List.getElem_zipWith, chiTermF_cast, sigmasqF, id]
      rw [List.getD_eq_getElem _ _ hk1, List.getD_eq_getElem _ _ (hl ▸ hk1), List.getD_eq_getElem _ _ (h2 ▸ hk1),
        List.getD_eq_getElem _ _ (h3 ▸ hk1)]
      push_cast
      congr 1
      ring
  · rw [if_neg hb, if_neg hb]
    rfl

example : (∀ s, chiA.std = some s → s.length = chiA.values.length) ∧
    chiA.errorF id List.sum (fun _ _ => true) chiB none = .ok (10 / 9) := by
  refine ⟨?_, by decide +kernel⟩
  rintro s h
  cases h
  rfl

end Ompy
