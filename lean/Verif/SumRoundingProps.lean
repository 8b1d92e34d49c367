import Verif.SumRounding
import Verif.RoundingProps
import Mathlib.Data.List.Perm.Basic
import Mathlib.Data.Nat.Log

/-!
# Properties of sums and normalised rows in floating point (C117)
-/

namespace Ompy

/-- `x` and `y` differ by at most `k` factors between `1 - u` and `1 / (1 - u)`. -/
def Within (u : ℚ) (k : ℕ) (x y : ℚ) : Prop := (1 - u) ^ k * x ≤ y ∧ (1 - u) ^ k * y ≤ x

namespace Within

variable {u : ℚ} (hu : 0 ≤ u) (hu1 : u < 1)

include hu hu1 in
theorem pow_le {k l : ℕ} (h : k ≤ l) : (1 - u) ^ l ≤ (1 - u) ^ k :=
  pow_le_pow_of_le_one (by linarith) (by linarith) h

include hu1 in
theorem nonneg {k : ℕ} {x y : ℚ} (h : Within u k x y) (hx : 0 ≤ x) : 0 ≤ y :=
  le_trans (mul_nonneg (pow_nonneg (by linarith) k) hx) h.1

theorem symm {k : ℕ} {x y : ℚ} (h : Within u k x y) : Within u k y x := ⟨h.2, h.1⟩

include hu hu1 in
theorem mono {k l : ℕ} {x y : ℚ} (h : Within u k x y) (hx : 0 ≤ x) (hkl : k ≤ l) : Within u l x y :=
  ⟨le_trans (mul_le_mul_of_nonneg_right (pow_le hu hu1 hkl) hx) h.1,
    le_trans (mul_le_mul_of_nonneg_right (pow_le hu hu1 hkl) (h.nonneg hu1 hx)) h.2⟩

include hu1 in
theorem trans {k l : ℕ} {x y z : ℚ} (h : Within u k x y) (h' : Within u l y z) : Within u (k + l) x z := by
  have p : ∀ n : ℕ, (0 : ℚ) ≤ (1 - u) ^ n := fun n => pow_nonneg (by linarith) n
  constructor
  · calc (1 - u) ^ (k + l) * x = (1 - u) ^ l * ((1 - u) ^ k * x) := by ring
      _ ≤ (1 - u) ^ l * y := mul_le_mul_of_nonneg_left h.1 (p l)
      _ ≤ z := h'.1
  · calc (1 - u) ^ (k + l) * z = (1 - u) ^ k * ((1 - u) ^ l * z) := by ring
      _ ≤ (1 - u) ^ k * y := mul_le_mul_of_nonneg_left h'.2 (p k)
      _ ≤ x := h.2

theorem add {k : ℕ} {x y x' y' : ℚ} (h : Within u k x y) (h' : Within u k x' y') : Within u k (x + x') (y + y') :=
  ⟨by rw [mul_add]; exact add_le_add h.1 h'.1, by rw [mul_add]; exact add_le_add h.2 h'.2⟩

include hu1 in
theorem mul {k l : ℕ} {x y x' y' : ℚ} (h : Within u k x y) (h' : Within u l x' y') (hx : 0 ≤ x) (hx' : 0 ≤ x') :
    Within u (k + l) (x * x') (y * y') := by
  have p : ∀ n : ℕ, (0 : ℚ) ≤ (1 - u) ^ n := fun n => pow_nonneg (by linarith) n
  have hy := h.nonneg hu1 hx
  have hy' := h'.nonneg hu1 hx'
  constructor
  · calc (1 - u) ^ (k + l) * (x * x') = ((1 - u) ^ k * x) * ((1 - u) ^ l * x') := by ring
      _ ≤ y * y' := mul_le_mul h.1 h'.1 (mul_nonneg (p l) hx') hy
  · calc (1 - u) ^ (k + l) * (y * y') = ((1 - u) ^ k * y) * ((1 - u) ^ l * y') := by ring
      _ ≤ x * x' := mul_le_mul h.2 h'.2 (mul_nonneg (p l) hy') hx

include hu1 in
theorem pos_iff {k : ℕ} {x y : ℚ} (h : Within u k x y) : 0 < x ↔ 0 < y := by
  have p : (0 : ℚ) < (1 - u) ^ k := pow_pos (by linarith) k
  exact ⟨fun h0 => lt_of_lt_of_le (mul_pos p h0) h.1, fun h0 => lt_of_lt_of_le (mul_pos p h0) h.2⟩

include hu1 in
theorem inv {k : ℕ} {x y : ℚ} (h : Within u k x y) (hx : 0 < x) : Within u k x⁻¹ y⁻¹ := by
  have hy : 0 < y := (h.pos_iff hu1).1 hx
  constructor
  · rw [← div_eq_mul_inv, div_le_iff₀ hx, mul_comm, ← div_eq_mul_inv, le_div_iff₀ hy]
    exact h.2
  · rw [← div_eq_mul_inv, div_le_iff₀ hy, mul_comm, ← div_eq_mul_inv, le_div_iff₀ hx]
    exact h.1

include hu1 in
theorem div {k l : ℕ} {x y x' y' : ℚ} (h : Within u k x y) (h' : Within u l x' y') (hx : 0 ≤ x) (hx' : 0 < x') :
    Within u (k + l) (x / x') (y / y') := by
  rw [div_eq_mul_inv, div_eq_mul_inv]
  exact mul hu1 h (inv hu1 h' hx') hx (inv_nonneg.2 hx'.le)

include hu hu1 in
theorem rounded {fl : ℚ → ℚ} (hfl : Rounding fl u) {x : ℚ} (hx : 0 ≤ x) : Within u 1 x (fl x) := by
  have h := abs_le.1 (hfl.rel x)
  rw [abs_of_nonneg hx] at h
  refine ⟨by linarith, ?_⟩
  have h1 : fl x ≤ (1 + u) * x := by linarith
  calc (1 - u) ^ 1 * fl x = (1 - u) * fl x := by ring
    _ ≤ (1 - u) * ((1 + u) * x) := mul_le_mul_of_nonneg_left h1 (by linarith)
    _ = x - u * u * x := by ring
    _ ≤ x := by linarith [mul_nonneg (mul_nonneg hu hu) hx]

theorem refl' (x : ℚ) : Within u 0 x x := by simp [Within]

include hu hu1 in
/-- In plain terms: the relative difference is at most `k u`. -/
theorem abs_sub_le {k : ℕ} {x y : ℚ} (h : Within u k x y) (hx : 0 ≤ x) : |y - x| ≤ k * u * max x y := by
  have b := one_add_mul_le_pow (show (-2 : ℚ) ≤ -u by linarith) k
  rw [← sub_eq_add_neg] at b
  have hy := h.nonneg hu1 hx
  have ku : (0 : ℚ) ≤ k * u := mul_nonneg (Nat.cast_nonneg k) hu
  have e1 : (k : ℚ) * u * x ≤ k * u * max x y := mul_le_mul_of_nonneg_left (le_max_left x y) ku
  have e2 : (k : ℚ) * u * y ≤ k * u * max x y := mul_le_mul_of_nonneg_left (le_max_right x y) ku
  have f1 := le_trans (mul_le_mul_of_nonneg_right b hx) h.1
  have f2 := le_trans (mul_le_mul_of_nonneg_right b hy) h.2
  rw [abs_le]
  constructor <;> linarith

end Within

theorem Rounding.zero {fl : ℚ → ℚ} {u : ℚ} (hfl : Rounding fl u) : fl 0 = 0 := by
  have := hfl.rel 0
  simpa using this

theorem Rounding.eq_zero {fl : ℚ → ℚ} {u : ℚ} (hfl : Rounding fl u) (hu1 : u < 1) {q : ℚ} : fl q = 0 ↔ q = 0 := by
  refine ⟨fun h => ?_, fun h => h ▸ hfl.zero⟩
  have h1 := hfl.rel q
  rw [h, zero_sub, abs_neg] at h1
  by_contra h0
  have : 0 < |q| := abs_pos.2 h0
  nlinarith

theorem sum_zero_iff {l : List ℚ} (h : ∀ q ∈ l, 0 ≤ q) : l.sum = 0 ↔ ∀ q ∈ l, q = 0 := by
  induction l with
  | nil => simp
  | cons a as ih =>
    have h1 := h a List.mem_cons_self
    have h2 : ∀ q ∈ as, 0 ≤ q := fun q hq => h q (List.mem_cons_of_mem _ hq)
    have h3 := List.sum_nonneg h2
    rw [List.sum_cons, List.forall_mem_cons, ← ih h2]
    exact ⟨fun h => ⟨by linarith, by linarith⟩, fun h => by linarith [h.1, h.2]⟩

/-- **C117.** In whatever order non-negative numbers are added, the rounded sum differs from the exact sum by at most
one factor per level of the order, so its relative error is at most `depth · u`, and it is 0 only when all are 0. -/
theorem C117_sum (fl : ℚ → ℚ) (u : ℚ) (hfl : Rounding fl u) (hu : 0 ≤ u) (hu1 : u < 1) (o : SumOrder)
    (h0 : ∀ q ∈ o.leaves, 0 ≤ q) :
    Within u o.depth o.leaves.sum (o.val fl) ∧
    |o.val fl - o.leaves.sum| ≤ o.depth * u * max o.leaves.sum (o.val fl) ∧
    (o.val fl = 0 ↔ ∀ q ∈ o.leaves, q = 0) := by
  have main : Within u o.depth o.leaves.sum (o.val fl) := by
    induction o with
    | leaf q => simp [SumOrder.leaves, SumOrder.depth, SumOrder.val, Within]
    | add l r hl hr =>
      simp only [SumOrder.leaves, SumOrder.depth, SumOrder.val, List.mem_append, List.sum_append] at h0 ⊢
      have a0 : ∀ q ∈ l.leaves, 0 ≤ q := fun q hq => h0 q (.inl hq)
      have b0 : ∀ q ∈ r.leaves, 0 ≤ q := fun q hq => h0 q (.inr hq)
      have sa := List.sum_nonneg a0
      have sb := List.sum_nonneg b0
      have h1 := (hl a0).mono hu hu1 sa (le_max_left l.depth r.depth)
      have h2 := (hr b0).mono hu hu1 sb (le_max_right l.depth r.depth)
      have h3 := h1.add h2
      exact h3.trans hu1 (Within.rounded hu hu1 hfl (h3.nonneg hu1 (by linarith)))
  have s0 := List.sum_nonneg h0
  refine ⟨main, main.abs_sub_le hu hu1 s0, ?_⟩
  have v0 := main.nonneg hu1 s0
  rw [← sum_zero_iff h0]
  have := main.pos_iff hu1
  constructor
  · intro h
    rcases s0.lt_or_eq with h' | h'
    · exact absurd (this.1 h') (by rw [h]; exact lt_irrefl 0)
    · exact h'.symm
  · intro h
    rcases v0.lt_or_eq with h' | h'
    · exact absurd (this.2 h') (by rw [h]; exact lt_irrefl 0)
    · exact h'.symm


example : (SumOrder.add (.add (.leaf (dbl (1 / 10))) (.leaf (dbl (2 / 10)))) (.leaf (dbl (3 / 10)))).val dbl ≠
    (SumOrder.add (.leaf (dbl (1 / 10))) (.add (.leaf (dbl (2 / 10))) (.leaf (dbl (3 / 10))))).val dbl := by decide +kernel

/-- **C117.** With entries of both signs the error is small against the sum of the absolute values only. -/
theorem C117_sum_signed (fl : ℚ → ℚ) (u : ℚ) (hfl : Rounding fl u) (hu : 0 ≤ u) (o : SumOrder) :
    |o.val fl - o.leaves.sum| ≤ ((1 + u) ^ o.depth - 1) * (o.leaves.map abs).sum := by
  have one : ∀ k : ℕ, (1 : ℚ) ≤ (1 + u) ^ k := fun k => one_le_pow₀ (by linarith)
  have abs_sum : ∀ l : List ℚ, |l.sum| ≤ (l.map abs).sum ∧ 0 ≤ (l.map abs).sum := by
    intro l
    induction l with
    | nil => simp
    | cons a as ih =>
      simp only [List.sum_cons, List.map_cons]
      exact ⟨le_trans (abs_add_le a as.sum) (by linarith [ih.1]), by linarith [ih.2, abs_nonneg a]⟩
  induction o with
  | leaf q => simp [SumOrder.leaves, SumOrder.depth, SumOrder.val]
  | add l r hl hr =>
    simp only [SumOrder.leaves, SumOrder.depth, SumOrder.val, List.sum_append, List.map_append]
    set A := (l.leaves.map abs).sum with hA
    set B := (r.leaves.map abs).sum with hB
    have A0 : 0 ≤ A := (abs_sum _).2
    have B0 : 0 ≤ B := (abs_sum _).2
    set d := max l.depth r.depth with hd
    have p1 : (1 + u) ^ l.depth ≤ (1 + u) ^ d := pow_le_pow_right₀ (by linarith) (le_max_left _ _)
    have p2 : (1 + u) ^ r.depth ≤ (1 + u) ^ d := pow_le_pow_right₀ (by linarith) (le_max_right _ _)
    have h1 : |l.val fl - l.leaves.sum| ≤ ((1 + u) ^ d - 1) * A :=
      le_trans hl (mul_le_mul_of_nonneg_right (by linarith) A0)
    have h2 : |r.val fl - r.leaves.sum| ≤ ((1 + u) ^ d - 1) * B :=
      le_trans hr (mul_le_mul_of_nonneg_right (by linarith) B0)
    have hs := (abs_sum l.leaves).1
    have ht := (abs_sum r.leaves).1
    rw [← hA] at hs
    rw [← hB] at ht
    have hf := hfl.rel (l.val fl + r.val fl)
    have hv : |l.val fl + r.val fl - (l.leaves.sum + r.leaves.sum)| ≤ ((1 + u) ^ d - 1) * (A + B) := by
      rw [abs_le] at h1 h2 ⊢
      constructor <;> linarith
    have hv2 : |l.val fl + r.val fl| ≤ (1 + u) ^ d * (A + B) := by
      rw [abs_le] at hv hs ht ⊢
      constructor <;> linarith
    have hu2 := mul_le_mul_of_nonneg_left hv2 hu
    rw [abs_le] at hf hv ⊢
    rw [pow_succ]
    constructor <;> linarith

/-- What is asked of a way to sum arrays: it adds the elements in some order, with at most `D n` additions for
each of `n` elements; zeros may be added. -/
def Summation (fl : ℚ → ℚ) (D : ℕ → ℕ) (sum : List ℚ → ℚ) : Prop :=
  ∀ l, ∃ o : SumOrder, (∃ k, o.leaves.Perm (List.replicate k 0 ++ l)) ∧ o.depth ≤ D l.length ∧ sum l = o.val fl

theorem loopOrder_spec (l : List ℚ) : ∀ s : SumOrder,
    (loopOrder s l).leaves = s.leaves ++ l ∧ (loopOrder s l).depth = s.depth + l.length := by
  induction l with
  | nil => intro s; simp [loopOrder]
  | cons a as ih =>
    intro s
    obtain ⟨h1, h2⟩ := ih (.add s (.leaf a))
    have e : loopOrder s (a :: as) = loopOrder (.add s (.leaf a)) as := rfl
    rw [e]
    refine ⟨by rw [h1]; simp [SumOrder.leaves], by rw [h2]; simp [SumOrder.depth]; omega⟩

/-- **C117.** A plain loop adds the elements in order, with one addition for each. -/
theorem C117_loop (fl : ℚ → ℚ) : Summation fl id (loopSum fl) := by
  intro l
  obtain ⟨h1, h2⟩ := loopOrder_spec l (.leaf 0)
  exact ⟨_, ⟨1, by rw [h1]; simp [SumOrder.leaves]⟩, by rw [h2]; simp [SumOrder.depth], rfl⟩

theorem eightOrder_short (r0 r1 r2 r3 r4 r5 r6 r7 : SumOrder) (l : List ℚ) (h : l.length < 8) :
    eightOrder r0 r1 r2 r3 r4 r5 r6 r7 l =
      loopOrder (.add (.add (.add r0 r1) (.add r2 r3)) (.add (.add r4 r5) (.add r6 r7))) l := by
  unfold eightOrder
  split
  · simp only [List.length_cons] at h
    omega
  · rfl

theorem eight_cases (l : List ℚ) (h : 8 ≤ l.length) :
    ∃ a0 a1 a2 a3 a4 a5 a6 a7 rest, l = a0 :: a1 :: a2 :: a3 :: a4 :: a5 :: a6 :: a7 :: rest := by
  match l, h with
  | a0 :: a1 :: a2 :: a3 :: a4 :: a5 :: a6 :: a7 :: rest, _ => exact ⟨a0, a1, a2, a3, a4, a5, a6, a7, rest, rfl⟩

theorem eightOrder_spec : ∀ (n : ℕ) (l : List ℚ), l.length ≤ n → ∀ (r0 r1 r2 r3 r4 r5 r6 r7 : SumOrder) (d : ℕ),
    r0.depth ≤ d → r1.depth ≤ d → r2.depth ≤ d → r3.depth ≤ d → r4.depth ≤ d → r5.depth ≤ d → r6.depth ≤ d →
    r7.depth ≤ d →
    (eightOrder r0 r1 r2 r3 r4 r5 r6 r7 l).leaves.Perm
      (r0.leaves ++ r1.leaves ++ r2.leaves ++ r3.leaves ++ r4.leaves ++ r5.leaves ++ r6.leaves ++ r7.leaves ++ l) ∧
    (eightOrder r0 r1 r2 r3 r4 r5 r6 r7 l).depth ≤ d + l.length / 8 + 10 := by
  intro n
  induction n with
  | zero =>
    intro l hl r0 r1 r2 r3 r4 r5 r6 r7 d h0 h1 h2 h3 h4 h5 h6 h7
    rw [eightOrder_short _ _ _ _ _ _ _ _ _ (by omega)]
    obtain ⟨e1, e2⟩ := loopOrder_spec l (.add (.add (.add r0 r1) (.add r2 r3)) (.add (.add r4 r5) (.add r6 r7)))
    refine ⟨by rw [e1]; simp only [SumOrder.leaves, List.append_assoc]; exact List.Perm.refl _, ?_⟩
    rw [e2]
    simp only [SumOrder.depth]
    omega
  | succ n ih =>
    intro l hl r0 r1 r2 r3 r4 r5 r6 r7 d h0 h1 h2 h3 h4 h5 h6 h7
    by_cases h8 : l.length < 8
    · rw [eightOrder_short _ _ _ _ _ _ _ _ _ h8]
      obtain ⟨e1, e2⟩ := loopOrder_spec l (.add (.add (.add r0 r1) (.add r2 r3)) (.add (.add r4 r5) (.add r6 r7)))
      refine ⟨by rw [e1]; simp only [SumOrder.leaves, List.append_assoc]; exact List.Perm.refl _, ?_⟩
      rw [e2]
      simp only [SumOrder.depth]
      omega
    · obtain ⟨a0, a1, a2, a3, a4, a5, a6, a7, rest, rfl⟩ := eight_cases l (by omega)
      simp only [List.length_cons] at hl
      obtain ⟨e1, e2⟩ := ih rest (by omega) (.add r0 (.leaf a0)) (.add r1 (.leaf a1)) (.add r2 (.leaf a2))
        (.add r3 (.leaf a3)) (.add r4 (.leaf a4)) (.add r5 (.leaf a5)) (.add r6 (.leaf a6)) (.add r7 (.leaf a7)) (d + 1)
        (by simp only [SumOrder.depth]; omega) (by simp only [SumOrder.depth]; omega)
        (by simp only [SumOrder.depth]; omega) (by simp only [SumOrder.depth]; omega)
        (by simp only [SumOrder.depth]; omega) (by simp only [SumOrder.depth]; omega)
        (by simp only [SumOrder.depth]; omega) (by simp only [SumOrder.depth]; omega)
      rw [eightOrder]
      constructor
      · refine e1.trans ?_
        simp only [SumOrder.leaves]
        rw [List.perm_iff_count]
        intro a
        simp only [List.count_append, List.count_cons, List.count_nil]
        omega
      · simp only [List.length_cons]
        omega

theorem blockOrder_spec (l : List ℚ) (h : l.length ≤ 128) :
    (∃ k, (blockOrder l).leaves.Perm (List.replicate k 0 ++ l)) ∧ (blockOrder l).depth ≤ 25 := by
  by_cases h8 : l.length < 8
  · have e : blockOrder l = loopOrder (.leaf 0) l := by
      unfold blockOrder
      split
      · simp only [List.length_cons] at h8
        omega
      · rfl
    obtain ⟨e1, e2⟩ := loopOrder_spec l (.leaf 0)
    rw [e, e2]
    exact ⟨⟨1, by rw [e1]; simp [SumOrder.leaves]⟩, by simp only [SumOrder.depth]; omega⟩
  · obtain ⟨a0, a1, a2, a3, a4, a5, a6, a7, rest, rfl⟩ := eight_cases l (by omega)
    simp only [List.length_cons] at h
    obtain ⟨e1, e2⟩ := eightOrder_spec _ rest le_rfl (.leaf a0) (.leaf a1) (.leaf a2) (.leaf a3) (.leaf a4) (.leaf a5)
      (.leaf a6) (.leaf a7) 0 le_rfl le_rfl le_rfl le_rfl le_rfl le_rfl le_rfl le_rfl
    refine ⟨⟨0, e1.trans (by simp [SumOrder.leaves])⟩, le_trans e2 (by omega)⟩

theorem pairOrder_spec : ∀ (fuel : ℕ) (l : List ℚ) (k : ℕ), l.length ≤ fuel → l.length ≤ 16 + 112 * 2 ^ k →
    (∃ z, (pairOrder fuel l).leaves.Perm (List.replicate z 0 ++ l)) ∧ (pairOrder fuel l).depth ≤ 25 + k := by
  intro fuel
  induction fuel with
  | zero =>
    intro l k hl _
    have : l = [] := List.length_eq_zero_iff.1 (by omega)
    subst this
    exact ⟨⟨1, by simp [pairOrder, loopOrder, SumOrder.leaves]⟩, by simp [pairOrder, loopOrder, SumOrder.depth]⟩
  | succ fuel ih =>
    intro l k hl hk
    rw [pairOrder]
    by_cases h : l.length ≤ 128
    · rw [if_pos h]
      obtain ⟨h1, h2⟩ := blockOrder_spec l h
      exact ⟨h1, by omega⟩
    · rw [if_neg h]
      dsimp only
      set c := l.length / 2 - l.length / 2 % 8 with hc
      obtain ⟨m, rfl⟩ : ∃ m, k = m + 1 := by
        rcases k with _ | m
        · simp at hk
          omega
        · exact ⟨m, rfl⟩
      rw [pow_succ] at hk
      obtain ⟨⟨z1, p1⟩, d1⟩ := ih (l.take c) m (by rw [List.length_take]; omega) (by rw [List.length_take]; omega)
      obtain ⟨⟨z2, p2⟩, d2⟩ := ih (l.drop c) m (by rw [List.length_drop]; omega) (by rw [List.length_drop]; omega)
      refine ⟨⟨z1 + z2, ?_⟩, by simp only [SumOrder.depth]; omega⟩
      simp only [SumOrder.leaves]
      refine (p1.append p2).trans ?_
      conv_rhs => rw [← List.take_append_drop c l]
      rw [List.perm_iff_count]
      intro a
      simp only [List.count_append, List.count_replicate]
      split_ifs <;> omega

/-- **C117.** numpy's pairwise sum is such a summation: at most `26 + log₂ n` additions for each of `n` elements. -/
theorem C117_numpy (fl : ℚ → ℚ) : Summation fl (fun n => 26 + Nat.log 2 n) (npSum fl) := by
  intro l
  have hk : l.length ≤ 16 + 112 * 2 ^ Nat.log 2 l.length := by
    have := Nat.lt_pow_succ_log_self (b := 2) (by norm_num) l.length
    rw [pow_succ] at this
    omega
  obtain ⟨⟨z, p⟩, d⟩ := pairOrder_spec l.length l _ le_rfl hk
  refine ⟨_, ⟨z + 1, ?_⟩, ?_, rfl⟩
  · simp only [SumOrder.leaves, List.replicate_succ, List.cons_append]
    exact p.cons 0
  · simp only [SumOrder.depth]
    omega

example : npSum dbl (List.replicate 10 (dbl (1 / 10))) ≠ loopSum dbl (List.replicate 10 (dbl (1 / 10))) := by
  decide +kernel

theorem Summation.spec {fl : ℚ → ℚ} {u : ℚ} (hfl : Rounding fl u) (hu : 0 ≤ u) (hu1 : u < 1) {D : ℕ → ℕ}
    {sum : List ℚ → ℚ} (hs : Summation fl D sum) {r : List ℚ} (h0 : ∀ x ∈ r, 0 ≤ x) :
    Within u (D r.length) r.sum (sum r) ∧ (sum r = 0 ↔ r.sum = 0) := by
  obtain ⟨o, ⟨k, p⟩, hd, hv⟩ := hs r
  have l0 : ∀ q ∈ o.leaves, 0 ≤ q := by
    intro q hq
    rcases List.mem_append.1 (p.mem_iff.1 hq) with h | h
    · rw [List.eq_of_mem_replicate h]
    · exact h0 q h
  have hsum : o.leaves.sum = r.sum := by
    rw [p.sum_eq, List.sum_append, List.sum_replicate, nsmul_zero, zero_add]
  have r0 := List.sum_nonneg h0
  obtain ⟨h1, _, h3⟩ := C117_sum fl u hfl hu hu1 o l0
  rw [← sum_zero_iff l0, hsum] at h3
  rw [hsum] at h1
  rw [hv]
  exact ⟨h1.mono hu hu1 r0 hd, h3⟩

theorem within_sum {u : ℚ} {k : ℕ} {f g : ℚ → ℚ} : ∀ {l : List ℚ}, (∀ x ∈ l, Within u k (f x) (g x)) →
    Within u k (l.map f).sum (l.map g).sum := by
  intro l
  induction l with
  | nil => intro _; simp [Within]
  | cons a as ih =>
    intro h
    simp only [List.map_cons, List.sum_cons]
    exact (h a List.mem_cons_self).add (ih fun x hx => h x (List.mem_cons_of_mem _ hx))

/-- **C117.** `normalize` with rounding, for rows without negative entries and any order of summation: it fails
(`none`) for the same rows as with exact numbers, those that hold only zeros; otherwise every entry is the exact one
up to `D n + 1` roundings, none is negative, larger entries stay larger or equal, and the entries add up to 1 up to
`D n + 1` roundings. -/
theorem C117_rows (fl : ℚ → ℚ) (u : ℚ) (hfl : Rounding fl u) (hu : 0 ≤ u) (hu1 : u < 1) (D : ℕ → ℕ)
    (sum : List ℚ → ℚ) (hs : Summation fl D sum) (r : List ℚ) (h0 : ∀ x ∈ r, 0 ≤ x) :
    (normRowF fl sum r = none ↔ ∀ x ∈ r, x = 0) ∧
    ∀ a, normRowF fl sum r = some a → a.length = r.length ∧
      (∀ j < r.length, 0 ≤ a.getD j 0 ∧ Within u (D r.length + 1) (r.getD j 0 / r.sum) (a.getD j 0)) ∧
      (∀ i < r.length, ∀ j < r.length, r.getD i 0 ≤ r.getD j 0 → a.getD i 0 ≤ a.getD j 0) ∧
      Within u (D r.length + 1) 1 a.sum := by
  obtain ⟨h1, h2⟩ := hs.spec hfl hu hu1 h0
  have r0 := List.sum_nonneg h0
  unfold normRowF
  by_cases hz : sum r = 0
  · rw [if_pos hz]
    refine ⟨⟨fun _ => (sum_zero_iff h0).1 (h2.1 hz), fun _ => rfl⟩, fun a ha => by cases ha⟩
  rw [if_neg hz]
  have rp : 0 < r.sum := lt_of_le_of_ne r0 fun h => hz (h2.2 h.symm)
  have sp : 0 < sum r := (h1.pos_iff hu1).1 rp
  refine ⟨⟨fun h => (by cases h), fun h => absurd (h2.2 ((sum_zero_iff h0).2 h)) hz⟩, fun a ha => ?_⟩
  obtain rfl : (r.map fun x => fl (x / sum r)) = a := by simpa using ha
  have entry : ∀ x, 0 ≤ x → Within u (D r.length + 1) (x / r.sum) (fl (x / sum r)) := by
    intro x hx
    have q := Within.div hu1 (Within.refl' x) h1 hx rp
    rw [zero_add] at q
    exact q.trans hu1 (Within.rounded hu hu1 hfl (div_nonneg hx sp.le))
  have get : ∀ j < r.length, (r.map fun x => fl (x / sum r)).getD j 0 = fl (r.getD j 0 / sum r) := by
    intro j hj
    rw [List.getD_eq_getElem _ _ (by simpa using hj), List.getElem_map, List.getD_eq_getElem _ _ hj]
  have r0' : ∀ j < r.length, 0 ≤ r.getD j 0 := by
    intro j hj
    rw [List.getD_eq_getElem _ _ hj]
    exact h0 _ (List.getElem_mem hj)
  refine ⟨by simp, fun j hj => ?_, fun i hi j hj hij => ?_, ?_⟩
  · rw [get j hj]
    have e := entry _ (r0' j hj)
    exact ⟨e.nonneg hu1 (div_nonneg (r0' j hj) rp.le), e⟩
  · rw [get i hi, get j hj]
    exact hfl.mono (div_le_div_of_nonneg_right hij sp.le)
  · have w := within_sum (u := u) (k := D r.length + 1) (l := r) (f := fun x => x / r.sum)
      (g := fun x => fl (x / sum r)) fun x hx => entry x (h0 x hx)
    have e : (r.map fun x => x / r.sum).sum = 1 := by
      have : (r.map fun x => x / r.sum).sum = r.sum / r.sum := by
        simp only [div_eq_mul_inv]
        rw [List.sum_map_mul_right]
        simp
      rw [this, div_self rp.ne']
    rwa [e] at w

example : normRowF dbl (npSum dbl) [1, 2, 1] = some [1 / 4, 1 / 2, 1 / 4] ∧
    normRowF dbl (npSum dbl) [0, 0] = none := by decide +kernel

/-- **C117.** For doubles and numpy's order: a normalised row adds up to 1 within `(27 + log₂ n) · 2⁻⁵³` of the larger
of 1 and the sum. -/
theorem C117_unit (r a : List ℚ) (h0 : ∀ x ∈ r, 0 ≤ x) (ha : normRowF dbl (npSum dbl) r = some a) :
    |a.sum - 1| ≤ (27 + Nat.log 2 r.length) / 2 ^ 53 * max 1 a.sum := by
  have w := ((C117_rows dbl _ dbl_rounding (by norm_num) (by norm_num) _ _ (C117_numpy dbl) r h0).2 a ha).2.2.2
  have e := w.abs_sub_le (by norm_num) (by norm_num) zero_le_one
  refine le_trans e (le_of_eq ?_)
  push_cast
  ring

example : normRowF dbl (npSum dbl) [1, 2, 3, 4, 5, 6] ≠ none := by decide +kernel

/-- **C117 (fails).** "A normalised row is normalised, and normalising again changes nothing" is false in doubles: with
the entries 1 to 6 the result does not add up to 1, neither exactly nor with numpy's sum, and a second `normalize`
gives other numbers. -/
theorem C117_unit_fails : ∃ a b, normRowF dbl (npSum dbl) [1, 2, 3, 4, 5, 6] = some a ∧ a.sum ≠ 1 ∧
    npSum dbl a ≠ 1 ∧ normRowF dbl (npSum dbl) a = some b ∧ b ≠ a := by
  refine ⟨(normRowF dbl (npSum dbl) [1, 2, 3, 4, 5, 6]).getD [],
    (normRowF dbl (npSum dbl) ((normRowF dbl (npSum dbl) [1, 2, 3, 4, 5, 6]).getD [])).getD [], ?_⟩
  decide +kernel

/-- **C117 (fails).** With entries of both signs the computed sum says nothing: the doubles `2⁵³, 1, -2⁵³` add up to 1,
numpy's sum and a plain loop give 0 and the row is lost; in another order of the entries the row is normalised. -/
theorem C117_negative_fails :
    ([2 ^ 53, 1, -2 ^ 53] : List ℚ).sum = 1 ∧ (∀ q ∈ ([2 ^ 53, 1, -2 ^ 53] : List ℚ), dbl q = q) ∧
    normRowF dbl (npSum dbl) [2 ^ 53, 1, -2 ^ 53] = none ∧ normRowF dbl (loopSum dbl) [2 ^ 53, 1, -2 ^ 53] = none ∧
    normRowF dbl (npSum dbl) [2 ^ 53, -2 ^ 53, 1] = some [2 ^ 53, -2 ^ 53, 1] := by
  decide +kernel

/-- **C117.** `normalize_rows` of the first-generation method with rounding: rows of zeros stay zero, and in the other
rows without negative entries every entry is the exact one up to `D n + 1` roundings. -/
theorem C117_first_generation (fl : ℚ → ℚ) (u : ℚ) (hfl : Rounding fl u) (hu : 0 ≤ u) (hu1 : u < 1) (D : ℕ → ℕ)
    (sum : List ℚ → ℚ) (hs : Summation fl D sum) (W : List (List ℚ)) (h0 : ∀ r ∈ W, ∀ x ∈ r, 0 ≤ x) (i j : ℕ)
    (hi : i < W.length) (hj : j < (W.getD i []).length) :
    Within u (D (W.getD i []).length + 1) (at2 (normalizeRows W) i j) (at2 (normalizeRowsF fl sum W) i j) ∧
    ((∀ x ∈ W.getD i [], x = 0) → at2 (normalizeRowsF fl sum W) i j = 0) := by
  have hr : ∀ x ∈ W.getD i [], 0 ≤ x := by
    rw [List.getD_eq_getElem _ _ hi]
    exact h0 _ (List.getElem_mem hi)
  have e1 : at2 (normalizeRowsF fl sum W) i j =
      if sum (W.getD i []) = 0 then 0 else fl ((W.getD i []).getD j 0 / sum (W.getD i [])) := by
    unfold at2 normalizeRowsF
    rw [List.getD_eq_getElem (W.map _) _ (by simpa using hi), List.getElem_map, List.getD_eq_getElem W _ hi]
    rw [List.getD_eq_getElem W _ hi] at hj
    rw [List.getD_eq_getElem (List.map _ _) _ (by simpa using hj), List.getElem_map, List.getD_eq_getElem _ _ hj]
  have e2 : at2 (normalizeRows W) i j =
      if (W.getD i []).sum = 0 then 0 else (W.getD i []).getD j 0 / (W.getD i []).sum := by
    unfold at2 normalizeRows
    rw [List.getD_eq_getElem (W.map _) _ (by simpa using hi), List.getElem_map, List.getD_eq_getElem W _ hi]
    rw [List.getD_eq_getElem W _ hi] at hj
    rw [List.getD_eq_getElem (List.map _ _) _ (by simpa using hj), List.getElem_map, List.getD_eq_getElem _ _ hj]
    rfl
  obtain ⟨h1, h2⟩ := hs.spec hfl hu hu1 hr
  obtain ⟨c1, c2⟩ := C117_rows fl u hfl hu hu1 D sum hs _ hr
  rw [e1, e2]
  by_cases hz : sum (W.getD i []) = 0
  · rw [if_pos hz, if_pos (h2.1 hz)]
    exact ⟨by simp [Within], fun _ => rfl⟩
  · rw [if_neg hz, if_neg fun h => hz (h2.2 h)]
    refine ⟨?_, fun h => absurd (h2.2 ((sum_zero_iff hr).2 h)) hz⟩
    have c3 := ((c2 _ (if_neg hz)).2.1 j hj).2
    rw [List.getD_eq_getElem (List.map _ _) _ (by simpa using hj), List.getElem_map] at c3
    rw [List.getD_eq_getElem (W.getD i []) 0 hj] at c3 ⊢
    exact c3

example : normalizeRowsF dbl (npSum dbl) [[1, 3], [0, 0]] = [[1 / 4, 3 / 4], [0, 0]] := by decide +kernel

theorem rowLoopR_eq {fl : ℚ → ℚ} (h0 : fl 0 = 0) (nld T Enld : List ℚ) (ex cut : ℚ) : ∀ (gs : List ℚ) (j : ℕ),
    rowLoopR fl nld T Enld ex cut j gs = (rowLoopF fl nld T Enld ex cut j gs).map fl := by
  intro gs
  induction gs with
  | nil => intro j; rfl
  | cons g gs ih =>
    intro j
    rw [rowLoopR, rowLoopF]
    by_cases h : g ≤ cut
    · rw [if_pos h, if_pos h, ih, List.map_cons]
    · rw [if_neg h, if_neg h, List.map_replicate, h0]

theorem rowLoop_nonneg (nld T Enld : List ℚ) (ex cut : ℚ) (hn : ∀ q ∈ nld, 0 ≤ q) (hT : ∀ q ∈ T, 0 ≤ q) :
    ∀ (gs : List ℚ) (j : ℕ), (rowLoop nld T Enld ex cut j gs).length = gs.length ∧
      ∀ x ∈ rowLoop nld T Enld ex cut j gs, 0 ≤ x := by
  have get : ∀ {l : List ℚ}, (∀ q ∈ l, 0 ≤ q) → ∀ k, 0 ≤ l.getD k 0 := by
    intro l hl k
    by_cases h : k < l.length
    · rw [List.getD_eq_getElem _ _ h]
      exact hl _ (List.getElem_mem h)
    · rw [List.getD_eq_default _ _ (by omega)]
  intro gs
  induction gs with
  | nil => intro j; simp [rowLoop]
  | cons g gs ih =>
    intro j
    rw [rowLoop]
    by_cases h : g ≤ cut
    · rw [if_pos h]
      refine ⟨by rw [List.length_cons, (ih (j + 1)).1, List.length_cons], ?_⟩
      rw [List.forall_mem_cons]
      exact ⟨mul_nonneg (get hn _) (get hT _), (ih (j + 1)).2⟩
    · rw [if_neg h]
      refine ⟨by simp, fun x hx => ?_⟩
      rw [List.eq_of_mem_replicate hx]

/-- A row of rounded entries, normalised with rounding, against the exact row. -/
theorem norm_rounded {fl : ℚ → ℚ} {u : ℚ} (hfl : Rounding fl u) (hu : 0 ≤ u) (hu1 : u < 1) {D : ℕ → ℕ}
    {sum : List ℚ → ℚ} (hs : Summation fl D sum) {R : List ℚ} (h0 : ∀ x ∈ R, 0 ≤ x) :
    (normRowF fl sum (R.map fl) = none ↔ normRow R = none) ∧
    ∀ a b, normRowF fl sum (R.map fl) = some a → normRow R = some b → a.length = R.length ∧
      (∀ j < R.length, Within u (D R.length + 3) (b.getD j 0) (a.getD j 0)) ∧
      Within u (D R.length + 1) 1 a.sum := by
  have f0 : ∀ x ∈ R.map fl, 0 ≤ x := by
    intro x hx
    obtain ⟨y, hy, rfl⟩ := List.mem_map.1 hx
    exact (Within.rounded hu hu1 hfl (h0 y hy)).nonneg hu1 (h0 y hy)
  have w1 : Within u 1 R.sum (R.map fl).sum := by
    have := within_sum (u := u) (k := 1) (l := R) (f := id) (g := fl) fun x hx =>
      Within.rounded hu hu1 hfl (h0 x hx)
    rwa [List.map_id] at this
  have R0 := List.sum_nonneg h0
  obtain ⟨w2, z2⟩ := hs.spec hfl hu hu1 f0
  rw [List.length_map] at w2
  have w := w1.trans hu1 w2
  have z : sum (R.map fl) = 0 ↔ R.sum = 0 := by
    have p := w.pos_iff hu1
    have s0 := w.nonneg hu1 R0
    constructor
    · intro h
      by_contra h'
      exact absurd (p.1 (lt_of_le_of_ne R0 (Ne.symm h'))) (by rw [h]; exact lt_irrefl 0)
    · intro h
      by_contra h'
      exact absurd (p.2 (lt_of_le_of_ne s0 (Ne.symm h'))) (by rw [h]; exact lt_irrefl 0)
  obtain ⟨_, c2⟩ := C117_rows fl u hfl hu hu1 D sum hs _ f0
  constructor
  · unfold normRowF normRow
    by_cases h : R.sum = 0
    · rw [if_pos h, if_pos (z.2 h)]
    · rw [if_neg h, if_neg fun h' => h (z.1 h')]
      simp
  intro a b ha hb
  obtain ⟨l1, _, _, l4⟩ := c2 a ha
  rw [List.length_map] at l1 l4
  refine ⟨l1, fun j hj => ?_, l4⟩
  unfold normRowF at ha
  unfold normRow at hb
  by_cases h : R.sum = 0
  · rw [if_pos h] at hb
    cases hb
  rw [if_neg fun h' => h (z.1 h')] at ha
  rw [if_neg h] at hb
  have rp : 0 < R.sum := lt_of_le_of_ne R0 (Ne.symm h)
  have sp : 0 < sum (R.map fl) := (w.pos_iff hu1).1 rp
  obtain rfl : ((R.map fl).map fun x => fl (x / sum (R.map fl))) = a := by simpa using ha
  obtain rfl : (R.map fun x => x / R.sum) = b := by simpa using hb
  rw [List.getD_eq_getElem (R.map _) _ (by simpa using hj), List.getElem_map,
    List.getD_eq_getElem (List.map _ (R.map fl)) _ (by simpa using hj), List.getElem_map, List.getElem_map]
  have x0 : 0 ≤ R[j] := h0 _ (List.getElem_mem hj)
  have v := Within.rounded hu hu1 hfl x0
  have q := Within.div hu1 v w x0 rp
  have q2 := q.trans hu1 (Within.rounded hu hu1 hfl (div_nonneg (v.nonneg hu1 x0) sp.le))
  have e : 1 + (1 + D R.length) + 1 = D R.length + 3 := by omega
  rwa [e] at q2

/-- **C117.** `nld_T_product` with every operation rounded, energies and values, on axes near a common grid: it fails
for the same rows as with exact numbers, and in the other rows every entry is the exact one up to `D n + 3` roundings
(relative error), for level densities and transmission coefficients of any size. -/
theorem C117_product (fl : ℚ → ℚ) (u : ℚ) (hfl : Rounding fl u) (hu : 0 ≤ u) (u8 : u ≤ 1 / 8) (D : ℕ → ℕ)
    (sum : List ℚ → ℚ) (hs : Summation fl D sum) (nld T : List ℚ)
    (Ex Eg E res : List ℚ) (x y w δ M : ℚ) (nx ny : ℕ) (hx : 1 ≤ nx) (hy : 2 ≤ ny) (hw : 0 < w) (d0 : 0 ≤ δ)
    (hδ : 72 * δ ≤ w) (hM : 16 * u * M ≤ δ) (hEx : NearGrid Ex x w nx δ) (hEg : NearGrid Eg y w ny δ)
    (hE : NearGrid E (x - (y + w * ((ny : ℚ) - 1))) w (nx + ny - 1) (12 * δ))
    (hMx : ∀ v ∈ Ex, |v| ≤ M) (hMy : ∀ v ∈ Eg, |v| ≤ M) (hr : ∀ i < nx, |res.getD i 0| ≤ M)
    (far : ∀ i < nx, ∀ j < ny, 8 * δ < |x + w * (i : ℚ) + res.getD i 0 + w / 2 - (y + w * (j : ℚ))|)
    (hn : ∀ q ∈ nld, 0 ≤ q) (hT : ∀ q ∈ T, 0 ≤ q) (ln : nx + ny - 1 ≤ nld.length) (lT : ny ≤ T.length)
    (lr : nx ≤ res.length) :
    ∃ P Q, nldTProductR fl sum nld T res E Eg Ex = .ok P ∧
      nldTProduct nld T res (nldAxis x y w nx ny) (grid y w ny) (grid x w nx) = .ok Q ∧
      P.length = nx ∧ Q.length = nx ∧ ∀ i < nx, (P.getD i none = none ↔ Q.getD i none = none) ∧
        ∀ a b, P.getD i none = some a → Q.getD i none = some b → a.length = ny ∧
          (∀ j < ny, Within u (D ny + 3) (b.getD j 0) (a.getD j 0)) ∧ Within u (D ny + 1) 1 a.sum := by
  have hu1 : u < 1 := by linarith
  have raw := C111_product fl u hfl hu u8 nld T Ex Eg E res x y w δ M nx ny hy hw d0 hδ hM hEx hEg hE hMx hMy hr far
  have el : (nldAxis x y w nx ny).length = nx + ny - 1 := by simp [nldAxis]
  have ne : nldAxis x y w nx ny ≠ [] := by
    intro h
    rw [h, List.length_nil] at el
    omega
  have nE : E ≠ [] := by
    intro h
    have := hE.len
    rw [h, List.length_nil] at this
    omega
  unfold nldTProductR nldTProduct
  rw [if_neg (by rw [hEg.len, hE.len, hEx.len]; simp only [nE, false_or]; omega),
    if_neg (by rw [grid_length y w ny, grid_length x w nx, el]; simp only [ne, false_or]; omega)]
  refine ⟨_, _, rfl, rfl, by simp [hEx.len], by simp [rawProduct, grid_length], fun i hi => ?_⟩
  set R := (rawProduct nld T res (nldAxis x y w nx ny) (grid y w ny) (grid x w nx)).getD i [] with hR
  have rl : (rawProduct nld T res (nldAxis x y w nx ny) (grid y w ny) (grid x w nx)).length = nx := by
    simp [rawProduct, grid_length]
  have e2 : ((rawProduct nld T res (nldAxis x y w nx ny) (grid y w ny) (grid x w nx)).map normRow).getD i none =
      normRow R := by
    rw [List.getD_eq_getElem _ _ (by simpa [rl] using hi), List.getElem_map, hR,
      List.getD_eq_getElem _ _ (by rw [rl]; exact hi)]
  have eR : R = rowLoopF fl nld T E (Ex.getD i 0) (cutF fl res Eg Ex i) 0 Eg := by
    rw [hR, ← raw, rawProductF, List.getD_eq_getElem _ _ (by simpa [hEx.len] using hi), List.getElem_map,
      List.getElem_range]
  have e1 : (((List.range Ex.length).map fun i : ℕ =>
      rowLoopR fl nld T E (Ex.getD i 0) (cutF fl res Eg Ex i) 0 Eg).map (normRowF fl sum)).getD i none =
      normRowF fl sum (R.map fl) := by
    rw [List.getD_eq_getElem _ _ (by simpa [hEx.len] using hi), List.getElem_map, List.getElem_map,
      List.getElem_range, rowLoopR_eq hfl.zero, eR]
  have Rn : R.length = ny ∧ ∀ x ∈ R, 0 ≤ x := by
    rw [hR, rawProduct, List.getD_eq_getElem _ _ (by simpa [grid_length] using hi), List.getElem_map,
      List.getElem_range]
    obtain ⟨h1, h2⟩ := rowLoop_nonneg nld T (nldAxis x y w nx ny) ((grid x w nx).getD i 0)
      ((grid x w nx).getD i 0 + res.getD i 0 + ((grid y w ny).getD 1 0 - (grid y w ny).getD 0 0) / 2) hn hT
      (grid y w ny) 0
    exact ⟨by rw [h1, grid_length], h2⟩
  obtain ⟨n1, n2⟩ := norm_rounded hfl hu hu1 hs Rn.2
  rw [Rn.1] at n2
  rw [e1, e2]
  exact ⟨n1, n2⟩

example : ∃ P Q, nldTProductR dbl (npSum dbl) [1, 2, 4] [3, 5] [0, 0] [-1, 0, 1] [0, 1] [0, 1] = .ok P ∧
    nldTProduct [(1 : ℚ), 2, 4] [3, 5] [0, 0] (nldAxis 0 0 1 2 2) (grid 0 1 2) (grid 0 1 2) = .ok Q ∧
    P.length = 2 ∧ Q.length = 2 := by
  have g : grid (0 : ℚ) 1 2 = [0, 1] := by decide +kernel
  have e : grid ((0 : ℚ) - (0 + 1 * (((2 : ℕ) : ℚ) - 1))) 1 (2 + 2 - 1) = [-1, 0, 1] := by decide +kernel
  obtain ⟨P, Q, h1, h2, h3, h4, _⟩ := C117_product dbl (1 / 2 ^ 53) dbl_rounding (by norm_num) (by norm_num) _ _
    (C117_numpy dbl) [1, 2, 4] [3, 5] [0, 1] [0, 1] [-1, 0, 1] [0, 0] 0 0 1 (1 / 72) 2 2 2 (by norm_num) (by norm_num)
    (by norm_num) (by norm_num) (by norm_num) (by norm_num) (g ▸ nearGrid_grid 0 1 2 (by norm_num))
    (g ▸ nearGrid_grid 0 1 2 (by norm_num)) (e ▸ nearGrid_grid _ 1 3 (by norm_num)) (by decide +kernel)
    (by decide +kernel) (by decide +kernel) (by decide +kernel) (by decide +kernel) (by decide +kernel)
    (by decide) (by decide) (by decide)
  exact ⟨P, Q, h1, h2, h3, h4⟩

/-! ### Chi-square -/

/-- The computed and the exact χ² after at most `k` terms. -/
def ChiRel (u : ℚ) (k : ℕ) (c e : ℚ) : Prop := 0 ≤ e ∧ Within u (k + 5) e c

theorem ChiRel.mono {u : ℚ} (hu : 0 ≤ u) (hu1 : u < 1) {k l : ℕ} {c e : ℚ} (h : ChiRel u k c e) (hkl : k ≤ l) :
    ChiRel u l c e := ⟨h.1, h.2.mono hu hu1 h.1 (by omega)⟩

theorem chiStepF_spec {fl : ℚ → ℚ} {u : ℚ} (hfl : Rounding fl u) (hu : 0 ≤ u) (hu1 : u < 1) {k : ℕ} {c e : ℚ}
    (h : ChiRel u k c e) (a b s : ℚ) :
    ∃ c', chiStepF fl c a b s = .ok c' ∧ ChiRel u (k + 1) c' (if s = 0 then e else e + (a - b) ^ 2 / s ^ 2) := by
  unfold chiStepF
  by_cases hs : s = 0
  · rw [if_pos hs, if_pos hs]
    exact ⟨c, rfl, h.mono hu hu1 (by omega)⟩
  have s2 : 0 < s ^ 2 := by positivity
  rw [if_neg hs, if_neg hs, if_neg fun h' => s2.ne' ((hfl.eq_zero hu1).1 h')]
  refine ⟨_, rfl, by have := h.1; positivity, ?_⟩
  have d1 : Within u 1 |a - b| |fl (a - b)| := by
    have r := hfl.rel (a - b)
    have t1 := abs_sub_abs_le_abs_sub (fl (a - b)) (a - b)
    have t2 := abs_sub_abs_le_abs_sub (a - b) (fl (a - b))
    rw [abs_sub_comm (a - b) (fl (a - b))] at t2
    have n := abs_nonneg (a - b)
    have up : |fl (a - b)| ≤ (1 + u) * |a - b| := by linarith
    refine ⟨by linarith, ?_⟩
    calc (1 - u) ^ 1 * |fl (a - b)| = (1 - u) * |fl (a - b)| := by ring
      _ ≤ (1 - u) * ((1 + u) * |a - b|) := mul_le_mul_of_nonneg_left up (by linarith)
      _ = |a - b| - u * u * |a - b| := by ring
      _ ≤ |a - b| := by linarith [mul_nonneg (mul_nonneg hu hu) n]
  have d2 : Within u 2 ((a - b) ^ 2) (fl (a - b) ^ 2) := by
    have := Within.mul hu1 d1 d1 (abs_nonneg _) (abs_nonneg _)
    rw [abs_mul_abs_self, abs_mul_abs_self] at this
    rwa [pow_two, pow_two]
  have q0 : 0 ≤ (a - b) ^ 2 := sq_nonneg _
  have d3 : Within u 3 ((a - b) ^ 2) (fl (fl (a - b) ^ 2)) :=
    d2.trans hu1 (Within.rounded hu hu1 hfl (sq_nonneg _))
  have e1 := Within.rounded hu hu1 hfl s2.le
  have d4 : Within u 4 ((a - b) ^ 2 / s ^ 2) (fl (fl (a - b) ^ 2) / fl (s ^ 2)) := Within.div hu1 d3 e1 q0 s2
  have t0 : 0 ≤ (a - b) ^ 2 / s ^ 2 := div_nonneg q0 s2.le
  have d5 : Within u 5 ((a - b) ^ 2 / s ^ 2) (fl (fl (fl (a - b) ^ 2) / fl (s ^ 2))) :=
    d4.trans hu1 (Within.rounded hu hu1 hfl (d4.nonneg hu1 t0))
  have d6 := h.2.add (d5.mono hu hu1 t0 (show 5 ≤ k + 5 by omega))
  have d7 := d6.trans hu1 (Within.rounded hu hu1 hfl (d6.nonneg hu1 (add_nonneg h.1 t0)))
  have ek : k + 5 + 1 = k + 1 + 5 := by omega
  rwa [ek] at d7

theorem foldlM_rel {ι : Type} {Rel : ℕ → ℚ → ℚ → Prop} {F : ℚ → ι → Except Err ℚ} {G : ℚ → ι → ℚ} {m : ℕ} :
    ∀ {l : List ι} {k : ℕ} {c e : ℚ},
    (∀ k c e, ∀ i ∈ l, Rel k c e → ∃ c', F c i = .ok c' ∧ Rel (k + m) c' (G e i)) → Rel k c e →
    ∃ c', l.foldlM F c = .ok c' ∧ Rel (k + l.length * m) c' (l.foldl G e) := by
  intro l
  induction l with
  | nil =>
    intro k c e _ h
    exact ⟨c, rfl, by simpa using h⟩
  | cons a as ih =>
    intro k c e step h
    obtain ⟨c1, h1, h2⟩ := step k c e a List.mem_cons_self h
    obtain ⟨c2, h3, h4⟩ := ih (fun k c e i hi => step k c e i (List.mem_cons_of_mem _ hi)) h2
    refine ⟨c2, ?_, ?_⟩
    · rw [List.foldlM_cons, h1]
      exact h3
    · have : k + m + as.length * m = k + (a :: as).length * m := by
        rw [List.length_cons]
        ring
      rw [← this]
      exact h4

/-- **C117.** `chisquare` with every operation rounded: it always gives a number, which is the exact χ² up to one
rounding per bin and five more (relative error); in particular it is never negative, and it is 0 exactly if the
matrices agree wherever the standard deviation is not 0. -/
theorem C117_chisquare (fl : ℚ → ℚ) (u : ℚ) (hfl : Rounding fl u) (hu : 0 ≤ u) (hu1 : u < 1)
    (fact fit std : List (List ℚ)) (nx ny : ℕ) :
    ∃ c, chisquareF fl fact fit std nx ny = .ok c ∧ 0 ≤ c ∧
      Within u (nx * ny + 5) (chisquare fact fit std nx ny) c ∧
      (c = 0 ↔ ∀ i < nx, ∀ j < ny, at2 std i j ≠ 0 → at2 fact i j = at2 fit i j) := by
  have base : ChiRel u 0 0 0 := ⟨le_rfl, by simp [Within]⟩
  obtain ⟨c, h1, h2, h3⟩ := foldlM_rel (Rel := ChiRel u) (m := ny) (l := List.range nx)
    (F := fun chi i => (List.range ny).foldlM (fun chi j =>
      chiStepF fl chi (at2 fact i j) (at2 fit i j) (at2 std i j)) chi)
    (G := fun chi i => (List.range ny).foldl (fun chi j =>
      if (std.getD i []).getD j 0 = 0 then chi
      else chi + ((fact.getD i []).getD j 0 - (fit.getD i []).getD j 0) ^ 2 / (std.getD i []).getD j 0 ^ 2) chi)
    (by
      intro k c e i _ h
      obtain ⟨c', g1, g2⟩ := foldlM_rel (Rel := ChiRel u) (m := 1) (l := List.range ny)
        (F := fun chi j => chiStepF fl chi (at2 fact i j) (at2 fit i j) (at2 std i j))
        (G := fun chi j => if (std.getD i []).getD j 0 = 0 then chi
          else chi + ((fact.getD i []).getD j 0 - (fit.getD i []).getD j 0) ^ 2 / (std.getD i []).getD j 0 ^ 2)
        (fun k c e j _ h => chiStepF_spec hfl hu hu1 h _ _ _) h
      rw [List.length_range, mul_one] at g2
      exact ⟨c', g1, g2⟩) base
  rw [List.length_range, zero_add] at h3
  have w : Within u (nx * ny + 5) (chisquare fact fit std nx ny) c := h3
  have z := C35_nonneg_zero (α := ℚ) fact fit std [] [] [] nx ny List.Pairwise.nil
  have c0 := w.nonneg hu1 z.1
  refine ⟨c, h1, c0, w, ?_⟩
  have p := w.pos_iff hu1
  have : c = 0 ↔ chisquare fact fit std nx ny = 0 := by
    constructor
    · intro h
      by_contra h'
      exact absurd (p.1 (lt_of_le_of_ne z.1 (Ne.symm h'))) (by rw [h]; exact lt_irrefl 0)
    · intro h
      by_contra h'
      exact absurd (p.2 (lt_of_le_of_ne c0 (Ne.symm h'))) (by rw [h]; exact lt_irrefl 0)
  rw [this]
  exact z.2.2.1

example : chisquareF dbl [[1, 2], [3, 4]] [[2, 2], [3, 6]] [[2, 1], [1, 0]] 2 2 = .ok (1 / 4) := by decide +kernel

theorem chiDiagRowF_spec {fl : ℚ → ℚ} {u : ℚ} (hfl : Rounding fl u) (hu : 0 ≤ u) (hu1 : u < 1) (mx mx' : ℚ)
    (fact fit std : List ℚ) : ∀ (Eg : List ℚ) (j k : ℕ) (c e : ℚ), (∀ g ∈ Eg, g > mx' ↔ g > mx) → ChiRel u k c e →
    ∃ c', chiDiagRowF fl mx' c fact fit std j Eg = .ok c' ∧
      ChiRel u (k + Eg.length) c' (chiDiagRow mx e fact fit std j Eg) := by
  intro Eg
  induction Eg with
  | nil => intro j k c e _ h; exact ⟨c, rfl, h⟩
  | cons g gs ih =>
    intro j k c e hg h
    have hc := hg g List.mem_cons_self
    rw [chiDiagRowF, chiDiagRow]
    by_cases hgm : g > mx
    · rw [if_pos hgm, if_pos (hc.2 hgm)]
      exact ⟨c, rfl, h.mono hu hu1 (by omega)⟩
    rw [if_neg hgm, if_neg fun h' => hgm (hc.1 h')]
    obtain ⟨c1, h1, h2⟩ := chiStepF_spec hfl hu hu1 h (fact.getD j 0) (fit.getD j 0) (std.getD j 0)
    obtain ⟨c2, h3, h4⟩ := ih (j + 1) (k + 1) c1 _ (fun g' hg' => hg g' (List.mem_cons_of_mem _ hg')) h2
    refine ⟨c2, ?_, ?_⟩
    · rw [h1]
      exact h3
    · rw [List.length_cons, show k + (gs.length + 1) = k + 1 + gs.length by omega]
      by_cases hs : std.getD j 0 = 0
      · rw [if_pos hs]
        rw [if_pos hs] at h4
        exact h4
      · rw [if_neg hs]
        rw [if_neg hs] at h4
        exact h4

/-- **C117.** `chisquare_diagonal` with every operation rounded, for gamma energies that are themselves representable
and no row whose limit `Ex + resolution` is rounded up to a gamma energy: it gives the exact value up to one rounding
per bin and five more, is never negative, and is 0 exactly if the exact value is. -/
theorem C117_diagonal_partial (fl : ℚ → ℚ) (u : ℚ) (hfl : Rounding fl u) (hu : 0 ≤ u) (hu1 : u < 1)
    (fact fit std : List (List ℚ)) (res Eg Ex : List ℚ) (hs : Eg.Pairwise (· < ·)) (hg : ∀ g ∈ Eg, fl g = g)
    (hno : ∀ i < Ex.length, ∀ g ∈ Eg, fl (Ex.getD i 0 + res.getD i 0) = g → g ≤ Ex.getD i 0 + res.getD i 0) :
    ∃ c, chisquareDiagonalF fl fact fit std res Eg Ex = .ok c ∧ 0 ≤ c ∧
      Within u (Ex.length * Eg.length + 5) (chisquareDiagonal fact fit std res Eg Ex) c ∧
      (c = 0 ↔ chisquareDiagonal fact fit std res Eg Ex = 0) := by
  have base : ChiRel u 0 0 0 := ⟨le_rfl, by simp [Within]⟩
  obtain ⟨c, h1, h2, h3⟩ := foldlM_rel (Rel := ChiRel u) (m := Eg.length) (l := List.range Ex.length)
    (F := fun chi i =>
      chiDiagRowF fl (fl (Ex.getD i 0 + res.getD i 0)) chi (fact.getD i []) (fit.getD i []) (std.getD i []) 0 Eg)
    (G := fun chi i =>
      chiDiagRow (Ex.getD i 0 + res.getD i 0) chi (fact.getD i []) (fit.getD i []) (std.getD i []) 0 Eg)
    (by
      intro k c e i hi h
      refine chiDiagRowF_spec hfl hu hu1 _ _ _ _ _ Eg 0 k c e (fun g hge => ⟨fun h' => ?_, fun h' => ?_⟩) h
      · by_contra hn
        have := hfl.mono (not_lt.1 hn)
        rw [hg g hge] at this
        exact absurd h' (not_lt.2 this)
      · have := hfl.mono (le_of_lt h')
        rw [hg g hge] at this
        refine lt_of_le_of_ne this fun heq => ?_
        exact absurd h' (not_lt.2 (hno i (List.mem_range.1 hi) g hge heq))) base
  rw [List.length_range, zero_add] at h3
  have w : Within u (Ex.length * Eg.length + 5) (chisquareDiagonal fact fit std res Eg Ex) c := h3
  have z := (C35_nonneg_zero (α := ℚ) fact fit std res Eg Ex 0 0 hs).2.1
  have c0 := w.nonneg hu1 z
  have p := w.pos_iff hu1
  refine ⟨c, h1, c0, w, ⟨fun h => ?_, fun h => ?_⟩⟩
  · by_contra h'
    exact absurd (p.1 (lt_of_le_of_ne z (Ne.symm h'))) (by rw [h]; exact lt_irrefl 0)
  · by_contra h'
    exact absurd (p.2 (lt_of_le_of_ne c0 (Ne.symm h'))) (by rw [h]; exact lt_irrefl 0)

example : chisquareDiagonalF dbl [[1, 2], [3, 4]] [[2, 5], [3, 6]] [[2, 1], [1, 4]] [0, 0] [1, 2] [1, 2] =
    .ok (1 / 2) := by decide +kernel

/-- **C117 (fails).** Without that the sum may run over another bin: `Ex = 0.1` and a resolution of 0.2 add up to less
than the double `0.1 + 0.2`, but their rounded sum reaches it, so the bin at that gamma energy counts and χ² is 1
instead of 0. -/
theorem C117_diagonal_fails :
    chisquareDiagonalF dbl [[1]] [[2]] [[1]] [dbl (2 / 10)] [dbl (dbl (1 / 10) + dbl (2 / 10))] [dbl (1 / 10)] = .ok 1 ∧
    chisquareDiagonal [[1]] [[2]] [[(1 : ℚ)]] [dbl (2 / 10)] [dbl (dbl (1 / 10) + dbl (2 / 10))] [dbl (1 / 10)] = 0 := by
  decide +kernel

theorem dblU_small {q : ℚ} (h0 : 0 ≤ q) (h : q * 2 ^ 1076 ≤ 1) : dblU q = 0 := by
  have t : (0 : ℚ) < 2 ^ 1022 := pow_pos (by norm_num) _
  have e1 : (2 : ℚ) ^ 1076 = 2 ^ 1022 * 2 ^ 54 := by rw [← pow_add]
  have e2 : (2 : ℚ) ^ 1076 = 2 ^ 1074 * 2 ^ 2 := by rw [← pow_add]
  unfold dblU
  rw [if_pos]
  · have r : roundHalfEven (q * 2 ^ 1074) = 0 := by
      have a1 : 0 ≤ q * (2 : ℚ) ^ 1074 := mul_nonneg h0 (pow_pos (by norm_num) _).le
      have a2 : q * (2 : ℚ) ^ 1074 ≤ 1 / 4 := by
        rw [e2] at h
        linarith
      generalize q * (2 : ℚ) ^ 1074 = z at a1 a2
      have f : ⌊z⌋ = 0 := by
        rw [Int.floor_eq_iff]
        constructor <;> push_cast <;> linarith
      unfold roundHalfEven
      rw [f, if_pos (by push_cast; linarith)]
    rw [r]
    simp
  · rw [abs_of_nonneg h0, lt_div_iff₀ t]
    rw [e1, ← mul_assoc] at h
    have := mul_nonneg h0 t.le
    generalize q * (2 : ℚ) ^ 1022 = z at *
    linarith

/-- **C117 (fails).** "χ² is a number whenever all standard deviations are" needs that no square underflows: the square
of a double of absolute value at most `2⁻⁵³⁸` is rounded to 0, and both functions then stop with `ZeroDivisionError`
although the test `std == 0` has been passed.  `2⁻⁵⁴⁰` is such a double. -/
theorem C117_underflow_fails (a b s : ℚ) (hs : s ≠ 0) (h : |s| * 2 ^ 538 ≤ 1) :
    chisquareF dblU [[a]] [[b]] [[s]] 1 1 = .error .runtimeError ∧
    chisquareDiagonalF dblU [[a]] [[b]] [[s]] [0] [1] [1] = .error .runtimeError := by
  have h2 : dblU (s ^ 2) = 0 := by
    apply dblU_small (sq_nonneg s)
    have e : (2 : ℚ) ^ 1076 = (2 ^ 538) ^ 2 := by rw [← pow_mul]
    rw [e, ← mul_pow, ← sq_abs, abs_mul, abs_of_pos (show (0 : ℚ) < 2 ^ 538 from pow_pos (by norm_num) _)]
    exact pow_le_one₀ (mul_nonneg (abs_nonneg s) (pow_pos (by norm_num) _).le) h
  have h3 : ¬ ((1 : ℚ) > dblU (([1] : List ℚ).getD 0 0 + ([0] : List ℚ).getD 0 0)) := by decide +kernel
  have step : ∀ c, chiStepF dblU c a b s = .error .runtimeError := by
    intro c
    unfold chiStepF
    rw [if_neg hs, if_pos h2]
  have bind : ∀ (x : Except Err ℚ) (f : ℚ → Except Err ℚ), x = .error .runtimeError →
      (x >>= f) = .error .runtimeError := by
    rintro x f rfl
    rfl
  refine ⟨?_, ?_⟩
  · unfold chisquareF
    rw [show List.range 1 = [0] from rfl, List.foldlM_cons]
    apply bind
    rw [List.foldlM_cons]
    exact bind _ _ (step 0)
  · unfold chisquareDiagonalF
    rw [show List.range ([1] : List ℚ).length = [0] from rfl, List.foldlM_cons]
    apply bind
    rw [chiDiagRowF, if_neg h3]
    exact bind _ _ (step 0)

example : dblU (2 ^ (-540 : ℤ)) = 2 ^ (-540 : ℤ) ∧ |(2 : ℚ) ^ (-540 : ℤ)| * 2 ^ 538 ≤ 1 := by
  have p : (0 : ℚ) < 2 ^ (-540 : ℤ) := by positivity
  constructor
  · unfold dblU
    rw [if_neg]
    · have := C111_double_exact 1 (-540) (by norm_num)
      simpa using this
    · rw [abs_of_pos p, not_lt, one_div, ← zpow_natCast, ← zpow_neg]
      exact zpow_le_zpow_right₀ (by norm_num) (by norm_num)
  · rw [abs_of_pos p, ← zpow_natCast, ← zpow_add₀ (by norm_num)]
    exact zpow_le_one_of_nonpos₀ (by norm_num) (by norm_num)

end Ompy
