import Verif.StdRounding
import Verif.SumRoundingProps
import Verif.UnitRoundingProps
import Verif.EnsRebinProps
import Verif.UnfoldRoundingProps

/-!
# Properties of the means and standard deviations in floating point (C125)
-/

namespace Ompy

/-- Specification: the mean. -/
def avg (l : List ℚ) : ℚ := l.sum / l.length

/-- Specification: the variance. -/
def variance (l : List ℚ) : ℚ := avg (l.map fun x => (x - avg l) ^ 2)

/-- Specification: a square root with an error of at most one rounding. -/
def RoundedSqrt (u : ℚ) (sq : ℚ → ℚ) : Prop := ∀ q, 0 ≤ q → 0 ≤ sq q ∧ Within u 2 q (sq q * sq q)

/-- **C125.** The computed mean is off by at most `(1+u)^(D n + 1) - 1` times the mean size. -/
theorem C125_mean {fl : ℚ → ℚ} {u : ℚ} (hfl : Rounding fl u) (hu : 0 ≤ u) {D : ℕ → ℕ} {sum : List ℚ → ℚ}
    (hs : Summation fl D sum) (l : List ℚ) :
    |meanF fl sum l - avg l| ≤ ((1 + u) ^ (D l.length + 1) - 1) * avg (l.map abs) := by
  obtain ⟨o, ⟨k, hp⟩, hd, hv⟩ := hs l
  have h1 := C117_sum_signed fl u hfl hu o
  have ls : o.leaves.sum = l.sum := by
    rw [hp.sum_eq]
    simp
  have la : (o.leaves.map abs).sum = (l.map abs).sum := by
    rw [(hp.map abs).sum_eq]
    simp
  rw [ls, la, ← hv] at h1
  have p1 : (1 + u) ^ o.depth ≤ (1 + u) ^ D l.length := pow_le_pow_right₀ (by linarith) hd
  have a0 : 0 ≤ (l.map abs).sum := List.sum_nonneg fun x hx => by
    obtain ⟨y, _, rfl⟩ := List.mem_map.1 hx
    exact abs_nonneg y
  have tri : |l.sum| ≤ (l.map abs).sum := by
    clear hp hd hv h1 ls la p1 a0
    induction l with
    | nil => simp
    | cons a as ih =>
      simp only [List.sum_cons, List.map_cons]
      exact (abs_add_le _ _).trans (by linarith)
  have h2 : |sum l - l.sum| ≤ ((1 + u) ^ D l.length - 1) * (l.map abs).sum :=
    h1.trans (mul_le_mul_of_nonneg_right (by linarith) a0)
  have s1 : |sum l| ≤ (1 + u) ^ D l.length * (l.map abs).sum := by
    have : |sum l| ≤ |sum l - l.sum| + |l.sum| := by
      refine le_trans (le_of_eq ?_) (abs_add_le _ _)
      congr 1
      ring
    nlinarith
  have h3 := hfl.rel (sum l / l.length)
  unfold meanF avg
  rw [List.length_map]
  have n0 : (0 : ℚ) ≤ l.length := Nat.cast_nonneg _
  have e : ∀ x : ℚ, |x / l.length| = |x| / l.length := fun x => by rw [abs_div, abs_of_nonneg n0]
  rw [e] at h3
  have h4 : |sum l / l.length - l.sum / l.length| ≤ ((1 + u) ^ D l.length - 1) * (l.map abs).sum / l.length := by
    rw [← sub_div, e]
    exact div_le_div_of_nonneg_right h2 n0
  have h5 : u * (|sum l| / l.length) ≤ u * ((1 + u) ^ D l.length * (l.map abs).sum / l.length) :=
    mul_le_mul_of_nonneg_left (div_le_div_of_nonneg_right s1 n0) hu
  have h6 : |fl (sum l / l.length) - l.sum / l.length| ≤
      |fl (sum l / l.length) - sum l / l.length| + |sum l / l.length - l.sum / l.length| := by
    refine le_trans (le_of_eq ?_) (abs_add_le _ _)
    congr 1
    ring
  have h7 : ((1 + u) ^ (D l.length + 1) - 1) * ((l.map abs).sum / l.length) =
      u * ((1 + u) ^ D l.length * (l.map abs).sum / l.length) + ((1 + u) ^ D l.length - 1) * (l.map abs).sum / l.length := by
    rw [pow_succ]
    ring
  rw [h7]
  linarith

/-- The mean square distance from any number. -/
theorem avg_shift (l : List ℚ) (hl : l ≠ []) (c : ℚ) :
    avg (l.map fun x => (x - c) ^ 2) = variance l + (c - avg l) ^ 2 := by
  have n0 : (l.length : ℚ) ≠ 0 := by
    have := List.length_pos_iff.2 hl
    positivity
  have key : ∀ (t : List ℚ) (c : ℚ), (t.map fun x => (x - c) ^ 2).sum = (t.map fun x => x ^ 2).sum - 2 * c * t.sum + t.length * c ^ 2 := by
    intro t c
    induction t with
    | nil => simp
    | cons a as ih =>
      simp only [List.map_cons, List.sum_cons, List.length_cons, ih]
      push_cast
      ring
  unfold variance avg
  rw [List.length_map, List.length_map, key, key]
  field_simp
  ring

theorem Within.square {fl : ℚ → ℚ} {u : ℚ} (hfl : Rounding fl u) (hu1 : u < 1) (d : ℚ) : Within u 2 (d ^ 2) (fl d * fl d) := by
  have h := abs_le.1 (hfl.rel d)
  have a : Within u 1 |d| |fl d| := by
    have t1 : |d| ≤ |fl d| + |fl d - d| := by
      have := abs_sub (fl d) (fl d - d)
      simpa using this
    have t2 : |fl d| ≤ |d| + |fl d - d| := by
      have := abs_add_le d (fl d - d)
      simpa using this
    have r := hfl.rel d
    have d0 := abs_nonneg d
    refine ⟨?_, ?_⟩
    · rw [pow_one]
      linarith
    · rw [pow_one]
      have : (1 - u) * |fl d| ≤ (1 - u) * ((1 + u) * |d|) := mul_le_mul_of_nonneg_left (by linarith) (by linarith)
      nlinarith [mul_nonneg (sq_nonneg u) d0]
  have := Within.mul hu1 a a (abs_nonneg d) (abs_nonneg d)
  rwa [abs_mul_abs_self, abs_mul_abs_self, ← sq] at this

/-- **C125.** The computed variance is, up to `D n + 4` roundings, the exact one plus the square of the error of the
computed mean. -/
theorem C125_variance {fl : ℚ → ℚ} {u : ℚ} (hfl : Rounding fl u) (hu : 0 ≤ u) (hu1 : u < 1) {D : ℕ → ℕ} {sum : List ℚ → ℚ}
    (hs : Summation fl D sum) (l : List ℚ) (hl : l ≠ []) :
    ∃ e, |e| ≤ ((1 + u) ^ (D l.length + 1) - 1) * avg (l.map abs) ∧
      Within u (D l.length + 4) (variance l + e ^ 2) (varF fl sum l) := by
  refine ⟨meanF fl sum l - avg l, C125_mean hfl hu hs l, ?_⟩
  rw [← avg_shift l hl]
  unfold varF avg
  rw [List.length_map]
  generalize meanF fl sum l = c
  have np : (0 : ℚ) < l.length := by
    have := List.length_pos_iff.2 hl
    positivity
  have w1 : Within u 3 (l.map fun x => (x - c) ^ 2).sum (l.map fun x => fl (fl (x - c) * fl (x - c))).sum :=
    within_sum fun x _ => by
      have a := Within.square hfl hu1 (x - c)
      exact Within.trans hu1 a (Within.rounded hu hu1 hfl (mul_self_nonneg _))
  have nn : ∀ y ∈ l.map fun x => fl (fl (x - c) * fl (x - c)), 0 ≤ y := by
    intro y hy
    obtain ⟨x, _, rfl⟩ := List.mem_map.1 hy
    rw [← hfl.zero]
    exact hfl.mono (mul_self_nonneg _)
  have w2 := (hs.spec hfl hu hu1 nn).1
  rw [List.length_map] at w2
  have s0 : 0 ≤ (l.map fun x => (x - c) ^ 2).sum := List.sum_nonneg fun y hy => by
    obtain ⟨x, _, rfl⟩ := List.mem_map.1 hy
    exact sq_nonneg _
  have w3 := Within.div hu1 (Within.trans hu1 w1 w2) (Within.refl' (u := u) (l.length : ℚ)) s0 np
  have w4 := Within.trans hu1 w3 (Within.rounded hu hu1 hfl (w3.nonneg hu1 (div_nonneg s0 np.le)))
  rwa [show 3 + D l.length + 0 + 1 = D l.length + 4 by ring] at w4

theorem variance_nonneg (l : List ℚ) : 0 ≤ variance l := by
  unfold variance avg
  refine div_nonneg (List.sum_nonneg fun y hy => ?_) (Nat.cast_nonneg _)
  obtain ⟨x, _, rfl⟩ := List.mem_map.1 hy
  exact sq_nonneg _

theorem varF_nonneg {fl : ℚ → ℚ} {u : ℚ} (hfl : Rounding fl u) (hu : 0 ≤ u) (hu1 : u < 1) {D : ℕ → ℕ} {sum : List ℚ → ℚ}
    (hs : Summation fl D sum) (l : List ℚ) (hl : l ≠ []) : 0 ≤ varF fl sum l := by
  obtain ⟨e, _, w⟩ := C125_variance hfl hu hu1 hs l hl
  exact w.nonneg hu1 (add_nonneg (variance_nonneg l) (sq_nonneg e))

/-- **C125.** The computed standard deviation: its square is the exact variance plus the square of the error of the
mean, up to `D n + 6` roundings. -/
theorem C125_std {fl : ℚ → ℚ} {u : ℚ} (hfl : Rounding fl u) (hu : 0 ≤ u) (hu1 : u < 1) {D : ℕ → ℕ} {sum : List ℚ → ℚ}
    (hs : Summation fl D sum) {sq : ℚ → ℚ} (hq : RoundedSqrt u sq) (l : List ℚ) (hl : l ≠ []) :
    0 ≤ stdF fl sum sq l ∧ ∃ e, |e| ≤ ((1 + u) ^ (D l.length + 1) - 1) * avg (l.map abs) ∧
      Within u (D l.length + 6) (variance l + e ^ 2) (stdF fl sum sq l * stdF fl sum sq l) := by
  obtain ⟨e, h1, w⟩ := C125_variance hfl hu hu1 hs l hl
  obtain ⟨q1, q2⟩ := hq _ (varF_nonneg hfl hu hu1 hs l hl)
  have := Within.trans hu1 w q2
  exact ⟨q1, e, h1, this⟩

/-- **C125.** A bin with a computed standard deviation of zero, which the fit ignores, has the same value in all
members. -/
theorem C125_zero {fl : ℚ → ℚ} {u : ℚ} (hfl : Rounding fl u) (hu : 0 ≤ u) (hu1 : u < 1) {D : ℕ → ℕ} {sum : List ℚ → ℚ}
    (hs : Summation fl D sum) {sq : ℚ → ℚ} (hq : RoundedSqrt u sq) (l : List ℚ) (hl : l ≠ []) (h : stdF fl sum sq l = 0) :
    ∀ x ∈ l, ∀ y ∈ l, x = y := by
  obtain ⟨-, e, -, w⟩ := C125_std hfl hu hu1 hs hq l hl
  rw [h, mul_zero] at w
  have v0 := variance_nonneg l
  have hv : variance l = 0 := by
    by_contra hne
    have : 0 < variance l + e ^ 2 := by
      have := lt_of_le_of_ne v0 (Ne.symm hne)
      positivity
    exact absurd ((w.pos_iff hu1).1 this) (lt_irrefl 0)
  have np : (l.length : ℚ) ≠ 0 := by
    have := List.length_pos_iff.2 hl
    positivity
  have nn : ∀ y ∈ l.map fun x => (x - avg l) ^ 2, 0 ≤ y := fun y hy => by
    obtain ⟨x, _, rfl⟩ := List.mem_map.1 hy
    exact sq_nonneg _
  have hz : (l.map fun x => (x - avg l) ^ 2).sum = 0 := by
    unfold variance at hv
    rw [avg, List.length_map, div_eq_zero_iff] at hv
    exact hv.resolve_right np
  have all := (sum_zero_iff nn).1 hz
  have eqm : ∀ x ∈ l, x = avg l := fun x hx => by
    have := all _ (List.mem_map.2 ⟨x, hx, rfl⟩)
    exact sub_eq_zero.1 (pow_eq_zero_iff (two_ne_zero) |>.1 this)
  intro x hx y hy
  rw [eqm x hx, eqm y hy]

/-- **C125.** For at most a thousand members, added one after the other in double precision, the relative error of the
variance is below `2e-13` apart from `2e-18` of the squared mean size. -/
theorem C125_double (l : List ℚ) (hl : l ≠ []) (hn : l.length ≤ 1000) :
    |varF dbl (loopSum dbl) l - variance l| ≤ 2 / 10 ^ 13 * variance l + 2 / 10 ^ 18 * avg (l.map abs) ^ 2 := by
  have u0 : (0 : ℚ) ≤ 1 / 2 ^ 53 := by norm_num
  have u1 : (1 : ℚ) / 2 ^ 53 < 1 := by norm_num
  obtain ⟨e, he, w⟩ := C125_variance dbl_rounding u0 u1 (C117_loop dbl) l hl
  simp only [id] at he w
  have v0 := variance_nonneg l
  have A0 : 0 ≤ avg (l.map abs) := by
    unfold avg
    refine div_nonneg (List.sum_nonneg fun y hy => ?_) (Nat.cast_nonneg _)
    obtain ⟨x, _, rfl⟩ := List.mem_map.1 hy
    exact abs_nonneg _
  have p : ((1 : ℚ) + 1 / 2 ^ 53) ^ (l.length + 1) ≤ 1 + 1 / 10 ^ 9 :=
    le_trans (pow_le_pow_right₀ (by linarith) (by omega)) (pow_thousand u0 (by norm_num))
  have e2 : e ^ 2 ≤ 1 / 10 ^ 18 * avg (l.map abs) ^ 2 := by
    have h1 : |e| ≤ 1 / 10 ^ 9 * avg (l.map abs) := he.trans (mul_le_mul_of_nonneg_right (by linarith) A0)
    have h2 := mul_self_le_mul_self (abs_nonneg e) h1
    rw [abs_mul_abs_self] at h2
    nlinarith
  have X0 : 0 ≤ variance l + e ^ 2 := add_nonneg v0 (sq_nonneg e)
  have y0 := w.nonneg u1 X0
  have d := w.abs_sub_le u0 u1 X0
  have ku : ((l.length + 4 : ℕ) : ℚ) * (1 / 2 ^ 53) ≤ 12 / 10 ^ 14 := by
    have : ((l.length + 4 : ℕ) : ℚ) ≤ 1004 := by exact_mod_cast (by omega : l.length + 4 ≤ 1004)
    have := mul_le_mul_of_nonneg_right this u0
    refine this.trans ?_
    norm_num
  generalize varF dbl (loopSum dbl) l = y at *
  have d2 : |y - (variance l + e ^ 2)| ≤ 12 / 10 ^ 14 * max (variance l + e ^ 2) y :=
    d.trans (mul_le_mul_of_nonneg_right ku (le_max_of_le_left X0))
  have e0 := sq_nonneg e
  generalize avg (l.map abs) ^ 2 = B at *
  generalize e ^ 2 = f at *
  generalize variance l = V at *
  rcases le_total y (V + f) with c | c
  · rw [max_eq_left c] at d2
    obtain ⟨d3, d4⟩ := abs_le.1 d2
    rw [abs_le]
    constructor <;> norm_num at * <;> linarith
  · rw [max_eq_right c] at d2
    obtain ⟨d3, d4⟩ := abs_le.1 d2
    rw [abs_le]
    constructor <;> norm_num at * <;> linarith

/-! ### Bins that are the same in all members -/

theorem dbl_scaled_int (z m : ℤ) (hm : |m| ≤ 2 ^ 53) : dbl ((2 : ℚ) ^ z * m) = (2 : ℚ) ^ z * m := by
  rw [dbl_scale, dbl_int m hm]

/-- Sums of whole multiples of a power of two are exact as long as they are below `2^53` of it. -/
theorem sum_scaled_int (z : ℤ) (o : SumOrder) (c : ℚ → ℤ) (hc : ∀ q ∈ o.leaves, q = (2 : ℚ) ^ z * c q)
    (h : (o.leaves.map fun q => |c q|).sum ≤ 2 ^ 53) : o.val dbl = (2 : ℚ) ^ z * ((o.leaves.map c).sum : ℤ) := by
  have tri : ∀ l : List ℚ, |(l.map c).sum| ≤ (l.map fun q => |c q|).sum := by
    intro l
    induction l with
    | nil => simp
    | cons a as ih =>
      simp only [List.map_cons, List.sum_cons]
      exact (abs_add_le _ _).trans (by linarith)
  have nn : ∀ l : List ℚ, 0 ≤ (l.map fun q => |c q|).sum := fun l => List.sum_nonneg fun y hy => by
    obtain ⟨x, _, rfl⟩ := List.mem_map.1 hy
    exact abs_nonneg _
  induction o with
  | leaf q =>
    have := hc q (by simp [SumOrder.leaves])
    simp only [SumOrder.val, SumOrder.leaves, List.map_cons, List.map_nil, List.sum_cons, List.sum_nil, add_zero]
    exact this
  | add a b iha ihb =>
    simp only [SumOrder.leaves, List.map_append, List.sum_append] at h ⊢
    have na := nn a.leaves
    have nb := nn b.leaves
    rw [SumOrder.val, iha (fun q hq => hc q (by simp [SumOrder.leaves, hq])) (by linarith),
      ihb (fun q hq => hc q (by simp [SumOrder.leaves, hq])) (by linarith), ← mul_add, ← Int.cast_add]
    apply dbl_scaled_int
    have ta := tri a.leaves
    have tb := tri b.leaves
    exact (abs_add_le _ _).trans (by linarith)

/-- **C125.** In double precision the standard deviation of equal values is zero if the value is a whole multiple `k` of
a power of two and `n |k|` is at most `2^53`: counts, but not values like `0.1`. -/
theorem C125_constant_partial {D : ℕ → ℕ} {sum : List ℚ → ℚ} (hs : Summation dbl D sum) {sq : ℚ → ℚ}
    (hq : RoundedSqrt (1 / 2 ^ 53) sq) (z k : ℤ) (n : ℕ) (hn : 0 < n) (h : n * |k| ≤ 2 ^ 53) :
    meanF dbl sum (List.replicate n ((2 : ℚ) ^ z * k)) = (2 : ℚ) ^ z * k ∧
    stdF dbl sum sq (List.replicate n ((2 : ℚ) ^ z * k)) = 0 := by
  have u0 : (0 : ℚ) ≤ 1 / 2 ^ 53 := by norm_num
  have u1 : (1 : ℚ) / 2 ^ 53 < 1 := by norm_num
  have pz : (2 : ℚ) ^ z ≠ 0 := by positivity
  have nz : (n : ℚ) ≠ 0 := by positivity
  have hk : |k| ≤ 2 ^ 53 := by
    have : (1 : ℤ) ≤ n := by exact_mod_cast hn
    nlinarith [abs_nonneg k]
  have hm : meanF dbl sum (List.replicate n ((2 : ℚ) ^ z * k)) = (2 : ℚ) ^ z * k := by
    obtain ⟨o, ⟨j, hp⟩, -, hv⟩ := hs (List.replicate n ((2 : ℚ) ^ z * k))
    let c : ℚ → ℤ := fun q => if q = 0 then 0 else k
    have hc : ∀ q ∈ o.leaves, q = (2 : ℚ) ^ z * c q := by
      intro q hq
      rcases List.mem_append.1 (hp.mem_iff.1 hq) with hq | hq
      · rw [List.eq_of_mem_replicate hq]
        simp [c]
      · have e := List.eq_of_mem_replicate hq
        by_cases hk0 : q = 0
        · simp [c, hk0]
        · simp only [c, if_neg hk0]
          exact e
    have ck : c ((2 : ℚ) ^ z * k) = k := by
      by_cases hk0 : k = 0
      · simp [c, hk0]
      · simp [c, hk0, pz]
    have s1 : (o.leaves.map fun q => |c q|).sum = n * |k| := by
      rw [(hp.map _).sum_eq, List.map_append, List.sum_append, List.map_replicate, List.map_replicate, ck]
      simp [c]
    have s2 : (o.leaves.map c).sum = n * k := by
      rw [(hp.map _).sum_eq, List.map_append, List.sum_append, List.map_replicate, List.map_replicate, ck]
      simp [c]
    have := sum_scaled_int z o c hc (by rw [s1]; exact h)
    rw [s2] at this
    unfold meanF
    rw [hv, this, List.length_replicate]
    push_cast
    rw [show (2 : ℚ) ^ z * (n * k) / n = (2 : ℚ) ^ z * k by field_simp, dbl_scaled_int z k hk]
  refine ⟨hm, ?_⟩
  have hv : varF dbl sum (List.replicate n ((2 : ℚ) ^ z * k)) = 0 := by
    unfold varF
    rw [hm]
    simp only [List.map_replicate, sub_self, dbl_zero, mul_zero]
    have z0 : sum (List.replicate n 0) = 0 := by
      have nn : ∀ x ∈ List.replicate n (0 : ℚ), 0 ≤ x := fun x hx => (List.eq_of_mem_replicate hx).ge
      exact (hs.spec dbl_rounding u0 u1 nn).2.2 ((sum_zero_iff nn).2 fun x hx => List.eq_of_mem_replicate hx)
    rw [z0, zero_div, dbl_zero]
  unfold stdF
  rw [hv]
  obtain ⟨q1, q2⟩ := hq 0 le_rfl
  have := q2.2
  by_contra hne
  have : 0 < sq 0 * sq 0 := by positivity
  exact absurd ((q2.pos_iff u1).2 this) (lt_irrefl 0)

/-- **C125, fails.** Equal values may get a standard deviation that is not zero: for three members with `0.1` the
computed mean is the next double and the variance is `2^-112`.  The fit does not ignore such a bin but gives it a weight
beyond all others. -/
theorem C125_constant_fails (sq : ℚ → ℚ) (hq : RoundedSqrt (1 / 2 ^ 53) sq) :
    varF dbl (loopSum dbl) (List.replicate 3 (dbl (1 / 10))) = 1 / 2 ^ 112 ∧
    stdF dbl (loopSum dbl) sq (List.replicate 3 (dbl (1 / 10))) ≠ 0 ∧
    10 ^ 27 < chisquare [[dbl (1 / 10)]] [[dbl (101 / 1000)]]
      (stdOverF dbl (loopSum dbl) sq (List.replicate 3 [[dbl (1 / 10)]]) 1 1) 1 1 ∧
    chisquare [[dbl (1 / 10)]] [[dbl (101 / 1000)]] [[(0 : ℚ)]] 1 1 = 0 := by
  have hv : varF dbl (loopSum dbl) (List.replicate 3 (dbl (1 / 10))) = 1 / 2 ^ 112 := by decide +kernel
  have u1 : (1 : ℚ) / 2 ^ 53 < 1 := by norm_num
  obtain ⟨q1, q2⟩ := hq (1 / 2 ^ 112) (by positivity)
  have sp : 0 < sq (1 / 2 ^ 112) * sq (1 / 2 ^ 112) := (q2.pos_iff u1).1 (by positivity)
  have hne : sq (1 / 2 ^ 112) ≠ 0 := fun h => by rw [h] at sp; simp at sp
  have hstd : stdF dbl (loopSum dbl) sq (List.replicate 3 (dbl (1 / 10))) = sq (1 / 2 ^ 112) := by rw [stdF, hv]
  refine ⟨hv, by rw [hstd]; exact hne, ?_, by simp [chisquare]⟩
  have ho : stdOverF dbl (loopSum dbl) sq (List.replicate 3 [[dbl (1 / 10)]]) 1 1 = [[sq (1 / 2 ^ 112)]] := by
    rw [← hstd]
    rfl
  rw [ho]
  have hc : chisquare [[dbl (1 / 10)]] [[dbl (101 / 1000)]] [[sq (1 / 2 ^ 112)]] 1 1 =
      (dbl (1 / 10) - dbl (101 / 1000)) ^ 2 / (sq (1 / 2 ^ 112) * sq (1 / 2 ^ 112)) := by
    rw [← pow_two]
    simp only [chisquare, List.range_one, List.foldl_cons, List.foldl_nil, List.getD_cons_zero, if_neg hne, zero_add]
  rw [hc, lt_div_iff₀ sp]
  have d : (1 : ℚ) / 10 ^ 6 / 2 < (dbl (1 / 10) - dbl (101 / 1000)) ^ 2 := by decide +kernel
  have b := q2.2
  have : sq (1 / 2 ^ 112) * sq (1 / 2 ^ 112) ≤ 2 / 2 ^ 112 := by
    norm_num at b ⊢
    linarith
  norm_num at this d ⊢
  linarith

/-! ### Examples and the exact standard deviation -/

/-- **C125.** The specification is the standard deviation of C82: without rounding the square of `np.std` is the
variance. -/
theorem C125_exact (l : List ℚ) : ensSd (l.map fun x => ((x : ℚ) : ℝ)) ^ 2 = ((variance l : ℚ) : ℝ) ∧
    varF id List.sum l = variance l ∧ meanF id List.sum l = avg l := by
  have cs : ∀ t : List ℚ, ((t.sum : ℚ) : ℝ) = (t.map fun x => ((x : ℚ) : ℝ)).sum := by
    intro t
    induction t with
    | nil => simp
    | cons a as ih => simp [ih]
  have hm : ∀ t : List ℚ, meanOf (t.map fun x => ((x : ℚ) : ℝ)) = ((avg t : ℚ) : ℝ) := by
    intro t
    unfold meanOf avg
    rw [← cs, List.length_map]
    push_cast
    rfl
  refine ⟨?_, ?_, rfl⟩
  · have e : ((l.map fun x => ((x : ℚ) : ℝ)).map fun x => (x - meanOf (l.map fun x => ((x : ℚ) : ℝ))) ^ 2) =
        (l.map fun x => (x - avg l) ^ 2).map fun x => ((x : ℚ) : ℝ) := by
      rw [List.map_map, List.map_map]
      apply List.map_congr_left
      intro x _
      simp only [Function.comp_apply]
      rw [hm]
      push_cast
      rfl
    unfold ensSd
    rw [e, hm, Real.sq_sqrt]
    · rfl
    · have := variance_nonneg l
      unfold variance at this
      exact_mod_cast this
  · unfold varF variance avg
    rw [List.length_map]
    simp only [id, meanF, ← sq]

/-- Rounded square roots exist. -/
theorem exists_roundedSqrt {u : ℚ} (hu : 0 < u) (hu1 : u < 1) : ∃ sq, RoundedSqrt u sq := by
  have key : ∀ q : ℚ, ∃ s : ℚ, 0 ≤ q → 0 ≤ s ∧ Within u 2 q (s * s) := by
    intro q
    by_cases hq : 0 < q
    · have hR : (0 : ℝ) < q := by exact_mod_cast hq
      have hs := Real.sqrt_pos.2 hR
      have huR : (0 : ℝ) < u := by exact_mod_cast hu
      have huR1 : (u : ℝ) < 1 := by exact_mod_cast hu1
      obtain ⟨s, h1, h2⟩ := exists_rat_btwn (show (1 - (u : ℝ)) * Real.sqrt q < Real.sqrt q by nlinarith)
      have e := Real.mul_self_sqrt hR.le
      have s0 : (0 : ℝ) ≤ (1 - u) * Real.sqrt q := mul_nonneg (by linarith) hs.le
      have b1 : ((1 - u) ^ 2 * q : ℝ) ≤ s * s := by
        have := mul_le_mul h1.le h1.le s0 (s0.trans h1.le)
        nlinarith
      have b2 : (s * s : ℝ) ≤ q := by
        have := mul_le_mul h2.le h2.le (s0.trans h1.le) hs.le
        linarith
      refine ⟨s, fun _ => ⟨by exact_mod_cast s0.trans h1.le, ?_, ?_⟩⟩
      · exact_mod_cast b1
      · have b2' : s * s ≤ q := by exact_mod_cast b2
        have p1 : (1 - u) ^ 2 ≤ 1 := pow_le_one₀ (by linarith) (by linarith)
        nlinarith [mul_self_nonneg s]
    · exact ⟨0, fun h0 => ⟨le_rfl, by
        have : q = 0 := le_antisymm (not_lt.1 hq) h0
        subst this
        simp [Within]⟩⟩
  choose f hf using key
  exact ⟨f, hf⟩

/-- The hypotheses hold for doubles and numpy's order; ten members of 3 counts have no spread. -/
example : ∃ sq, RoundedSqrt (1 / 2 ^ 53) sq ∧ stdF dbl (npSum dbl) sq (List.replicate 10 3) = 0 := by
  obtain ⟨f, hf⟩ := exists_roundedSqrt (u := 1 / 2 ^ 53) (by norm_num) (by norm_num)
  refine ⟨f, hf, ?_⟩
  have := (C125_constant_partial (C117_numpy dbl) hf 0 3 10 (by norm_num) (by norm_num)).2
  simpa using this

example : ∃ e, |e| ≤ ((1 + 1 / 2 ^ 53) ^ 4 - 1) * (2 : ℚ) ∧
    Within (1 / 2 ^ 53) 7 (2 / 3 + e ^ 2) (varF dbl (loopSum dbl) [1, 2, 3]) := by
  have h := C125_variance dbl_rounding (by norm_num) (by norm_num) (C117_loop dbl) [1, 2, 3] (by simp)
  have e1 : avg ([1, 2, 3].map abs) = 2 := by norm_num [avg, abs_of_pos]
  have e2 : variance [1, 2, 3] = 2 / 3 := by norm_num [variance, avg]
  rw [e1, e2] at h
  exact h

end Ompy
