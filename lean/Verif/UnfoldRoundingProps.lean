import Verif.UnfoldRounding
import Verif.UnfolderMore
import Verif.SumRoundingProps
import Verif.UnitRoundingProps

/-!
# Properties of the unfolding in floating point (C123)
-/

namespace Ompy

/-- Specification: a computed dot product with an error of at most `g` times the sum of the sizes of the products. -/
def GoodDot (dot : List ℚ → List ℚ → ℚ) (g : ℚ) (n : ℕ) : Prop :=
  ∀ a b : List ℚ, a.length = n → b.length = n →
    |dot a b - (List.zipWith (fun x y => x * y) a b).sum| ≤ g * (List.zipWith (fun x y => |x| * |y|) a b).sum

/-- **C123.** Dot products that round every product and add in any order are as asked for: with at most `D n`
additions for each element the error is `(1+u)^(D n + 1) - 1`. -/
theorem C123_dot {fl : ℚ → ℚ} {u : ℚ} (R : Rounding fl u) (D : ℕ → ℕ) (sum : List ℚ → ℚ) (hs : Summation fl D sum)
    (n : ℕ) : GoodDot (dotF fl sum) ((1 + u) ^ (D n + 1) - 1) n := by
  intro a b ha hb
  have u0 : 0 ≤ u := by
    have := R.rel 1
    have := (abs_nonneg _).trans this
    simpa using this
  obtain ⟨o, ⟨k, hp⟩, hd, hv⟩ := hs (List.zipWith (fun x y => fl (x * y)) a b)
  have h1 := C117_sum_signed fl u R u0 o
  have ls : o.leaves.sum = (List.zipWith (fun x y => fl (x * y)) a b).sum := by
    rw [hp.sum_eq]
    simp
  have la : (o.leaves.map abs).sum = (List.zipWith (fun x y => |fl (x * y)|) a b).sum := by
    rw [(hp.map abs).sum_eq]
    simp [List.map_zipWith]
  have len : (List.zipWith (fun x y => fl (x * y)) a b).length = n := by simp [ha, hb]
  rw [len] at hd
  unfold dotF
  rw [hv]
  rw [ls, la] at h1
  rw [zipWith_sum (fun x y => fl (x * y)) a b n ha hb, zipWith_sum (fun x y => |fl (x * y)|) a b n ha hb] at h1
  rw [zipWith_sum (fun x y => x * y) a b n ha hb, zipWith_sum (fun x y => |x| * |y|) a b n ha hb]
  have p1 : (1 + u) ^ o.depth ≤ (1 + u) ^ D n := pow_le_pow_right₀ (by linarith) hd
  have one : (1 : ℚ) ≤ (1 + u) ^ D n := one_le_pow₀ (by linarith)
  have e1 : ∑ q ∈ Finset.range n, |fl (a.getD q 0 * b.getD q 0)| ≤
      (1 + u) * ∑ q ∈ Finset.range n, |a.getD q 0| * |b.getD q 0| := by
    rw [Finset.mul_sum]
    apply Finset.sum_le_sum
    intro q _
    have := R.rel (a.getD q 0 * b.getD q 0)
    rw [abs_mul] at this
    have tri : |fl (a.getD q 0 * b.getD q 0)| ≤ |fl (a.getD q 0 * b.getD q 0) - a.getD q 0 * b.getD q 0| +
        |a.getD q 0| * |b.getD q 0| := by
      rw [← abs_mul]
      refine le_trans (le_of_eq ?_) (abs_add_le _ _)
      congr 1
      ring
    linarith
  have e2 : |∑ q ∈ Finset.range n, fl (a.getD q 0 * b.getD q 0) - ∑ q ∈ Finset.range n, a.getD q 0 * b.getD q 0| ≤
      u * ∑ q ∈ Finset.range n, |a.getD q 0| * |b.getD q 0| := by
    rw [← Finset.sum_sub_distrib, Finset.mul_sum]
    refine (Finset.abs_sum_le_sum_abs _ _).trans (Finset.sum_le_sum fun q _ => ?_)
    have := R.rel (a.getD q 0 * b.getD q 0)
    rwa [abs_mul] at this
  have s0 : 0 ≤ ∑ q ∈ Finset.range n, |a.getD q 0| * |b.getD q 0| :=
    Finset.sum_nonneg fun q _ => mul_nonneg (abs_nonneg _) (abs_nonneg _)
  generalize ∑ q ∈ Finset.range n, |a.getD q 0| * |b.getD q 0| = S at *
  have f0 : 0 ≤ ∑ q ∈ Finset.range n, |fl (a.getD q 0 * b.getD q 0)| := Finset.sum_nonneg fun q _ => abs_nonneg _
  generalize ∑ q ∈ Finset.range n, |fl (a.getD q 0 * b.getD q 0)| = F at *
  have tri : |o.val fl - ∑ q ∈ Finset.range n, a.getD q 0 * b.getD q 0| ≤
      |o.val fl - ∑ q ∈ Finset.range n, fl (a.getD q 0 * b.getD q 0)| +
      |∑ q ∈ Finset.range n, fl (a.getD q 0 * b.getD q 0) - ∑ q ∈ Finset.range n, a.getD q 0 * b.getD q 0| := by
    refine le_trans (le_of_eq ?_) (abs_add_le _ _)
    congr 1
    ring
  have m1 : ((1 + u) ^ o.depth - 1) * F ≤ ((1 + u) ^ D n - 1) * ((1 + u) * S) :=
    mul_le_mul (by linarith) e1 f0 (by linarith)
  rw [pow_succ]
  nlinarith

section Iteration

variable (fl : ℚ → ℚ) (dot : ℕ → ℕ → ℕ → List ℚ → List ℚ → ℚ) (r R : List (List ℚ)) (n m : ℕ)

/-- Computed unfolded counts of iteration `k` (entry). -/
def unfAtF (k i j : ℕ) : ℚ := at2 (unfoldIterF fl dot r R n m k).1 i j

/-- Computed folded counts of iteration `k` (entry). -/
def fldAtF (k i j : ℕ) : ℚ := at2 (unfoldIterF fl dot r R n m k).2 i j

theorem unfF_zero (i j : ℕ) : unfAtF fl dot r R n m 0 i j = at2 r i j := by
  simp [unfAtF, unfoldIterF, unfoldStepF]

theorem fldF_eq (k : ℕ) {i j : ℕ} (hi : i < n) (hj : j < m) :
    fldAtF fl dot r R n m k i j = dot k i j ((List.range m).map fun q => unfAtF fl dot r R n m k i q)
      ((List.range m).map fun q => at2 R q j) := by
  unfold fldAtF unfAtF
  cases k <;> (unfold unfoldIterF unfoldStepF matMulF; rw [at2_tabulate _ _ _ hi hj])

theorem unfF_succ (k : ℕ) {i j : ℕ} (hi : i < n) (hj : j < m) :
    unfAtF fl dot r R n m (k + 1) i j
      = fl (unfAtF fl dot r R n m k i j + fl (at2 r i j - fldAtF fl dot r R n m k i j)) := by
  unfold fldAtF unfAtF
  conv_lhs => unfold unfoldIterF unfoldStepF
  simp only [Nat.succ_pos, if_true]
  rw [at2_tabulate _ _ _ hi hj]

end Iteration

/-- **C123.** Without rounding this is the iteration of C29. -/
theorem C123_exact (r R : List (List ℚ)) (n m k : ℕ) :
    unfoldIterF id (fun _ _ _ a b => (List.zipWith (fun x y => x * y) a b).sum) r R n m k = unfoldIter r R n m k := by
  have mm : ∀ A B : List (List ℚ), matMulF (fun _ _ a b => (List.zipWith (fun x y => x * y) a b).sum) A B n m m =
      matMul A B n m m := by
    intro A B
    unfold matMulF matMul
    congr 1
    funext i k
    show (List.zipWith (fun x y => x * y) _ _).sum = _
    rw [zipWith_sum _ _ _ m (by simp) (by simp)]
    apply Finset.sum_congr rfl
    intro q hq
    rw [Finset.mem_range] at hq
    rw [getD_map_range _ hq, getD_map_range _ hq]
  induction k with
  | zero => simp only [unfoldIterF, unfoldIter, unfoldStepF, unfoldStep, mm, id]
  | succ k ih =>
    unfold unfoldIterF unfoldIter
    rw [ih]
    simp only [unfoldStepF, unfoldStep, mm, id]

/-- Specification: the weighted size of the bins below `m`. -/
def wsize (w : ℕ → ℚ) (m : ℕ) (x : ℕ → ℚ) : ℚ := ∑ j ∈ Finset.range m, w j * |x j|

theorem wsize_nonneg {w : ℕ → ℚ} {m : ℕ} (hw : ∀ j < m, 0 ≤ w j) (x : ℕ → ℚ) : 0 ≤ wsize w m x :=
  Finset.sum_nonneg fun j hj => mul_nonneg (hw j (Finset.mem_range.1 hj)) (abs_nonneg _)

theorem wsize_add {w : ℕ → ℚ} {m : ℕ} (hw : ∀ j < m, 0 ≤ w j) (x y z : ℕ → ℚ) (h : ∀ j < m, |x j| ≤ |y j| + |z j|) :
    wsize w m x ≤ wsize w m y + wsize w m z := by
  unfold wsize
  rw [← Finset.sum_add_distrib]
  apply Finset.sum_le_sum
  intro j hj
  have := mul_le_mul_of_nonneg_left (h j (Finset.mem_range.1 hj)) (hw j (Finset.mem_range.1 hj))
  linarith

theorem wsize_le {w : ℕ → ℚ} {m : ℕ} (hw : ∀ j < m, 0 ≤ w j) (x y : ℕ → ℚ) (c : ℚ) (h : ∀ j < m, |x j| ≤ c * |y j|) :
    wsize w m x ≤ c * wsize w m y := by
  unfold wsize
  rw [Finset.mul_sum]
  apply Finset.sum_le_sum
  intro j hj
  have := mul_le_mul_of_nonneg_left (h j (Finset.mem_range.1 hj)) (hw j (Finset.mem_range.1 hj))
  linarith

/-- A matrix that maps every bin to at most `c` times its weight does so with all spectra. -/
theorem wsize_matrix {w : ℕ → ℚ} {m : ℕ} (hw : ∀ j < m, 0 ≤ w j) (A : ℕ → ℕ → ℚ) (c : ℚ)
    (hA : ∀ q < m, ∑ j ∈ Finset.range m, w j * |A q j| ≤ c * w q) (x y : ℕ → ℚ)
    (h : ∀ j < m, |y j| ≤ ∑ q ∈ Finset.range m, |x q| * |A q j|) : wsize w m y ≤ c * wsize w m x := by
  have h1 : wsize w m y ≤ ∑ j ∈ Finset.range m, ∑ q ∈ Finset.range m, w j * (|x q| * |A q j|) := by
    unfold wsize
    apply Finset.sum_le_sum
    intro j hj
    rw [← Finset.mul_sum]
    exact mul_le_mul_of_nonneg_left (h j (Finset.mem_range.1 hj)) (hw j (Finset.mem_range.1 hj))
  refine h1.trans ?_
  rw [Finset.sum_comm]
  unfold wsize
  rw [Finset.mul_sum]
  apply Finset.sum_le_sum
  intro q hq
  have e : ∑ j ∈ Finset.range m, w j * (|x q| * |A q j|) = |x q| * ∑ j ∈ Finset.range m, w j * |A q j| := by
    rw [Finset.mul_sum]
    exact Finset.sum_congr rfl fun j _ => by ring
  rw [e]
  have := mul_le_mul_of_nonneg_left (hA q (Finset.mem_range.1 hq)) (abs_nonneg (x q))
  linarith

theorem abs_le_of_sub (a b : ℚ) : |a| ≤ |a - b| + |b| := by
  refine le_trans (le_of_eq ?_) (abs_add_le _ _)
  congr 1
  ring

section Stable

variable {fl : ℚ → ℚ} {u g : ℚ} (Rd : Rounding fl u) (dot : ℕ → ℕ → ℕ → List ℚ → List ℚ → ℚ)
  (r R : List (List ℚ)) (n m : ℕ) (hd : ∀ k i j, GoodDot (dot k i j) g m) (g0 : 0 ≤ g)
  {w : ℕ → ℚ} {sigma : ℚ} (hw : ∀ j < m, 0 ≤ w j) (hs0 : 0 ≤ sigma)
  (hs : ∀ q < m, ∑ j ∈ Finset.range m, w j * |at2 R q j| ≤ sigma * w q)

include Rd hd g0 hw hs0 hs

omit hs0 in
/-- **C123.** One iteration differs from the exact one, applied to the same spectrum, by little: relative to the
spectrum and to what is still missing. -/
theorem C123_step (k : ℕ) {i : ℕ} (hi : i < n) :
    wsize w m (fun j => unfAtF fl dot r R n m (k + 1) i j - (unfAtF fl dot r R n m k i j +
      (at2 r i j - ∑ q ∈ Finset.range m, unfAtF fl dot r R n m k i q * at2 R q j))) ≤
    (u + (1 + u) ^ 2 * (g * sigma)) * wsize w m (fun j => unfAtF fl dot r R n m k i j) +
    ((1 + u) ^ 2 - 1) * wsize w m (fun j => at2 r i j -
      ∑ q ∈ Finset.range m, unfAtF fl dot r R n m k i q * at2 R q j) := by
  have u0 : 0 ≤ u := by
    have := Rd.rel 1
    have := (abs_nonneg _).trans this
    simpa using this
  set x : ℕ → ℚ := fun j => unfAtF fl dot r R n m k i j with hx
  set y : ℕ → ℚ := fun j => ∑ q ∈ Finset.range m, x q * at2 R q j with hy
  set f : ℕ → ℚ := fun j => fldAtF fl dot r R n m k i j with hf
  set d : ℕ → ℚ := fun j => fl (at2 r i j - f j) with hd'
  have hN := wsize_nonneg hw x
  -- the folded spectrum
  have fold : wsize w m (fun j => f j - y j) ≤ g * (sigma * wsize w m x) := by
    set z : ℕ → ℚ := fun j => ∑ q ∈ Finset.range m, |x q| * |at2 R q j| with hz
    have z0 : ∀ j, |z j| = z j := fun j =>
      abs_of_nonneg (Finset.sum_nonneg fun q _ => mul_nonneg (abs_nonneg _) (abs_nonneg _))
    have b : ∀ j < m, |f j - y j| ≤ g * |z j| := by
      intro j hj
      have h1 := hd k i j ((List.range m).map fun q => x q) ((List.range m).map fun q => at2 R q j) (by simp) (by simp)
      rw [zipWith_sum _ _ _ m (by simp) (by simp), zipWith_sum _ _ _ m (by simp) (by simp)] at h1
      have e1 : ∑ q ∈ Finset.range m, ((List.range m).map fun q => x q).getD q 0 * ((List.range m).map fun q => at2 R q j).getD q 0 = y j := by
        rw [hy]
        apply Finset.sum_congr rfl
        intro q hq
        rw [Finset.mem_range] at hq
        rw [getD_map_range _ hq, getD_map_range _ hq]
      have e2 : ∑ q ∈ Finset.range m, |((List.range m).map fun q => x q).getD q 0| * |((List.range m).map fun q => at2 R q j).getD q 0| = ∑ q ∈ Finset.range m, |x q| * |at2 R q j| := by
        apply Finset.sum_congr rfl
        intro q hq
        rw [Finset.mem_range] at hq
        rw [getD_map_range _ hq, getD_map_range _ hq]
      rw [e1, e2] at h1
      rw [z0]
      show |fldAtF fl dot r R n m k i j - y j| ≤ _
      rw [fldF_eq fl dot r R n m k hi hj]
      exact h1
    have b1 := wsize_le hw (fun j => f j - y j) z g b
    have b2 := wsize_matrix hw (at2 R) sigma hs x z (fun j _ => (z0 j).le)
    exact b1.trans (mul_le_mul_of_nonneg_left b2 g0)
  -- the missing part
  have miss : wsize w m (fun j => at2 r i j - f j) ≤ wsize w m (fun j => at2 r i j - y j) + wsize w m (fun j => f j - y j) := by
    apply wsize_add hw
    intro j _
    rw [abs_sub_comm (f j)]
    refine le_trans (le_of_eq ?_) (abs_add_le _ _)
    congr 1
    ring
  have sub : wsize w m (fun j => d j - (at2 r i j - f j)) ≤ u * wsize w m (fun j => at2 r i j - f j) :=
    wsize_le hw _ _ u fun j _ => Rd.rel _
  have dsize : wsize w m d ≤ wsize w m (fun j => d j - (at2 r i j - f j)) + wsize w m (fun j => at2 r i j - f j) :=
    wsize_add hw _ _ _ fun j _ => abs_le_of_sub _ _
  have xd : wsize w m (fun j => x j + d j) ≤ wsize w m x + wsize w m d :=
    wsize_add hw _ _ _ fun j _ => abs_add_le _ _
  have add : wsize w m (fun j => unfAtF fl dot r R n m (k + 1) i j - (x j + d j)) ≤ u * wsize w m (fun j => x j + d j) := by
    apply wsize_le hw
    intro j hj
    rw [unfF_succ fl dot r R n m k hi hj]
    exact Rd.rel _
  have all1 : wsize w m (fun j => unfAtF fl dot r R n m (k + 1) i j - (x j + (at2 r i j - y j))) ≤
      wsize w m (fun j => unfAtF fl dot r R n m (k + 1) i j - (x j + d j)) + wsize w m (fun j => d j - (at2 r i j - y j)) := by
    apply wsize_add hw
    intro j _
    refine le_trans (le_of_eq ?_) (abs_add_le _ _)
    congr 1
    ring
  have all2 : wsize w m (fun j => d j - (at2 r i j - y j)) ≤
      wsize w m (fun j => d j - (at2 r i j - f j)) + wsize w m (fun j => f j - y j) := by
    apply wsize_add hw
    intro j _
    rw [abs_sub_comm (f j)]
    refine le_trans (le_of_eq ?_) (abs_add_le _ _)
    congr 1
    ring
  refine all1.trans ?_
  generalize wsize w m (fun j => unfAtF fl dot r R n m (k + 1) i j - (x j + d j)) = a1 at *
  generalize wsize w m (fun j => d j - (at2 r i j - y j)) = a2 at *
  generalize wsize w m (fun j => d j - (at2 r i j - f j)) = a3 at *
  generalize wsize w m (fun j => f j - y j) = a4 at *
  generalize wsize w m (fun j => at2 r i j - f j) = a5 at *
  generalize wsize w m (fun j => at2 r i j - y j) = a6 at *
  generalize wsize w m (fun j => x j + d j) = a7 at *
  generalize wsize w m d = a8 at *
  generalize wsize w m x = a9 at *
  have c1 : a8 ≤ (1 + u) * a5 := by linarith
  have c2 : u * a7 ≤ u * (a9 + (1 + u) * a5) := mul_le_mul_of_nonneg_left (by linarith) u0
  have c3 : u * a5 ≤ u * (a6 + a4) := mul_le_mul_of_nonneg_left miss u0
  have c4 : u * ((1 + u) * a5) ≤ u * ((1 + u) * (a6 + a4)) :=
    mul_le_mul_of_nonneg_left (mul_le_mul_of_nonneg_left miss (by linarith)) u0
  have c5 : (1 + u) ^ 2 * a4 ≤ (1 + u) ^ 2 * (g * (sigma * a9)) := mul_le_mul_of_nonneg_left fold (by positivity)
  nlinarith

omit hs0 in
/-- **C123.** If the rows of the response sum to one, the counts of an iteration differ from those of the raw spectrum
by the rounding errors of the last pass only: they do not add up. -/
theorem C123_counts (k : ℕ) {i : ℕ} (hi : i < n) (hw1 : ∀ j < m, w j = 1)
    (hR : ∀ q < m, ∑ j ∈ Finset.range m, at2 R q j = 1) :
    |∑ j ∈ Finset.range m, unfAtF fl dot r R n m (k + 1) i j - ∑ j ∈ Finset.range m, at2 r i j| ≤
    (u + (1 + u) ^ 2 * (g * sigma)) * wsize w m (fun j => unfAtF fl dot r R n m k i j) +
    ((1 + u) ^ 2 - 1) * wsize w m (fun j => at2 r i j -
      ∑ q ∈ Finset.range m, unfAtF fl dot r R n m k i q * at2 R q j) := by
  refine le_trans ?_ (C123_step Rd dot r R n m hd g0 hw hs k hi)
  have e : ∑ j ∈ Finset.range m, (unfAtF fl dot r R n m k i j +
      (at2 r i j - ∑ q ∈ Finset.range m, unfAtF fl dot r R n m k i q * at2 R q j)) = ∑ j ∈ Finset.range m, at2 r i j := by
    rw [Finset.sum_add_distrib, Finset.sum_sub_distrib, Finset.sum_comm]
    have : ∑ q ∈ Finset.range m, ∑ j ∈ Finset.range m, unfAtF fl dot r R n m k i q * at2 R q j =
        ∑ q ∈ Finset.range m, unfAtF fl dot r R n m k i q := by
      apply Finset.sum_congr rfl
      intro q hq
      rw [← Finset.mul_sum, hR q (Finset.mem_range.1 hq), mul_one]
    rw [this]
    ring
  rw [← e, ← Finset.sum_sub_distrib]
  refine (Finset.abs_sum_le_sum_abs _ _).trans (le_of_eq ?_)
  unfold wsize
  apply Finset.sum_congr rfl
  intro j hj
  rw [hw1 j (Finset.mem_range.1 hj), one_mul]

/-- **C123.** Stability: if `1 - R` shrinks the weighted size by `rho`, the distance to the spectrum `t` that folds to
the raw spectrum shrinks in each pass, up to a small part of the size of `t`. -/
theorem C123_shrinks {rho : ℚ}
    (hr : ∀ q < m, ∑ j ∈ Finset.range m, w j * |(if q = j then 1 else 0) - at2 R q j| ≤ rho * w q)
    (t : ℕ → ℚ) {i : ℕ} (hi : i < n) (ht : ∀ j < m, ∑ q ∈ Finset.range m, t q * at2 R q j = at2 r i j) (k : ℕ) :
    wsize w m (fun j => unfAtF fl dot r R n m (k + 1) i j - t j) ≤
      (rho + (u + (1 + u) ^ 2 * (g * sigma) + ((1 + u) ^ 2 - 1) * sigma)) *
        wsize w m (fun j => unfAtF fl dot r R n m k i j - t j) +
      (u + (1 + u) ^ 2 * (g * sigma)) * wsize w m t := by
  have u0 : 0 ≤ u := by
    have := Rd.rel 1
    have := (abs_nonneg _).trans this
    simpa using this
  have step := C123_step Rd dot r R n m hd g0 hw hs k hi
  set x : ℕ → ℚ := fun j => unfAtF fl dot r R n m k i j with hx
  set y : ℕ → ℚ := fun j => ∑ q ∈ Finset.range m, x q * at2 R q j with hy
  have n1 : wsize w m x ≤ wsize w m (fun j => x j - t j) + wsize w m t :=
    wsize_add hw _ _ _ fun j _ => abs_le_of_sub _ _
  have n2 : wsize w m (fun j => at2 r i j - y j) ≤ sigma * wsize w m (fun j => x j - t j) := by
    apply wsize_matrix hw (at2 R) sigma hs
    intro j hj
    simp only [hy]
    rw [← ht j hj, ← Finset.sum_sub_distrib]
    refine (Finset.abs_sum_le_sum_abs _ _).trans (le_of_eq ?_)
    apply Finset.sum_congr rfl
    intro q _
    rw [← sub_mul, abs_mul, abs_sub_comm]
  have n3 : wsize w m (fun j => x j + (at2 r i j - y j) - t j) ≤ rho * wsize w m (fun j => x j - t j) := by
    apply wsize_matrix hw (fun q j => (if q = j then 1 else 0) - at2 R q j) rho hr
    intro j hj
    have e : x j + (at2 r i j - y j) - t j =
        ∑ q ∈ Finset.range m, (x q - t q) * ((if q = j then 1 else 0) - at2 R q j) := by
      have : ∑ q ∈ Finset.range m, (x q - t q) * (if q = j then (1 : ℚ) else 0) = x j - t j := by
        rw [Finset.sum_eq_single j]
        · simp
        · intro q _ hq
          simp [hq]
        · intro h
          exact absurd (Finset.mem_range.2 hj) h
      simp only [mul_sub]
      rw [Finset.sum_sub_distrib, this]
      simp only [sub_mul]
      rw [Finset.sum_sub_distrib, ht j hj]
      simp only [hy]
      ring
    rw [e]
    refine (Finset.abs_sum_le_sum_abs _ _).trans (le_of_eq ?_)
    exact Finset.sum_congr rfl fun q _ => abs_mul _ _
  have n4 : wsize w m (fun j => unfAtF fl dot r R n m (k + 1) i j - t j) ≤
      wsize w m (fun j => unfAtF fl dot r R n m (k + 1) i j - (x j + (at2 r i j - y j))) +
      wsize w m (fun j => x j + (at2 r i j - y j) - t j) := by
    apply wsize_add hw
    intro j _
    refine le_trans (le_of_eq ?_) (abs_add_le _ _)
    congr 1
    ring
  have A0 : 0 ≤ u + (1 + u) ^ 2 * (g * sigma) := by positivity
  have B0 : 0 ≤ (1 + u) ^ 2 - 1 := by nlinarith
  have m1 := mul_le_mul_of_nonneg_left n1 A0
  have m2 := mul_le_mul_of_nonneg_left n2 B0
  refine n4.trans ?_
  nlinarith

/-- **C123.** After any number of passes: the distance has shrunk geometrically, up to what rounding leaves. -/
theorem C123_stable {rho : ℚ}
    (hr : ∀ q < m, ∑ j ∈ Finset.range m, w j * |(if q = j then 1 else 0) - at2 R q j| ≤ rho * w q)
    (hc : rho + (u + (1 + u) ^ 2 * (g * sigma) + ((1 + u) ^ 2 - 1) * sigma) < 1) (hrho : 0 ≤ rho)
    (t : ℕ → ℚ) {i : ℕ} (hi : i < n) (ht : ∀ j < m, ∑ q ∈ Finset.range m, t q * at2 R q j = at2 r i j) (k : ℕ) :
    wsize w m (fun j => unfAtF fl dot r R n m k i j - t j) ≤
      (rho + (u + (1 + u) ^ 2 * (g * sigma) + ((1 + u) ^ 2 - 1) * sigma)) ^ k *
        wsize w m (fun j => at2 r i j - t j) +
      (u + (1 + u) ^ 2 * (g * sigma)) * wsize w m t /
        (1 - (rho + (u + (1 + u) ^ 2 * (g * sigma) + ((1 + u) ^ 2 - 1) * sigma))) := by
  have u0 : 0 ≤ u := by
    have := Rd.rel 1
    have := (abs_nonneg _).trans this
    simpa using this
  have T0 := wsize_nonneg hw t
  have A0 : 0 ≤ u + (1 + u) ^ 2 * (g * sigma) := by positivity
  have B0 : 0 ≤ (1 + u) ^ 2 - 1 := by nlinarith
  have sh := fun k => C123_shrinks Rd dot r R n m hd g0 hw hs0 hs hr t hi ht k
  have c0 : 0 ≤ rho + (u + (1 + u) ^ 2 * (g * sigma) + ((1 + u) ^ 2 - 1) * sigma) := by positivity
  generalize rho + (u + (1 + u) ^ 2 * (g * sigma) + ((1 + u) ^ 2 - 1) * sigma) = c at *
  have a0 := mul_nonneg A0 T0
  generalize (u + (1 + u) ^ 2 * (g * sigma)) * wsize w m t = a at *
  have fix : c * (a / (1 - c)) + a = a / (1 - c) := by
    have : (1 : ℚ) - c ≠ 0 := by linarith
    field_simp
    ring
  induction k with
  | zero =>
    have a1 : 0 ≤ a / (1 - c) := div_nonneg a0 (by linarith)
    simp only [unfF_zero, pow_zero, one_mul]
    linarith
  | succ k ih =>
    refine (sh k).trans ?_
    have := mul_le_mul_of_nonneg_left ih c0
    rw [pow_succ]
    nlinarith

end Stable

/-- Specification: a detector that sees at most the full energy of a photon, with the probability of at least `p` for
the full energy and of at most 1 altogether. -/
structure Detector (R : List (List ℚ)) (m : ℕ) (p : ℚ) : Prop where
  pos : 0 < p
  nonneg : ∀ q < m, ∀ j < m, 0 ≤ at2 R q j
  below : ∀ q < m, ∀ j < m, q < j → at2 R q j = 0
  full : ∀ q < m, p ≤ at2 R q q
  total : ∀ q < m, ∑ j ∈ Finset.range m, at2 R q j ≤ 1

/-- With weights that grow by a factor `l` from bin to bin, a detector does not increase the size. -/
theorem detector_size {R : List (List ℚ)} {m : ℕ} {p l : ℚ} (D : Detector R m p) (hl : 1 ≤ l) :
    ∀ q < m, ∑ j ∈ Finset.range m, l ^ j * |at2 R q j| ≤ 1 * l ^ q := by
  intro q hq
  have l0 : 0 < l := by linarith
  have h1 : ∑ j ∈ Finset.range m, l ^ j * |at2 R q j| ≤ ∑ j ∈ Finset.range m, l ^ q * at2 R q j := by
    apply Finset.sum_le_sum
    intro j hj
    rw [Finset.mem_range] at hj
    rw [abs_of_nonneg (D.nonneg q hq j hj)]
    by_cases h : q < j
    · rw [D.below q hq j hj h]
      simp
    · exact mul_le_mul_of_nonneg_right (pow_le_pow_right₀ hl (by omega)) (D.nonneg q hq j hj)
  rw [← Finset.mul_sum] at h1
  have := mul_le_mul_of_nonneg_left (D.total q hq) (pow_nonneg l0.le q)
  linarith

/-- What is missing after a pass shrinks by `(1 - p) (1 + 1/l)`. -/
theorem detector_shrinks {R : List (List ℚ)} {m : ℕ} {p l : ℚ} (D : Detector R m p) (hl : 1 ≤ l) :
    ∀ q < m, ∑ j ∈ Finset.range m, l ^ j * |(if q = j then 1 else 0) - at2 R q j| ≤ ((1 - p) * (1 + 1 / l)) * l ^ q := by
  intro q hq
  have l0 : 0 < l := by linarith
  have d1 : at2 R q q ≤ 1 := by
    refine le_trans ?_ (D.total q hq)
    exact Finset.single_le_sum (f := fun j => at2 R q j) (fun j hj => D.nonneg q hq j (Finset.mem_range.1 hj))
      (Finset.mem_range.2 hq)
  rw [← Finset.add_sum_erase _ _ (Finset.mem_range.2 hq)]
  have t := D.total q hq
  rw [← Finset.add_sum_erase _ _ (Finset.mem_range.2 hq)] at t
  have h1 : ∑ j ∈ (Finset.range m).erase q, l ^ j * |(if q = j then 1 else 0) - at2 R q j| ≤
      ∑ j ∈ (Finset.range m).erase q, l ^ q / l * at2 R q j := by
    apply Finset.sum_le_sum
    intro j hj
    rw [Finset.mem_erase, Finset.mem_range] at hj
    rw [if_neg (fun h => hj.1 h.symm), zero_sub, abs_neg, abs_of_nonneg (D.nonneg q hq j hj.2)]
    by_cases h : q < j
    · rw [D.below q hq j hj.2 h]
      simp
    · apply mul_le_mul_of_nonneg_right _ (D.nonneg q hq j hj.2)
      rw [le_div_iff₀ l0, ← pow_succ]
      exact pow_le_pow_right₀ hl (by omega)
  rw [← Finset.mul_sum] at h1
  have c0 : 0 ≤ l ^ q / l := by positivity
  have h2 : l ^ q / l * ∑ j ∈ (Finset.range m).erase q, at2 R q j ≤ l ^ q / l * (1 - at2 R q q) :=
    mul_le_mul_of_nonneg_left (by linarith) c0
  have h3 : l ^ q / l * (1 - at2 R q q) ≤ l ^ q / l * (1 - p) := mul_le_mul_of_nonneg_left (by linarith [D.full q hq]) c0
  have h4 : l ^ q * (1 - at2 R q q) ≤ l ^ q * (1 - p) :=
    mul_le_mul_of_nonneg_left (by linarith [D.full q hq]) (by positivity)
  rw [if_pos rfl, abs_of_nonneg (by linarith)]
  have e : ((1 - p) * (1 + 1 / l)) * l ^ q = l ^ q * (1 - p) + l ^ q / l * (1 - p) := by
    field_simp
  rw [e]
  linarith

/-- **C123.** For every detector and every number of passes, each bin is within what is left of the first distance and
what rounding leaves: `l` is any number with `(1 - p)(1 + 1/l)` and the rounding errors below 1. -/
theorem C123_detector {fl : ℚ → ℚ} {u g p l : ℚ} (Rd : Rounding fl u) (dot : ℕ → ℕ → ℕ → List ℚ → List ℚ → ℚ)
    (r R : List (List ℚ)) (n m : ℕ) (hd : ∀ k i j, GoodDot (dot k i j) g m) (g0 : 0 ≤ g) (D : Detector R m p)
    (hl : 1 ≤ l) (hp : p ≤ 1)
    (hc : (1 - p) * (1 + 1 / l) + (u + (1 + u) ^ 2 * (g * 1) + ((1 + u) ^ 2 - 1) * 1) < 1)
    (t : ℕ → ℚ) {i : ℕ} (hi : i < n) (ht : ∀ j < m, ∑ q ∈ Finset.range m, t q * at2 R q j = at2 r i j) (k : ℕ)
    {j : ℕ} (hj : j < m) :
    |unfAtF fl dot r R n m k i j - t j| ≤
      ((1 - p) * (1 + 1 / l) + (u + (1 + u) ^ 2 * (g * 1) + ((1 + u) ^ 2 - 1) * 1)) ^ k *
        ∑ q ∈ Finset.range m, l ^ q * |at2 r i q - t q| +
      (u + (1 + u) ^ 2 * (g * 1)) * (∑ q ∈ Finset.range m, l ^ q * |t q|) /
        (1 - ((1 - p) * (1 + 1 / l) + (u + (1 + u) ^ 2 * (g * 1) + ((1 + u) ^ 2 - 1) * 1))) := by
  have l0 : 0 < l := by linarith
  have r0 : 0 ≤ (1 - p) * (1 + 1 / l) := mul_nonneg (by linarith) (by positivity)
  refine le_trans ?_ (C123_stable Rd dot r R n m hd g0 (w := fun j => l ^ j) (fun j _ => by positivity) zero_le_one
    (detector_size D hl) (detector_shrinks D hl) hc r0 t hi ht k)
  unfold wsize
  have h1 : l ^ j * |unfAtF fl dot r R n m k i j - t j| ≤
      ∑ q ∈ Finset.range m, l ^ q * |unfAtF fl dot r R n m k i q - t q| :=
    Finset.single_le_sum (f := fun q => l ^ q * |unfAtF fl dot r R n m k i q - t q|)
      (fun q _ => mul_nonneg (by positivity) (abs_nonneg _)) (Finset.mem_range.2 hj)
  refine le_trans ?_ h1
  have : 1 ≤ l ^ j := one_le_pow₀ hl
  nlinarith [abs_nonneg (unfAtF fl dot r R n m k i j - t j)]

/-- A detector always leaves room: there is an `l` as asked for if the errors of rounding are small enough. -/
theorem detector_room {p : ℚ} (hp : 0 < p) (hp1 : p ≤ 1) : ∃ l : ℚ, 1 ≤ l ∧ (1 - p) * (1 + 1 / l) ≤ 1 - p ^ 2 := by
  have p0 : 0 < p := hp
  refine ⟨1 / p, by rw [le_div_iff₀ p0]; linarith, le_of_eq ?_⟩
  field_simp
  ring

/-- **C123.** The exact iteration converges geometrically, at least as fast as `(1 - p²)^k`: distances measured with
weights `p^(-j)`. -/
theorem C123_rate {p : ℚ} (r R : List (List ℚ)) (n m : ℕ) (D : Detector R m p) (hp : p ≤ 1) (t : ℕ → ℚ) {i : ℕ}
    (hi : i < n) (ht : ∀ j < m, ∑ q ∈ Finset.range m, t q * at2 R q j = at2 r i j) (k : ℕ) {j : ℕ} (hj : j < m) :
    |unfAt r R n m k i j - t j| ≤ (1 - p ^ 2) ^ k * ∑ q ∈ Finset.range m, (1 / p) ^ q * |at2 r i q - t q| := by
  have p0 := D.pos
  have hl : 1 ≤ 1 / p := by rw [le_div_iff₀ p0]; linarith
  have e0 : (1 - p) * (1 + 1 / (1 / p)) = 1 - p ^ 2 := by
    field_simp
    ring
  have Rd : Rounding id 0 := ⟨monotone_id, fun q => by simp⟩
  have hd : ∀ k i j : ℕ, GoodDot ((fun _ _ _ a b => (List.zipWith (fun x y => x * y) a b).sum :
      ℕ → ℕ → ℕ → List ℚ → List ℚ → ℚ) k i j) 0 m := by
    intro k i j a b _ _
    simp
  have := C123_detector Rd _ r R n m hd le_rfl D hl hp (by rw [e0]; nlinarith) t hi ht k hj
  rw [e0] at this
  unfold unfAtF at this
  rw [C123_exact] at this
  simpa [unfAt] using this

/-- **C123.** If the computed folded spectrum is the raw one, the unfolded spectrum of the next pass is the same. -/
theorem C123_fixed {fl : ℚ → ℚ} (h0 : fl 0 = 0) (dot : ℕ → ℕ → ℕ → List ℚ → List ℚ → ℚ) (r R : List (List ℚ)) (n m k : ℕ)
    {i j : ℕ} (hi : i < n) (hj : j < m) (hf : fldAtF fl dot r R n m k i j = at2 r i j)
    (hu : fl (unfAtF fl dot r R n m k i j) = unfAtF fl dot r R n m k i j) :
    unfAtF fl dot r R n m (k + 1) i j = unfAtF fl dot r R n m k i j := by
  rw [unfF_succ fl dot r R n m k hi hj, hf, sub_self, h0, add_zero, hu]

/-- **C123, fails in general.** With double precision the counts are not conserved exactly, even if the rows of the
response sum to one, all products are exact and nothing but doubles are used. -/
theorem C123_counts_fails :
    (∀ q < 2, ∑ j ∈ Finset.range 2, at2 [[1, 0], [1 / 2, 1 / 2]] q j = 1) ∧
    ∑ j ∈ Finset.range 2, unfAtF dbl (fun _ _ _ => dotF dbl (loopSum dbl)) [[dbl (1 / 10), dbl (2 / 10)]]
      [[1, 0], [1 / 2, 1 / 2]] 1 2 1 0 j ≠ ∑ j ∈ Finset.range 2, at2 [[dbl (1 / 10), dbl (2 / 10)]] 0 j := by
  constructor
  · decide +kernel
  · decide +kernel

/-- **C123.** Double precision: for a spectrum of `m` bins and dot products that add one by one, each pass brings the
spectrum nearer to the solution, up to a limit, if `(1 + 2^(-53))^(m + 4) < 1 + p²`. -/
theorem C123_double {p : ℚ} (r R : List (List ℚ)) (n m : ℕ) (D : Detector R m p) (hp : p ≤ 1)
    (hm : (1 + 1 / 2 ^ 53 : ℚ) ^ (m + 4) < 1 + p ^ 2) (t : ℕ → ℚ) {i : ℕ} (hi : i < n)
    (ht : ∀ j < m, ∑ q ∈ Finset.range m, t q * at2 R q j = at2 r i j) (k : ℕ) {j : ℕ} (hj : j < m) :
    |unfAtF dbl (fun _ _ _ => dotF dbl (loopSum dbl)) r R n m k i j - t j| ≤
      ((1 + 1 / 2 ^ 53) ^ (m + 4) - p ^ 2) ^ k * ∑ q ∈ Finset.range m, (1 / p) ^ q * |at2 r i q - t q| +
      ((1 + 1 / 2 ^ 53) ^ (m + 4) - 1) * (∑ q ∈ Finset.range m, (1 / p) ^ q * |t q|) /
        (1 + p ^ 2 - (1 + 1 / 2 ^ 53) ^ (m + 4)) := by
  have p0 := D.pos
  have hl : 1 ≤ 1 / p := by rw [le_div_iff₀ p0]; linarith
  have e0 : (1 - p) * (1 + 1 / (1 / p)) = 1 - p ^ 2 := by
    field_simp
    ring
  have hd : ∀ k i j : ℕ, GoodDot ((fun _ _ _ => dotF dbl (loopSum dbl) : ℕ → ℕ → ℕ → List ℚ → List ℚ → ℚ) k i j)
      ((1 + 1 / 2 ^ 53) ^ (m + 1) - 1) m := fun _ _ _ => C123_dot dbl_rounding id _ (C117_loop dbl) m
  generalize hu : (1 / 2 ^ 53 : ℚ) = u at *
  have u0 : 0 < u := by rw [← hu]; norm_num
  have one : (1 : ℚ) ≤ (1 + u) ^ (m + 1) := one_le_pow₀ (by linarith)
  have o3 : (1 : ℚ) ≤ (1 + u) ^ (m + 3) := one_le_pow₀ (by linarith)
  have eA : u + (1 + u) ^ 2 * (((1 + u) ^ (m + 1) - 1) * 1) + ((1 + u) ^ 2 - 1) * 1 = u + (1 + u) ^ (m + 3) - 1 := by
    rw [show m + 3 = m + 1 + 2 by ring, pow_add _ (m + 1) 2]
    ring
  have s4 : (1 + u) ^ (m + 4) = (1 + u) ^ (m + 3) * (1 + u) := pow_succ _ _
  have l4 : u + (1 + u) ^ (m + 3) ≤ (1 + u) ^ (m + 4) := by
    rw [s4]
    nlinarith
  have := C123_detector (u := u) (by rw [← hu]; exact dbl_rounding) _ r R n m hd (by linarith) D hl hp
    (by rw [e0, eA]; linarith) t hi ht k hj
  refine this.trans ?_
  rw [e0, eA]
  have w1 : 0 ≤ ∑ q ∈ Finset.range m, (1 / p) ^ q * |at2 r i q - t q| :=
    Finset.sum_nonneg fun q _ => mul_nonneg (by positivity) (abs_nonneg _)
  have w2 : 0 ≤ ∑ q ∈ Finset.range m, (1 / p) ^ q * |t q| :=
    Finset.sum_nonneg fun q _ => mul_nonneg (by positivity) (abs_nonneg _)
  apply add_le_add
  · apply mul_le_mul_of_nonneg_right _ w1
    apply pow_le_pow_left₀ _ (by linarith)
    nlinarith
  · have b : u + (1 + u) ^ 2 * (((1 + u) ^ (m + 1) - 1) * 1) ≤ (1 + u) ^ (m + 4) - 1 := by
      nlinarith [sq_nonneg u]
    apply div_le_div₀ (mul_nonneg (by linarith) w2) (mul_le_mul_of_nonneg_right b w2) (by linarith) (by linarith)

/-- A detector with two bins. -/
example : Detector [[1, 0], [1 / 2, 1 / 2]] 2 (1 / 2) where
  pos := by norm_num
  nonneg := by decide +kernel
  below := by decide +kernel
  full := by decide +kernel
  total := by decide +kernel

/-- The hypotheses of `C123_detector` for double precision, dot products of 1000 bins in any order and a full-energy
probability of a half. -/
example : (1 - 1 / 2 : ℚ) * (1 + 1 / 2) + (1 / 2 ^ 53 + (1 + 1 / 2 ^ 53) ^ 2 * (1 / 10 ^ 12 * 1) +
    ((1 + 1 / 2 ^ 53) ^ 2 - 1) * 1) < 1 ∧
    (1 / 2 ^ 53 + (1 + 1 / 2 ^ 53) ^ 2 * (1 / 10 ^ 12 * 1) : ℚ) < 1 / 10 ^ 11 := by
  norm_num

theorem pow_double {u : ℚ} (u0 : 0 ≤ u) (n : ℕ) (e f : ℚ) (hn : (1 + u) ^ n ≤ 1 + e) (hf : 2 * e + e ^ 2 ≤ f) :
    (1 + u) ^ (2 * n) ≤ 1 + f := by
  rw [mul_comm, pow_mul]
  have h := pow_le_pow_left₀ (pow_nonneg (by linarith) n) hn 2
  generalize (1 + u) ^ n = z at *
  nlinarith

theorem pow_thousand {u : ℚ} (u0 : 0 ≤ u) (h : u ≤ 1 / 10 ^ 15) : (1 + u) ^ 1004 ≤ 1 + 1 / 10 ^ 9 := by
  have h0 : (1 + u) ^ 1 ≤ 1 + 1 / 10 ^ 15 := by rw [pow_one]; linarith
  have h1 := pow_double u0 1 _ (3 / 10 ^ 15) h0 (by norm_num)
  have h2 := pow_double u0 _ _ (9 / 10 ^ 15) h1 (by norm_num)
  have h3 := pow_double u0 _ _ (27 / 10 ^ 15) h2 (by norm_num)
  have h4 := pow_double u0 _ _ (81 / 10 ^ 15) h3 (by norm_num)
  have h5 := pow_double u0 _ _ (243 / 10 ^ 15) h4 (by norm_num)
  have h6 := pow_double u0 _ _ (729 / 10 ^ 15) h5 (by norm_num)
  have h7 := pow_double u0 _ _ (2187 / 10 ^ 15) h6 (by norm_num)
  have h8 := pow_double u0 _ _ (6561 / 10 ^ 15) h7 (by norm_num)
  have h9 := pow_double u0 _ _ (19683 / 10 ^ 15) h8 (by norm_num)
  have h10 := pow_double u0 _ _ (59049 / 10 ^ 15) h9 (by norm_num)
  have a : (1 : ℚ) ≤ 1 + u := by linarith
  refine (pow_le_pow_right₀ a (by norm_num)).trans (h10.trans (by norm_num))

/-- The hypothesis of `C123_double` for a thousand bins and a full-energy probability of a tenth. -/
example : (1 + 1 / 2 ^ 53 : ℚ) ^ (1000 + 4) < 1 + (1 / 10) ^ 2 :=
  lt_of_le_of_lt (pow_thousand (by norm_num) (by norm_num)) (by norm_num)

end Ompy
