import Verif.InterpRounding
import Verif.SumRoundingProps
import Verif.ResponseProps
import Verif.InterpMatProps
import Verif.UnitRoundingProps

/-!
# C151: linear interpolation of the response tables with rounded numbers
-/

namespace Ompy

/-- The straight line through two points. -/
def onLine (x0 y0 x1 y1 x : ℚ) : ℚ := y0 + (x - x0) / (x1 - x0) * (y1 - y0)

/-- `k` factors between `1 - u` and `1 / (1 - u)`, for numbers of either sign. -/
def Factor (u : ℚ) (k : ℕ) (x y : ℚ) : Prop := ∃ t, (1 - u) ^ k ≤ t ∧ (1 - u) ^ k * t ≤ 1 ∧ y = t * x

theorem Factor.rounded {fl : ℚ → ℚ} {u : ℚ} (hfl : Rounding fl u) (hu1 : u < 1) (q : ℚ) : Factor u 1 q (fl q) := by
  have h := hfl.rel q
  rcases eq_or_ne q 0 with rfl | hq
  · have hu : 0 ≤ u := by
      have h1 := (abs_nonneg _).trans (hfl.rel 1)
      simpa using h1
    refine ⟨1, by linarith, by linarith, ?_⟩
    simpa using h
  · have hp : 0 < |q| := abs_pos.2 hq
    have hd : |fl q / q - 1| ≤ u := by
      have : fl q / q - 1 = (fl q - q) / q := by field_simp
      rw [this, abs_div, div_le_iff₀ hp]
      exact h
    rw [abs_le] at hd
    refine ⟨fl q / q, by linarith, ?_, by field_simp⟩
    have : (1 - u) ^ 1 * (fl q / q) ≤ (1 - u) * (1 + u) := by
      rw [pow_one]
      exact mul_le_mul_of_nonneg_left (by linarith) (by linarith)
    nlinarith [sq_nonneg u]

theorem Factor.mul {u : ℚ} (hu1 : u < 1) {k l : ℕ} {x y x' y' : ℚ} (h : Factor u k x y) (h' : Factor u l x' y') :
    Factor u (k + l) (x * x') (y * y') := by
  obtain ⟨t, a, b, rfl⟩ := h
  obtain ⟨s, c, d, rfl⟩ := h'
  have p : ∀ n : ℕ, (0 : ℚ) < (1 - u) ^ n := fun n => pow_pos (by linarith) n
  refine ⟨t * s, ?_, ?_, by ring⟩
  · rw [pow_add]
    exact mul_le_mul a c (p l).le ((p k).le.trans a)
  · rw [pow_add]
    calc (1 - u) ^ k * (1 - u) ^ l * (t * s) = ((1 - u) ^ k * t) * ((1 - u) ^ l * s) := by ring
      _ ≤ 1 * 1 := mul_le_mul b d (mul_nonneg (p l).le ((p l).le.trans c)) (by norm_num)
      _ = 1 := by norm_num

theorem Factor.inv {u : ℚ} (hu1 : u < 1) {k : ℕ} {x y : ℚ} (h : Factor u k x y) : Factor u k x⁻¹ y⁻¹ := by
  obtain ⟨t, a, b, rfl⟩ := h
  have p : (0 : ℚ) < (1 - u) ^ k := pow_pos (by linarith) k
  have ht : 0 < t := p.trans_le a
  refine ⟨t⁻¹, ?_, ?_, by rw [mul_inv]⟩
  · rw [le_inv_comm₀ p ht, ← one_div, le_div_iff₀ p]
    linarith
  · rw [← div_eq_mul_inv, div_le_one ht]
    exact a

theorem Factor.trans {u : ℚ} (hu1 : u < 1) {k l : ℕ} {x y z : ℚ} (h : Factor u k x y) (h' : Factor u l y z) : Factor u (k + l) x z := by
  obtain ⟨t, a, b, rfl⟩ := h
  obtain ⟨s, c, d, rfl⟩ := h'
  obtain ⟨w, e, f, g⟩ := Factor.mul hu1 (x := 1) (x' := 1) (k := k) (l := l) ⟨t, a, b, rfl⟩ ⟨s, c, d, rfl⟩
  refine ⟨w, e, f, ?_⟩
  have : w = t * s := by linarith
  rw [this]; ring

/-- The largest relative change by `k` factors. -/
def excess (u : ℚ) (k : ℕ) : ℚ := ((1 - u) ^ k)⁻¹ - 1

theorem excess_nonneg {u : ℚ} (hu : 0 ≤ u) (hu1 : u < 1) (k : ℕ) : 0 ≤ excess u k := by
  have p : (0 : ℚ) < (1 - u) ^ k := pow_pos (by linarith) k
  have : (1 - u) ^ k ≤ 1 := pow_le_one₀ (by linarith) (by linarith)
  have := one_le_inv_iff₀.2 ⟨p, this⟩
  unfold excess
  linarith

theorem Factor.abs_sub {u : ℚ} (hu1 : u < 1) {k : ℕ} {x y : ℚ} (h : Factor u k x y) : |y - x| ≤ excess u k * |x| := by
  obtain ⟨t, a, b, rfl⟩ := h
  have p : (0 : ℚ) < (1 - u) ^ k := pow_pos (by linarith) k
  have e : t * x - x = (t - 1) * x := by ring
  rw [e, abs_mul]
  apply mul_le_mul_of_nonneg_right _ (abs_nonneg _)
  have h2 : t ≤ ((1 - u) ^ k)⁻¹ := by
    rw [← one_div, le_div_iff₀ p]; linarith
  have h3 : 2 - ((1 - u) ^ k)⁻¹ ≤ (1 - u) ^ k := by
    have hm : (1 - u) ^ k * ((1 - u) ^ k)⁻¹ = 1 := mul_inv_cancel₀ p.ne'
    have hi : 0 < ((1 - u) ^ k)⁻¹ := inv_pos.2 p
    nlinarith [sq_nonneg ((1 - u) ^ k - 1)]
  unfold excess
  rw [abs_le]
  constructor <;> linarith

theorem segF_bound {fl : ℚ → ℚ} {u : ℚ} (hfl : Rounding fl u) (hu : 0 ≤ u) (hu1 : u < 1) (x0 y0 x1 y1 x : ℚ) :
    |segF fl x0 y0 x1 y1 x - onLine x0 y0 x1 y1 x| ≤
      u * |onLine x0 y0 x1 y1 x| + (1 + u) * excess u 5 * |onLine x0 y0 x1 y1 x - y0| := by
  have r := Factor.rounded hfl hu1
  set P := (x - x0) / (x1 - x0) * (y1 - y0) with hP
  have hL : onLine x0 y0 x1 y1 x = y0 + P := rfl
  have hQ : Factor u 5 P (fl (fl (fl (y1 - y0) / fl (x1 - x0)) * fl (x - x0))) := by
    have h1 : Factor u 2 ((y1 - y0) / (x1 - x0)) (fl (y1 - y0) / fl (x1 - x0)) := by
      rw [div_eq_mul_inv, div_eq_mul_inv]
      exact (r _).mul hu1 ((r _).inv hu1)
    have h2 := h1.trans hu1 (r _)
    have h3 := (h2.mul hu1 (r (x - x0))).trans hu1 (r _)
    have : (y1 - y0) / (x1 - x0) * (x - x0) = P := by rw [hP]; ring
    rwa [this] at h3
  have hb := hQ.abs_sub hu1
  unfold segF
  set Q := fl (fl (fl (y1 - y0) / fl (x1 - x0)) * fl (x - x0))
  rw [hL]
  have a1 := hfl.rel (Q + y0)
  have a2 : |Q + y0| ≤ |y0 + P| + |Q - P| := by
    have : Q + y0 = (y0 + P) + (Q - P) := by ring
    rw [this]
    exact abs_add_le _ _
  have a3 : |fl (Q + y0) - (y0 + P)| ≤ |fl (Q + y0) - (Q + y0)| + |Q - P| := by
    have : fl (Q + y0) - (y0 + P) = (fl (Q + y0) - (Q + y0)) + (Q - P) := by ring
    rw [this]
    exact abs_add_le _ _
  have e : y0 + P - y0 = P := by ring
  rw [e]
  nlinarith [mul_le_mul_of_nonneg_left a2 hu]

/-- The segment used for `x`. -/
theorem interpLinF_segment (fl : ℚ → ℚ) (xs : List ℚ) (hs : xs.Pairwise (· < ·)) (ys : ℕ → ℚ) (k : ℕ) (hk : k + 1 < xs.length) (x : ℚ)
    (h0 : k = 0 ∨ xs.getD k 0 < x) (h1 : k + 2 = xs.length ∨ x ≤ xs.getD (k + 1) 0) :
    interpLinF fl xs ys x = segF fl (xs.getD k 0) (ys k) (xs.getD (k + 1) 0) (ys (k + 1)) x := by
  have hs' : xs.Pairwise (· ≤ ·) := hs.imp fun h => h.le
  have hss := searchsorted_left xs hs' x
  have hhi : max 1 (min (searchsorted xs x false) (xs.length - 1)) = k + 1 := by
    have a : k = 0 ∨ k < searchsorted xs x false := h0.imp_right (hss k (by omega)).1
    have b : k + 2 = xs.length ∨ searchsorted xs x false ≤ k + 1 := by
      refine h1.imp_right fun h => ?_
      by_contra hc
      have := (hss (k + 1) hk).2 (by omega)
      linarith
    omega
  unfold interpLinF
  simp only
  rw [hhi, Nat.add_sub_cancel]

/-- **C151.** In each segment, and in the first and last one also outside the table, the computed value differs from the straight line
by at most one rounding of the value and five of the part above the left point. -/
theorem C151_segment {fl : ℚ → ℚ} {u : ℚ} (hfl : Rounding fl u) (hu : 0 ≤ u) (hu1 : u < 1) (xs : List ℚ) (hs : xs.Pairwise (· < ·))
    (ys : ℕ → ℚ) (k : ℕ) (hk : k + 1 < xs.length) (x : ℚ)
    (h0 : k = 0 ∨ xs.getD k 0 < x) (h1 : k + 2 = xs.length ∨ x ≤ xs.getD (k + 1) 0) :
    |interpLinF fl xs ys x - (ys k + (x - xs.getD k 0) / (xs.getD (k + 1) 0 - xs.getD k 0) * (ys (k + 1) - ys k))| ≤
      u * |ys k + (x - xs.getD k 0) / (xs.getD (k + 1) 0 - xs.getD k 0) * (ys (k + 1) - ys k)| +
      (1 + u) * (1 / (1 - u) ^ 5 - 1) * |(x - xs.getD k 0) / (xs.getD (k + 1) 0 - xs.getD k 0) * (ys (k + 1) - ys k)| := by
  rw [interpLinF_segment fl xs hs ys k hk x h0 h1]
  have := segF_bound hfl hu hu1 (xs.getD k 0) (ys k) (xs.getD (k + 1) 0) (ys (k + 1)) x
  unfold onLine excess at this
  rw [add_sub_cancel_left] at this
  rwa [one_div]

example : ∃ xs : List ℚ, xs.Pairwise (· < ·) ∧ 1 + 1 < xs.length ∧ xs.getD 1 0 < 250 ∧ (250 : ℚ) ≤ xs.getD 2 0 ∧
    interpLinF dbl xs (fun k : ℕ => 1 / (k + 1)) 250 = 5 / 12 + 1 / (3 * 2 ^ 54) := by
  refine ⟨[100, 200, 300], ?_⟩
  decide +kernel

theorem axis_lt {xs : List ℚ} (hs : xs.Pairwise (· < ·)) {i j : ℕ} (hij : i < j) (hj : j < xs.length) : xs.getD i 0 < xs.getD j 0 := by
  rw [List.getD_eq_getElem _ _ (by omega), List.getD_eq_getElem _ _ hj]
  exact List.pairwise_iff_getElem.1 hs _ _ _ _ hij

theorem axis_le {xs : List ℚ} (hs : xs.Pairwise (· < ·)) {i j : ℕ} (hij : i ≤ j) (hj : j < xs.length) : xs.getD i 0 ≤ xs.getD j 0 := by
  rcases hij.eq_or_lt with rfl | h
  · exact le_rfl
  · exact (axis_lt hs h hj).le

/-- Every point of the table lies in a segment that is open at the left, except for the first. -/
theorem find_segment {xs : List ℚ} (hn : 2 ≤ xs.length) {x : ℚ}
    (h0 : xs.getD 0 0 ≤ x) (h1 : x ≤ xs.getD (xs.length - 1) 0) :
    ∃ k, k + 1 < xs.length ∧ (k = 0 ∨ xs.getD k 0 < x) ∧ xs.getD k 0 ≤ x ∧ x ≤ xs.getD (k + 1) 0 := by
  have hex : ∃ k, x ≤ xs.getD (k + 1) 0 := ⟨xs.length - 2, by rwa [show xs.length - 2 + 1 = xs.length - 1 by omega]⟩
  classical
  have hmin : ∀ {m : ℕ}, m < Nat.find hex → ¬ x ≤ xs.getD (m + 1) 0 := fun h => Nat.find_min hex h
  have hle : Nat.find hex ≤ xs.length - 2 := Nat.find_min' hex (by rwa [show xs.length - 2 + 1 = xs.length - 1 by omega])
  refine ⟨Nat.find hex, by omega, ?_, ?_, Nat.find_spec hex⟩
  · rcases Nat.eq_zero_or_pos (Nat.find hex) with h | h
    · exact .inl h
    · right
      have := hmin (show Nat.find hex - 1 < Nat.find hex by omega)
      rw [Nat.sub_add_cancel h] at this
      exact not_le.1 this
  · rcases Nat.eq_zero_or_pos (Nat.find hex) with h | h
    · rw [h]; exact h0
    · have := hmin (show Nat.find hex - 1 < Nat.find hex by omega)
      rw [Nat.sub_add_cancel h] at this
      exact (not_le.1 this).le

theorem onLine_range {x0 y0 x1 y1 x M : ℚ} (hx : x0 < x1) (h0 : x0 ≤ x) (h1 : x ≤ x1) (a0 : 0 ≤ y0) (a1 : y0 ≤ M) (b0 : 0 ≤ y1) (b1 : y1 ≤ M) :
    |onLine x0 y0 x1 y1 x| ≤ M ∧ |onLine x0 y0 x1 y1 x - y0| ≤ M := by
  have hd : 0 < x1 - x0 := by linarith
  unfold onLine
  set t := (x - x0) / (x1 - x0) with ht
  have t0 : 0 ≤ t := div_nonneg (by linarith) hd.le
  have t1 : t ≤ 1 := by rw [ht, div_le_one hd]; linarith
  rw [abs_le, abs_le]
  refine ⟨⟨?_, ?_⟩, ?_, ?_⟩ <;>
    nlinarith [mul_nonneg t0 b0, mul_nonneg t0 a0, mul_nonneg (sub_nonneg.2 t1) a0, mul_nonneg (sub_nonneg.2 t1) (sub_nonneg.2 a1),
      mul_nonneg t0 (sub_nonneg.2 b1), mul_nonneg t0 (sub_nonneg.2 a1), mul_nonneg (sub_nonneg.2 t1) (a0.trans a1)]

theorem segF_id (x0 y0 x1 y1 x : ℚ) : segF id x0 y0 x1 y1 x = onLine x0 y0 x1 y1 x := by
  unfold segF onLine
  simp only [id]
  ring

/-- **C151.** Without rounding it is the interpolation of C43 and C90, for every table and point. -/
theorem C151_exact (xs : List ℚ) (ys : ℕ → ℚ) (x : ℚ) : interpLinF id xs ys x = interpLin xs ys x := rfl

/-- The segment `np.interp` uses for `x`. -/
theorem interpZeroF_segment (fl : ℚ → ℚ) (xs : List ℚ) (hs : xs.Pairwise (· < ·)) (ys : ℕ → ℚ) (k : ℕ) (hk : k + 1 < xs.length) (x : ℚ)
    (h0 : xs.getD k 0 < x) (h1 : x < xs.getD (k + 1) 0) :
    interpZeroF fl xs ys x = segF fl (xs.getD k 0) (ys k) (xs.getD (k + 1) 0) (ys (k + 1)) x := by
  have hs' : xs.Pairwise (· ≤ ·) := hs.imp fun h => h.le
  have hss := searchsorted_right xs hs' x
  have a := (hss k (by omega)).1 h0.le
  have b : ¬ k + 1 < searchsorted xs x true := fun h => absurd ((hss (k + 1) hk).2 h) (not_le.2 h1)
  have e : searchsorted xs x true - 1 = k := by omega
  have c0 := axis_le hs (Nat.zero_le k) (by omega)
  have c1 := axis_le hs (show k + 1 ≤ xs.length - 1 by omega) (by omega)
  unfold interpZeroF
  rw [if_neg (by rw [not_or, not_lt, not_lt]; constructor <;> linarith)]
  simp only
  rw [e, if_neg h0.ne]

/-- **C151.** With `fill_value=0` a tabulated value is returned as it stands, for every rounding. -/
theorem C151_node (fl : ℚ → ℚ) (xs : List ℚ) (hs : xs.Pairwise (· < ·)) (ys : ℕ → ℚ) (k : ℕ) (hk : k < xs.length) :
    interpZeroF fl xs ys (xs.getD k 0) = ys k := by
  have hs' : xs.Pairwise (· ≤ ·) := hs.imp fun h => h.le
  have hss := searchsorted_right xs hs' (xs.getD k 0)
  have a := (hss k hk).1 le_rfl
  have b : ¬ (k + 1 < xs.length ∧ k + 1 < searchsorted xs (xs.getD k 0) true) := fun ⟨h, h'⟩ =>
    absurd ((hss (k + 1) h).2 h') (not_le.2 (axis_lt hs (by omega) h))
  have c : searchsorted xs (xs.getD k 0) true ≤ xs.length := by
    unfold searchsorted
    simp only [if_true]
    exact List.length_filter_le _ _
  have e : searchsorted xs (xs.getD k 0) true - 1 = k := by omega
  have c0 := axis_le hs (Nat.zero_le k) hk
  have c1 := axis_le hs (show k ≤ xs.length - 1 by omega) (by omega)
  unfold interpZeroF
  rw [if_neg (by rw [not_or, not_lt, not_lt]; exact ⟨c0, c1⟩)]
  simp only
  rw [e, if_pos rfl]

example : interpZeroF dbl [100, 200, 300] (fun k : ℕ => 1 / (k + 1)) 300 = 1 / 3 := by decide +kernel

/-- **C151.** With `fill_value=0` the value is zero outside the table. -/
theorem C151_outside (fl : ℚ → ℚ) (xs : List ℚ) (ys : ℕ → ℚ) (x : ℚ) (h : x < xs.getD 0 0 ∨ xs.getD (xs.length - 1) 0 < x) :
    interpZeroF fl xs ys x = 0 := by
  unfold interpZeroF
  rw [if_pos h]

example : interpZeroF dbl [100, 200] (fun _ => 1 / 2) 50 = 0 ∧ interpLinF dbl [100, 200] (fun _ => 1 / 2) 50 = 1 / 2 := by decide +kernel

/-- **C151.** A table with entries between `0` and `M` is interpolated with an absolute error of at most six roundings of `M`, in both
ways. -/
theorem C151_table {fl : ℚ → ℚ} {u : ℚ} (hfl : Rounding fl u) (hu : 0 ≤ u) (hu1 : u < 1) (xs : List ℚ) (hs : xs.Pairwise (· < ·))
    (hn : 2 ≤ xs.length) (ys : ℕ → ℚ) (M : ℚ) (hy : ∀ k < xs.length, 0 ≤ ys k ∧ ys k ≤ M) (x : ℚ)
    (h0 : xs.getD 0 0 ≤ x) (h1 : x ≤ xs.getD (xs.length - 1) 0) :
    |interpLinF fl xs ys x - interpLin xs ys x| ≤ (u + (1 + u) * (1 / (1 - u) ^ 5 - 1)) * M ∧
      |interpZeroF fl xs ys x - interpLin xs ys x| ≤ (u + (1 + u) * (1 / (1 - u) ^ 5 - 1)) * M := by
  obtain ⟨k, hk, a, b, c⟩ := find_segment hn h0 h1
  have hx := axis_lt hs (show k < k + 1 by omega) hk
  have y0 := hy k (by omega)
  have y1 := hy (k + 1) hk
  have e0 := excess_nonneg hu hu1 5
  have hM : 0 ≤ M := y0.1.trans y0.2
  have hE : 1 / (1 - u) ^ 5 - 1 = excess u 5 := by unfold excess; rw [one_div]
  have hI : interpLin xs ys x = onLine (xs.getD k 0) (ys k) (xs.getD (k + 1) 0) (ys (k + 1)) x := by
    rw [← C151_exact, interpLinF_segment id xs hs ys k hk x a (.inr c), segF_id]
  have hB : |segF fl (xs.getD k 0) (ys k) (xs.getD (k + 1) 0) (ys (k + 1)) x - interpLin xs ys x| ≤ (u + (1 + u) * excess u 5) * M := by
    have r := onLine_range hx b c y0.1 y0.2 y1.1 y1.2
    rw [hI]
    refine (segF_bound hfl hu hu1 _ _ _ _ _).trans ?_
    rw [add_mul u]
    exact add_le_add (mul_le_mul_of_nonneg_left r.1 hu) (mul_le_mul_of_nonneg_left r.2 (mul_nonneg (show (0 : ℚ) ≤ 1 + u by linarith) e0))
  have hz : (0 : ℚ) ≤ (u + (1 + u) * excess u 5) * M := mul_nonneg (add_nonneg hu (mul_nonneg (by linarith) e0)) hM
  rw [hE]
  refine ⟨by rw [interpLinF_segment fl xs hs ys k hk x a (.inr c)]; exact hB, ?_⟩
  rcases b.eq_or_lt with h | h
  · rw [← h, C151_node fl xs hs ys k (by omega), interpLin_knot xs hs hn k (by omega)]
    simpa using hz
  rcases c.eq_or_lt with h' | h'
  · rw [h', C151_node fl xs hs ys (k + 1) hk, interpLin_knot xs hs hn (k + 1) hk]
    simpa using hz
  · rw [interpZeroF_segment fl xs hs ys k hk x h h']
    exact hB

/-- **C151.** Without rounding `fill_value=0` gives the interpolation of C43 and C90 with zero outside. -/
theorem C151_exact_zero (xs : List ℚ) (hs : xs.Pairwise (· < ·)) (hn : 2 ≤ xs.length) (ys : ℕ → ℚ) (x : ℚ) :
    interpZeroF id xs ys x = interpZero xs ys x := by
  by_cases h : x < xs.getD 0 0 ∨ xs.getD (xs.length - 1) 0 < x
  · rw [C151_outside id xs ys x h]
    unfold interpZero
    rw [if_pos h]
  · have h' := h
    rw [not_or, not_lt, not_lt] at h
    obtain ⟨k, hk, a, b, c⟩ := find_segment hn h.1 h.2
    unfold interpZero
    rw [if_neg h']
    rcases b.eq_or_lt with e | e
    · rw [← e, C151_node id xs hs ys k (by omega), interpLin_knot xs hs hn k (by omega)]
    rcases c.eq_or_lt with e' | e'
    · rw [e', C151_node id xs hs ys (k + 1) hk, interpLin_knot xs hs hn (k + 1) hk]
    · rw [interpZeroF_segment id xs hs ys k hk x e e', ← C151_exact, interpLinF_segment id xs hs ys k hk x a (.inr c)]

example : interpZeroF id [100, 200, 300] (fun k : ℕ => 1 / (k + 1)) 250 = 5 / 12 := by decide +kernel

/-- **C151.** Interpolated probabilities in double precision are right to `7/2^53`. -/
theorem C151_double (xs : List ℚ) (hs : xs.Pairwise (· < ·)) (hn : 2 ≤ xs.length) (ys : ℕ → ℚ)
    (hy : ∀ k < xs.length, 0 ≤ ys k ∧ ys k ≤ 1) (x : ℚ) (h0 : xs.getD 0 0 ≤ x) (h1 : x ≤ xs.getD (xs.length - 1) 0) :
    |interpLinF dbl xs ys x - interpLin xs ys x| ≤ 7 / 2 ^ 53 ∧ |interpZeroF dbl xs ys x - interpLin xs ys x| ≤ 7 / 2 ^ 53 := by
  have := C151_table dbl_rounding (by norm_num) (by norm_num) xs hs hn ys 1 hy x h0 h1
  have hb : ((1 / 2 ^ 53 : ℚ) + (1 + 1 / 2 ^ 53) * (1 / (1 - 1 / 2 ^ 53) ^ 5 - 1)) * 1 ≤ 7 / 2 ^ 53 := by norm_num
  exact ⟨this.1.trans hb, this.2.trans hb⟩

example : ([100, 200, 300] : List ℚ).Pairwise (· < ·) ∧ (∀ k < 3, (0 : ℚ) ≤ 1 / ((k : ℕ) + 1 : ℚ) ∧ 1 / ((k : ℕ) + 1 : ℚ) ≤ 1) ∧
    interpLinF dbl [100, 200, 300] (fun k : ℕ => 1 / (k + 1)) 250 ≠ interpLin [100, 200, 300] (fun k : ℕ => 1 / (k + 1)) 250 := by
  decide +kernel

/-- **C151.** On one segment the computed values rise with the energy if the table rises and fall if it falls, and they never cross the
left value. -/
theorem C151_monotone {fl : ℚ → ℚ} {u : ℚ} (hfl : Rounding fl u) (xs : List ℚ) (hs : xs.Pairwise (· < ·))
    (ys : ℕ → ℚ) (k : ℕ) (hk : k + 1 < xs.length) (hf : fl (ys k) = ys k) (x x' : ℚ) (hx : xs.getD k 0 < x) (hxx : x ≤ x')
    (hx' : x' ≤ xs.getD (k + 1) 0) :
    (ys k ≤ ys (k + 1) → ys k ≤ interpLinF fl xs ys x ∧ interpLinF fl xs ys x ≤ interpLinF fl xs ys x') ∧
      (ys (k + 1) ≤ ys k → interpLinF fl xs ys x ≤ ys k ∧ interpLinF fl xs ys x' ≤ interpLinF fl xs ys x) := by
  rw [interpLinF_segment fl xs hs ys k hk x (.inr hx) (.inr (hxx.trans hx')),
    interpLinF_segment fl xs hs ys k hk x' (.inr (hx.trans_le hxx)) (.inr hx')]
  have z : fl 0 = 0 := by
    have := hfl.rel 0
    simpa using this
  have pos : ∀ {q : ℚ}, 0 ≤ q → 0 ≤ fl q := fun h => by rw [← z]; exact hfl.mono h
  have neg : ∀ {q : ℚ}, q ≤ 0 → fl q ≤ 0 := fun h => by rw [← z]; exact hfl.mono h
  have hd : 0 ≤ fl (xs.getD (k + 1) 0 - xs.getD k 0) := pos (by linarith)
  have p1 : 0 ≤ fl (x - xs.getD k 0) := pos (by linarith)
  have p2 : fl (x - xs.getD k 0) ≤ fl (x' - xs.getD k 0) := hfl.mono (by linarith)
  unfold segF
  constructor
  · intro h
    have s : 0 ≤ fl (fl (ys (k + 1) - ys k) / fl (xs.getD (k + 1) 0 - xs.getD k 0)) := pos (div_nonneg (pos (by linarith)) hd)
    constructor
    · conv_lhs => rw [← hf]
      apply hfl.mono
      have := pos (mul_nonneg s p1)
      linarith
    · apply hfl.mono
      have := hfl.mono (mul_le_mul_of_nonneg_left p2 s)
      linarith
  · intro h
    have s : fl (fl (ys (k + 1) - ys k) / fl (xs.getD (k + 1) 0 - xs.getD k 0)) ≤ 0 :=
      neg (div_nonpos_of_nonpos_of_nonneg (neg (by linarith)) hd)
    constructor
    · conv_rhs => rw [← hf]
      apply hfl.mono
      have := neg (mul_nonpos_of_nonpos_of_nonneg s p1)
      linarith
    · apply hfl.mono
      have := hfl.mono (mul_le_mul_of_nonpos_left p2 s)
      linarith

example : dbl (1 / 2) = 1 / 2 ∧ interpLinF dbl [100, 200] (fun k : ℕ => 1 / (k + 2)) 150 = 5 / 12 + 1 / (3 * 2 ^ 54) ∧
    interpLinF dbl [100, 200] (fun k : ℕ => 1 / (k + 2)) 151 < interpLinF dbl [100, 200] (fun k : ℕ => 1 / (k + 2)) 150 := by
  decide +kernel

/-- **C151.** A table that does not fall below zero and rises from a point to the next is never interpolated to a negative number there. -/
theorem C151_nonneg_partial {fl : ℚ → ℚ} {u : ℚ} (hfl : Rounding fl u) (xs : List ℚ) (hs : xs.Pairwise (· < ·))
    (ys : ℕ → ℚ) (k : ℕ) (hk : k + 1 < xs.length) (hf : fl (ys k) = ys k) (h0 : 0 ≤ ys k) (h1 : ys k ≤ ys (k + 1)) (x : ℚ)
    (hx : xs.getD k 0 < x) (hx' : x ≤ xs.getD (k + 1) 0) : 0 ≤ interpLinF fl xs ys x :=
  h0.trans ((C151_monotone hfl xs hs ys k hk hf x x hx le_rfl hx').1 h1).1

example : dbl 0 = 0 ∧ 0 < interpLinF dbl [100, 200] (fun k : ℕ => if k = 0 then 0 else 8106479329266893 / 2 ^ 53) 110 ∧
    interpLinF dbl [100, 200] (fun k : ℕ => if k = 0 then 0 else 8106479329266893 / 2 ^ 53) 110 < 1 / 10 := by
  decide +kernel

/-- **C151.** A table of doubles that falls to zero is extrapolated from its last segment also at its last point, and the value there can be
negative: the tabulated value is not reproduced. -/
theorem C151_nonneg_fails :
    dbl (8106479329266893 / 2 ^ 53) = 8106479329266893 / 2 ^ 53 ∧ dbl (9 / 10) = 8106479329266893 / 2 ^ 53 ∧
      interpLinF dbl [100, 200] (fun k : ℕ => if k = 0 then 8106479329266893 / 2 ^ 53 else 0) 200 = - 1 / 2 ^ 53 ∧
      interpZeroF dbl [100, 200] (fun k : ℕ => if k = 0 then 8106479329266893 / 2 ^ 53 else 0) 200 = 0 := by
  decide +kernel

end Ompy
