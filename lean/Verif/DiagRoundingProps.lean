import Verif.DiagRounding
import Verif.DiagonalProps
import Verif.CutRoundingProps
import Verif.StdRoundingProps

/-!
# Properties of the cuts along a line in floating point (C127)
-/

namespace Ompy

theorem round_step {fl : ℚ → ℚ} {u : ℚ} (hfl : Rounding fl u) (hu : 0 ≤ u) {x y e B : ℚ} (h : |x - y| ≤ e)
    (hB : |x| ≤ B) : |fl x - y| ≤ e + u * B := by
  have : fl x - y = (x - y) + (fl x - x) := by ring
  rw [this]
  exact (abs_add_le _ _).trans (add_le_add h ((hfl.rel x).trans (mul_le_mul_of_nonneg_left hB hu)))

/-- The computed line is near the exact one. -/
theorem lineF_near {fl : ℚ → ℚ} {u : ℚ} (hfl : Rounding fl u) (hu : 0 ≤ u) (hu1 : u ≤ 1 / 100) {N : ℚ} (hN : 1 ≤ N)
    {x1 y1 x2 y2 x : ℕ} (h1 : x1 ≤ N) (h2 : y1 ≤ N) (h4 : y2 ≤ N) (h5 : x ≤ N) (hne : x1 ≠ x2) :
    |lineF fl x1 y1 x2 y2 x - (((y2 : ℚ) - y1) / ((x2 : ℚ) - x1) * x + (y1 - ((y2 : ℚ) - y1) / ((x2 : ℚ) - x1) * x1))| ≤
      12 * u * N ^ 2 := by
  have hd : 1 ≤ |(x2 : ℚ) - x1| := by
    have : (1 : ℤ) ≤ |(x2 : ℤ) - x1| := Int.one_le_abs (by omega)
    exact_mod_cast this
  have dy : |(y2 : ℚ) - y1| ≤ N := by
    have a := Nat.cast_nonneg (α := ℚ) y1
    have b := Nat.cast_nonneg (α := ℚ) y2
    rw [abs_le]
    constructor <;> linarith
  have hs : |((y2 : ℚ) - y1) / ((x2 : ℚ) - x1)| ≤ N := by
    rw [abs_div]
    exact (div_le_self (abs_nonneg _) hd).trans dy
  unfold lineF
  simp only
  generalize ((y2 : ℚ) - y1) / ((x2 : ℚ) - x1) = s at *
  have X1 : |(x1 : ℚ)| ≤ N := by rwa [abs_of_nonneg (Nat.cast_nonneg _)]
  have X : |(x : ℚ)| ≤ N := by rwa [abs_of_nonneg (Nat.cast_nonneg _)]
  have Y1 : |(y1 : ℚ)| ≤ N := by rwa [abs_of_nonneg (Nat.cast_nonneg _)]
  generalize (x1 : ℚ) = x1 at *
  generalize (x : ℚ) = x at *
  generalize (y1 : ℚ) = y1 at *
  have N0 : 0 ≤ N := by linarith
  have NN : N ≤ N ^ 2 := by nlinarith
  have ea : |fl s - s| ≤ u * N := (hfl.rel s).trans (mul_le_mul_of_nonneg_left hs hu)
  have ha : |fl s| ≤ 101 / 100 * N := by
    have : fl s = (fl s - s) + s := by ring
    rw [this]
    have := mul_le_mul_of_nonneg_right hu1 N0
    exact (abs_add_le _ _).trans (by linarith)
  generalize fl s = a at *
  have prod : ∀ {z : ℚ}, |z| ≤ N → |fl (a * z) - s * z| ≤ 201 / 100 * u * N ^ 2 ∧ |a * z| ≤ 101 / 100 * N ^ 2 := by
    intro z hz
    have b : |a * z| ≤ 101 / 100 * N ^ 2 := by
      rw [abs_mul]
      calc |a| * |z| ≤ 101 / 100 * N * N := mul_le_mul ha hz (abs_nonneg _) (by positivity)
        _ = _ := by ring
    have e : |a * z - s * z| ≤ u * N ^ 2 := by
      rw [← sub_mul, abs_mul]
      calc |a - s| * |z| ≤ u * N * N := mul_le_mul ea hz (abs_nonneg _) (by positivity)
        _ = _ := by ring
    refine ⟨(round_step hfl hu e b).trans (le_of_eq (by ring)), b⟩
  obtain ⟨p1, -⟩ := prod X1
  obtain ⟨p2, -⟩ := prod X
  have u2 : 0 ≤ u * N ^ 2 := by positivity
  have uN : u * N ^ 2 ≤ 1 / 100 * N ^ 2 := mul_le_mul_of_nonneg_right hu1 (by positivity)
  have sx : ∀ {z : ℚ}, |z| ≤ N → |s * z| ≤ N ^ 2 := by
    intro z hz
    rw [abs_mul]
    calc |s| * |z| ≤ N * N := mul_le_mul hs hz (abs_nonneg _) N0
      _ = _ := by ring
  have s1 := sx X1
  have s2 := sx X
  generalize fl (a * x1) = P at *
  generalize fl (a * x) = Q at *
  generalize s * x1 = S at *
  generalize s * x = T at *
  rw [abs_le] at p1 p2 s1 s2 Y1
  have eb : |fl (y1 - P) - (y1 - S)| ≤ 201 / 100 * u * N ^ 2 + u * (21 / 10 * N ^ 2) := by
    refine round_step hfl hu ?_ ?_ <;> rw [abs_le] <;> constructor <;> linarith
  generalize fl (y1 - P) = b at *
  rw [abs_le] at eb
  refine (round_step hfl hu (e := 402 / 100 * u * N ^ 2 + u * (21 / 10 * N ^ 2)) (B := 4 * N ^ 2) ?_ ?_).trans ?_
  · rw [abs_le]
    constructor <;> linarith
  · rw [abs_le]
    constructor <;> linarith
  · linarith

/-- A bin off the line is at least one over the distance of the columns away from it. -/
theorem off_line_far {x1 y1 x2 y2 i j : ℕ} (hne : x1 ≠ x2) {N : ℚ} (h1 : x1 ≤ N) (h3 : x2 ≤ N)
    (hs : side x1 y1 x2 y2 i j ≠ 0) :
    1 ≤ N * |(i : ℚ) - (((y2 : ℚ) - y1) / ((x2 : ℚ) - x1) * j + (y1 - ((y2 : ℚ) - y1) / ((x2 : ℚ) - x1) * x1))| := by
  have hq : ((x2 : ℚ) - x1) ≠ 0 := sub_ne_zero.2 fun h => hne (by exact_mod_cast h.symm)
  have e : (i : ℚ) - (((y2 : ℚ) - y1) / ((x2 : ℚ) - x1) * j + (y1 - ((y2 : ℚ) - y1) / ((x2 : ℚ) - x1) * x1)) =
      ((((i : ℤ) - y1) * ((x2 : ℤ) - x1) - ((y2 : ℤ) - y1) * ((j : ℤ) - x1) : ℤ) : ℚ) / ((x2 : ℚ) - x1) := by
    push_cast
    field_simp
    ring
  have z : (((i : ℤ) - y1) * ((x2 : ℤ) - x1) - ((y2 : ℤ) - y1) * ((j : ℤ) - x1) : ℤ) ≠ 0 := by
    intro h
    apply hs
    unfold side
    have : ((((i : ℤ) - y1) * ((x2 : ℤ) - x1) - ((y2 : ℤ) - y1) * ((j : ℤ) - x1) : ℤ) : ℚ) = 0 := by rw [h]; rfl
    push_cast at this
    rw [this, zero_mul]
  have z1 : (1 : ℚ) ≤ |((((i : ℤ) - y1) * ((x2 : ℤ) - x1) - ((y2 : ℤ) - y1) * ((j : ℤ) - x1) : ℤ) : ℚ)| := by
    exact_mod_cast Int.one_le_abs z
  have d : |(x2 : ℚ) - x1| ≤ N := by
    have a := Nat.cast_nonneg (α := ℚ) x1
    have b := Nat.cast_nonneg (α := ℚ) x2
    rw [abs_le]
    constructor <;> linarith
  have dp : 0 < |(x2 : ℚ) - x1| := abs_pos.2 hq
  rw [e, abs_div, ← mul_div_assoc, le_div_iff₀ dp, one_mul]
  nlinarith

/-- The computed comparison with the line is right for all bins off the line. -/
theorem lineF_off {fl : ℚ → ℚ} {u : ℚ} (hfl : Rounding fl u) (hu : 0 ≤ u) (hu1 : u ≤ 1 / 100) {N : ℚ} (hN : 1 ≤ N)
    (hNu : 12 * u * N ^ 3 < 1) {x1 y1 x2 y2 i j : ℕ} (h1 : x1 ≤ N) (h2 : y1 ≤ N) (h3 : x2 ≤ N) (h4 : y2 ≤ N) (h5 : j ≤ N)
    (hne : x1 ≠ x2) : (0 < side x1 y1 x2 y2 i j → lineF fl x1 y1 x2 y2 j < i) ∧
      (side x1 y1 x2 y2 i j < 0 → (i : ℚ) < lineF fl x1 y1 x2 y2 j) := by
  have near := lineF_near hfl hu hu1 hN h1 h2 h4 h5 hne
  have hq : (x2 : ℚ) ≠ x1 := fun h => hne (by exact_mod_cast h.symm)
  have N0 : 0 < N := by linarith
  have close : N * |lineF fl x1 y1 x2 y2 j - (((y2 : ℚ) - y1) / ((x2 : ℚ) - x1) * j +
      (y1 - ((y2 : ℚ) - y1) / ((x2 : ℚ) - x1) * x1))| < 1 := by
    refine lt_of_le_of_lt (mul_le_mul_of_nonneg_left near N0.le) ?_
    linarith [show N * (12 * u * N ^ 2) = 12 * u * N ^ 3 by ring]
  have far := fun h => off_line_far (y1 := y1) (y2 := y2) (i := i) (j := j) hne h1 h3 h
  rw [← side_pos _ _ _ _ _ _ hq, ← side_neg _ _ _ _ _ _ hq]
  have sp := side_pos (x1 := x1) (y1 := y1) (x2 := x2) (y2 := y2) (i := i) (j := j) hq
  have sn := side_neg (x1 := x1) (y1 := y1) (x2 := x2) (y2 := y2) (i := i) (j := j) hq
  generalize ((y2 : ℚ) - y1) / ((x2 : ℚ) - x1) * j + (y1 - ((y2 : ℚ) - y1) / ((x2 : ℚ) - x1) * x1) = L at *
  generalize lineF fl x1 y1 x2 y2 j = F at *
  constructor
  · intro h
    have f := far (ne_of_gt (sp.1 h))
    have := lt_of_mul_lt_mul_left (lt_of_lt_of_le close f) N0.le
    rw [abs_of_pos (by linarith : 0 < (i : ℚ) - L)] at this
    linarith [(abs_lt.1 this).2]
  · intro h
    have f := far (ne_of_lt (sn.1 h))
    have := lt_of_mul_lt_mul_left (lt_of_lt_of_le close f) N0.le
    rw [abs_of_neg (by linarith : (i : ℚ) - L < 0)] at this
    linarith [(abs_lt.1 this).1]

/-- Specification: what a cut along the line does to the bins off the line; on the line it may do either. -/
def CutOffLine (values out : List (List ℚ)) (keep drop : ℕ → ℕ → Prop) : Prop :=
  out.map List.length = values.map List.length ∧
  ∀ i j, (keep i j → (out.getD i []).getD j 0 = (values.getD i []).getD j 0) ∧
    (drop i j → (out.getD i []).getD j 0 = 0) ∧
    ((out.getD i []).getD j 0 = (values.getD i []).getD j 0 ∨ (out.getD i []).getD j 0 = 0)

theorem lineMaskF_ok {fl : ℚ → ℚ} {m : Mat} {p q : ℚ × ℚ} (hg : m.Eg ≠ []) (hx : m.Ex ≠ [])
    (hne : indexF fl m.Eg p.1 ≠ indexF fl m.Eg q.1) :
    m.lineMaskF fl p q = .ok ((List.range m.Ex.length).map fun j : ℕ => (List.range m.Eg.length).map fun i : ℕ =>
      decide ((j : ℚ) < lineF fl (indexF fl m.Eg p.1) (indexF fl m.Ex p.2) (indexF fl m.Eg q.1) (indexF fl m.Ex q.2) i)) := by
  unfold Mat.lineMaskF
  rw [if_neg (by simp [hg, hx]), if_neg (Ne.symm hne)]

/-- **C127.** For matrices of up to `N` bins with `12 u N^3 < 1` (90000 in double precision) the cut keeps what is above
the line through the two bins, zeroes what is below, and leaves the rest of the matrix alone. -/
theorem C127_matrix_partial {fl : ℚ → ℚ} {u : ℚ} (hfl : Rounding fl u) (hu : 0 ≤ u) (hu1 : u ≤ 1 / 100) {N : ℕ}
    (hNu : 12 * u * (N : ℚ) ^ 3 < 1) (m : Mat) (hc : m.consistent = true) (hg : m.Eg ≠ []) (hx : m.Ex ≠ [])
    (hgN : m.Eg.length ≤ N) (hxN : m.Ex.length ≤ N) (p q : ℚ × ℚ) {x1 x2 y1 y2 : ℕ} (e1 : indexF fl m.Eg p.1 = x1)
    (e2 : indexF fl m.Eg q.1 = x2) (e3 : indexF fl m.Ex p.2 = y1) (e4 : indexF fl m.Ex q.2 = y2) (hne : x1 ≠ x2) :
    ∃ v, CutOffLine m.values v (fun i j => 0 < side x1 y1 x2 y2 i j) (fun i j => side x1 y1 x2 y2 i j < 0) ∧
      m.cutDiagonalF fl (some p) (some q) true = ({ m with values := v }, .ok none) ∧
      m.cutDiagonalF fl (some p) (some q) false = (m, .ok (some { m with values := v })) := by
  obtain ⟨hl, hw⟩ := consistent_shape m hc
  have l1 : x1 < m.Eg.length := e1 ▸ (indexF_spec fl m.Eg p.1 hg).1
  have l2 : x2 < m.Eg.length := e2 ▸ (indexF_spec fl m.Eg q.1 hg).1
  have l3 : y1 < m.Ex.length := e3 ▸ (indexF_spec fl m.Ex p.2 hx).1
  have l4 : y2 < m.Ex.length := e4 ▸ (indexF_spec fl m.Ex q.2 hx).1
  have hmask := lineMaskF_ok (fl := fl) (p := p) (q := q) hg hx (by rw [e1, e2]; exact hne)
  rw [e1, e2, e3, e4] at hmask
  obtain ⟨z1, z2, z3, z4⟩ := zip_mask m.values m.Ex.length m.Eg.length hl hw
    (fun j i => decide ((j : ℚ) < lineF fl x1 y1 x2 y2 i)) (fun v c => if c then 0 else v)
  have cN : ∀ {k n : ℕ}, k < n → n ≤ N → (k : ℚ) ≤ N := fun h h' => by exact_mod_cast (h.le.trans h')
  refine ⟨_, ⟨z2, fun i j => ?_⟩, ?_, ?_⟩
  · by_cases hij : i < m.Ex.length ∧ j < m.Eg.length
    · obtain ⟨o1, o2⟩ := lineF_off (i := i) hfl hu hu1 (N := N) (by exact_mod_cast (show 1 ≤ N by omega)) hNu
        (cN l1 hgN) (cN l3 hxN) (cN l2 hgN) (cN l4 hxN) (cN hij.2 hgN) hne
      rw [z3 i hij.1 j hij.2]
      refine ⟨fun hk => ?_, fun hk => ?_, ?_⟩
      · rw [if_neg]
        rw [decide_eq_true_eq]
        exact not_lt.2 (o1 hk).le
      · rw [if_pos]
        rw [decide_eq_true_eq]
        exact o2 hk
      · split_ifs
        · exact Or.inr rfl
        · exact Or.inl rfl
    · obtain ⟨w1, w2⟩ := z4 i j hij
      rw [w1, w2]
      exact ⟨fun _ => rfl, fun _ => rfl, Or.inl rfl⟩
  · simp only [Mat.cutDiagonalF, hmask, setMasked, if_pos z1, if_true]
  · simp only [Mat.cutDiagonalF, hmask, setMasked, if_pos z1, Bool.false_eq_true, if_false]

/-- A slope that is a multiple of `2^-k`: the line is exact in double precision. -/
theorem lineF_dyadic {x1 y1 x2 y2 x k N : ℕ} {s : ℤ} (hne : x1 ≠ x2)
    (hs : ((y2 : ℤ) - y1) * 2 ^ k = s * ((x2 : ℤ) - x1)) (h1 : x1 ≤ N) (h2 : y1 ≤ N) (h4 : y2 ≤ N) (h5 : x ≤ N)
    (N1 : 1 ≤ N) (hN : 3 * N ^ 2 * 2 ^ k ≤ 2 ^ 53) :
    lineF dbl x1 y1 x2 y2 x =
      ((y2 : ℚ) - y1) / ((x2 : ℚ) - x1) * x + (y1 - ((y2 : ℚ) - y1) / ((x2 : ℚ) - x1) * x1) := by
  have hd : ((x2 : ℚ) - x1) ≠ 0 := sub_ne_zero.2 fun h => hne (by exact_mod_cast h.symm)
  have k0 : (2 : ℚ) ^ k ≠ 0 := by positivity
  have zk : ((2 : ℚ) ^ (-(k : ℤ))) = ((2 : ℚ) ^ k)⁻¹ := by rw [zpow_neg, zpow_natCast]
  have slope : ((y2 : ℚ) - y1) / ((x2 : ℚ) - x1) = (2 : ℚ) ^ (-(k : ℤ)) * (s : ℤ) := by
    have : ((y2 : ℚ) - y1) * 2 ^ k = s * ((x2 : ℚ) - x1) := by exact_mod_cast hs
    rw [zk]
    field_simp
    linarith
  have sN : |s| ≤ (N : ℤ) * 2 ^ k := by
    have d1 : (1 : ℤ) ≤ |(x2 : ℤ) - x1| := Int.one_le_abs (by omega)
    have d2 : |(y2 : ℤ) - y1| ≤ N := by
      rw [abs_le]
      omega
    have e : |s| * |(x2 : ℤ) - x1| = |(y2 : ℤ) - y1| * 2 ^ k := by
      rw [← abs_mul, ← hs, abs_mul, abs_of_pos (show (0 : ℤ) < 2 ^ k by positivity)]
    have a := mul_le_mul_of_nonneg_left d1 (abs_nonneg s)
    have b := mul_le_mul_of_nonneg_right d2 (show (0 : ℤ) ≤ 2 ^ k by positivity)
    linarith
  have hNZ : 3 * (N : ℤ) ^ 2 * 2 ^ k ≤ 2 ^ 53 := by exact_mod_cast hN
  have p0 : (0 : ℤ) < 2 ^ k := by positivity
  have Nq : (1 : ℤ) ≤ N := by exact_mod_cast N1
  have NN : (N : ℤ) * 2 ^ k ≤ (N : ℤ) ^ 2 * 2 ^ k := mul_le_mul_of_nonneg_right (by nlinarith) p0.le
  have N20 : (0 : ℤ) ≤ (N : ℤ) ^ 2 * 2 ^ k := by positivity
  have sx : ∀ z : ℕ, z ≤ N → |s * z| ≤ (N : ℤ) ^ 2 * 2 ^ k := by
    intro z hz
    have hz' : (z : ℤ) ≤ N := by exact_mod_cast hz
    rw [abs_mul, abs_of_nonneg (Int.natCast_nonneg z)]
    calc |s| * (z : ℤ) ≤ (N : ℤ) * 2 ^ k * N := mul_le_mul sN hz' (Int.natCast_nonneg z) (by positivity)
      _ = _ := by ring
  have f1 := sx x1 h1
  have f2 := sx x h5
  have yb : (y1 : ℤ) * 2 ^ k ≤ (N : ℤ) ^ 2 * 2 ^ k :=
    le_trans (mul_le_mul_of_nonneg_right (by exact_mod_cast h2) p0.le) NN
  have yb0 : (0 : ℤ) ≤ (y1 : ℤ) * 2 ^ k := by positivity
  unfold lineF
  simp only
  rw [slope, dbl_scaled_int _ _ (by linarith)]
  have m1 : (2 : ℚ) ^ (-(k : ℤ)) * (s : ℤ) * x1 = (2 : ℚ) ^ (-(k : ℤ)) * ((s * x1 : ℤ) : ℚ) := by
    push_cast
    ring
  have m2 : (2 : ℚ) ^ (-(k : ℤ)) * (s : ℤ) * x = (2 : ℚ) ^ (-(k : ℤ)) * ((s * x : ℤ) : ℚ) := by
    push_cast
    ring
  rw [m1, m2, dbl_scaled_int _ _ (by linarith), dbl_scaled_int _ _ (by linarith)]
  have m3 : (y1 : ℚ) - (2 : ℚ) ^ (-(k : ℤ)) * ((s * x1 : ℤ) : ℚ) =
      (2 : ℚ) ^ (-(k : ℤ)) * ((y1 * 2 ^ k - s * x1 : ℤ) : ℚ) := by
    rw [zk]
    push_cast
    field_simp
  have g1 := abs_le.1 f1
  have g2 := abs_le.1 f2
  rw [m3, dbl_scaled_int _ _ (by rw [abs_le]; constructor <;> linarith)]
  have m4 : (2 : ℚ) ^ (-(k : ℤ)) * ((s * x : ℤ) : ℚ) + (2 : ℚ) ^ (-(k : ℤ)) * ((y1 * 2 ^ k - s * x1 : ℤ) : ℚ) =
      (2 : ℚ) ^ (-(k : ℤ)) * ((s * x + (y1 * 2 ^ k - s * x1) : ℤ) : ℚ) := by
    push_cast
    ring
  rw [m4, dbl_scaled_int _ _ (by rw [abs_le]; constructor <;> linarith)]

/-- **C127.** Lines whose slope in bins is a multiple of `2^-k`, such as diagonals of slope one, are exact in double
precision: the cut zeroes exactly the entries below the line, as with exact arithmetic. -/
theorem C127_diagonal {N k : ℕ} (hN1 : 1 ≤ N) (hN : 3 * N ^ 2 * 2 ^ k ≤ 2 ^ 53) (m : Mat) (hc : m.consistent = true)
    (hg : m.Eg ≠ []) (hx : m.Ex ≠ []) (hgN : m.Eg.length ≤ N) (hxN : m.Ex.length ≤ N) (p q : ℚ × ℚ) {x1 x2 y1 y2 : ℕ}
    (e1 : indexF dbl m.Eg p.1 = x1) (e2 : indexF dbl m.Eg q.1 = x2) (e3 : indexF dbl m.Ex p.2 = y1)
    (e4 : indexF dbl m.Ex q.2 = y2) (hne : x1 ≠ x2) {s : ℤ} (hs : ((y2 : ℤ) - y1) * 2 ^ k = s * ((x2 : ℤ) - x1)) :
    ∃ v, KeptWhere m.values v (fun i j => 0 ≤ side x1 y1 x2 y2 i j) ∧
      m.cutDiagonalF dbl (some p) (some q) true = ({ m with values := v }, .ok none) ∧
      m.cutDiagonalF dbl (some p) (some q) false = (m, .ok (some { m with values := v })) := by
  obtain ⟨hl, hw⟩ := consistent_shape m hc
  have l1 : x1 < m.Eg.length := e1 ▸ (indexF_spec dbl m.Eg p.1 hg).1
  have l3 : y1 < m.Ex.length := e3 ▸ (indexF_spec dbl m.Ex p.2 hx).1
  have l4 : y2 < m.Ex.length := e4 ▸ (indexF_spec dbl m.Ex q.2 hx).1
  have hq : (x2 : ℚ) ≠ (x1 : ℚ) := fun h => hne (by exact_mod_cast h.symm)
  have hmask := lineMaskF_ok (fl := dbl) (p := p) (q := q) hg hx (by rw [e1, e2]; exact hne)
  rw [e1, e2, e3, e4] at hmask
  obtain ⟨z1, z2, z3, z4⟩ := zip_mask m.values m.Ex.length m.Eg.length hl hw
    (fun j i => decide ((j : ℚ) < lineF dbl x1 y1 x2 y2 i)) (fun v c => if c then 0 else v)
  refine ⟨_, ⟨z2, fun i j => ?_⟩, ?_, ?_⟩
  · by_cases hij : i < m.Ex.length ∧ j < m.Eg.length
    · have ex := lineF_dyadic (x := j) hne hs (by omega) (by omega) (by omega) (by omega) hN1 hN
      rw [z3 i hij.1 j hij.2, ex]
      constructor
      · intro hk
        rw [if_neg]
        rw [decide_eq_true_eq, side_neg _ _ _ _ _ _ hq]
        exact not_lt.2 hk
      · intro hk
        rw [if_pos]
        rw [decide_eq_true_eq, side_neg _ _ _ _ _ _ hq]
        exact not_le.1 hk
    · obtain ⟨w1, w2⟩ := z4 i j hij
      rw [w1, w2]
      exact ⟨fun _ => rfl, fun _ => rfl⟩
  · simp only [Mat.cutDiagonalF, hmask, setMasked, if_pos z1, if_true]
  · simp only [Mat.cutDiagonalF, hmask, setMasked, if_pos z1, Bool.false_eq_true, if_false]

/-- Two rows of seven bins with one count each. -/
def sevenOnes : Mat := ⟨List.replicate 2 (List.replicate 7 1), [0, 1, 2, 3, 4, 5, 6], [0, 1], none, none⟩

/-- **C127.** On the line the cut depends on rounding: the second of the two points that define the line is cut away
itself, and it is kept if the points are given in the other order. -/
theorem C127_on_line_fails : side 1 0 6 1 1 6 = 0 ∧
    ((sevenOnes.cutDiagonalF dbl (some (1, 0)) (some (6, 1)) true).1.values.getD 1 []).getD 6 0 = 0 ∧
    ((sevenOnes.cutDiagonalF dbl (some (6, 1)) (some (1, 0)) true).1.values.getD 1 []).getD 6 0 = 1 ∧
    ((sevenOnes.cutDiagonal (some (1, 0)) (some (6, 1)) true).1.values.getD 1 []).getD 6 0 = 1 := by
  refine ⟨by norm_num [side], ?_, ?_, ?_⟩ <;> decide +kernel

/-- **C127.** Refused arguments leave the matrix alone: a missing point, and points in the same column. -/
theorem C127_refused (fl : ℚ → ℚ) (m : Mat) (b : Bool) :
    (∀ p, m.cutDiagonalF fl none p b = (m, .error .valueError)) ∧
    (∀ p, m.cutDiagonalF fl p none b = (m, .error .valueError)) ∧
    (∀ p q : ℚ × ℚ, m.Eg ≠ [] → m.Ex ≠ [] → indexF fl m.Eg p.1 = indexF fl m.Eg q.1 →
      m.cutDiagonalF fl (some p) (some q) b = (m, .error .assertion)) := by
  refine ⟨fun p => rfl, fun p => by cases p <;> rfl, fun p q hg hx h => ?_⟩
  simp only [Mat.cutDiagonalF, Mat.lineMaskF, if_neg (not_or.2 ⟨hg, hx⟩), if_pos h.symm]

/-- **C127.** `i_from_E` finds a bin that is closest up to two roundings. -/
theorem C127_closest {fl : ℚ → ℚ} {u : ℚ} (hfl : Rounding fl u) (E : List ℚ) (e : ℚ) (hE : E ≠ []) :
    ∃ r, iFromEF fl e E = .ok r ∧ r < E.length ∧
      ∀ k < E.length, (1 - u) * |E.getD r 0 - e| ≤ (1 + u) * |E.getD k 0 - e| := by
  obtain ⟨r, h1, h2, h3, -⟩ := argmin_spec (E.map fun x => |fl (x - e)|) (by simpa using hE)
  rw [List.length_map] at h2 h3
  refine ⟨r, h1, h2, fun k hk => ?_⟩
  have g : ∀ j < E.length, (E.map fun x => |fl (x - e)|).getD j 0 = |fl (E.getD j 0 - e)| := by
    intro j hj
    simp [List.getD_eq_getElem?_getD, hj]
  have h := h3 k hk
  rw [g r h2, g k hk] at h
  have b : ∀ d : ℚ, (1 - u) * |d| ≤ |fl d| ∧ |fl d| ≤ (1 + u) * |d| := by
    intro d
    have r := hfl.rel d
    have t1 := abs_sub_abs_le_abs_sub d (fl d)
    have t2 := abs_sub_abs_le_abs_sub (fl d) d
    rw [abs_sub_comm] at t1
    constructor <;> linarith
  exact ((b _).1.trans h).trans (b _).2

theorem libCutF_ok {fl : ℚ → ℚ} (values : List (List ℚ)) (Ex Eg : List ℚ) (p q : ℚ × ℚ) {x1 x2 y1 y2 : ℕ}
    (hl : values.length = Ex.length) (hw : ∀ r ∈ values, r.length = Eg.length) (h1 : iFromEF fl p.2 Eg = .ok x1)
    (h2 : iFromEF fl q.2 Eg = .ok x2) (h3 : iFromEF fl p.1 Ex = .ok y1) (h4 : iFromEF fl q.1 Ex = .ok y2)
    (hne : x1 ≠ x2) : ∃ v, libCutDiagonalF fl values Ex Eg p q = .ok v ∧ v.map List.length = values.map List.length ∧
      (∀ i < Ex.length, ∀ j < Eg.length, (v.getD i []).getD j 0 =
        if lineF fl x1 y1 x2 y2 j < i then (values.getD i []).getD j 0 else 0) ∧
      ∀ i j, ¬ (i < Ex.length ∧ j < Eg.length) → (v.getD i []).getD j 0 = 0 ∧ (values.getD i []).getD j 0 = 0 := by
  obtain ⟨z1, z2, z3, z4⟩ := zip_mask values Ex.length Eg.length hl hw
    (fun i j => decide ((i : ℚ) > lineF fl x1 y1 x2 y2 j)) (fun v c => if c then v else 0)
  refine ⟨_, ?_, z2, ?_, z4⟩
  · simp only [libCutDiagonalF, makeMaskF, bind, Except.bind, h1, h2, h3, h4, if_neg (Ne.symm hne), pure, Except.pure]
    rw [if_pos z1]
  · intro i hi j hj
    rw [z3 i hi j hj]
    simp only [decide_eq_true_eq, gt_iff_lt]

theorem iFromEF_lt {fl : ℚ → ℚ} {e : ℚ} {E : List ℚ} {r : ℕ} (h : iFromEF fl e E = .ok r) : r < E.length := by
  have hE : E ≠ [] := by
    rintro rfl
    simp [iFromEF, argmin] at h
  obtain ⟨r', h1, h2, -⟩ := argmin_spec (E.map fun x => |fl (x - e)|) (by simpa using hE)
  have : r' = r := Except.ok.inj (h1.symm.trans h)
  rw [List.length_map] at h2
  omega

/-- **C127.** The function `cut_diagonal` of the library: bins above the line are kept and those below are zeroed, for
arrays of up to `N` bins with `12 u N^3 < 1`. -/
theorem C127_library_partial {fl : ℚ → ℚ} {u : ℚ} (hfl : Rounding fl u) (hu : 0 ≤ u) (hu1 : u ≤ 1 / 100) {N : ℕ}
    (hNu : 12 * u * (N : ℚ) ^ 3 < 1) (values : List (List ℚ)) (Ex Eg : List ℚ) (hl : values.length = Ex.length)
    (hw : ∀ r ∈ values, r.length = Eg.length) (hgN : Eg.length ≤ N) (hxN : Ex.length ≤ N) (p q : ℚ × ℚ)
    {x1 x2 y1 y2 : ℕ} (h1 : iFromEF fl p.2 Eg = .ok x1)
    (h2 : iFromEF fl q.2 Eg = .ok x2) (h3 : iFromEF fl p.1 Ex = .ok y1) (h4 : iFromEF fl q.1 Ex = .ok y2)
    (hne : x1 ≠ x2) : ∃ v, libCutDiagonalF fl values Ex Eg p q = .ok v ∧
      CutOffLine values v (fun i j => 0 < side x1 y1 x2 y2 i j) (fun i j => side x1 y1 x2 y2 i j < 0) := by
  obtain ⟨v, a1, a2, a3, a4⟩ := libCutF_ok values Ex Eg p q hl hw h1 h2 h3 h4 hne
  have l1 := iFromEF_lt h1
  have l2 := iFromEF_lt h2
  have l3 := iFromEF_lt h3
  have l4 := iFromEF_lt h4
  have cN : ∀ {k n : ℕ}, k < n → n ≤ N → (k : ℚ) ≤ N := fun h h' => by exact_mod_cast (h.le.trans h')
  refine ⟨v, a1, a2, fun i j => ?_⟩
  by_cases hij : i < Ex.length ∧ j < Eg.length
  · obtain ⟨o1, o2⟩ := lineF_off (i := i) hfl hu hu1 (N := N) (by exact_mod_cast (show 1 ≤ N by omega)) hNu
      (cN l1 hgN) (cN l3 hxN) (cN l2 hgN) (cN l4 hxN) (cN hij.2 hgN) hne
    rw [a3 i hij.1 j hij.2]
    refine ⟨fun hk => if_pos (o1 hk), fun hk => if_neg (not_lt.2 (o2 hk).le), ?_⟩
    split_ifs
    · exact Or.inl rfl
    · exact Or.inr rfl
  · obtain ⟨w1, w2⟩ := a4 i j hij
    rw [w1, w2]
    exact ⟨fun _ => rfl, fun _ => rfl, Or.inl rfl⟩

/-- **C127.** The library function keeps a point that defines the line, which exact arithmetic removes. -/
theorem C127_library_fails : side 2 0 5 1 1 5 = 0 ∧
    libCutDiagonalF dbl (List.replicate 2 (List.replicate 6 1)) [0, 1] [0, 1, 2, 3, 4, 5] (0, 2) (1, 5) =
      .ok [[1, 1, 0, 0, 0, 0], [1, 1, 1, 1, 1, 1]] ∧
    libCutDiagonal (List.replicate 2 (List.replicate 6 1)) [0, 1] [0, 1, 2, 3, 4, 5] (0, 2) (1, 5) =
      .ok [[1, 1, 0, 0, 0, 0], [1, 1, 1, 1, 1, 0]] := by
  refine ⟨by norm_num [side], ?_, ?_⟩ <;> decide +kernel

/-- Non-vacuity of `C127_matrix_partial`: the bin below the line through the bins (1, 0) and (6, 1) in the last column. -/
example : ∃ v, sevenOnes.cutDiagonalF dbl (some (1, 0)) (some (6, 1)) true = ({ sevenOnes with values := v }, .ok none) ∧
    (v.getD 0 []).getD 6 0 = 0 ∧ (v.getD 0 []).getD 0 0 = 1 := by
  obtain ⟨v, ⟨-, h⟩, h2, -⟩ := C127_matrix_partial dbl_rounding (by norm_num) (by norm_num) (N := 7) (by norm_num) sevenOnes
    (by decide +kernel) (by simp [sevenOnes]) (by simp [sevenOnes]) (by simp [sevenOnes]) (by simp [sevenOnes]) (1, 0) (6, 1)
    (x1 := 1) (x2 := 6) (y1 := 0) (y2 := 1) (by decide +kernel) (by decide +kernel) (by decide +kernel)
    (by decide +kernel) (by norm_num)
  refine ⟨v, h2, (h 0 6).2.1 (by norm_num [side]), ?_⟩
  rw [(h 0 0).1 (by norm_num [side])]
  decide +kernel

/-- Non-vacuity of `C127_diagonal`: slope one. -/
example : ∃ v, sevenOnes.cutDiagonalF dbl (some (5, 0)) (some (6, 1)) true = ({ sevenOnes with values := v }, .ok none) ∧
    (v.getD 1 []).getD 6 0 = 1 ∧ (v.getD 0 []).getD 6 0 = 0 := by
  obtain ⟨v, ⟨-, h⟩, h2, -⟩ := C127_diagonal (N := 7) (k := 0) (by norm_num) (by norm_num) sevenOnes
    (by decide +kernel) (by simp [sevenOnes]) (by simp [sevenOnes]) (by simp [sevenOnes]) (by simp [sevenOnes]) (5, 0) (6, 1)
    (x1 := 5) (x2 := 6) (y1 := 0) (y2 := 1) (by decide +kernel) (by decide +kernel) (by decide +kernel)
    (by decide +kernel) (by norm_num) (s := 1) (by norm_num)
  refine ⟨v, h2, ?_, (h 0 6).2 (by norm_num [side])⟩
  rw [(h 1 6).1 (by norm_num [side])]
  decide +kernel

/-- Non-vacuity of `C127_library_partial`. -/
example : ∃ v, libCutDiagonalF dbl (List.replicate 2 (List.replicate 6 1)) [0, 1] [0, 1, 2, 3, 4, 5] (0, 2) (1, 5) = .ok v ∧
    (v.getD 1 []).getD 4 0 = 1 := by
  obtain ⟨v, h1, -, h⟩ := C127_library_partial dbl_rounding (by norm_num) (by norm_num) (N := 6) (by norm_num)
    (List.replicate 2 (List.replicate 6 1)) [0, 1] [0, 1, 2, 3, 4, 5] rfl (by simp) (by simp) (by simp) (0, 2) (1, 5)
    (x1 := 2) (x2 := 5) (y1 := 0) (y2 := 1) (by decide +kernel) (by decide +kernel) (by decide +kernel)
    (by decide +kernel) (by norm_num)
  refine ⟨v, h1, ?_⟩
  rw [(h 1 4).1 (by norm_num [side])]
  decide +kernel

end Ompy
