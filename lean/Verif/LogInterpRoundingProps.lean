import Verif.LogInterpRounding
import Verif.InterpRoundingProps
import Verif.SpinRoundingProps
import Verif.GsfNorm
import Mathlib.Analysis.SpecialFunctions.Pow.Real

/-!
# C154: interpolation of the logarithm with rounded numbers
-/

namespace Ompy

/-- A logarithm with relative error `a` for positive numbers. -/
def LogFun (lg : ℚ → ℚ) (a : ℚ) : Prop := ∀ y : ℚ, 0 < y → |(lg y : ℝ) - Real.log y| ≤ a * |Real.log y|

/-- An exponential function whose result is right up to a factor between `exp (-b)` and `exp b`. -/
def ExpFun (ex : ℚ → ℚ) (b : ℝ) : Prop := ∀ x : ℚ, LogNear b (Real.exp x) (ex x)

theorem onLine_signed {x0 y0 x1 y1 x m : ℚ} (hx : x0 < x1) (h0 : x0 ≤ x) (h1 : x ≤ x1) (a : |y0| ≤ m) (b : |y1| ≤ m) :
    |onLine x0 y0 x1 y1 x| ≤ m ∧ |onLine x0 y0 x1 y1 x - y0| ≤ 2 * m := by
  have hd : 0 < x1 - x0 := by linarith
  unfold onLine
  set t := (x - x0) / (x1 - x0) with ht
  have t0 : 0 ≤ t := div_nonneg (by linarith) hd.le
  have t1 : t ≤ 1 := by rw [ht, div_le_one hd]; linarith
  rw [abs_le] at a b
  obtain ⟨a1, a2⟩ := a
  obtain ⟨b1, b2⟩ := b
  rw [abs_le, abs_le]
  refine ⟨⟨?_, ?_⟩, ?_, ?_⟩ <;>
    nlinarith [mul_nonneg t0 (sub_nonneg.2 b1), mul_nonneg t0 (sub_nonneg.2 b2), mul_nonneg (sub_nonneg.2 t1) (sub_nonneg.2 a1),
      mul_nonneg (sub_nonneg.2 t1) (sub_nonneg.2 a2), mul_nonneg t0 (sub_nonneg.2 a1), mul_nonneg t0 (sub_nonneg.2 a2)]

/-- np.interp inside the table: a line through two neighbouring points, with the error of a segment. -/
theorem interpZeroF_bound {fl : ℚ → ℚ} {u : ℚ} (hfl : Rounding fl u) (hu : 0 ≤ u) (hu1 : u < 1) {xs : List ℚ} (hs : xs.Pairwise (· < ·))
    (ys : ℕ → ℚ) (k : ℕ) (hk : k + 1 < xs.length) {x m : ℚ} (h0 : xs.getD k 0 ≤ x) (h1 : x ≤ xs.getD (k + 1) 0)
    (a : |ys k| ≤ m) (b : |ys (k + 1)| ≤ m) :
    |interpZeroF fl xs ys x - onLine (xs.getD k 0) (ys k) (xs.getD (k + 1) 0) (ys (k + 1)) x| ≤ (u + 2 * (1 + u) * excess u 5) * m := by
  have hx := axis_lt hs (show k < k + 1 by omega) hk
  have e0 := excess_nonneg hu hu1 5
  have hm : 0 ≤ m := (abs_nonneg _).trans a
  have hz : (0 : ℚ) ≤ (u + 2 * (1 + u) * excess u 5) * m := by positivity
  rcases h0.eq_or_lt with e | e
  · rw [← e, C151_node fl xs hs ys k (by omega)]
    unfold onLine
    simpa using hz
  rcases h1.eq_or_lt with e' | e'
  · rw [e', C151_node fl xs hs ys (k + 1) hk]
    unfold onLine
    rw [div_self (by linarith)]
    simpa using hz
  · rw [interpZeroF_segment fl xs hs ys k hk x e e']
    refine (segF_bound hfl hu hu1 _ _ _ _ _).trans ?_
    have r := onLine_signed hx h0 h1 a b
    have p := mul_le_mul_of_nonneg_left r.1 hu
    have q := mul_le_mul_of_nonneg_left r.2 (show (0 : ℚ) ≤ (1 + u) * excess u 5 by positivity)
    nlinarith

theorem LogNear.exp_shift {d : ℝ} {p q : ℝ} (h : |p - q| ≤ d) : LogNear d (Real.exp q) (Real.exp p) := by
  rw [abs_le] at h
  constructor
  · rw [← Real.exp_add]
    exact Real.exp_le_exp.2 (by linarith)
  · rw [← Real.exp_add]
    exact Real.exp_le_exp.2 (by linarith)

theorem LogNear.chain {d e x y z : ℝ} (h : LogNear d x y) (h' : LogNear e y z) : LogNear (d + e) x z := by
  have p := (Real.exp_pos (-d)).le
  have q := (Real.exp_pos (-e)).le
  have s : Real.exp (-(d + e)) = Real.exp (-d) * Real.exp (-e) := by rw [← Real.exp_add]; ring_nf
  constructor
  · rw [s]
    calc Real.exp (-d) * Real.exp (-e) * x = Real.exp (-e) * (Real.exp (-d) * x) := by ring
      _ ≤ Real.exp (-e) * y := mul_le_mul_of_nonneg_left h.1 q
      _ ≤ z := h'.1
  · rw [s]
    calc Real.exp (-d) * Real.exp (-e) * z = Real.exp (-d) * (Real.exp (-e) * z) := by ring
      _ ≤ Real.exp (-d) * y := mul_le_mul_of_nonneg_left h'.2 p
      _ ≤ x := h.2

/-- The exponent by which the result of `log_interp1d` can be wrong, for logarithms up to `M`. -/
noncomputable def logSlack (u a : ℚ) (b M : ℝ) : ℝ := b + ((a : ℝ) + ((u + 2 * (1 + u) * (1 / (1 - u) ^ 5 - 1) : ℚ) : ℝ) * (1 + a)) * M

theorem logInterpF_ok (fl lg ex : ℚ → ℚ) {xs ys : List ℚ} (hn : 2 ≤ xs.length) (hp : ∀ y ∈ ys, 0 < y) {x : ℚ}
    (h0 : xs.getD 0 0 ≤ x) (h1 : x ≤ xs.getD (xs.length - 1) 0) :
    logInterpF fl lg ex xs ys x = .ok (ex (interpZeroF fl xs (fun k : ℕ => lg (ys.getD k 0)) x)) := by
  unfold logInterpF
  rw [if_neg, if_neg]
  · rw [not_or, not_lt, not_lt]
    exact ⟨h0, h1⟩
  · rw [not_or, not_lt]
    refine ⟨hn, ?_⟩
    rintro ⟨y, hy, hy'⟩
    exact absurd (hp y hy) (not_lt.2 hy')

theorem curvePositive {xs ys : List ℚ} (hl : ys.length = xs.length) (hp : ∀ y ∈ ys, 0 < y) {k : ℕ} (hk : k < xs.length) : 0 < ys.getD k 0 := by
  rw [List.getD_eq_getElem _ _ (hl ▸ hk)]
  exact hp _ (List.getElem_mem _)

/-- **C154.** Between two points of a positive curve the computed value is the geometric mean `y0^(1-t) y1^t` with the weights of the
energy, up to a factor with the exponent `logSlack`: the error of the exponential function and the errors of the logarithms and of the
interpolation, which grow with the size of the logarithms. -/
theorem C154_interp {fl lg ex : ℚ → ℚ} {u a : ℚ} {b M : ℝ} (hfl : Rounding fl u) (hu : 0 ≤ u) (hu1 : u < 1) (ha : 0 ≤ a) (hlg : LogFun lg a)
    (hex : ExpFun ex b) (xs ys : List ℚ) (hs : xs.Pairwise (· < ·)) (hl : ys.length = xs.length) (hp : ∀ y ∈ ys, 0 < y)
    (hM : ∀ y ∈ ys, |Real.log y| ≤ M) (k : ℕ) (hk : k + 1 < xs.length) (x : ℚ) (h0 : xs.getD k 0 ≤ x) (h1 : x ≤ xs.getD (k + 1) 0) :
    ∃ r, logInterpF fl lg ex xs ys x = .ok r ∧
      LogNear (logSlack u a b M)
        ((ys.getD k 0 : ℝ) ^ (1 - ((x - xs.getD k 0) / (xs.getD (k + 1) 0 - xs.getD k 0) : ℚ) : ℝ) *
          (ys.getD (k + 1) 0 : ℝ) ^ (((x - xs.getD k 0) / (xs.getD (k + 1) 0 - xs.getD k 0) : ℚ) : ℝ)) r := by
  have hx := axis_lt hs (show k < k + 1 by omega) hk
  refine ⟨_, logInterpF_ok fl lg ex (by omega) hp ((axis_le hs (Nat.zero_le k) (by omega)).trans h0)
    (h1.trans (axis_le hs (show k + 1 ≤ xs.length - 1 by omega) (by omega))), ?_⟩
  have y0 := curvePositive hl hp (show k < xs.length by omega)
  have y1 := curvePositive hl hp hk
  have m0 := hM _ (by rw [List.getD_eq_getElem _ _ (hl ▸ (show k < xs.length by omega))]; exact List.getElem_mem _ : ys.getD k 0 ∈ ys)
  have m1 := hM _ (by rw [List.getD_eq_getElem _ _ (hl ▸ hk)]; exact List.getElem_mem _ : ys.getD (k + 1) 0 ∈ ys)
  have l0 := hlg _ y0
  have l1 := hlg _ y1
  have y0' : (0 : ℝ) < (ys.getD k 0 : ℚ) := by exact_mod_cast y0
  have y1' : (0 : ℝ) < (ys.getD (k + 1) 0 : ℚ) := by exact_mod_cast y1
  set t : ℚ := (x - xs.getD k 0) / (xs.getD (k + 1) 0 - xs.getD k 0) with ht
  have hd : 0 < xs.getD (k + 1) 0 - xs.getD k 0 := by linarith
  have t0 : (0 : ℝ) ≤ t := by exact_mod_cast div_nonneg (by linarith) hd.le
  have t1 : (t : ℝ) ≤ 1 := by
    have : t ≤ 1 := by rw [ht, div_le_one hd]; linarith
    exact_mod_cast this
  set A := Real.log (ys.getD k 0 : ℚ)
  set B := Real.log (ys.getD (k + 1) 0 : ℚ)
  have hspec : (ys.getD k 0 : ℝ) ^ (1 - (t : ℝ)) * (ys.getD (k + 1) 0 : ℝ) ^ (t : ℝ) = Real.exp (A + t * (B - A)) := by
    rw [Real.rpow_def_of_pos y0', Real.rpow_def_of_pos y1', ← Real.exp_add]
    congr 1
    ring
  rw [hspec]
  have ha' : (0 : ℝ) ≤ a := by exact_mod_cast ha
  have hM0 : 0 ≤ M := (abs_nonneg _).trans m0
  set p0 := lg (ys.getD k 0)
  set p1 := lg (ys.getD (k + 1) 0)
  set m : ℚ := max |p0| |p1|
  have hm : ((m : ℚ) : ℝ) ≤ (1 + a) * M := by
    have g : ∀ {q : ℚ} {c : ℝ}, |(q : ℝ) - c| ≤ a * |c| → |c| ≤ M → ((|q| : ℚ) : ℝ) ≤ (1 + a) * M := by
      intro q c h1 h2
      have : |(q : ℝ)| ≤ |(q : ℝ) - c| + |c| := by
        have := abs_add_le ((q : ℝ) - c) c
        simpa using this
      push_cast
      have := mul_le_mul_of_nonneg_left h2 ha'
      linarith
    rw [Rat.cast_max]
    exact max_le (g l0 m0) (g l1 m1)
  have ib := interpZeroF_bound hfl hu hu1 hs (fun k : ℕ => lg (ys.getD k 0)) k hk h0 h1 (le_max_left |p0| |p1|) (le_max_right |p0| |p1|)
  set P := interpZeroF fl xs (fun k : ℕ => lg (ys.getD k 0)) x
  have hon : onLine (xs.getD k 0) p0 (xs.getD (k + 1) 0) p1 x = p0 + t * (p1 - p0) := rfl
  change |P - onLine (xs.getD k 0) p0 (xs.getD (k + 1) 0) p1 x| ≤ _ at ib
  rw [hon] at ib
  have ib' : |(P : ℝ) - ((p0 : ℝ) + t * (p1 - p0))| ≤ ((u + 2 * (1 + u) * excess u 5 : ℚ) : ℝ) * m := by exact_mod_cast ib
  have c0 : (0 : ℝ) ≤ ((u + 2 * (1 + u) * excess u 5 : ℚ) : ℝ) := by
    have := excess_nonneg hu hu1 5
    exact_mod_cast (show (0 : ℚ) ≤ u + 2 * (1 + u) * excess u 5 by positivity)
  have line : |((p0 : ℝ) + t * (p1 - p0)) - (A + t * (B - A))| ≤ a * M := by
    have e : ((p0 : ℝ) + t * (p1 - p0)) - (A + t * (B - A)) = (1 - t) * (p0 - A) + t * (p1 - B) := by ring
    rw [e]
    refine (abs_add_le _ _).trans ?_
    rw [abs_mul, abs_mul, abs_of_nonneg t0, abs_of_nonneg (show (0 : ℝ) ≤ 1 - t by linarith)]
    have q0 : |(p0 : ℝ) - A| ≤ a * M := l0.trans (mul_le_mul_of_nonneg_left m0 ha')
    have q1 : |(p1 : ℝ) - B| ≤ a * M := l1.trans (mul_le_mul_of_nonneg_left m1 ha')
    nlinarith [mul_le_mul_of_nonneg_left q0 (show (0 : ℝ) ≤ 1 - t by linarith), mul_le_mul_of_nonneg_left q1 t0]
  have tot : |(P : ℝ) - (A + t * (B - A))| ≤ ((a : ℝ) + ((u + 2 * (1 + u) * excess u 5 : ℚ) : ℝ) * (1 + a)) * M := by
    have e : (P : ℝ) - (A + t * (B - A)) = ((P : ℝ) - ((p0 : ℝ) + t * (p1 - p0))) + (((p0 : ℝ) + t * (p1 - p0)) - (A + t * (B - A))) := by ring
    rw [e]
    refine (abs_add_le _ _).trans ?_
    have := mul_le_mul_of_nonneg_left hm c0
    linarith
  have := (LogNear.exp_shift tot).chain (hex P)
  have hE : (1 / (1 - u) ^ 5 - 1 : ℚ) = excess u 5 := by unfold excess; rw [one_div]
  unfold logSlack
  rw [hE, add_comm b]
  exact this

/-- **C154.** Where the curve has a value, the result is that value up to the errors of the two functions: `exp(log(y))`. -/
theorem C154_node (fl lg ex : ℚ → ℚ) (xs ys : List ℚ) (hs : xs.Pairwise (· < ·)) (hn : 2 ≤ xs.length) (hp : ∀ y ∈ ys, 0 < y)
    (k : ℕ) (hk : k < xs.length) : logInterpF fl lg ex xs ys (xs.getD k 0) = .ok (ex (lg (ys.getD k 0))) := by
  rw [logInterpF_ok fl lg ex hn hp (axis_le hs (Nat.zero_le k) hk) (axis_le hs (show k ≤ xs.length - 1 by omega) (by omega)),
    C151_node fl xs hs _ k hk]

/-- **C154.** Outside the points it is a `ValueError`. -/
theorem C154_outside (fl lg ex : ℚ → ℚ) (xs ys : List ℚ) (hn : 2 ≤ xs.length) (hp : ∀ y ∈ ys, 0 < y) (x : ℚ)
    (h : x < xs.getD 0 0 ∨ xs.getD (xs.length - 1) 0 < x) : logInterpF fl lg ex xs ys x = .error .valueError := by
  unfold logInterpF
  rw [if_neg, if_pos h]
  rw [not_or, not_lt]
  refine ⟨hn, ?_⟩
  rintro ⟨y, hy, hy'⟩
  exact absurd (hp y hy) (not_lt.2 hy')

/-- **C154.** A number comes out exactly for a positive curve with at least two points and an energy within them. -/
theorem C154_domain (fl lg ex : ℚ → ℚ) (xs ys : List ℚ) (x : ℚ) :
    (∃ r, logInterpF fl lg ex xs ys x = .ok r) ↔
      2 ≤ xs.length ∧ (∀ y ∈ ys, 0 < y) ∧ xs.getD 0 0 ≤ x ∧ x ≤ xs.getD (xs.length - 1) 0 := by
  constructor
  · rintro ⟨r, h⟩
    unfold logInterpF at h
    split_ifs at h with h1 h2
    rw [not_or, not_lt] at h1 h2
    exact ⟨h1.1, fun y hy => not_le.1 fun hc => h1.2 ⟨y, hy, hc⟩, h2.1, not_lt.1 h2.2⟩
  · rintro ⟨hn, hp, h0, h1⟩
    exact ⟨_, logInterpF_ok fl lg ex hn hp h0 h1⟩

example : logInterpF dbl (fun q => q - 1) (fun q => q + 1) [1, 2, 4] [1, 3, 5] 2 = .ok 3 ∧
    logInterpF dbl (fun q => q - 1) (fun q => q + 1) [1, 2, 4] [1, 3, 5] 3 = .ok 4 ∧
    logInterpF dbl (fun q => q - 1) (fun q => q + 1) [1, 2, 4] [1, 3, 5] 5 = .error .valueError := by decide +kernel

/-- **C154.** The results rise with the energy on a segment where the curve rises, if the functions of the machine keep the order and the
logarithms are representable, and they are never below the result at the left point. -/
theorem C154_monotone {fl lg ex : ℚ → ℚ} {u : ℚ} (hfl : Rounding fl u) (hlg : Monotone lg) (hex : Monotone ex) (hf : ∀ q, fl (lg q) = lg q)
    (xs ys : List ℚ) (hs : xs.Pairwise (· < ·)) (hl : ys.length = xs.length) (hp : ∀ y ∈ ys, 0 < y) (k : ℕ) (hk : k + 1 < xs.length)
    (hy : ys.getD k 0 ≤ ys.getD (k + 1) 0) (x x' : ℚ) (h0 : xs.getD k 0 ≤ x) (hxx : x ≤ x') (h1 : x' < xs.getD (k + 1) 0) :
    ∃ r r', logInterpF fl lg ex xs ys x = .ok r ∧ logInterpF fl lg ex xs ys x' = .ok r' ∧ ex (lg (ys.getD k 0)) ≤ r ∧ r ≤ r' := by
  have a0 := axis_le hs (Nat.zero_le k) (show k < xs.length by omega)
  have a1 := axis_le hs (show k + 1 ≤ xs.length - 1 by omega) (by omega)
  refine ⟨_, _, logInterpF_ok fl lg ex (by omega) hp (a0.trans h0) (by linarith), logInterpF_ok fl lg ex (by omega) hp (by linarith) (by linarith), ?_⟩
  have z : fl 0 = 0 := by simpa using hfl.rel 0
  have pos : ∀ {q : ℚ}, 0 ≤ q → 0 ≤ fl q := fun h => by rw [← z]; exact hfl.mono h
  have key : ∀ {w w' : ℚ}, xs.getD k 0 ≤ w → w ≤ w' →
      segF fl (xs.getD k 0) (lg (ys.getD k 0)) (xs.getD (k + 1) 0) (lg (ys.getD (k + 1) 0)) w ≤
        segF fl (xs.getD k 0) (lg (ys.getD k 0)) (xs.getD (k + 1) 0) (lg (ys.getD (k + 1) 0)) w' := by
    intro w w' hw hww
    have hd : 0 ≤ fl (xs.getD (k + 1) 0 - xs.getD k 0) := pos (by linarith)
    have s : 0 ≤ fl (fl (lg (ys.getD (k + 1) 0) - lg (ys.getD k 0)) / fl (xs.getD (k + 1) 0 - xs.getD k 0)) :=
      pos (div_nonneg (pos (by linarith [hlg hy])) hd)
    unfold segF
    apply hfl.mono
    have := hfl.mono (mul_le_mul_of_nonneg_left (hfl.mono (show w - xs.getD k 0 ≤ w' - xs.getD k 0 by linarith)) s)
    linarith
  have val : ∀ {w : ℚ}, xs.getD k 0 ≤ w → w < xs.getD (k + 1) 0 → interpZeroF fl xs (fun k : ℕ => lg (ys.getD k 0)) w =
      segF fl (xs.getD k 0) (lg (ys.getD k 0)) (xs.getD (k + 1) 0) (lg (ys.getD (k + 1) 0)) w := by
    intro w hw hw'
    rcases hw.eq_or_lt with e | e
    · rw [← e, C151_node fl xs hs _ k (by omega)]
      unfold segF
      rw [sub_self, z, mul_zero, z, zero_add, hf]
    · exact interpZeroF_segment fl xs hs _ k hk w e hw'
  have left : segF fl (xs.getD k 0) (lg (ys.getD k 0)) (xs.getD (k + 1) 0) (lg (ys.getD (k + 1) 0)) (xs.getD k 0) = lg (ys.getD k 0) := by
    unfold segF
    rw [sub_self, z, mul_zero, z, zero_add, hf]
  rw [val h0 (by linarith), val (h0.trans hxx) h1]
  refine ⟨hex ?_, hex (key h0 hxx)⟩
  have := key le_rfl h0
  rwa [left] at this

example : Monotone (fun q : ℚ => dbl (q - 1)) ∧ Monotone (fun q : ℚ => q + 1) ∧ (∀ q, dbl (dbl (q - 1)) = dbl (q - 1)) :=
  ⟨fun a b h => C111_double_mono (by linarith), fun a b h => by show a + 1 ≤ b + 1; linarith, fun q => dbl_dbl _⟩

/-- There are such functions. -/
theorem logFun_exists (a : ℚ) (ha : 0 < a) : ∃ lg, LogFun lg a := by
  have h : ∀ y : ℚ, ∃ q : ℚ, |(q : ℝ) - Real.log y| ≤ a * |Real.log y| := by
    intro y
    by_cases h0 : Real.log y = 0
    · exact ⟨0, by simp [h0]⟩
    · have p : (0 : ℝ) < a * |Real.log y| := mul_pos (by exact_mod_cast ha) (abs_pos.2 h0)
      obtain ⟨q, h1, h2⟩ := exists_rat_btwn (show Real.log y - a * |Real.log y| < Real.log y by linarith)
      exact ⟨q, by rw [abs_le]; constructor <;> linarith⟩
  choose lg hlg using h
  exact ⟨lg, fun y _ => hlg y⟩

theorem expFun_exists (b : ℝ) (hb : 0 < b) : ∃ ex, ExpFun ex b := by
  have h : ∀ x : ℚ, ∃ q : ℚ, LogNear b (Real.exp x) q := by
    intro x
    have e1 : Real.exp (-b) < 1 := by rw [Real.exp_lt_one_iff]; linarith
    have p := Real.exp_pos (x : ℝ)
    obtain ⟨q, h1, h2⟩ := exists_rat_btwn (show Real.exp (-b) * Real.exp x < Real.exp x by nlinarith)
    refine ⟨q, h1.le, ?_⟩
    have : (0 : ℝ) < q := lt_trans (by positivity) h1
    nlinarith [Real.exp_pos (-b)]
  choose ex hex using h
  exact ⟨ex, hex⟩

/-- **C154.** In doubles, with a logarithm right to two roundings and an exponential function right to `2/2^53` in the exponent, values between
`exp(-100)` and `exp(100)` are interpolated with an exponent of the error of at most `1400/2^53`. -/
theorem C154_double {lg ex : ℚ → ℚ} (hlg : LogFun lg (2 / 2 ^ 53)) (hex : ExpFun ex (2 / 2 ^ 53)) (xs ys : List ℚ) (hs : xs.Pairwise (· < ·))
    (hl : ys.length = xs.length) (hp : ∀ y ∈ ys, 0 < y) (hM : ∀ y ∈ ys, |Real.log y| ≤ 100) (k : ℕ) (hk : k + 1 < xs.length) (x : ℚ)
    (h0 : xs.getD k 0 ≤ x) (h1 : x ≤ xs.getD (k + 1) 0) :
    ∃ r, logInterpF dbl lg ex xs ys x = .ok r ∧
      LogNear (1400 / 2 ^ 53)
        ((ys.getD k 0 : ℝ) ^ (1 - ((x - xs.getD k 0) / (xs.getD (k + 1) 0 - xs.getD k 0) : ℚ) : ℝ) *
          (ys.getD (k + 1) 0 : ℝ) ^ (((x - xs.getD k 0) / (xs.getD (k + 1) 0 - xs.getD k 0) : ℚ) : ℝ)) r := by
  obtain ⟨r, hr, h⟩ := C154_interp dbl_rounding (by norm_num) (by norm_num) (by norm_num) hlg hex xs ys hs hl hp hM k hk x h0 h1
  refine ⟨r, hr, ?_⟩
  have y0 : (0 : ℝ) < (ys.getD k 0 : ℚ) := by exact_mod_cast curvePositive hl hp (show k < xs.length by omega)
  have y1 : (0 : ℝ) < (ys.getD (k + 1) 0 : ℚ) := by exact_mod_cast curvePositive hl hp hk
  have hz : (0 : ℝ) ≤ ((ys.getD k 0 : ℝ) ^ (1 - ((x - xs.getD k 0) / (xs.getD (k + 1) 0 - xs.getD k 0) : ℚ) : ℝ) *
          (ys.getD (k + 1) 0 : ℝ) ^ (((x - xs.getD k 0) / (xs.getD (k + 1) 0 - xs.getD k 0) : ℚ) : ℝ)) := by positivity
  refine h.mono hz ?_ ?_
  · exact le_trans (mul_nonneg (Real.exp_pos _).le hz) h.1
  · unfold logSlack
    norm_num

example : (∃ lg, LogFun lg (2 / 2 ^ 53)) ∧ (∃ ex, ExpFun ex (2 / 2 ^ 53)) ∧ ∀ y ∈ ([1, 3] : List ℚ), |Real.log y| ≤ 100 := by
  refine ⟨logFun_exists _ (by norm_num), expFun_exists _ (by norm_num), ?_⟩
  intro y hy
  have a := Real.log_le_sub_one_of_pos (show (0 : ℝ) < 3 by norm_num)
  have b := Real.log_nonneg (show (1 : ℝ) ≤ 3 by norm_num)
  fin_cases hy
  · simp
  · push_cast
    rw [abs_of_nonneg b]
    linarith

/-- **C154.** The exact value is the one of the model of C48. -/
theorem C154_model (xs ys : List ℚ) (hs : xs.Pairwise (· < ·)) (hl : ys.length = xs.length) (hp : ∀ y ∈ ys, 0 < y) (k : ℕ)
    (hk : k + 1 < xs.length) (x : ℚ) (h0 : xs.getD k 0 ≤ x) (hk0 : k = 0 ∨ xs.getD k 0 < x) (h1 : x ≤ xs.getD (k + 1) 0) :
    logInterp ⟨xs, ys.map fun y : ℚ => some (y : ℝ)⟩ x = .ok
      ((ys.getD k 0 : ℝ) ^ (1 - ((x - xs.getD k 0) / (xs.getD (k + 1) 0 - xs.getD k 0) : ℚ) : ℝ) *
        (ys.getD (k + 1) 0 : ℝ) ^ (((x - xs.getD k 0) / (xs.getD (k + 1) 0 - xs.getD k 0) : ℚ) : ℝ)) := by
  have y0 : (0 : ℝ) < (ys.getD k 0 : ℚ) := by exact_mod_cast curvePositive hl hp (show k < xs.length by omega)
  have y1 : (0 : ℝ) < (ys.getD (k + 1) 0 : ℚ) := by exact_mod_cast curvePositive hl hp hk
  have hss := searchsorted_left xs (hs.imp fun h => h.le) x
  have hint : interval xs x = k + 1 := by
    have a : k = 0 ∨ k < searchsorted xs x false := hk0.imp_right (hss k (by omega)).1
    have b : searchsorted xs x false ≤ k + 1 := by
      by_contra hc
      have := (hss (k + 1) hk).2 (by omega)
      linarith
    unfold interval
    omega
  have hh : xs.head? = some (xs.getD 0 0) := by
    rw [List.head?_eq_getElem?, List.getD_eq_getElem?_getD, List.getElem?_eq_getElem (by omega)]
    rfl
  have hg : xs.getLast? = some (xs.getD (xs.length - 1) 0) := by
    rw [List.getLast?_eq_getElem?, List.getD_eq_getElem?_getD, List.getElem?_eq_getElem (by omega)]
    rfl
  have hv : ∀ j < xs.length, (ys.map fun y : ℚ => some (y : ℝ)).getD j none = some ((ys.getD j 0 : ℚ) : ℝ) := by
    intro j hj
    rw [List.getD_eq_getElem _ _ (by simpa [hl] using hj), List.getElem_map, List.getD_eq_getElem _ _ (hl ▸ hj)]
  have a0 := axis_le hs (Nat.zero_le k) (show k < xs.length by omega)
  have a1 := axis_le hs (show k + 1 ≤ xs.length - 1 by omega) (by omega)
  unfold logInterp
  simp only [hh, hg, hint, Nat.add_sub_cancel]
  rw [if_neg (by rw [not_or, not_lt, not_lt]; exact ⟨a0.trans h0, h1.trans a1⟩), if_neg (by omega), hv k (by omega), hv (k + 1) hk]
  simp only [logOf, if_pos y0, if_pos y1]
  congr 1
  rw [Real.rpow_def_of_pos y0, Real.rpow_def_of_pos y1, ← Real.exp_add]
  congr 1
  push_cast
  ring

example : logInterp ⟨[1, 3], [some 1, some 1]⟩ 2 = .ok 1 := by
  have := C154_model [1, 3] [1, 1] (by decide +kernel) rfl (by decide +kernel) 0 (by decide) 2 (by decide +kernel) (.inl rfl) (by decide +kernel)
  simpa using this

end Ompy
