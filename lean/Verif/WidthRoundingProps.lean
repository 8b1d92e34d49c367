import Verif.WidthRounding
import Verif.SumRoundingProps

/-!
# Properties of the radiative width in floating point (C147)
-/

namespace Ompy

/-- Specification: the width with exact operations, `D₀/2 · ∫ E³ f(E) ρ(Sₙ - E) S(Sₙ - E) dE · 1000`, as a sum over
the energies `grid`; `ex e` is the number used for `Sₙ - E`. -/
def widthSum (grid : List ℚ) (step D0 : ℚ) (ex gsf nld spin : ℚ → ℚ) : ℚ :=
  1000 * D0 * step * (grid.map fun e => e ^ 3 * gsf e * nld (ex e) * spin (ex e)).sum / 2

/-- Specification: what the functions and parameters have to be: nothing negative on the grid. -/
structure WidthInput (fl : ℚ → ℚ) (p : WidthPars) (gsf nld spin : ℚ → ℚ) : Prop where
  steps : 2 ≤ p.steps
  emin : 0 ≤ p.Emin
  sn : p.Emin ≤ p.Sn
  d0 : 0 ≤ p.D0
  gsf : ∀ e ∈ linspaceF fl p.Emin p.Sn p.steps, 0 ≤ gsf e
  nld : ∀ e ∈ linspaceF fl p.Emin p.Sn p.steps, 0 ≤ nld (fl (p.Sn - e))
  spin : ∀ e ∈ linspaceF fl p.Emin p.Sn p.steps, 0 ≤ spin (fl (p.Sn - e))

theorem Rounding.nonneg {fl : ℚ → ℚ} {u : ℚ} (hfl : Rounding fl u) {q : ℚ} (h : 0 ≤ q) : 0 ≤ fl q := by
  have := hfl.mono h
  rwa [hfl.zero] at this

theorem linspaceF_nonneg {fl : ℚ → ℚ} {u : ℚ} (hfl : Rounding fl u) {a b : ℚ} {n : ℕ} (hn : 2 ≤ n) (ha : 0 ≤ a)
    (hab : a ≤ b) : ∀ e ∈ linspaceF fl a b n, 0 ≤ e := by
  intro e he
  unfold linspaceF at he
  rw [if_neg (by omega)] at he
  obtain ⟨k, -, rfl⟩ := List.mem_map.1 he
  have hn' : (0 : ℚ) < (n : ℚ) - 1 := by
    have : (2 : ℚ) ≤ (n : ℚ) := by exact_mod_cast hn
    linarith
  split_ifs
  · linarith
  · refine hfl.nonneg (add_nonneg (hfl.nonneg (mul_nonneg (hfl.nonneg (div_nonneg (hfl.nonneg ?_) hn'.le)) ?_)) ha)
    · linarith
    · exact Nat.cast_nonneg k

/-- **C147.** The computed width is the exact sum over the energies of the grid up to `c + D n + 9` roundings, if the
cube is exact up to `c` roundings and the sum takes `D n` additions; it does not depend on anything else. -/
theorem C147_width (fl cube : ℚ → ℚ) (u : ℚ) (hfl : Rounding fl u) (hu : 0 ≤ u) (hu1 : u < 1) (c : ℕ)
    (hc : ∀ e, 0 ≤ e → Within u c (e ^ 3) (cube e)) (D : ℕ → ℕ) (sum : List ℚ → ℚ) (hs : Summation fl D sum)
    (p : WidthPars) (gsf nld spin : ℚ → ℚ) (hp : WidthInput fl p gsf nld spin) :
    ∃ w, ggWidthF fl cube sum p gsf nld spin = .ok w ∧
      Within u (c + D p.steps + 9) (widthSum (linspaceF fl p.Emin p.Sn p.steps)
        ((p.Sn - p.Emin) / ((p.steps : ℚ) - 1)) p.D0 (fun e => fl (p.Sn - e)) gsf nld spin) w ∧
      0 ≤ widthSum (linspaceF fl p.Emin p.Sn p.steps)
        ((p.Sn - p.Emin) / ((p.steps : ℚ) - 1)) p.D0 (fun e => fl (p.Sn - e)) gsf nld spin := by
  unfold ggWidthF
  rw [if_neg (by have := hp.steps; omega)]
  refine ⟨_, rfl, ?_⟩
  set grid := linspaceF fl p.Emin p.Sn p.steps with hg
  have g0 : ∀ e ∈ grid, 0 ≤ e := linspaceF_nonneg hfl hp.steps hp.emin hp.sn
  have hn' : (0 : ℚ) < (p.steps : ℚ) - 1 := by
    have : (2 : ℚ) ≤ (p.steps : ℚ) := by exact_mod_cast hp.steps
    linarith
  -- the terms
  let t : ℚ → ℚ := fun e => e ^ 3 * gsf e * nld (fl (p.Sn - e)) * spin (fl (p.Sn - e))
  have t0 : ∀ e ∈ grid, 0 ≤ t e := fun e he =>
    mul_nonneg (mul_nonneg (mul_nonneg (pow_nonneg (g0 e he) 3) (hp.gsf e he)) (hp.nld e he)) (hp.spin e he)
  have ht : ∀ e ∈ grid, Within u (c + 3) (t e) (widthTermF fl cube p.Sn gsf nld spin e) := by
    intro e he
    have e3 : 0 ≤ e ^ 3 := pow_nonneg (g0 e he) 3
    have hA := hp.gsf e he
    have hB := hp.nld e he
    have hC := hp.spin e he
    have a1 := Within.mul hu1 (hc e (g0 e he)) (Within.refl' (u := u) (gsf e)) e3 hA
    have n1 := a1.nonneg hu1 (mul_nonneg e3 hA)
    have a2 := Within.trans hu1 a1 (Within.rounded hu hu1 hfl n1)
    have n2 := mul_nonneg e3 hA
    have a3 := Within.mul hu1 a2 (Within.refl' (u := u) (nld (fl (p.Sn - e)))) n2 hB
    have n3 := mul_nonneg n2 hB
    have a4 := Within.trans hu1 a3 (Within.rounded hu hu1 hfl (a3.nonneg hu1 n3))
    have a5 := Within.mul hu1 a4 (Within.refl' (u := u) (spin (fl (p.Sn - e)))) n3 hC
    have n5 := mul_nonneg n3 hC
    have a6 := Within.trans hu1 a5 (Within.rounded hu hu1 hfl (a5.nonneg hu1 n5))
    exact a6
  -- the sum
  have s1 : Within u (c + 3) (grid.map t).sum (grid.map (widthTermF fl cube p.Sn gsf nld spin)).sum := within_sum ht
  have T0 : 0 ≤ (grid.map t).sum := List.sum_nonneg fun x hx => by
    obtain ⟨e, he, rfl⟩ := List.mem_map.1 hx
    exact t0 e he
  have F0 : ∀ x ∈ grid.map (widthTermF fl cube p.Sn gsf nld spin), 0 ≤ x := fun x hx => by
    obtain ⟨e, he, rfl⟩ := List.mem_map.1 hx
    exact (ht e he).nonneg hu1 (t0 e he)
  have s2 := (Summation.spec hfl hu hu1 hs F0).1
  rw [List.length_map, hg, linspaceF_length, ← hg] at s2
  have s3 := Within.trans hu1 s1 s2
  -- the step
  have d0 : 0 ≤ p.Sn - p.Emin := by linarith [hp.sn]
  have q1 := Within.div hu1 (Within.rounded hu hu1 hfl d0) (Within.refl' (u := u) ((p.steps : ℚ) - 1)) d0 hn'
  have q0 : 0 ≤ (p.Sn - p.Emin) / ((p.steps : ℚ) - 1) := div_nonneg d0 hn'.le
  have q2 := Within.trans hu1 q1 (Within.rounded hu hu1 hfl (q1.nonneg hu1 q0))
  -- the rest
  have r1 := Within.mul hu1 s3 q2 T0 q0
  have R1 := mul_nonneg T0 q0
  have r2 := Within.trans hu1 r1 (Within.rounded hu hu1 hfl (r1.nonneg hu1 R1))
  have r3 := Within.div hu1 r2 (Within.refl' (u := u) 2) R1 (by norm_num)
  have R3 := div_nonneg R1 (by norm_num : (0 : ℚ) ≤ 2)
  have r4 := Within.trans hu1 r3 (Within.rounded hu hu1 hfl (r3.nonneg hu1 R3))
  have r5 := Within.mul hu1 r4 (Within.refl' (u := u) p.D0) R3 hp.d0
  have R5 := mul_nonneg R3 hp.d0
  have r6 := Within.trans hu1 r5 (Within.rounded hu hu1 hfl (r5.nonneg hu1 R5))
  have r7 := Within.mul hu1 r6 (Within.refl' (u := u) 1000) R5 (by norm_num)
  have R7 := mul_nonneg R5 (by norm_num : (0 : ℚ) ≤ 1000)
  have r8 := Within.trans hu1 r7 (Within.rounded hu hu1 hfl (r7.nonneg hu1 R7))
  have eq : widthSum grid ((p.Sn - p.Emin) / ((p.steps : ℚ) - 1)) p.D0 (fun e => fl (p.Sn - e)) gsf nld spin =
      (grid.map t).sum * ((p.Sn - p.Emin) / ((p.steps : ℚ) - 1)) / 2 * p.D0 * 1000 := by
    unfold widthSum
    show 1000 * p.D0 * _ * (grid.map t).sum / 2 = _
    ring
  rw [eq]
  exact ⟨r8.mono hu hu1 R7 (by omega), R7⟩

/-- Example for the hypotheses: doubles, three energies, cube rounded once. -/
def widthExample : WidthPars := ⟨0, 8, 3, 2, (100, 10)⟩

theorem widthExample_input : WidthInput dbl widthExample (fun e => e / 10) (fun x => 1 + x) (fun _ => 1 / 2) := by
  have hg : linspaceF dbl widthExample.Emin widthExample.Sn widthExample.steps = [0, 4, 8] := by decide +kernel
  have h8 : dbl (8 - 0) = 8 ∧ dbl (8 - 4) = 4 ∧ dbl (8 - 8) = 0 := by decide +kernel
  refine ⟨by decide, by decide +kernel, by decide +kernel, by decide +kernel, ?_, ?_, ?_⟩ <;> rw [hg] <;>
    simp [widthExample] <;> norm_num [h8.1, h8.2.1]
  have := h8.1
  have h4 := h8.2.1
  norm_num at this h4
  rw [this, h4]
  have h0 := h8.2.2
  norm_num at h0
  rw [h0]
  norm_num

example : ggWidthF dbl (fun e => dbl (e ^ 3)) (npSum dbl) widthExample (fun e => e / 16) (fun x => 1 + x) (fun _ => 1 / 2) =
    .ok (widthSum [0, 4, 8] 4 2 (fun e => 8 - e) (fun e => e / 16) (fun x => 1 + x) (fun _ => 1 / 2)) ∧
    widthSum [0, 4, 8] 4 2 (fun e => 8 - e) (fun e => e / 16) (fun x => 1 + x) (fun _ => 1 / 2) = 672000 := by
  decide +kernel

/-- **C147.** The computed width is zero exactly if the exact sum is; so the normalisation factor exists with
rounded numbers if and only if it exists with exact ones. -/
theorem C147_zero (fl cube : ℚ → ℚ) (u : ℚ) (hfl : Rounding fl u) (hu : 0 ≤ u) (hu1 : u < 1) (c : ℕ)
    (hc : ∀ e, 0 ≤ e → Within u c (e ^ 3) (cube e)) (D : ℕ → ℕ) (sum : List ℚ → ℚ) (hs : Summation fl D sum)
    (p : WidthPars) (gsf nld spin : ℚ → ℚ) (hp : WidthInput fl p gsf nld spin) (w : ℚ)
    (hw : ggWidthF fl cube sum p gsf nld spin = .ok w) :
    0 ≤ w ∧ ((∃ b, bNormF fl p w = .ok b) ↔ widthSum (linspaceF fl p.Emin p.Sn p.steps)
        ((p.Sn - p.Emin) / ((p.steps : ℚ) - 1)) p.D0 (fun e => fl (p.Sn - e)) gsf nld spin ≠ 0) := by
  obtain ⟨w', hw', hi, h0⟩ := C147_width fl cube u hfl hu hu1 c hc D sum hs p gsf nld spin hp
  rw [hw] at hw'
  cases hw'
  have w0 := hi.nonneg hu1 h0
  refine ⟨w0, ?_⟩
  have hpos := hi.pos_iff hu1
  unfold bNormF
  constructor
  · rintro ⟨b, hb⟩ hz
    split_ifs at hb with h
    exact absurd (hpos.2 (lt_of_le_of_ne w0 (Ne.symm h))) (by rw [hz]; exact lt_irrefl 0)
  · intro hne
    have hw0 : w ≠ 0 := (hpos.1 (lt_of_le_of_ne h0 (Ne.symm hne))).ne'
    exact ⟨_, by rw [if_neg hw0]⟩

/-- **C147.** Normalisation reproduces the experimental width: if the new strength function is, on the grid, the old one
times the computed factor up to `k` roundings, the width computed from it is the experimental one up to
`k + 2 (c + D n + 9) + 1` roundings. -/
theorem C147_reproduces (fl cube : ℚ → ℚ) (u : ℚ) (hfl : Rounding fl u) (hu : 0 ≤ u) (hu1 : u < 1) (c : ℕ)
    (hc : ∀ e, 0 ≤ e → Within u c (e ^ 3) (cube e)) (D : ℕ → ℕ) (sum : List ℚ → ℚ) (hs : Summation fl D sum)
    (p : WidthPars) (hG : 0 ≤ p.Gg.1) (gsf gsf' nld spin : ℚ → ℚ) (hp : WidthInput fl p gsf nld spin) (w b : ℚ)
    (hw : ggWidthF fl cube sum p gsf nld spin = .ok w) (hb : bNormF fl p w = .ok b) (k : ℕ)
    (hk : ∀ e ∈ linspaceF fl p.Emin p.Sn p.steps, Within u k (b * gsf e) (gsf' e)) :
    ∃ w', ggWidthF fl cube sum p gsf' nld spin = .ok w' ∧ Within u (k + 2 * (c + D p.steps + 9) + 1) p.Gg.1 w' := by
  obtain ⟨w1, hw1, hi, h0⟩ := C147_width fl cube u hfl hu hu1 c hc D sum hs p gsf nld spin hp
  rw [hw] at hw1
  cases hw1
  have w0 := hi.nonneg hu1 h0
  unfold bNormF at hb
  split_ifs at hb with hz
  cases hb
  have wpos : 0 < w := lt_of_le_of_ne w0 (Ne.symm hz)
  set X := widthSum (linspaceF fl p.Emin p.Sn p.steps) ((p.Sn - p.Emin) / ((p.steps : ℚ) - 1)) p.D0
    (fun e => fl (p.Sn - e)) gsf nld spin with hX
  have Xpos : 0 < X := (hi.pos_iff hu1).2 wpos
  have gw0 : 0 ≤ p.Gg.1 / w := div_nonneg hG w0
  have b1 := Within.rounded hu hu1 hfl gw0
  have b0 := hfl.nonneg gw0
  have hp' : WidthInput fl p gsf' nld spin :=
    ⟨hp.steps, hp.emin, hp.sn, hp.d0, fun e he => (hk e he).nonneg hu1 (mul_nonneg b0 (hp.gsf e he)), hp.nld, hp.spin⟩
  obtain ⟨w', hw', hi', h0'⟩ := C147_width fl cube u hfl hu hu1 c hc D sum hs p gsf' nld spin hp'
  refine ⟨w', hw', ?_⟩
  -- the sum for the new strength function
  have g0 := linspaceF_nonneg hfl hp.steps hp.emin hp.sn
  have hn' : (0 : ℚ) < (p.steps : ℚ) - 1 := by
    have : (2 : ℚ) ≤ (p.steps : ℚ) := by exact_mod_cast hp.steps
    linarith
  have q0 : 0 ≤ (p.Sn - p.Emin) / ((p.steps : ℚ) - 1) := div_nonneg (by linarith [hp.sn]) hn'.le
  have hs' : Within u k (fl (p.Gg.1 / w) * X) (widthSum (linspaceF fl p.Emin p.Sn p.steps)
      ((p.Sn - p.Emin) / ((p.steps : ℚ) - 1)) p.D0 (fun e => fl (p.Sn - e)) gsf' nld spin) := by
    have hterm : ∀ e ∈ linspaceF fl p.Emin p.Sn p.steps,
        Within u k (fl (p.Gg.1 / w) * (e ^ 3 * gsf e * nld (fl (p.Sn - e)) * spin (fl (p.Sn - e))))
          (e ^ 3 * gsf' e * nld (fl (p.Sn - e)) * spin (fl (p.Sn - e))) := by
      intro e he
      have a1 := Within.mul hu1 (hk e he)
        (Within.refl' (u := u) (e ^ 3 * nld (fl (p.Sn - e)) * spin (fl (p.Sn - e))))
        (mul_nonneg b0 (hp.gsf e he))
        (mul_nonneg (mul_nonneg (pow_nonneg (g0 e he) 3) (hp.nld e he)) (hp.spin e he))
      rw [Nat.add_zero] at a1
      convert a1 using 1 <;> ring
    have hsum := within_sum hterm
    rw [List.sum_map_mul_left] at hsum
    have := Within.mul hu1 hsum (Within.refl' (u := u) (1000 * p.D0 * ((p.Sn - p.Emin) / ((p.steps : ℚ) - 1)) / 2))
      (mul_nonneg b0 (List.sum_nonneg fun x hx => by
        obtain ⟨e, he, rfl⟩ := List.mem_map.1 hx
        exact mul_nonneg (mul_nonneg (mul_nonneg (pow_nonneg (g0 e he) 3) (hp.gsf e he)) (hp.nld e he)) (hp.spin e he)))
      (div_nonneg (mul_nonneg (mul_nonneg (by norm_num) hp.d0) q0) (by norm_num))
    rw [Nat.add_zero] at this
    rw [hX]
    unfold widthSum
    convert this using 1 <;> ring
  -- Gg = (Gg / w) * w ~ b * X
  have e1 : p.Gg.1 = p.Gg.1 / w * w := by field_simp
  have f1 := Within.mul hu1 b1 hi.symm gw0 w0
  rw [← e1] at f1
  have f2 := Within.trans hu1 f1 hs'
  have f3 := Within.trans hu1 f2 hi'
  exact f3.mono hu hu1 hG (by omega)

/-- **C147.** With the transformation that the code applies to the values, `transform(B_norm)`, where `alpha = 0` and
`exp(0) = 1`, two more roundings are enough on energies where the strength function is tabulated. -/
theorem C147_transformed (fl ex : ℚ → ℚ) (u : ℚ) (hfl : Rounding fl u) (hu : 0 ≤ u) (hu1 : u < 1) (hex : ex 0 = 1)
    (b x e : ℚ) (hb : 0 ≤ b) (hx : 0 ≤ x) : Within u 2 (b * x) (transformValue fl ex b 0 x e) := by
  unfold transformValue
  rw [zero_mul, hfl.zero, hex, mul_one]
  have h0 := mul_nonneg hb hx
  exact Within.trans hu1 (Within.rounded hu hu1 hfl h0) (Within.rounded hu hu1 hfl (hfl.nonneg h0))

example : transformValue dbl (fun _ => 1) (dbl (1 / 10)) 0 3 5 = dbl (dbl (1 / 10) * 3) := by decide +kernel

/-- **C147.** In plain terms for doubles and numpy's sum, the cube being rounded `c` times: the relative error of the width is at
most `(c + 35 + log₂ n) · 2⁻⁵³`. -/
theorem C147_double (cube : ℚ → ℚ) (c : ℕ) (hc : ∀ e, 0 ≤ e → Within (1 / 2 ^ 53) c (e ^ 3) (cube e))
    (p : WidthPars) (gsf nld spin : ℚ → ℚ) (hp : WidthInput dbl p gsf nld spin) :
    ∃ w, ggWidthF dbl cube (npSum dbl) p gsf nld spin = .ok w ∧
      let x := widthSum (linspaceF dbl p.Emin p.Sn p.steps) ((p.Sn - p.Emin) / ((p.steps : ℚ) - 1)) p.D0
        (fun e => dbl (p.Sn - e)) gsf nld spin
      |w - x| ≤ ((c + 35 + Nat.log 2 p.steps : ℕ) : ℚ) / 2 ^ 53 * max x w := by
  have R : Rounding dbl (1 / 2 ^ 53) := ⟨C111_double_mono, fun q => by rw [one_div_mul_eq_div]; exact C111_double_near q⟩
  obtain ⟨w, hw, hi, h0⟩ := C147_width dbl cube (1 / 2 ^ 53) R (by norm_num) (by norm_num) c hc _ _ (C117_numpy dbl)
    p gsf nld spin hp
  refine ⟨w, hw, ?_⟩
  have := hi.abs_sub_le (by norm_num) (by norm_num) h0
  rw [show c + (26 + Nat.log 2 p.steps) + 9 = c + 35 + Nat.log 2 p.steps by omega] at this
  intro x
  calc |w - x| ≤ _ := this
    _ = _ := by ring

example : Within (1 / 2 ^ 53) 1 ((3 : ℚ) ^ 3) (dbl (3 ^ 3)) ∧
    WidthInput dbl widthExample (fun e => e / 10) (fun x => 1 + x) (fun _ => 1 / 2) := by
  refine ⟨?_, widthExample_input⟩
  have : dbl (3 ^ 3) = 27 := by decide +kernel
  rw [this]
  constructor <;> norm_num

/-- **C147.** The last gamma energy is the separation energy itself, so that the final excitation energy there is exactly 0,
however the other energies are rounded. -/
theorem C147_last (fl : ℚ → ℚ) (u : ℚ) (hfl : Rounding fl u) (p : WidthPars) (hn : 2 ≤ p.steps) :
    (linspaceF fl p.Emin p.Sn p.steps).getLast? = some p.Sn ∧ fl (p.Sn - p.Sn) = 0 := by
  refine ⟨?_, by rw [sub_self, hfl.zero]⟩
  unfold linspaceF
  rw [if_neg (by omega), List.getLast?_map, List.getLast?_range, if_neg (by omega)]
  simp only [Option.map_some]
  rw [if_pos (by omega)]

/-! ### Relations kept by numpy's sum -/

/-- Two orders of the same shape whose numbers are related. -/
inductive SumOrder.Related (R : ℚ → ℚ → Prop) : SumOrder → SumOrder → Prop
  | leaf {a b : ℚ} (h : R a b) : Related R (.leaf a) (.leaf b)
  | add {a b c d : SumOrder} (h : Related R a b) (k : Related R c d) : Related R (.add a c) (.add b d)

theorem related_val {R : ℚ → ℚ → Prop} {fl : ℚ → ℚ} (hR : ∀ a b c d, R a b → R c d → R (fl (a + c)) (fl (b + d)))
    {o o' : SumOrder} (h : o.Related R o') : R (o.val fl) (o'.val fl) := by
  induction h with
  | leaf h => exact h
  | add _ _ ih ik => exact hR _ _ _ _ ih ik

theorem related_loop {R : ℚ → ℚ → Prop} {l l' : List ℚ} (h : List.Forall₂ R l l') : ∀ {s s' : SumOrder},
    s.Related R s' → (loopOrder s l).Related R (loopOrder s' l') := by
  induction h with
  | nil => intro s s' hs; exact hs
  | cons h _ ih => intro s s' hs; exact ih (hs.add (.leaf h))

theorem related_eight {R : ℚ → ℚ → Prop} : ∀ (n : ℕ) (l l' : List ℚ), l.length ≤ n → List.Forall₂ R l l' →
    ∀ {r0 r1 r2 r3 r4 r5 r6 r7 s0 s1 s2 s3 s4 s5 s6 s7 : SumOrder},
    r0.Related R s0 → r1.Related R s1 → r2.Related R s2 → r3.Related R s3 → r4.Related R s4 → r5.Related R s5 →
    r6.Related R s6 → r7.Related R s7 →
    (eightOrder r0 r1 r2 r3 r4 r5 r6 r7 l).Related R (eightOrder s0 s1 s2 s3 s4 s5 s6 s7 l') := by
  intro n
  induction n using Nat.strong_induction_on with
  | _ n ih =>
    intro l l' hl h r0 r1 r2 r3 r4 r5 r6 r7 s0 s1 s2 s3 s4 s5 s6 s7 h0 h1 h2 h3 h4 h5 h6 h7
    by_cases h8 : 8 ≤ l.length
    · match l, l', h with
      | _ :: _ :: _ :: _ :: _ :: _ :: _ :: _ :: l, _,
          .cons a0 (.cons a1 (.cons a2 (.cons a3 (.cons a4 (.cons a5 (.cons a6 (.cons a7 h))))))) =>
        simp only [List.length_cons] at hl
        exact ih (n - 8) (by omega) l _ (by omega) h (h0.add (.leaf a0)) (h1.add (.leaf a1)) (h2.add (.leaf a2))
          (h3.add (.leaf a3)) (h4.add (.leaf a4)) (h5.add (.leaf a5)) (h6.add (.leaf a6)) (h7.add (.leaf a7))
    · rw [eightOrder_short _ _ _ _ _ _ _ _ l (by omega), eightOrder_short _ _ _ _ _ _ _ _ l' (by rw [← h.length_eq]; omega)]
      exact related_loop h (((h0.add h1).add (h2.add h3)).add ((h4.add h5).add (h6.add h7)))

theorem related_block {R : ℚ → ℚ → Prop} (h00 : R 0 0) {l l' : List ℚ} (h : List.Forall₂ R l l') :
    (blockOrder l).Related R (blockOrder l') := by
  by_cases h8 : 8 ≤ l.length
  · match l, l', h with
    | _ :: _ :: _ :: _ :: _ :: _ :: _ :: _ :: l, _,
        .cons a0 (.cons a1 (.cons a2 (.cons a3 (.cons a4 (.cons a5 (.cons a6 (.cons a7 h))))))) =>
      exact related_eight l.length l _ le_rfl h (.leaf a0) (.leaf a1) (.leaf a2) (.leaf a3) (.leaf a4) (.leaf a5)
        (.leaf a6) (.leaf a7)
  · have short : ∀ m : List ℚ, m.length < 8 → blockOrder m = loopOrder (.leaf 0) m := by
      intro m hm
      unfold blockOrder
      split
      · simp at hm; omega
      · rfl
    rw [short l (by omega), short l' (by rw [← h.length_eq]; omega)]
    exact related_loop h (.leaf h00)

theorem related_pair {R : ℚ → ℚ → Prop} (h00 : R 0 0) : ∀ (fuel : ℕ) {l l' : List ℚ}, List.Forall₂ R l l' →
    (pairOrder fuel l).Related R (pairOrder fuel l') := by
  intro fuel
  induction fuel with
  | zero => intro l l' h; exact related_loop h (.leaf h00)
  | succ f ih =>
    intro l l' h
    unfold pairOrder
    rw [← h.length_eq]
    split_ifs
    · exact related_block h00 h
    · exact (ih (List.forall₂_take _ h)).add (ih (List.forall₂_drop _ h))

/-- What every addition keeps, numpy's sum keeps. -/
theorem related_npSum {R : ℚ → ℚ → Prop} {fl : ℚ → ℚ} (h00 : R 0 0)
    (hR : ∀ a b c d, R a b → R c d → R (fl (a + c)) (fl (b + d))) {l l' : List ℚ} (h : List.Forall₂ R l l') :
    R (npSum fl l) (npSum fl l') := by
  unfold npSum
  rw [← h.length_eq]
  exact related_val hR ((SumOrder.Related.leaf h00).add (related_pair h00 _ h))

/-- The width of functions related point by point is related, for relations kept by every operation. -/
theorem related_width {R : ℚ → ℚ → Prop} {P : ℚ → Prop} {fl cube : ℚ → ℚ} (h00 : R 0 0)
    (hR : ∀ a b c d, R a b → R c d → R (fl (a + c)) (fl (b + d)))
    (hm : ∀ a b x, P x → R a b → R (fl (a * x)) (fl (b * x))) (p : WidthPars) (gsf gsf' nld spin : ℚ → ℚ)
    (hn : 2 ≤ p.steps) (hst : P (widthStepF fl p)) (hD : P p.D0)
    (h2 : P 2⁻¹) (h1000 : P 1000)
    (hnld : ∀ e ∈ linspaceF fl p.Emin p.Sn p.steps, P (nld (fl (p.Sn - e))))
    (hspin : ∀ e ∈ linspaceF fl p.Emin p.Sn p.steps, P (spin (fl (p.Sn - e))))
    (hg : ∀ e ∈ linspaceF fl p.Emin p.Sn p.steps, R (fl (cube e * gsf e)) (fl (cube e * gsf' e))) :
    ∃ w w', ggWidthF fl cube (npSum fl) p gsf nld spin = .ok w ∧ ggWidthF fl cube (npSum fl) p gsf' nld spin = .ok w' ∧
      R w w' := by
  unfold ggWidthF
  rw [if_neg (by omega), if_neg (by omega)]
  refine ⟨_, _, rfl, rfl, ?_⟩
  have hl : List.Forall₂ R ((linspaceF fl p.Emin p.Sn p.steps).map (widthTermF fl cube p.Sn gsf nld spin))
      ((linspaceF fl p.Emin p.Sn p.steps).map (widthTermF fl cube p.Sn gsf' nld spin)) := by
    rw [List.forall₂_map_left_iff, List.forall₂_map_right_iff, List.forall₂_same]
    intro e he
    exact hm _ _ _ (hspin e he) (hm _ _ _ (hnld e he) (hg e he))
  refine hm _ _ _ h1000 (hm _ _ _ hD ?_)
  rw [div_eq_mul_inv, div_eq_mul_inv]
  exact hm _ _ _ h2 (hm _ _ _ hst (related_npSum h00 hR hl))

/-- **C147.** A larger strength function never gives a smaller width, rounding included. -/
theorem C147_monotone (fl cube : ℚ → ℚ) (hfl : Monotone fl) (hcube : ∀ e, 0 ≤ e → 0 ≤ cube e) (p : WidthPars)
    (gsf gsf' nld spin : ℚ → ℚ) (hn : 2 ≤ p.steps) (hst : 0 ≤ widthStepF fl p) (hD : 0 ≤ p.D0)
    (hgrid : ∀ e ∈ linspaceF fl p.Emin p.Sn p.steps, 0 ≤ e)
    (hnld : ∀ e ∈ linspaceF fl p.Emin p.Sn p.steps, 0 ≤ nld (fl (p.Sn - e)))
    (hspin : ∀ e ∈ linspaceF fl p.Emin p.Sn p.steps, 0 ≤ spin (fl (p.Sn - e)))
    (hg : ∀ e ∈ linspaceF fl p.Emin p.Sn p.steps, gsf e ≤ gsf' e) :
    ∃ w w', ggWidthF fl cube (npSum fl) p gsf nld spin = .ok w ∧ ggWidthF fl cube (npSum fl) p gsf' nld spin = .ok w' ∧
      w ≤ w' :=
  related_width (R := (· ≤ ·)) (P := fun x => 0 ≤ x) le_rfl (fun _ _ _ _ h k => hfl (add_le_add h k))
    (fun _ _ _ hx h => hfl (mul_le_mul_of_nonneg_right h hx)) p gsf gsf' nld spin hn hst hD (by norm_num)
    (by norm_num) hnld hspin fun e he => hfl (mul_le_mul_of_nonneg_left (hg e he) (hcube e (hgrid e he)))

/-- **C147.** A strength function multiplied by a factor which the rounding does not feel (a power of two for doubles)
gives exactly that many times the width. -/
theorem C147_scaled (fl cube : ℚ → ℚ) (s : ℚ) (hs : ∀ q, fl (s * q) = s * fl q) (p : WidthPars)
    (gsf nld spin : ℚ → ℚ) (hn : 2 ≤ p.steps) :
    ∃ w, ggWidthF fl cube (npSum fl) p gsf nld spin = .ok w ∧
      ggWidthF fl cube (npSum fl) p (fun e => s * gsf e) nld spin = .ok (s * w) := by
  obtain ⟨w, w', h1, h2, h3⟩ := related_width (R := fun a b => b = s * a) (P := fun _ => True) (fl := fl) (cube := cube) (by simp)
    (fun a b c d h k => by rw [h, k, ← mul_add, hs]) (fun a b x _ h => by rw [h, mul_assoc, hs]) p gsf
    (fun e => s * gsf e) nld spin hn trivial trivial trivial trivial (fun _ _ => trivial) (fun _ _ => trivial)
    (fun e _ => by rw [← hs]; congr 1; ring)
  exact ⟨w, h1, by rw [h2, h3]⟩

/-- **C147.** Doubles do not feel a factor of 2. -/
theorem C147_two (q : ℚ) : dbl (2 * q) = 2 * dbl q := by
  unfold dbl
  by_cases h : q = 0
  · simp [h]
  · have h2 : (2 : ℚ) * q ≠ 0 := mul_ne_zero two_ne_zero h
    have hl : Int.log 2 |2 * q| = Int.log 2 |q| + 1 := by
      have hq : 0 < |q| := abs_pos.2 h
      have h2q : 0 < |2 * q| := abs_pos.2 h2
      have ha : |2 * q| = 2 * |q| := by rw [abs_mul]; norm_num
      apply le_antisymm
      · have : Int.log 2 |2 * q| < Int.log 2 |q| + 1 + 1 := by
          rw [Int.lt_zpow_iff_log_lt (by norm_num) h2q |>.symm, ha]
          have := lt_log q
          rw [zpow_add₀ (by norm_num) _ 1]
          push_cast
          linarith
        omega
      · rw [← Int.zpow_le_iff_le_log (by norm_num) h2q, ha, zpow_add₀ (by norm_num)]
        have := log_le h
        push_cast
        linarith
    rw [if_neg h, if_neg h2, hl]
    have e : (2 : ℚ) ^ (Int.log 2 |q| + 1 - 52) = 2 * (2 : ℚ) ^ (Int.log 2 |q| - 52) := by
      rw [show Int.log 2 |q| + 1 - 52 = (Int.log 2 |q| - 52) + 1 by ring, zpow_add₀ (by norm_num)]
      ring
    rw [e, mul_div_mul_left _ _ two_ne_zero]
    ring

example : ggWidthF dbl (fun e => dbl (e ^ 3)) (npSum dbl) widthExample (fun e => e / 16) (fun x => 1 + x) (fun _ => 1 / 2) =
      .ok 672000 ∧
    ggWidthF dbl (fun e => dbl (e ^ 3)) (npSum dbl) widthExample (fun e => 2 * (e / 16)) (fun x => 1 + x) (fun _ => 1 / 2) =
      .ok 1344000 := by
  decide +kernel

/-- **C147.** `lnlike` is never positive, and is 0 exactly if the computed width is the experimental one. -/
theorem C147_lnlike (fl : ℚ → ℚ) (u : ℚ) (hfl : Rounding fl u) (hu1 : u < 1) (p : WidthPars) (hG : p.Gg.2 ≠ 0) (w : ℚ) :
    ∃ l, widthLnlikeF fl p w = .ok l ∧ l ≤ 0 ∧ (l = 0 ↔ w = p.Gg.1) := by
  unfold widthLnlikeF
  rw [if_neg hG]
  refine ⟨_, rfl, ?_, ?_⟩
  · have h0 := hfl.nonneg (sq_nonneg (fl (fl (w - p.Gg.1) / p.Gg.2)))
    have := hfl.mono (show -(1 / 2) * fl (fl (fl (w - p.Gg.1) / p.Gg.2) ^ 2) ≤ 0 by linarith)
    rwa [hfl.zero] at this
  · rw [hfl.eq_zero hu1, mul_eq_zero, hfl.eq_zero hu1, pow_eq_zero_iff (by norm_num), hfl.eq_zero hu1, div_eq_zero_iff,
      hfl.eq_zero hu1, sub_eq_zero]
    constructor
    · rintro (h | h | h)
      · norm_num at h
      · exact h
      · exact absurd h hG
    · intro h; exact Or.inr (Or.inl h)

example : widthLnlikeF dbl widthExample 120 = .ok (-2) := by decide +kernel

end Ompy
