import Verif.WidthRoundingProps
import Verif.LogInterpRoundingProps

/-!
# C147: errors of the curves in the radiative width
-/

namespace Ompy

/-- Specification: the exact sum of the width (ompy/normalizer_gsf.py:327-347, see `ggWidthF`) for curves with real values. -/
noncomputable def widthReal (grid : List ℚ) (step D0 : ℚ) (arg : ℚ → ℚ) (G N S : ℚ → ℝ) : ℝ :=
  1000 * D0 * step * (grid.map fun e : ℚ => (e : ℝ) ^ 3 * G e * N (arg e) * S (arg e)).sum / 2

/-- **C147.** Errors of strength function, level density and spin sum go into the width with their exponents and no more: if the computed curves are the
exact ones up to factors `exp(±d1)`, `exp(±d2)`, `exp(±d3)` on the grid, the computed width is the one of the exact curves up to
`exp(±(d1 + d2 + d3))` and `c + D n + 9` roundings. -/
theorem C147_curves (fl cube : ℚ → ℚ) (u : ℚ) (hfl : Rounding fl u) (hu : 0 ≤ u) (hu1 : u < 1) (c : ℕ)
    (hc : ∀ e, 0 ≤ e → Within u c (e ^ 3) (cube e)) (D : ℕ → ℕ) (sum : List ℚ → ℚ) (hs : Summation fl D sum)
    (p : WidthPars) (gsf nld spin : ℚ → ℚ) (hp : WidthInput fl p gsf nld spin) (G N S : ℚ → ℝ) (d1 d2 d3 : ℝ)
    (hG : ∀ e ∈ linspaceF fl p.Emin p.Sn p.steps, 0 ≤ G e ∧ LogNear d1 (G e) (gsf e))
    (hN : ∀ e ∈ linspaceF fl p.Emin p.Sn p.steps, 0 ≤ N (fl (p.Sn - e)) ∧ LogNear d2 (N (fl (p.Sn - e))) (nld (fl (p.Sn - e))))
    (hS : ∀ e ∈ linspaceF fl p.Emin p.Sn p.steps, 0 ≤ S (fl (p.Sn - e)) ∧ LogNear d3 (S (fl (p.Sn - e))) (spin (fl (p.Sn - e)))) :
    ∃ w, ggWidthF fl cube sum p gsf nld spin = .ok w ∧
      LogNear (d1 + d2 + d3 + (c + D p.steps + 9 : ℕ) * lamU u)
        (widthReal (linspaceF fl p.Emin p.Sn p.steps) ((p.Sn - p.Emin) / ((p.steps : ℚ) - 1)) p.D0 (fun e => fl (p.Sn - e)) G N S) w := by
  obtain ⟨w, hw, hi, h0⟩ := C147_width fl cube u hfl hu hu1 c hc D sum hs p gsf nld spin hp
  refine ⟨w, hw, LogNear.chain ?_ (Within.logNear hu1 hi)⟩
  have g0 := linspaceF_nonneg hfl hp.steps hp.emin hp.sn
  have hn' : (0 : ℚ) < (p.steps : ℚ) - 1 := by
    have : (2 : ℚ) ≤ (p.steps : ℚ) := by exact_mod_cast hp.steps
    linarith
  have q0 : 0 ≤ (p.Sn - p.Emin) / ((p.steps : ℚ) - 1) := div_nonneg (by linarith [hp.sn]) hn'.le
  have q0' : (0 : ℝ) ≤ (((p.Sn - p.Emin) / ((p.steps : ℚ) - 1) : ℚ) : ℝ) := by exact_mod_cast q0
  have D0' : (0 : ℝ) ≤ p.D0 := by exact_mod_cast hp.d0
  set step := (p.Sn - p.Emin) / ((p.steps : ℚ) - 1)
  have terms : ∀ l : List ℚ, (∀ e ∈ l, e ∈ linspaceF fl p.Emin p.Sn p.steps) →
      LogNear (d1 + d2 + d3) (l.map fun e : ℚ => (e : ℝ) ^ 3 * G e * N (fl (p.Sn - e)) * S (fl (p.Sn - e))).sum
        (((l.map fun e => e ^ 3 * gsf e * nld (fl (p.Sn - e)) * spin (fl (p.Sn - e))).sum : ℚ) : ℝ) := by
    intro l
    induction l with
    | nil => intro _; simp [LogNear]
    | cons e es ih =>
      intro h
      have he := h e List.mem_cons_self
      have e0 : (0 : ℝ) ≤ (e : ℝ) ^ 3 := by exact_mod_cast pow_nonneg (g0 e he) 3
      obtain ⟨a0, a1⟩ := hG e he
      obtain ⟨b0, b1⟩ := hN e he
      obtain ⟨c0, c1⟩ := hS e he
      have r : LogNear 0 ((e : ℝ) ^ 3) ((e : ℝ) ^ 3) := by simp [LogNear]
      have m := ((r.mul a1 e0 a0).mul b1 (mul_nonneg e0 a0) b0).mul c1 (mul_nonneg (mul_nonneg e0 a0) b0) c0
      rw [zero_add] at m
      simp only [List.map_cons, List.sum_cons]
      rw [Rat.cast_add]
      have m' : LogNear (d1 + d2 + d3) ((e : ℝ) ^ 3 * G e * N (fl (p.Sn - e)) * S (fl (p.Sn - e)))
          ((e ^ 3 * gsf e * nld (fl (p.Sn - e)) * spin (fl (p.Sn - e)) : ℚ) : ℝ) := by
        push_cast
        exact m
      exact m'.add (ih fun x hx => h x (List.mem_cons_of_mem _ hx))
  have t := terms _ fun e he => he
  have k0 : (0 : ℝ) ≤ 1000 * p.D0 * step / 2 := by positivity
  have cast : ∀ d q x : ℚ, ((1000 * d * q * x / 2 : ℚ) : ℝ) = 1000 * d * q / 2 * x := by
    intro d q x
    push_cast
    ring
  unfold widthReal widthSum
  rw [cast]
  constructor
  · have := mul_le_mul_of_nonneg_left t.1 k0
    refine le_trans (le_of_eq ?_) (this.trans (le_of_eq ?_))
    · ring
    · rfl
  · have := mul_le_mul_of_nonneg_left t.2 k0
    refine le_trans (le_of_eq ?_) (this.trans (le_of_eq ?_))
    · exact mul_left_comm _ _ _
    · ring

/-- The curves of the example of C147, with errors of a tenth. -/
example : ∀ e : ℚ, 0 ≤ e → (0 : ℝ) ≤ (e : ℝ) / 16 ∧ LogNear (Real.log 2) ((e : ℝ) / 16) ((e / 16 * (11 / 10) : ℚ) : ℝ) := by
  intro e he
  have h : (0 : ℝ) ≤ e := by exact_mod_cast he
  refine ⟨by positivity, ?_⟩
  unfold LogNear
  rw [Real.exp_neg, Real.exp_log (by norm_num)]
  push_cast
  constructor <;> linarith

end Ompy
