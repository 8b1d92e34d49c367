import Verif.RoundingProps

/-! # C111: when the final-energy axis with rounding is refused -/

namespace Ompy

/-- **C111.** The axis of final energies is refused when one of the axes has fewer than two bins (IndexError), when the rounded bin widths are
not close (AssertionError), and it cannot be calculated (division by 0) when the rounded bin width is 0; ompy/extractor.py:362-373. -/
theorem C111_refused (fl : ℚ → ℚ) (close : ℚ → ℚ → Bool) (Ex Eg : List ℚ) :
    (Ex.length < 2 ∨ Eg.length < 2 → eNldF fl close Ex Eg = .error .indexError) ∧
    (2 ≤ Ex.length → 2 ≤ Eg.length → close (fl (Ex.getD 1 0 - Ex.getD 0 0)) (fl (Eg.getD 1 0 - Eg.getD 0 0)) = false →
      eNldF fl close Ex Eg = .error .assertion) ∧
    (2 ≤ Ex.length → 2 ≤ Eg.length → close (fl (Ex.getD 1 0 - Ex.getD 0 0)) (fl (Eg.getD 1 0 - Eg.getD 0 0)) = true →
      fl (Ex.getD 1 0 - Ex.getD 0 0) = 0 → eNldF fl close Ex Eg = .error .undefined) := by
  refine ⟨?_, ?_, ?_⟩
  · intro h
    unfold eNldF
    rw [if_pos h]
  · intro h1 h2 hc
    unfold eNldF
    rw [if_neg (by omega)]
    simp only [hc, Bool.not_false, if_true]
  · intro h1 h2 hc h0
    unfold eNldF
    rw [if_neg (by omega)]
    simp only [hc, Bool.not_true, Bool.false_eq_true, if_false]
    rw [if_pos h0]

/-- Non-vacuity: an axis that begins with the same energy twice. -/
example : eNldF dbl (fun a b => a == b) [1, 1] [2, 2] = .error .undefined ∧ eNldF dbl (fun a b => a == b) [1, 2] [1, 3] = .error .assertion ∧
    eNldF dbl (fun a b => a == b) [1] [1, 3] = .error .indexError := by decide +kernel

end Ompy
