import Verif.ExtractorProps

/-!
# More on C32 and C34: when the product and the final-energy axis exist
-/

namespace Ompy

/-- **C32.** The product stays within its arrays exactly if the axis of the level density is not empty,
there are two gamma energies, and level density, transmission coefficient and resolution are at least
as long as their axes. -/
theorem C32_defined {α : Type} [Field α] [DecidableEq α] (nld T : List α) (res Enld Eg Ex : List ℚ) :
    ((∃ P, nldTProduct nld T res Enld Eg Ex = .ok P) ↔
      2 ≤ Eg.length ∧ Enld ≠ [] ∧ Enld.length ≤ nld.length ∧ Eg.length ≤ T.length ∧
        Ex.length ≤ res.length) ∧
    ((∃ P, nldTProduct nld T res Enld Eg Ex = .ok P) ∨
      nldTProduct nld T res Enld Eg Ex = .error .undefined) := by
  unfold nldTProduct
  split_ifs with h
  · refine ⟨?_, .inr rfl⟩
    simp only [reduceCtorEq, exists_false, false_iff]
    rintro ⟨h1, h2, h3, h4, h5⟩
    rcases h with h | h | h | h | h
    · omega
    · exact h2 h
    · omega
    · omega
    · omega
  · push Not at h
    exact ⟨⟨fun _ => ⟨h.1, h.2.1, h.2.2.1, h.2.2.2.1, h.2.2.2.2⟩, fun _ => ⟨_, rfl⟩⟩, .inl ⟨_, rfl⟩⟩

/-- **C34.** The final-energy axis is refused for axes with fewer than two energies (IndexError) and for
different bin widths (AssertionError). -/
theorem C34_refuses (close : ℚ → ℚ → Bool) (Ex Eg : List ℚ) :
    (Ex.length < 2 ∨ Eg.length < 2 → eNld close Ex Eg = .error .indexError) ∧
    (2 ≤ Ex.length → 2 ≤ Eg.length →
      close (Ex.getD 1 0 - Ex.getD 0 0) (Eg.getD 1 0 - Eg.getD 0 0) = false →
      eNld close Ex Eg = .error .assertion) := by
  constructor
  · intro h
    rw [eNld, if_pos h]
  · intro h1 h2 h3
    rw [eNld, if_neg (by omega)]
    simp only [h3, Bool.not_false, if_true]

example : eNld (fun a b => a == b) [0, 1, 2] [0, 2, 4] = .error .assertion ∧
    (eNld (fun a b => a == b) [1] [0, 2, 4]) = .error .indexError := by decide +kernel

end Ompy
