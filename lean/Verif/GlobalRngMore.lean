import Verif.GlobalRngProps

/-!
# C102, added after mutation tests
-/

namespace Ompy

variable {σ : Type}

/-- **C102.** The numbers drawn after `extract_from` has begun are those of a generator seeded with the seed of the extractor, whatever was drawn before; an extractor with another seed gives what its seed gives. -/
theorem C102_seed (g : NGen σ) (seed n : ℕ) (s : σ) : (g.draw n (extractorSeed g seed s)).2 = (g.draw n (g.seed seed)).2 ∧ (g.draw n (extractorInit g s)).2 = (g.draw n (extractorSeed g 98743215 s)).2 := ⟨rfl, rfl⟩

/-- Non-vacuity: a generator that counts up from its seed. -/
example : (NGen.draw (⟨fun n => n, fun s => (s + 1, (s : ℝ))⟩ : NGen ℕ) 2 (extractorSeed ⟨fun n => n, fun s => (s + 1, (s : ℝ))⟩ 7 0)).2 = [7, 8] := by
  simp [NGen.draw, extractorSeed]

end Ompy
