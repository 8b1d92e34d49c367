import Verif.SpinProps

/-!
# More on C47: when the saved spin sum is returned
-/

namespace Ompy

/-- **C47.** Two arrays of energies count as the same if they are equal, or if one of them has one element
and every element of the other is equal to it (numpy's broadcasting). An empty array is the same as any
array with one element. -/
theorem C47_compare (xs ys : List ℚ) : npAllEq (.arr xs) (.arr ys) = true ↔
    xs = ys ∨ (∃ x, xs = [x] ∧ ∀ y ∈ ys, y = x) ∨ (∃ y, ys = [y] ∧ ∀ x ∈ xs, x = y) := by
  unfold npAllEq
  dsimp only
  by_cases h : xs.length = ys.length
  · rw [if_pos h, decide_eq_true_eq]
    constructor
    · exact Or.inl
    · rintro (h1 | ⟨x, rfl, h1⟩ | ⟨y, rfl, h1⟩)
      · exact h1
      · obtain ⟨y, rfl⟩ := List.length_eq_one_iff.1 h.symm
        rw [h1 y (by simp)]
      · obtain ⟨x, rfl⟩ := List.length_eq_one_iff.1 h
        rw [h1 x (by simp)]
  · rw [if_neg h]
    have hne : xs ≠ ys := fun e => h (by rw [e])
    by_cases h1 : xs.length = 1
    · rw [if_pos h1]
      obtain ⟨x, rfl⟩ := List.length_eq_one_iff.1 h1
      simp only [List.getD_cons_zero, List.all_eq_true, decide_eq_true_eq]
      constructor
      · intro hy
        exact Or.inr (Or.inl ⟨x, rfl, fun y hm => (hy y hm).symm⟩)
      · rintro (h2 | ⟨z, h2, h3⟩ | ⟨y, rfl, h3⟩)
        · exact absurd h2 hne
        · intro y hm
          rw [h3 y hm]
          simpa using h2
        · exact absurd rfl h
    · rw [if_neg h1]
      by_cases h2 : ys.length = 1
      · rw [if_pos h2]
        obtain ⟨y, rfl⟩ := List.length_eq_one_iff.1 h2
        simp only [List.getD_cons_zero, List.all_eq_true, decide_eq_true_eq]
        constructor
        · intro hx
          exact Or.inr (Or.inr ⟨y, rfl, hx⟩)
        · rintro (h3 | ⟨z, rfl, h3⟩ | ⟨z, h3, h4⟩)
          · exact absurd h3 hne
          · exact absurd rfl h1
          · intro x hm
            rw [h4 x hm]
            simpa using h3.symm
      · rw [if_neg h2]
        constructor
        · intro h3; exact absurd h3 (by simp)
        · rintro (h3 | ⟨z, rfl, h3⟩ | ⟨z, rfl, h3⟩)
          · exact absurd h3 hne
          · exact absurd rfl h1
          · exact absurd rfl h2

/-- Non-vacuity: `[5]` and `[5, 5]` count as the same, `[5, 5]` and `[5, 5, 5]` do not. -/
example : npAllEq (.arr [5]) (.arr [5, 5]) = true ∧ npAllEq (.arr [5, 5]) (.arr [5]) = true ∧
    npAllEq (.arr [5, 5]) (.arr [5, 5, 5]) = false := by decide +kernel

/-- **C47.** A number and an array count as the same if every element of the array is that number. -/
theorem C47_compare_scalar (x : ℚ) (ys : List ℚ) :
    (npAllEq (.scalar x) (.arr ys) = true ↔ ∀ y ∈ ys, x = y) ∧
    (npAllEq (.arr ys) (.scalar x) = true ↔ ∀ y ∈ ys, y = x) := by
  constructor <;> simp [npAllEq]

example : npAllEq (.scalar 5) (.arr [5, 5]) = true ∧ npAllEq (.arr [5, 6]) (.scalar 5) = false := by
  decide +kernel

/-- **C47.** If the model, the *current* contents of the saved and of the present dictionary, the energies
and the spins are the same, the saved result is returned and nothing is computed, whatever `F` is. If one
of them differs, the result is that of `F`. -/
theorem C47_saved {M P V : Type} [DecidableEq M] [DecidableEq P]
    (F : M → P → ExVal → ℚ → ℚ → Except Err V) (s : SpinState M P V) (c : SavedSum M V) (m : M) (p : ℕ)
    (hc : s.saved = some c) (hm : s.model = some m) (hp : s.pars = some p) (ex : ExArg) (J L : ℚ) :
    (c.model = m ∧ s.dicts c.pars = s.dicts p ∧ npAllEq (s.exVal c.ex) (s.exVal ex) = true ∧ c.J = J ∧
        c.L = L → s.call F ex J L = (.ok c.value, s)) ∧
    (¬ (c.model = m ∧ s.dicts c.pars = s.dicts p ∧ npAllEq (s.exVal c.ex) (s.exVal ex) = true ∧
        c.J = J ∧ c.L = L) → (s.call F ex J L).1 = F m (s.dicts p) (s.exVal ex) J L) := by
  have hh : s.hit ex J L = true ↔ (c.model = m ∧ s.dicts c.pars = s.dicts p ∧
      npAllEq (s.exVal c.ex) (s.exVal ex) = true ∧ c.J = J ∧ c.L = L) := by
    unfold SpinState.hit
    rw [hc, hp, hm]
    simp only [Bool.and_eq_true, decide_eq_true_eq, Option.some.injEq]
    tauto
  constructor
  · intro h
    unfold SpinState.call
    rw [if_pos (hh.2 h), hc]
  · intro h
    unfold SpinState.call
    rw [if_neg (fun e => h (hh.1 e)), hm, hp]
    cases hF : F m (s.dicts p) (s.exVal ex) J L with
    | error e => simp only [hF]
    | ok v => simp only [hF]

/-- Non-vacuity: after one call the second is answered from the saved result. -/
example : spinStart.run spinToy [.call (.arr 0) 0 0, .call (.arr 0) 0 0, .call (.arr 0) 1 0] =
    [some (.ok (3, .arr [5, 5])), some (.ok (3, .arr [5, 5])), some (.ok (3, .arr [5, 5]))] := by
  decide +kernel

end Ompy
