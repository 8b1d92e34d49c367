import Verif.PlotsProps

/-!
# More on the helpers (C107) and the plots (C108)
-/

namespace Ompy

theorem mapM_from {α β : Type} (f : α → Except Err β) : ∀ (l : List α) (out : List β), l.mapM f = .ok out →
    ∀ b ∈ out, ∃ a ∈ l, f a = .ok b := by
  intro l
  induction l with
  | nil =>
    intro out h b hb
    simp only [List.mapM_nil, pure, Except.pure, Except.ok.injEq] at h
    rw [← h] at hb
    simp at hb
  | cons x xs ih =>
    intro out h b hb
    rw [List.mapM_cons] at h
    cases hx : f x with
    | error e => rw [hx] at h; simp [bind, Except.bind] at h
    | ok y =>
      cases hs : xs.mapM f with
      | error e => rw [hx, hs] at h; simp [bind, Except.bind] at h
      | ok ys =>
        rw [hx, hs] at h
        simp only [bind, Except.bind, pure, Except.pure, Except.ok.injEq] at h
        rw [← h] at hb
        rcases List.mem_cons.1 hb with rfl | hb
        · exact ⟨x, List.mem_cons_self, hx⟩
        · obtain ⟨a, ha, hf⟩ := ih ys hs b hb
          exact ⟨a, List.mem_cons_of_mem _ ha, hf⟩

/-- **C108.** Without a threshold the second colour is used exactly for the values whose place on the colour scale is
above half of the place of the largest value. -/
theorem C108_annotate_default (norm : ℚ → ℚ) (m : Mat) (as : List Annotation) (h : annotate norm none m = .ok as)
    (mx : ℚ) (hm : mx ∈ m.values.flatten) (hmax : ∀ v ∈ m.values.flatten, v ≤ mx) :
    ∀ a ∈ as, (a.second = true ↔ norm mx / 2 < norm a.value) := by
  intro a ha
  unfold annotate at h
  simp only [listMax_of hm hmax, Except.map] at h
  obtain ⟨p, _, hp⟩ := mapM_from _ _ _ h a ha
  unfold annotateOne at hp
  split at hp
  · split at hp
    · rw [Except.ok.injEq] at hp
      rw [← hp]
      simp
    · cases hp
  · cases hp

/-- Non-vacuity: on a scale that starts at 2 the colour changes above 3 and not above 2. -/
example : annotate (fun v => (v - 2) / 2) none ⟨[[2, 5 / 2], [3, 4]], [10, 20], [10, 20], none, none⟩ =
    .ok [⟨10, 10, 2, false⟩, ⟨10, 20, 3, false⟩, ⟨20, 10, 5 / 2, false⟩, ⟨20, 20, 4, true⟩] := by
  decide +kernel

/-- **C107.** Whenever `cut_like(inplace=True)` raises after the first cut, the matrix stays cut along `Ex`. -/
theorem C107_cut_like_left (m other m1 : Mat) (a b : ℚ) (e : Err) (ha : a ∈ other.Ex) (ha' : ∀ v ∈ other.Ex, a ≤ v)
    (hb : b ∈ other.Ex) (hb' : ∀ v ∈ other.Ex, v ≤ b) (h1 : m.cut 1 (some a) (some b) true true = .ok m1)
    (he : (m.cutLikeInplace other).2 = .error e) : (m.cutLikeInplace other).1 = m1 := by
  unfold Mat.cutLikeInplace at he ⊢
  rw [listMin_of ha ha', listMax_of hb hb'] at he ⊢
  simp only [h1] at he ⊢
  split
  · rename_i c d hc hd
    simp only [hc, hd] at he
    split
    · rfl
    · rename_i m2 h2
      simp only [h2] at he
      cases he
  · rfl
  · rfl

/-- Non-vacuity: a matrix without gamma bins is cut along `Ex` before the second cut fails. -/
example : (⟨[[], []], [], [5, 6], none, none⟩ : Mat).cutLikeInplace ⟨[[1]], [1], [6], none, none⟩ =
    (⟨[[]], [], [6], none, none⟩, .error .undefined) := by
  decide +kernel

end Ompy
