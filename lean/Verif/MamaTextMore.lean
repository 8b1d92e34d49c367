import Verif.MamaTextProps

/-!
# C99: line ends of other systems
-/

namespace Ompy

/-- The text with other line ends. -/
def withLineEnd (e : List Char) (text : List Char) : List Char := text.flatMap fun c => if c = '\n' then e else [c]

theorem univNl_crlf (text : List Char) (h : '\r' ∉ text) : univNl (withLineEnd ['\r', '\n'] text) = text := by
  induction text with
  | nil => rfl
  | cons c cs ih =>
    have h1 : '\r' ∉ cs := fun hh => h (List.mem_cons_of_mem _ hh)
    have h2 : c ≠ '\r' := fun hh => h (hh ▸ List.mem_cons_self)
    unfold withLineEnd at ih ⊢
    rw [List.flatMap_cons]
    by_cases hc : c = '\n'
    · rw [if_pos hc, hc]
      simp only [List.cons_append, List.nil_append, univNl]
      rw [ih h1]
    · rw [if_neg hc]
      simp only [List.cons_append, List.nil_append]
      rw [univNl]
      · rw [ih h1]
      · intro t ht; exact absurd ht h2
      · exact h2

theorem univNl_cr (text : List Char) (h : '\r' ∉ text) : univNl (withLineEnd ['\r'] text) = text := by
  induction text with
  | nil => rfl
  | cons c cs ih =>
    have h1 : '\r' ∉ cs := fun hh => h (List.mem_cons_of_mem _ hh)
    have h2 : c ≠ '\r' := fun hh => h (hh ▸ List.mem_cons_self)
    have h3 : (withLineEnd ['\r'] cs).head? ≠ some '\n' := by
      unfold withLineEnd
      cases cs with
      | nil => simp
      | cons d ds =>
        rw [List.flatMap_cons]
        by_cases hd : d = '\n'
        · rw [if_pos hd]; simp
        · rw [if_neg hd]; simpa using hd
    unfold withLineEnd at ih h3 ⊢
    rw [List.flatMap_cons]
    by_cases hc : c = '\n'
    · rw [if_pos hc, hc]
      simp only [List.cons_append, List.nil_append]
      rw [univNl]
      · rw [ih h1]
      · intro t ht
        rw [ht] at h3
        simp at h3
    · rw [if_neg hc]
      simp only [List.cons_append, List.nil_append]
      rw [univNl]
      · rw [ih h1]
      · intro t ht; exact absurd ht h2
      · exact h2

theorem univNl_plain (text : List Char) (h : '\r' ∉ text) : univNl text = text := by
  have := univNl_crlf
  induction text with
  | nil => rfl
  | cons c cs ih =>
    rw [univNl]
    · rw [ih fun hh => h (List.mem_cons_of_mem _ hh)]
    · intro t ht; exact absurd ht fun hh => h (hh ▸ List.mem_cons_self)
    · exact fun hh => h (hh ▸ List.mem_cons_self)

/-- **C99.** A file with the line ends of other systems has the same lines, and `mama_read` returns the same. -/
theorem C99_line_ends (text e : List Char) (h : '\r' ∉ text) (he : e = ['\r', '\n'] ∨ e = ['\r']) :
    linesOf (withLineEnd e text) = linesOf text ∧ mamaReadText (withLineEnd e text) = mamaReadText text := by
  have h1 : linesOf (withLineEnd e text) = linesOf text := by
    unfold linesOf
    rw [univNl_plain text h]
    rcases he with rfl | rfl
    · rw [univNl_crlf text h]
    · rw [univNl_cr text h]
  refine ⟨h1, ?_⟩
  unfold mamaReadText
  rw [h1]

example : linesOf ['a', '\r', '\n', 'b'] = [['a'], ['b']] ∧ linesOf ['a', '\r', 'b'] = [['a'], ['b']] :=
  ⟨((C99_line_ends ['a', '\n', 'b'] ['\r', '\n'] (by decide) (Or.inl rfl)).1).trans (by decide), ((C99_line_ends ['a', '\n', 'b'] ['\r'] (by decide) (Or.inr rfl)).1).trans (by decide)⟩

/-- **C99 (disagreement).** A matrix with one row or one column of counts cannot be read from a file that MAMA itself may write: `genfromtxt` returns a one-dimensional array, and taking its two dimensions apart
raises ValueError. -/
theorem C99_thin_fails (kind comment time dim channel : List Char) (hk : OneLine kind) (hc : OneLine comment) (ht : OneLine time) (hd : OneLine dim) (hch : OneLine channel)
    (cal : List ℚ) (h6 : cal.length = 6) (rows : List (List ℚ)) (c : ℕ) (hc0 : 0 < c) (hr : ∀ r ∈ rows, r.length = c) (h1 : rows.length = 1 ∨ c = 1) :
    mamaReadText (mamaFile (mamaHeader kind comment time cal dim channel) rows) = .error .valueError := by
  unfold mamaReadText
  rw [file_lines _ rows (header_clean kind comment time cal dim channel hk hc ht hd hch), gen_rows _ rfl rows c hc0 hr]
  rw [List.append_assoc, cal_found kind comment time cal dim channel _ (Or.inr h6)]
  obtain ⟨a, b, d, e, f, g, rfl⟩ : ∃ a b d e f g, cal = [a, b, d, e, f, g] := by
    rcases cal with _ | ⟨a, _ | ⟨b, _ | ⟨d, _ | ⟨e, _ | ⟨f, _ | ⟨g, _ | ⟨i, t⟩⟩⟩⟩⟩⟩⟩ <;> simp at h6
    exact ⟨a, b, d, e, f, g, rfl⟩
  simp only [bind, Except.bind, List.map_cons, List.map_nil, mamaArrays]
  rw [if_pos]
  rcases h1 with h1 | h1
  · right; simp [h1]
  · left
    by_cases h : rows = []
    · rw [if_pos h]
    · rw [if_neg h, h1]

example : mamaReadText (mamaFile (mamaHeader [] [] [] [0, 1, 0, 0, 1, 0] [] []) [[1, 2, 3]]) = .error .valueError :=
  C99_thin_fails [] [] [] [] [] (by unfold OneLine; decide) (by unfold OneLine; decide) (by unfold OneLine; decide) (by unfold OneLine; decide) (by unfold OneLine; decide) _ rfl _ 3 (by norm_num)
    (by simp) (Or.inl rfl)

end Ompy
