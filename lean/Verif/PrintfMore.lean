import Verif.PrintfProps

/-!
# C98: which texts are numbers
-/

namespace Ompy

/-- A list of digits. -/
def AllDigits (s : List Char) : Prop := ∀ c ∈ s, c ∈ ['0', '1', '2', '3', '4', '5', '6', '7', '8', '9']

/-- An optional sign. -/
def IsSign (s : List Char) : Prop := s = [] ∨ s = ['+'] ∨ s = ['-']

/-- A decimal number: optional sign, digits with at most one point and at least one digit, optional exponent with at least one digit. -/
def IsDecimal (s : List Char) : Prop :=
  ∃ sg a pt b ex, s = sg ++ (a ++ pt ++ b) ++ ex ∧ IsSign sg ∧ AllDigits a ∧ AllDigits b ∧ a ++ b ≠ [] ∧ (pt = ['.'] ∨ pt = [] ∧ b = []) ∧
    (ex = [] ∨ ∃ c sg' d, ex = c :: (sg' ++ d) ∧ (c = 'E' ∨ c = 'e') ∧ IsSign sg' ∧ AllDigits d ∧ d ≠ [])

theorem digitV_some (c : Char) (n : ℕ) (h : digitV c = some n) : c ∈ ['0', '1', '2', '3', '4', '5', '6', '7', '8', '9'] := by
  unfold digitV at h
  split_ifs at h with hc
  have h2 : c = Char.ofNat c.toNat := (Char.ofNat_toNat c).symm
  rw [h2]
  obtain ⟨h3, h4⟩ := hc
  interval_cases c.toNat <;> decide

theorem digitV_of (c : Char) (h : c ∈ ['0', '1', '2', '3', '4', '5', '6', '7', '8', '9']) : ∃ n, digitV c = some n := by
  simp only [List.mem_cons, List.not_mem_nil, or_false] at h
  rcases h with rfl | rfl | rfl | rfl | rfl | rfl | rfl | rfl | rfl | rfl <;> exact ⟨_, rfl⟩

theorem readDigits_iff (s : List Char) (acc : ℕ) : (∃ n, readDigits acc s = some n) ↔ AllDigits s := by
  induction s generalizing acc with
  | nil => simp [readDigits, AllDigits]
  | cons c cs ih =>
    unfold readDigits
    constructor
    · rintro ⟨n, h⟩
      obtain ⟨d, h1, h2⟩ := Option.bind_eq_some_iff.1 h
      intro x hx
      rcases List.mem_cons.1 hx with rfl | hx
      · exact digitV_some _ _ h1
      · exact (ih _).1 ⟨n, h2⟩ x hx
    · intro h
      obtain ⟨d, h1⟩ := digitV_of c (h c List.mem_cons_self)
      obtain ⟨n, h2⟩ := (ih (10 * acc + d)).2 fun x hx => h x (List.mem_cons_of_mem _ hx)
      exact ⟨n, by rw [h1]; exact h2⟩

theorem digits_ne (s : List Char) (h : AllDigits s) (c : Char) (hc : c ∈ s) : c ≠ '.' ∧ c ≠ '+' ∧ c ≠ '-' ∧ isE c = false := by
  have := h c hc
  simp only [List.mem_cons, List.not_mem_nil, or_false] at this
  rcases this with rfl | rfl | rfl | rfl | rfl | rfl | rfl | rfl | rfl | rfl <;> decide

theorem readSign_split (s : List Char) : ∃ sg, IsSign sg ∧ s = sg ++ (readSign s).2 := by
  unfold readSign
  split
  · exact ⟨['-'], Or.inr (Or.inr rfl), rfl⟩
  · exact ⟨['+'], Or.inr (Or.inl rfl), rfl⟩
  · exact ⟨[], Or.inl rfl, rfl⟩

theorem readSign_sign (sg s : List Char) (h : IsSign sg) (hs : ∀ c, s.head? = some c → c ≠ '+' ∧ c ≠ '-') : (readSign (sg ++ s)).2 = s := by
  rcases h with rfl | rfl | rfl
  · cases s with
    | nil => rfl
    | cons c cs =>
      obtain ⟨h1, h2⟩ := hs c rfl
      unfold readSign
      split
      · next heq => simp at heq; exact absurd heq.1 h2
      · next heq => simp at heq; exact absurd heq.1 h1
      · rfl
  · rfl
  · rfl

theorem readExp_iff (s : List Char) : (∃ e, readExp s = some e) ↔ ∃ sg d, s = sg ++ d ∧ IsSign sg ∧ AllDigits d ∧ d ≠ [] := by
  unfold readExp
  constructor
  · rintro ⟨e, h⟩
    dsimp only at h
    by_cases h1 : (readSign s).2 = []
    · rw [if_pos h1] at h; cases h
    rw [if_neg h1] at h
    obtain ⟨n, h2, -⟩ := Option.map_eq_some_iff.1 h
    obtain ⟨sg, h3, h4⟩ := readSign_split s
    exact ⟨sg, _, h4, h3, (readDigits_iff _ 0).1 ⟨n, h2⟩, h1⟩
  · rintro ⟨sg, d, rfl, h1, h2, h3⟩
    have hr : (readSign (sg ++ d)).2 = d := readSign_sign sg d h1 fun c hc => by
      have := digits_ne d h2 c (List.mem_of_mem_head? hc)
      exact ⟨this.2.1, this.2.2.1⟩
    dsimp only
    rw [hr, if_neg h3]
    obtain ⟨n, hn⟩ := (readDigits_iff d 0).2 h2
    rw [hn]
    exact ⟨_, rfl⟩

theorem dropWhile_cases (p : Char → Bool) (s : List Char) : s.dropWhile p = [] ∨ ∃ c t, s.dropWhile p = c :: t ∧ p c = false := by
  induction s with
  | nil => exact Or.inl rfl
  | cons c cs ih =>
    by_cases h : p c
    · rw [List.dropWhile_cons_of_pos h]; exact ih
    · rw [List.dropWhile_cons_of_neg h]; exact Or.inr ⟨c, cs, rfl, by simpa using h⟩

theorem readMantissa_iff (s : List Char) : (∃ d, readMantissa s = some d) ↔
    ∃ a pt b, s = a ++ pt ++ b ∧ AllDigits a ∧ AllDigits b ∧ a ++ b ≠ [] ∧ (pt = ['.'] ∨ pt = [] ∧ b = []) := by
  unfold readMantissa
  constructor
  · rintro ⟨d, h⟩
    dsimp only at h
    split_ifs at h with h1
    obtain ⟨n, h2, -⟩ := Option.map_eq_some_iff.1 h
    have h3 := (readDigits_iff _ 0).1 ⟨n, h2⟩
    have h4 : AllDigits (s.takeWhile (· ≠ '.')) := fun c hc => h3 c (List.mem_append_left _ hc)
    have h5 : AllDigits ((s.dropWhile (· ≠ '.')).drop 1) := fun c hc => h3 c (List.mem_append_right _ hc)
    have hs := List.takeWhile_append_dropWhile (p := fun c => decide (c ≠ '.')) (l := s)
    rcases dropWhile_cases (· ≠ '.') s with hd | ⟨c, t, hd, hc⟩
    · refine ⟨s.takeWhile (· ≠ '.'), [], [], ?_, h4, by simp [AllDigits], ?_, Or.inr ⟨rfl, rfl⟩⟩
      · rw [hd] at hs; simpa using hs.symm
      · intro hh
        apply h1
        rw [hd]
        exact ⟨by simpa using hh, rfl⟩
    · have hc' : c = '.' := by simpa using hc
      refine ⟨s.takeWhile (· ≠ '.'), ['.'], (s.dropWhile (· ≠ '.')).drop 1, ?_, h4, h5, ?_, Or.inl rfl⟩
      · conv_lhs => rw [← hs]
        rw [hd, hc']
        simp
      · intro hh
        exact h1 (List.append_eq_nil_iff.1 hh)
  · rintro ⟨a, pt, b, rfl, h1, h2, h3, h4⟩
    have ha : ∀ c ∈ a, decide (c ≠ '.') = true := fun c hc => by simpa using (digits_ne a h1 c hc).1
    have hab : AllDigits (a ++ b) := fun c hc => (List.mem_append.1 hc).elim (h1 c) (h2 c)
    obtain ⟨n, hn⟩ := (readDigits_iff (a ++ b) 0).2 hab
    have key : (a ++ pt ++ b).takeWhile (· ≠ '.') = a ∧ ((a ++ pt ++ b).dropWhile (· ≠ '.')).drop 1 = b := by
      rcases h4 with rfl | ⟨rfl, rfl⟩
      · rw [List.append_assoc, List.takeWhile_append_of_pos ha, List.dropWhile_append_of_pos ha]
        simp
      · have t1 : a.takeWhile (fun c => decide (c ≠ '.')) = a := by
          have := List.takeWhile_append_of_pos (l₂ := []) ha
          simpa using this
        have t2 : a.dropWhile (fun c => decide (c ≠ '.')) = [] := by
          have := List.dropWhile_append_of_pos (l₂ := []) ha
          simpa using this
        rw [List.append_nil, List.append_nil, t1, t2]
        exact ⟨rfl, rfl⟩
    dsimp only
    rw [key.1, key.2, if_neg (fun hh => h3 (by rw [hh.1, hh.2]; rfl)), hn]
    exact ⟨_, rfl⟩

/-- **C98.** Exactly the decimal numbers, with blanks around them, are read as numbers; in particular no text with a letter other than the one in front of an exponent, a second point or an exponent
without digits. -/
theorem C98_language (s : List Char) : (∃ x, readFloat s = some x) ↔ IsDecimal (stripC s) := by
  unfold readFloat
  generalize stripC s = s
  constructor
  · rintro ⟨x, h⟩
    dsimp only at h
    obtain ⟨d, h1, h2⟩ := Option.bind_eq_some_iff.1 h
    obtain ⟨e, h3, -⟩ := Option.map_eq_some_iff.1 h2
    obtain ⟨sg, h4, h5⟩ := readSign_split s
    obtain ⟨a, pt, b, h6, h7, h8, h9, h10⟩ := (readMantissa_iff _).1 ⟨d, h1⟩
    refine ⟨sg, a, pt, b, (readSign s).2.dropWhile fun c => !isE c, ?_, h4, h7, h8, h9, h10, ?_⟩
    · rw [← h6, List.append_assoc, List.takeWhile_append_dropWhile, ← h5]
    · rcases dropWhile_cases (fun c => !isE c) (readSign s).2 with hd | ⟨c, t, hd, hc⟩
      · exact Or.inl hd
      · right
        rw [hd, if_neg (List.cons_ne_nil _ _)] at h3
        obtain ⟨sg', d', h11, h12, h13, h14⟩ := (readExp_iff _).1 ⟨e, h3⟩
        refine ⟨c, sg', d', ?_, ?_, h12, h13, h14⟩
        · rw [hd, ← h11]; rfl
        · rcases Classical.em (c = 'E') with h | h
          · exact Or.inl h
          · exact Or.inr (by simpa [isE, h] using hc)
  · rintro ⟨sg, a, pt, b, ex, rfl, h1, h2, h3, h4, h5, h6⟩
    have hm : ∀ c ∈ a ++ pt ++ b, (!isE c) = true := by
      intro c hc
      rcases List.mem_append.1 hc with hc | hc
      · rcases List.mem_append.1 hc with hc | hc
        · simp [(digits_ne a h2 c hc).2.2.2]
        · rcases h5 with rfl | ⟨rfl, -⟩
          · rw [List.mem_singleton.1 hc]; decide
          · cases hc
      · simp [(digits_ne b h3 c hc).2.2.2]
    have hs : (readSign (sg ++ (a ++ pt ++ b) ++ ex)).2 = a ++ pt ++ b ++ ex := by
      rw [List.append_assoc]
      refine readSign_sign sg _ h1 fun c hc => ?_
      have hne : a ++ pt ++ b ≠ [] := by
        intro hh
        apply h4
        obtain ⟨hh, hb⟩ := List.append_eq_nil_iff.1 hh
        rw [(List.append_eq_nil_iff.1 hh).1, hb]
        rfl
      have hc' : c ∈ a ++ pt ++ b := by
        cases hl : a ++ pt ++ b with
        | nil => exact absurd hl hne
        | cons x xs =>
          rw [hl] at hc
          simp only [List.cons_append, List.head?_cons, Option.some.injEq] at hc
          rw [← hc]
          exact List.mem_cons_self
      rcases List.mem_append.1 hc' with hc | hc
      · rcases List.mem_append.1 hc with hc | hc
        · exact ⟨(digits_ne a h2 c hc).2.1, (digits_ne a h2 c hc).2.2.1⟩
        · rcases h5 with rfl | ⟨rfl, -⟩
          · rw [List.mem_singleton.1 hc]; decide
          · cases hc
      · exact ⟨(digits_ne b h3 c hc).2.1, (digits_ne b h3 c hc).2.2.1⟩
    obtain ⟨d, hd⟩ := (readMantissa_iff (a ++ pt ++ b)).2 ⟨a, pt, b, rfl, h2, h3, h4, h5⟩
    dsimp only
    rw [hs, List.takeWhile_append_of_pos hm, List.dropWhile_append_of_pos hm]
    rcases h6 with rfl | ⟨c, sg', d', rfl, hc, h7, h8, h9⟩
    · simp only [List.takeWhile_nil, List.dropWhile_nil, List.append_nil, hd, Option.bind_some, if_true, Option.map_some]
      exact ⟨_, rfl⟩
    · have hcE : (!isE c) = false := by rcases hc with rfl | rfl <;> decide
      rw [List.takeWhile_cons_of_neg (by simp [hcE]), List.dropWhile_cons_of_neg (by simp [hcE]), List.append_nil, hd]
      obtain ⟨e, he⟩ := (readExp_iff (sg' ++ d')).2 ⟨sg', d', rfl, h7, h8, h9⟩
      simp only [Option.bind_some, List.drop_succ_cons, List.drop_zero, he]
      rw [if_neg (List.cons_ne_nil _ _)]
      exact ⟨_, rfl⟩

/-- Non-vacuity of `C98_language`: a number, and a text that is none. -/
example : (∃ x, readFloat [' ', '-', '1', '.', '5', 'e', '0', '3', ' '] = some x) ∧ ¬ ∃ x, readFloat ['1', 'A'] = some x := by
  refine ⟨?_, ?_⟩
  · rw [C98_language]
    exact ⟨['-'], ['1'], ['.'], ['5'], ['e', '0', '3'], rfl, Or.inr (Or.inr rfl), by simp [AllDigits], by simp [AllDigits], by simp, Or.inl rfl,
      Or.inr ⟨'e', [], ['0', '3'], rfl, Or.inr rfl, Or.inl rfl, by simp [AllDigits], by simp⟩⟩
  · rintro ⟨x, h⟩
    have : readFloat ['1', 'A'] = none := by decide +kernel
    rw [this] at h
    cases h

end Ompy
