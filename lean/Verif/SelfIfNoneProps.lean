import Verif.SelfIfNone

/-!
# C69: arguments that default to attributes
-/

namespace Ompy

/-- The text matches `.*\((\w+).*\).*` with `pre` for the first `.*` and `name` for the group. -/
def CallMatch (w : Char → Bool) (line pre name : List Char) : Prop :=
  name ≠ [] ∧ (∀ c ∈ name, w c = true) ∧ ∃ mid post, line = pre ++ '(' :: (name ++ mid ++ ')' :: post)

theorem nameAt_some {w : Char → Bool} (hw : w ')' = false) {l n : List Char} :
    nameAt w l = some n ↔ CallMatch w l [] n ∧ ∀ n', CallMatch w l [] n' → n'.length ≤ n.length := by
  cases l with
  | nil => simp [nameAt, CallMatch]
  | cons c rest =>
    unfold nameAt
    dsimp only
    have hmax : ∀ n', CallMatch w (c :: rest) [] n' → n' <+: rest.takeWhile w ∧ c = '(' ∧
        ')' ∈ rest.dropWhile w := by
      rintro n' ⟨h1, h2, mid, post, h3⟩
      simp only [List.nil_append, List.cons.injEq] at h3
      obtain ⟨hc, hr⟩ := h3
      rw [List.append_assoc] at hr
      have ht : rest.takeWhile w = n' ++ (mid ++ ')' :: post).takeWhile w := by
        rw [hr, List.takeWhile_append_of_pos h2]
      have hd : rest.dropWhile w = (mid ++ ')' :: post).dropWhile w := by
        rw [hr, List.dropWhile_append_of_pos h2]
      refine ⟨ht ▸ List.prefix_append _ _, hc, ?_⟩
      rw [hd]
      by_contra hn
      have h5 : ')' ∈ (mid ++ ')' :: post).takeWhile w := by
        have : ')' ∈ (mid ++ ')' :: post).takeWhile w ++ (mid ++ ')' :: post).dropWhile w := by
          rw [List.takeWhile_append_dropWhile]
          simp
        rcases List.mem_append.1 this with h | h
        · exact h
        · exact absurd h hn
      have := List.mem_takeWhile_imp h5
      rw [hw] at this
      cases this
    constructor
    · intro h
      split at h
      · rename_i hc
        obtain ⟨rfl, h1, h2⟩ := hc
        cases h
        refine ⟨⟨h1, fun c hc => List.mem_takeWhile_imp hc, ?_⟩, fun n' hn' => (hmax n' hn').1.length_le⟩
        obtain ⟨mid, post, hm⟩ := List.append_of_mem h2
        refine ⟨mid, post, ?_⟩
        rw [List.nil_append, List.append_assoc, ← hm, List.takeWhile_append_dropWhile]
      · cases h
    · rintro ⟨h1, h2⟩
      obtain ⟨hp, hc, hd⟩ := hmax n h1
      have hne : rest.takeWhile w ≠ [] := by
        intro h0
        rw [h0] at hp
        exact h1.1 (List.prefix_nil.1 hp)
      rw [if_pos ⟨hc, hne, hd⟩]
      have hm : CallMatch w (c :: rest) [] (rest.takeWhile w) := by
        obtain ⟨mid, post, hm⟩ := List.append_of_mem hd
        refine ⟨hne, fun c hc => List.mem_takeWhile_imp hc, mid, post, ?_⟩
        rw [List.nil_append, List.append_assoc, ← hm, List.takeWhile_append_dropWhile, hc]
      have := hp.eq_of_length (le_antisymm hp.length_le (h2 _ hm))
      rw [this]

theorem CallMatch.cons {w : Char → Bool} {c : Char} {l pre n : List Char} :
    CallMatch w (c :: l) (c :: pre) n ↔ CallMatch w l pre n := by
  unfold CallMatch
  simp

theorem CallMatch.cases {w : Char → Bool} {c : Char} {l pre n : List Char}
    (h : CallMatch w (c :: l) pre n) : pre = [] ∨ ∃ p, pre = c :: p ∧ CallMatch w l p n := by
  cases pre with
  | nil => exact Or.inl rfl
  | cons d p =>
    obtain ⟨h1, h2, mid, post, h3⟩ := h
    simp only [List.cons_append, List.cons.injEq] at h3
    exact Or.inr ⟨p, by rw [h3.1], h1, h2, mid, post, h3.2⟩

theorem nameAt_of_match {w : Char → Bool} (hw : w ')' = false) {l n : List Char}
    (h : CallMatch w l [] n) : ∃ m, nameAt w l = some m := by
  -- the longest name
  have hb : ∀ k, (∃ m, nameAt w l = some m) ∨ ∃ m, CallMatch w l [] m ∧ k ≤ m.length := by
    intro k
    induction k with
    | zero => exact Or.inr ⟨n, h, Nat.zero_le _⟩
    | succ k ih =>
      rcases ih with h1 | ⟨m, hm, hk⟩
      · exact Or.inl h1
      · by_cases h2 : ∃ m', CallMatch w l [] m' ∧ m.length < m'.length
        · obtain ⟨m', hm', hl⟩ := h2
          exact Or.inr ⟨m', hm', by omega⟩
        · push Not at h2
          exact Or.inl ⟨m, (nameAt_some hw).2 ⟨hm, h2⟩⟩
  rcases hb (l.length + 1) with h1 | ⟨m, ⟨-, -, m1, p1, e1⟩, hk⟩
  · exact h1
  · exfalso
    rw [e1] at hk
    simp at hk
    omega

theorem retrieveName_of_match {w : Char → Bool} (hw : w ')' = false) {l p n : List Char}
    (h : CallMatch w l p n) : ∃ m, retrieveName w l = some m := by
  induction l generalizing p with
  | nil =>
    obtain ⟨-, -, mid, post, h⟩ := h
    simp at h
  | cons c l ih =>
    unfold retrieveName
    rcases h.cases with rfl | ⟨q, rfl, hq⟩
    · cases retrieveName w l with
      | some m => exact ⟨m, rfl⟩
      | none => exact nameAt_of_match hw h
    · obtain ⟨m, hm⟩ := ih hq
      exact ⟨m, by rw [hm]⟩

/-- **C69.** The name found is that of the regular expression `.*\((\w+).*\).*` with greedy matching:
among all matches the one with the longest text in front and then the longest name. -/
theorem C69_regex (w : Char → Bool) (hw : w ')' = false) (line n : List Char) :
    retrieveName w line = some n ↔ ∃ pre, CallMatch w line pre n ∧
      ∀ pre' n', CallMatch w line pre' n' →
        pre'.length < pre.length ∨ pre' = pre ∧ n'.length ≤ n.length := by
  induction line generalizing n with
  | nil =>
    simp only [retrieveName]
    constructor
    · intro h; cases h
    · rintro ⟨pre, ⟨-, -, mid, post, h⟩, -⟩
      simp at h
  | cons c l ih =>
    unfold retrieveName
    cases hr : retrieveName w l with
    | some m =>
      obtain ⟨pre, hp, hmax⟩ := (ih m).1 hr
      dsimp only
      constructor
      · intro h
        cases h
        refine ⟨c :: pre, CallMatch.cons.2 hp, fun pre' n' h' => ?_⟩
        rcases h'.cases with rfl | ⟨p, rfl, hp'⟩
        · left
          simp
        · rcases hmax p n' hp' with h | ⟨h, h2⟩
          · left
            simpa using h
          · right
            exact ⟨by rw [h], h2⟩
      · rintro ⟨pre2, hp2, hmax2⟩
        rcases hmax2 (c :: pre) m (CallMatch.cons.2 hp) with h | ⟨h, h2⟩
        · rcases hp2.cases with rfl | ⟨p, rfl, hp'⟩
          · simp at h
          · rcases hmax p n hp' with h3 | ⟨h3, -⟩
            · simp only [List.length_cons] at h
              omega
            · rw [h3] at h
              simp at h
        · subst h
          have hn := CallMatch.cons.1 hp2
          rcases hmax pre n hn with h3 | ⟨-, h3⟩
          · exact absurd h3 (lt_irrefl _)
          · -- both are prefixes of the same text, of the same length
            obtain ⟨-, -, m1, p1, e1⟩ := hp
            obtain ⟨-, -, m2, p2, e2⟩ := hn
            rw [e1] at e2
            have e3 := List.append_cancel_left e2
            simp only [List.cons.injEq, true_and, List.append_assoc] at e3
            have := (List.append_inj e3 (le_antisymm h2 h3)).1
            rw [this]
    | none =>
      have hnone : ∀ p n', ¬ CallMatch w l p n' := by
        intro p n' hp
        obtain ⟨m, hm⟩ := retrieveName_of_match hw hp
        rw [hr] at hm
        cases hm
      dsimp only
      rw [nameAt_some hw]
      constructor
      · rintro ⟨h1, h2⟩
        refine ⟨[], h1, fun pre' n' h' => ?_⟩
        rcases h'.cases with rfl | ⟨p, rfl, hp'⟩
        · exact Or.inr ⟨rfl, h2 _ h'⟩
        · exact absurd hp' (hnone _ _)
      · rintro ⟨pre, h1, h2⟩
        rcases h1.cases with rfl | ⟨p, rfl, hp'⟩
        · refine ⟨h1, fun n' h' => ?_⟩
          rcases h2 [] n' h' with h | ⟨-, h⟩
          · simp at h
          · exact h
        · exact absurd hp' (hnone _ _)

/-- **C69.** There is a name exactly if the line matches; otherwise the call fails with an
`AssertionError`. -/
theorem C69_defined (w : Char → Bool) (hw : w ')' = false) (line : List Char) :
    (∃ n, retrieveName w line = some n) ↔ ∃ pre n, CallMatch w line pre n := by
  constructor
  · rintro ⟨n, h⟩
    obtain ⟨pre, hp, -⟩ := (C69_regex w hw line n).1 h
    exact ⟨pre, n, hp⟩
  · rintro ⟨pre, n, h⟩
    exact retrieveName_of_match hw h

/-- **C69.** A call `…(name…)` on one line, with no further opening parenthesis, finds its argument. -/
theorem C69_call (w : Char → Bool) (hw : w ')' = false) (pre name rest : List Char) (hn : name ≠ [])
    (hword : ∀ c ∈ name, w c = true) (hsep : ∀ c ∈ rest.head?, w c = false) (hclose : ')' ∈ rest)
    (hopen : '(' ∉ rest) (hname : '(' ∉ name) :
    retrieveName w (pre ++ '(' :: (name ++ rest)) = some name := by
  rw [C69_regex w hw]
  refine ⟨pre, ⟨hn, hword, ?_⟩, ?_⟩
  · obtain ⟨mid, post, h⟩ := List.append_of_mem hclose
    exact ⟨mid, post, by rw [h, List.append_assoc]⟩
  · rintro pre' n' ⟨h1, h2, mid, post, h3⟩
    rcases lt_trichotomy pre'.length pre.length with h | h | h
    · exact Or.inl h
    · right
      obtain ⟨e1, e2⟩ := List.append_inj h3 h.symm
      refine ⟨e1.symm, ?_⟩
      by_contra hlt
      push Not at hlt
      simp only [List.cons.injEq, true_and] at e2
      rw [List.append_assoc] at e2
      -- the longer name would contain the separator
      obtain ⟨t, ht⟩ := List.append_eq_append_iff.1 e2 |>.resolve_right (by
        rintro ⟨t, ht, -⟩
        rw [ht] at hlt
        simp at hlt)
      obtain ⟨ht1, ht2⟩ := ht
      cases t with
      | nil =>
        rw [ht1] at hlt
        simp at hlt
      | cons c t =>
        have hc : w c = true := h2 c (by rw [ht1]; simp)
        have := hsep c (by rw [ht2]; simp)
        rw [hc] at this
        cases this
    · exfalso
      -- the parenthesis would be in the name or in the rest
      have hmem : '(' ∈ name ++ rest := by
        have e : (pre ++ '(' :: (name ++ rest)).drop (pre.length + 1) = name ++ rest := by
          rw [show pre.length + 1 = (pre ++ ['(']).length by simp,
            show pre ++ '(' :: (name ++ rest) = (pre ++ ['(']) ++ (name ++ rest) by simp, List.drop_left]
        rw [← e, h3, List.drop_append_of_le_length (by omega)]
        simp
      rcases List.mem_append.1 hmem with h4 | h4
      · exact hname h4
      · exact hopen h4

/-- Letters, digits and the underscore. -/
def wordChar (c : Char) : Bool := c.isAlphanum || c == '_'

/-- Every call of `self_if_none` in the normalisers with the name it should find. -/
def callSites : List (String × String) :=
  [("self.limit_low = self.self_if_none(limit_low)", "limit_low"),
   ("self.limit_high = self.self_if_none(limit_high)", "limit_high"),
   ("discrete = self.self_if_none(discrete)", "discrete"),
   ("nld = self.self_if_none(nld)", "nld"),
   ("self.norm_pars = self.self_if_none(norm_pars)", "norm_pars"),
   ("self.bounds = self.self_if_none(bounds)", "bounds"),
   ("limit_low = self.self_if_none(limit_low)", "limit_low"),
   ("limit_high = self.self_if_none(limit_high)", "limit_high"),
   ("self.normalizer_nld = copy.deepcopy(self.self_if_none(normalizer_nld))", "normalizer_nld"),
   ("self.normalizer_gsf = copy.deepcopy(self.self_if_none(normalizer_gsf))", "normalizer_gsf"),
   ("gsf = self.self_if_none(gsf)", "gsf"),
   ("normalizer_nld = self.self_if_none(normalizer_nld, nonable=True)", "normalizer_nld"),
   ("self.nld = self.self_if_none(nld)", "nld"),
   ("alpha = self.self_if_none(alpha, nonable=True)", "alpha"),
   ("self.nld_model = self.self_if_none(nld_model, nonable=True)", "nld_model")]

/-- **C69.** Every call in the code finds the name of its argument. -/
theorem C69_call_sites : ∀ p ∈ callSites, retrieveName wordChar p.1.toList = some p.2.toList := by
  decide +kernel

/-- **C69.** What the call returns: the argument if there is one, otherwise the attribute of that name;
`ValueError` for `None` unless it is allowed, `AttributeError` if there is no such attribute. -/
theorem C69_value {α : Type} (w : Char → Bool) (attrs : List Char → Option (Option α))
    (line name : List Char) (h : retrieveName w line = some name) (nonable : Bool) :
    (∀ x, selfIfNoneOf w attrs line (some x) nonable = .ok (some x)) ∧
    (∀ x, attrs name = some (some x) → selfIfNoneOf w attrs line none nonable = .ok (some x)) ∧
    (attrs name = some none → selfIfNoneOf w attrs line none true = .ok none ∧
      selfIfNoneOf w attrs line none false = .error .valueError) ∧
    (attrs name = none → selfIfNoneOf w attrs line none nonable = .error .attributeError) := by
  unfold selfIfNoneOf
  simp only [h]
  refine ⟨fun _ => trivial, fun x hx => ?_, fun hx => ?_, fun hx => ?_⟩
  · rw [hx]; simp
  · rw [hx]; simp
  · rw [hx]

/-- Non-vacuity of `C69_call` and `C69_value`. -/
example : retrieveName wordChar "x = f(nld, nonable=True)".toList = some "nld".toList ∧
    selfIfNoneOf (α := ℕ) wordChar (fun n => if n = "nld".toList then some (some 3) else none)
      "x = f(nld, nonable=True)".toList none false = .ok (some 3) := by
  constructor
  · exact C69_call wordChar (by decide) "x = f".toList "nld".toList ", nonable=True)".toList (by decide)
      (by decide) (by decide) (by decide) (by decide) (by decide)
  · decide +kernel

/-- **C69 fails** for other ways to write the call: a comment in parentheses, a nested call, an attribute as
argument, a call spread over lines (of which only one is looked at). The first three find another name, the
last fails with an `AssertionError`, even if the argument is given. -/
theorem C69_syntax_fails :
    retrieveName wordChar "nld = self.self_if_none(nld)  # (see above)".toList = some "see".toList ∧
    retrieveName wordChar "nld = self.self_if_none(copy(other))".toList = some "other".toList ∧
    retrieveName wordChar "nld = self.self_if_none(self.nld)".toList = some "self".toList ∧
    (∀ (attrs : List Char → Option (Option ℕ)) (x : ℕ),
      selfIfNoneOf wordChar attrs "nld = self.self_if_none(".toList (some x) true = .error .assertion) := by
  refine ⟨by decide +kernel, by decide +kernel, by decide +kernel, fun attrs x => ?_⟩
  have h : retrieveName wordChar "nld = self.self_if_none(".toList = none := by decide +kernel
  unfold selfIfNoneOf
  rw [h]

end Ompy
