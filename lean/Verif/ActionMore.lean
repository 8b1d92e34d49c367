import Verif.ActionProps

/-!
# More on C37: which methods an action offers, and `map` over a target that raises
-/

namespace Ompy

variable {V R σ : Type}

/-- **C37.** A new action offers exactly the own methods of the class named (in any case), and its
recording is empty. -/
theorem C37_offers (own : String → List String) (base : String) (a : Action V)
    (h : Action.new own base = .ok a) :
    a.calls = [] ∧
      ((base.toLower = "matrix" ∧ a.names = own "matrix") ∨
        (base.toLower = "vector" ∧ a.names = own "vector")) := by
  unfold Action.new at h
  by_cases h1 : base.toLower = "matrix"
  · rw [if_pos h1] at h
    cases h
    exact ⟨rfl, .inl ⟨h1, rfl⟩⟩
  · rw [if_neg h1] at h
    by_cases h2 : base.toLower = "vector"
    · rw [if_pos h2] at h
      cases h
      exact ⟨rfl, .inr ⟨h2, rfl⟩⟩
    · rw [if_neg h2] at h
      exact absurd h (by simp)

/-- **C37.** `map` stops at the first target whose calls raise, with that exception: the targets
before it have been acted on, the failing one keeps the effects of the calls made until then, all
others are untouched. -/
theorem C37_map_raises (exec : Exec V R σ) (a : Action V) (pre post : List ℕ) (t : ℕ)
    (hnd : (pre ++ t :: post).Nodup) (st : ℕ → σ) (e : Err)
    (hok : ∀ u ∈ pre, ∃ r, (a.actOn exec (st u)).2 = .ok r)
    (he : (a.actOn exec (st t)).2 = .error e) :
    (a.map exec (pre ++ t :: post) st).2 = .error e ∧
      ∀ u, (a.map exec (pre ++ t :: post) st).1 u =
        if u ∈ pre ∨ u = t then (a.actOn exec (st u)).1 else st u := by
  suffices gen : ∀ (pre : List ℕ) (acc : List (List R)) (st : ℕ → σ), (pre ++ t :: post).Nodup →
      (∀ u ∈ pre, ∃ r, (a.actOn exec (st u)).2 = .ok r) → (a.actOn exec (st t)).2 = .error e →
      (mapLoop exec a (pre ++ t :: post) acc st).2 = .error e ∧
        ∀ u, (mapLoop exec a (pre ++ t :: post) acc st).1 u =
          if u ∈ pre ∨ u = t then (a.actOn exec (st u)).1 else st u from gen pre [] st hnd hok he
  intro pre
  induction pre with
  | nil =>
    intro acc st _ _ he
    have hsplit : a.actOn exec (st t) = ((a.actOn exec (st t)).1, .error e) := by rw [← he]
    have e1 : mapLoop exec a ([] ++ t :: post) acc st =
        (Function.update st t (a.actOn exec (st t)).1, .error e) := by
      rw [List.nil_append]
      conv_lhs => unfold mapLoop
      rw [hsplit]
    rw [e1]
    refine ⟨rfl, fun u => ?_⟩
    by_cases hu : u = t
    · subst hu; simp
    · simp [hu]
  | cons p ps ih =>
    intro acc st hnd hok he
    have hnd' : (ps ++ t :: post).Nodup := (List.nodup_cons.1 hnd).2
    have hp : p ∉ ps ++ t :: post := (List.nodup_cons.1 hnd).1
    obtain ⟨r, hr⟩ := hok p List.mem_cons_self
    have hsplit : a.actOn exec (st p) = ((a.actOn exec (st p)).1, .ok r) := by rw [← hr]
    have hst : ∀ u, u ≠ p → Function.update st p (a.actOn exec (st p)).1 u = st u :=
      fun u hu => Function.update_of_ne hu _ _
    have hpt : t ≠ p := by rintro rfl; exact hp (by simp)
    have hps : ∀ u ∈ ps, u ≠ p := by rintro u hu rfl; exact hp (by simp [hu])
    have e1 : mapLoop exec a (p :: ps ++ t :: post) acc st =
        mapLoop exec a (ps ++ t :: post) (acc ++ [r])
          (Function.update st p (a.actOn exec (st p)).1) := by
      rw [List.cons_append]
      conv_lhs => unfold mapLoop
      rw [hsplit]
    obtain ⟨g1, g2⟩ := ih (acc ++ [r]) (Function.update st p (a.actOn exec (st p)).1) hnd'
      (fun u hu => by rw [hst u (hps u hu)]; exact hok u (List.mem_cons_of_mem _ hu))
      (by rw [hst t hpt]; exact he)
    rw [e1]
    refine ⟨g1, fun u => ?_⟩
    rw [g2 u]
    by_cases hu : u = p
    · subst hu
      have : ¬(u ∈ ps ∨ u = t) := by
        rintro (h | h)
        · exact hps u h rfl
        · exact hpt h.symm
      rw [if_neg this]
      simp
    · rw [hst u hu]
      simp [hu]

example : (Action.map demoExec (Action.mk ["add"] [⟨"add", [], [("n", 5)]⟩, ⟨"boom", [], []⟩])
    [0, 1] (fun _ => 0)).2 = .error .valueError ∧
    (Action.map demoExec (Action.mk ["add"] [⟨"add", [], [("n", 5)]⟩, ⟨"boom", [], []⟩])
      [0, 1] (fun _ => 0)).1 0 = 5 ∧
    (Action.map demoExec (Action.mk ["add"] [⟨"add", [], [("n", 5)]⟩, ⟨"boom", [], []⟩])
      [0, 1] (fun _ => 0)).1 1 = 0 := by
  refine ⟨rfl, rfl, rfl⟩

end Ompy
