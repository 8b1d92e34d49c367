import Verif.CutRoundingProps
import Verif.MatrixMore

/-!
# More properties of the cuts in floating point (C115)
-/

namespace Ompy

/-- The last index is returned for limits that are infinite or NaN. -/
theorem indexNum_infinite (fl : ℚ → ℚ) (E : List ℚ) :
    indexNum fl E .pinf = E.length - 1 ∧ indexNum fl E .ninf = E.length - 1 ∧ indexNum fl E .nan = E.length - 1 :=
  ⟨rfl, rfl, rfl⟩

/-- **C115, fails.** A lower limit of `inf` leaves nothing, but an upper limit of `-inf` leaves all bins except the
last one; NaN as upper limit cuts nothing, as lower limit all except the last bin. -/
theorem C115_edges_fails (fl : ℚ → ℚ) (E : List ℚ) (hE : E ≠ []) :
    cutBoundsF fl E (some .pinf) (some .ninf) true true = .ok ((E.length : ℤ), (E.length : ℤ) - 1) ∧
    cutBoundsF fl E (some .nan) (some .nan) true true = .ok ((E.length : ℤ) - 1, (E.length : ℤ)) ∧
    cutBoundsF fl E (some .pinf) (some .ninf) false false = .ok ((E.length : ℤ) + 1, (E.length : ℤ) - 2) := by
  have hpos : 0 < E.length := List.length_pos_iff.2 hE
  have e : ((E.length - 1 : ℕ) : ℤ) = (E.length : ℤ) - 1 := by omega
  refine ⟨?_, ?_, ?_⟩
  all_goals
    simp only [cutBoundsF, limitOr, bind, Except.bind, pure, Except.pure, if_neg hE, cutLowF, cutHighF, indexNum,
      ltNum, gtNum, if_true, e, Bool.false_eq_true, if_false]
    refine congrArg Except.ok (Prod.ext ?_ ?_) <;> dsimp only <;> omega

theorem indexF_first (fl : ℚ → ℚ) (u : ℚ) (h : Rounding fl u) (u0 : 0 ≤ u) (hu : u ≤ 1 / 100) (E : List ℚ)
    (hs : E.Pairwise (· < ·)) {k : ℕ} (hk : k < E.length) : indexF fl E (E.getD k 0) = k := by
  have hE : E ≠ [] := List.length_pos_iff.1 (by omega)
  obtain ⟨h1, h2⟩ := C115_closest fl u h u0 hu E (E.getD k 0) hE (hs.imp le_of_lt)
  have h3 := h2 k hk
  rw [sub_self, abs_zero, mul_zero] at h3
  have h4 : E.getD (indexF fl E (E.getD k 0)) 0 = E.getD k 0 := sub_eq_zero.1 (abs_nonpos_iff.1 h3)
  generalize indexF fl E (E.getD k 0) = i at *
  rw [List.getD_eq_getElem E 0 h1, List.getD_eq_getElem E 0 hk] at h4
  rcases lt_trichotomy i k with c | c | c
  · have := List.pairwise_iff_getElem.1 hs i k h1 hk c
    linarith
  · exact c
  · have := List.pairwise_iff_getElem.1 hs k i hk h1 c
    linarith

/-- **C115.** Without limits everything stays, in matrices with excluded limits all bins except the first and the
last. -/
theorem C115_defaults (fl : ℚ → ℚ) (u : ℚ) (h : Rounding fl u) (u0 : 0 ≤ u) (hu : u ≤ 1 / 100) (E : List ℚ) (hE : E ≠ [])
    (hs : E.Pairwise (· < ·)) :
    cutBoundsF fl E none none true true = .ok (0, (E.length : ℤ)) ∧
    cutBoundsF fl E none none false false = .ok (1, (E.length : ℤ) - 1) := by
  have hpos : 0 < E.length := List.length_pos_iff.2 hE
  have hmin : listMin E = .ok (E.getD 0 0) := by
    rw [List.getD_eq_getElem E 0 hpos]
    refine listMin_of (List.getElem_mem hpos) fun x hx => ?_
    obtain ⟨k, hk, rfl⟩ := List.mem_iff_getElem.1 hx
    rcases Nat.eq_zero_or_pos k with c | c
    · subst c; exact le_rfl
    · exact (List.pairwise_iff_getElem.1 hs 0 k hpos hk c).le
  have hmax : listMax E = .ok (E.getD (E.length - 1) 0) := by
    have hl : E.length - 1 < E.length := by omega
    rw [List.getD_eq_getElem E 0 hl]
    refine listMax_of (List.getElem_mem hl) fun x hx => ?_
    obtain ⟨k, hk, rfl⟩ := List.mem_iff_getElem.1 hx
    rcases Nat.lt_or_ge k (E.length - 1) with c | c
    · exact (List.pairwise_iff_getElem.1 hs k (E.length - 1) hk hl c).le
    · have : k = E.length - 1 := by omega
      subst this
      exact le_rfl
  have i0 := indexF_first fl u h u0 hu E hs hpos
  have i1 := indexF_first fl u h u0 hu E hs (show E.length - 1 < E.length by omega)
  constructor
  all_goals
    simp only [cutBoundsF, limitOr, hmin, hmax, Except.map, bind, Except.bind, pure, Except.pure, if_neg hE, cutLowF,
      cutHighF, indexNum, i0, i1, ltNum, gtNum, lt_irrefl, decide_false, Bool.false_eq_true, if_false, if_true]
    refine congrArg Except.ok (Prod.ext ?_ ?_) <;> dsimp only <;> omega

example : cutBoundsF dbl [dbl (1 / 10), dbl (2 / 10), dbl (3 / 10)] none none true true = .ok (0, 3) :=
  (C115_defaults dbl _ dbl_rounding (by norm_num) (by norm_num) _ (by simp) (by
    simp only [List.pairwise_cons, List.mem_cons, List.not_mem_nil, or_false, forall_eq_or_imp, forall_eq]
    refine ⟨⟨?_, ?_⟩, ?_, ?_⟩ <;> first | decide +kernel | simp)).1

/-- **C115.** Cuts of an empty axis have no result, whatever the limits are. -/
theorem C115_empty (fl : ℚ → ℚ) (emin emax : Option Num) (a b : Bool) (r : ℤ × ℤ) (units : String) (w : Vec ℚ) :
    cutBoundsF fl [] emin emax a b ≠ .ok r ∧ (⟨[], [], none, units⟩ : Vec ℚ).cutF fl emin emax ≠ .ok w := by
  constructor
  · cases emin <;> cases emax <;> simp [cutBoundsF, limitOr, listMin, listMax, Except.map, bind, Except.bind]
  · cases emin <;> cases emax <;> simp [Vec.cutF, limitOr, listMin, listMax, Except.map, bind, Except.bind]

end Ompy
