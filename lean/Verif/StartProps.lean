import Verif.Start
import Verif.DecomposeFitProps

/-!
# C79: the start values of the decomposition
-/

namespace Ompy

theorem bsfgU_pos (E0 e : ℝ) : 0 < bsfgU E0 e := by
  unfold bsfgU; split_ifs with h
  · norm_num
  · linarith

theorem bsfgFG_pos {a U : ℝ} (ha : 0 < a) (hU : 0 < U) : 0 < bsfgFG a U := by
  unfold bsfgFG; positivity

/-- **C79.** The Fermi-gas like start value: it is positive everywhere, is the Fermi-gas formula times an exponential
of the energy, has the same value at a quarter of the axis and at its end, and 1/0.7 in the middle. -/
theorem C79_bsfg (E : List ℝ) (E0 a : ℝ) (ha : 0 < a) (hN : 2 ≤ E.length) (hs : E.Pairwise (· < ·)) :
    ∃ v : List ℝ, x0BSFG E E0 a = .ok (v.map some) ∧ v.length = E.length ∧ (∀ x ∈ v, 0 < x) ∧
      v.getD (E.length / 4) 0 = v.getD (E.length - 1) 0 ∧ v.getD (E.length / 2) 0 = 10 / 7 ∧
      ∃ A α : ℝ, 0 < A ∧ ∀ k < E.length, v.getD k 0
        = A * Real.exp (α * E.getD k 0) * bsfgFG a (bsfgU E0 (E.getD k 0)) := by
  have h4 : E.length / 4 < E.length - 1 := by omega
  have h4' : E.length / 4 < E.length := by omega
  have hl : E.length - 1 < E.length := by omega
  have h2 : E.length / 2 < E.length := by omega
  have hlt : E.getD (E.length / 4) 0 < E.getD (E.length - 1) 0 := by
    rw [List.getD_eq_getElem _ _ h4', List.getD_eq_getElem _ _ hl]
    exact List.pairwise_iff_getElem.1 hs _ _ h4' hl h4
  set F : ℝ → ℝ := fun e => bsfgFG a (bsfgU E0 e) with hF
  have hFp : ∀ e, 0 < F e := fun e => bsfgFG_pos ha (bsfgU_pos E0 e)
  set e4 := E.getD (E.length / 4) 0
  set eN := E.getD (E.length - 1) 0
  set α := Real.log (F e4 / F eN) / (eN - e4) with hα
  set D := F (E.getD (E.length / 2) 0) * Real.exp (α * E.getD (E.length / 2) 0) * (7 / 10) with hD
  have hDp : 0 < D := by
    have := hFp (E.getD (E.length / 2) 0)
    rw [hD]; positivity
  have hget : ∀ k, k < E.length → (E.map F).getD k 0 = F (E.getD k 0) := by
    intro k hk
    rw [List.getD_eq_getElem _ _ (by simpa using hk), List.getD_eq_getElem _ _ hk, List.getElem_map]
  have hz : List.zipWith (fun f e => f * Real.exp (α * e)) (E.map F) E = E.map fun e => F e * Real.exp (α * e) := by
    clear_value α
    clear hDp hD hget hlt hα D h2 hl h4 h4' hs hN
    clear_value e4 eN
    induction E with
    | nil => rfl
    | cons x xs ih => simpa using ih
  have hget2 : ∀ k, k < E.length → (E.map fun e => F e * Real.exp (α * e) / D).getD k 0
      = F (E.getD k 0) * Real.exp (α * E.getD k 0) / D := by
    intro k hk
    rw [List.getD_eq_getElem _ _ (by simpa using hk), List.getD_eq_getElem _ _ hk, List.getElem_map]
  refine ⟨E.map fun e => F e * Real.exp (α * e) / D, ?_, by simp, ?_, ?_, ?_, 1 / D, α, by positivity, ?_⟩
  · have hz2 : (E.map fun e => F e * Real.exp (α * e)).getD (E.length / 2) 0 * (7 / 10) = D := by
      rw [List.getD_eq_getElem _ _ (by simpa using h2), List.getElem_map, hD, List.getD_eq_getElem _ _ h2]
    unfold x0BSFG
    rw [if_neg (by omega), if_neg hlt.ne']
    simp only
    rw [hget _ h4', hget _ hl, hz, hz2, List.map_map, List.map_map]
    rfl
  · intro x hx
    obtain ⟨e, -, rfl⟩ := List.mem_map.1 hx
    have := hFp e
    positivity
  · rw [hget2 _ h4', hget2 _ hl]
    congr 1
    have h1 : Real.log (F e4 / F eN) = α * (eN - e4) := by
      rw [hα, div_mul_cancel₀]; linarith
    have h3 : F e4 = F eN * Real.exp (α * (eN - e4)) := by
      rw [← h1, Real.exp_log (div_pos (hFp _) (hFp _)), mul_div_cancel₀ _ (hFp eN).ne']
    show F e4 * Real.exp (α * e4) = F eN * Real.exp (α * eN)
    rw [h3, mul_assoc, ← Real.exp_add]
    congr 2; ring
  · rw [hget2 _ h2, hD]
    have := hFp (E.getD (E.length / 2) 0)
    have h3 := Real.exp_pos (α * E.getD (E.length / 2) 0)
    field_simp
  · intro k hk
    rw [hget2 k hk]
    ring

theorem colSums_spec (values : List (List ℝ)) (ny : ℕ) (h0 : ∀ r ∈ values, ∀ v ∈ r, 0 ≤ v) :
    (colSums values ny).length = ny ∧ (∀ x ∈ colSums values ny, 0 ≤ x) ∧
    ∀ j < ny, (colSums values ny).getD j 0 = ∑ i ∈ Finset.range values.length, (values.getD i []).getD j 0 := by
  refine ⟨by simp [colSums], ?_, ?_⟩
  · intro x hx
    obtain ⟨j, -, rfl⟩ := List.mem_map.1 hx
    apply List.sum_nonneg
    intro v hv
    obtain ⟨r, hr, rfl⟩ := List.mem_map.1 hv
    rcases Nat.lt_or_ge j r.length with hj | hj
    · rw [List.getD_eq_getElem _ _ hj]; exact h0 r hr _ (List.getElem_mem hj)
    · rw [List.getD_eq_default _ _ hj]
  · intro j hj
    unfold colSums
    rw [List.getD_eq_getElem _ _ (by simpa using hj), List.getElem_map, List.getElem_range]
    clear h0
    induction values with
    | nil => simp
    | cons r rs ih =>
      rw [List.map_cons, List.sum_cons, List.length_cons, Finset.sum_range_succ', ih]
      simp [add_comm]

/-- The known methods. -/
def knownMethod (s : Option String) : Prop :=
  s = none ∨ s = some "BSFG-like" ∨ s = some "CT-like" ∨ s = some "parabola"

/-- The axis in MeV: divided by 1000 if its last value exceeds 100. -/
noncomputable def inMeV (E : List ℝ) : List ℝ := if E.getD (E.length - 1) 0 > 100 then E.map (· / 1000) else E

theorem inMeV_spec (E : List ℝ) (hs : E.Pairwise (· < ·)) :
    (inMeV E).length = E.length ∧ (inMeV E).Pairwise (· < ·) := by
  unfold inMeV
  split_ifs
  · refine ⟨by simp, ?_⟩
    rw [List.pairwise_map]
    exact hs.imp fun {a b} h => by linarith
  · exact ⟨rfl, hs⟩

/-- **C79.** Every known method gives one finite start value per transmission coefficient and per bin of the level
density: first the column sums of the matrix (not negative), then positive numbers, which are the Fermi-gas like
values, 1, or (E - 4)² + 0.01 with the energy in MeV. -/
theorem C79_guess (E : List ℝ) (values : List (List ℝ)) (ny : ℕ) (method : Option String) (hN : 2 ≤ E.length)
    (hs : E.Pairwise (· < ·)) (h0 : ∀ r ∈ values, ∀ v ∈ r, 0 ≤ v) (hm : knownMethod method) :
    ∃ n : List ℝ, guessInitial E values ny method = .ok ((colSums values ny ++ n).map some) ∧
      (colSums values ny ++ n).length = E.length + ny ∧ (∀ v ∈ colSums values ny ++ n, 0 ≤ v) ∧ (∀ v ∈ n, 0 < v) ∧
      (method = none ∨ method = some "BSFG-like" → x0BSFG (inMeV E) (-(2 / 10)) 15 = .ok (n.map some)) ∧
      (method = some "CT-like" → n = List.replicate E.length 1) ∧
      (method = some "parabola" → n = (inMeV E).map fun e => (e - 4) ^ 2 + 1 / 100) := by
  obtain ⟨c1, c2, -⟩ := colSums_spec values ny h0
  obtain ⟨l1, p1⟩ := inMeV_spec E hs
  have hne : E ≠ [] := by rintro rfl; simp at hN
  have key : ∀ n : List ℝ, n.length = E.length → (∀ v ∈ n, 0 < v) →
      (colSums values ny ++ n).length = E.length + ny ∧ (∀ v ∈ colSums values ny ++ n, 0 ≤ v) := by
    intro n hn hp
    refine ⟨by rw [List.length_append, c1, hn]; omega, fun v hv => ?_⟩
    rcases List.mem_append.1 hv with h | h
    · exact c2 v h
    · exact (hp v h).le
  by_cases hb : method = none ∨ method = some "BSFG-like"
  · obtain ⟨v, e, lv, pv, -⟩ := C79_bsfg (inMeV E) (-(2 / 10)) 15 (by norm_num) (by omega) p1
    obtain ⟨k1, k2⟩ := key v (by omega) pv
    refine ⟨v, ?_, k1, k2, pv, fun _ => e, ?_, ?_⟩
    · unfold guessInitial
      rw [if_neg hne]
      simp only [if_pos hb]
      change Except.map _ (x0BSFG (inMeV E) _ _) = _
      rw [e, List.map_append]
      rfl
    · rintro rfl; simp at hb
    · rintro rfl; simp at hb
  · by_cases hc : method = some "CT-like"
    · obtain ⟨k1, k2⟩ := key (List.replicate E.length 1) (by simp) (by simp)
      refine ⟨List.replicate E.length 1, ?_, k1, k2, by simp, fun h => absurd h hb, fun _ => rfl, ?_⟩
      · unfold guessInitial
        rw [if_neg hne]
        simp only [if_neg hb, if_pos hc]
        have : x0CT (if E.getD (E.length - 1) 0 > 100 then E.map (· / 1000) else E) = List.replicate E.length 1 := by
          show x0CT (inMeV E) = _
          unfold x0CT
          rw [← l1, List.map_const']
        rw [this, List.map_append]
        rfl
      · rintro rfl; simp at hc
    · have hp : method = some "parabola" := by
        rcases hm with h | h | h | h
        · exact absurd (Or.inl h) hb
        · exact absurd (Or.inr h) hb
        · exact absurd h hc
        · exact h
      have hpos : ∀ v ∈ (inMeV E).map (fun e => (e - 4) ^ 2 + 1 / 100), 0 < v := by
        intro v hv
        obtain ⟨e, -, rfl⟩ := List.mem_map.1 hv
        positivity
      obtain ⟨k1, k2⟩ := key ((inMeV E).map fun e => (e - 4) ^ 2 + 1 / 100) (by simp [l1]) hpos
      refine ⟨(inMeV E).map fun e => (e - 4) ^ 2 + 1 / 100, ?_, k1, k2, hpos, fun h => absurd h hb,
        fun h => absurd h hc, fun _ => rfl⟩
      unfold guessInitial
      rw [if_neg hne]
      simp only [if_neg hb, if_neg hc, if_pos hp]
      change Except.map _ (Except.map _ (x0Parabola (inMeV E) 4 (1 / 100) 1)) = _
      unfold x0Parabola
      simp only [one_mul]
      rw [if_neg]
      · rw [List.map_append]; rfl
      · rintro ⟨v, hv, hlt⟩
        exact absurd (hpos v hv) (not_lt.2 hlt.le)

/-- **C79.** Any other method is refused; a parabola that is negative somewhere fails the assertion. -/
theorem C79_refused (E : List ℝ) (values : List (List ℝ)) (ny : ℕ) (E0 y0 a : ℝ) :
    (∀ s, E ≠ [] → ¬ knownMethod s → guessInitial E values ny s = .error .notImplemented) ∧
    (x0Parabola E E0 y0 a = .error .assertion ↔ ∃ e ∈ E, a * (e - E0) ^ 2 + y0 < 0) ∧
    (0 ≤ a → 0 ≤ y0 → x0Parabola E E0 y0 a = .ok (E.map fun e => a * (e - E0) ^ 2 + y0)) := by
  have hneg : (∃ v ∈ E.map (fun e => a * (e - E0) ^ 2 + y0), v < 0) ↔ ∃ e ∈ E, a * (e - E0) ^ 2 + y0 < 0 := by
    constructor
    · rintro ⟨v, hv, h⟩
      obtain ⟨e, he, rfl⟩ := List.mem_map.1 hv
      exact ⟨e, he, h⟩
    · rintro ⟨e, he, h⟩
      exact ⟨_, List.mem_map.2 ⟨e, he, rfl⟩, h⟩
  refine ⟨fun s hE hs => ?_, ?_, fun ha hy => ?_⟩
  · unfold knownMethod at hs
    push Not at hs
    obtain ⟨h1, h2, h3, h4⟩ := hs
    unfold guessInitial
    rw [if_neg hE]
    simp only
    rw [if_neg (by rintro (h | h); exacts [h1 h, h2 h]), if_neg h3, if_neg h4]
    rfl
  · unfold x0Parabola
    simp only
    by_cases h : ∃ v ∈ E.map (fun e => a * (e - E0) ^ 2 + y0), v < 0
    · rw [if_pos h]; exact ⟨fun _ => hneg.1 h, fun _ => rfl⟩
    · rw [if_neg h]; exact ⟨fun h' => by simp at h', fun h' => absurd (hneg.2 h') h⟩
  · unfold x0Parabola
    simp only
    rw [if_neg]
    rw [hneg]
    rintro ⟨e, -, h⟩
    have : 0 ≤ a * (e - E0) ^ 2 := by positivity
    linarith

/-- **C79.** Which start values are used: the argument if it is given, else the attribute of the object, else the
default method; an array is taken as it is; a wrong number of values fails the assertion. -/
theorem C79_choice (arg self : Option StartArg) (E : List ℝ) (values : List (List ℝ)) (ny : ℕ) :
    (∀ x, arg = some (.arr x) ∨ arg = none ∧ self = some (.arr x) →
      startValues arg self E values ny
        = if x.length = E.length + ny then .ok (x.map some) else .error .assertion) ∧
    (∀ s, (arg = some (.method s) ∨ arg = none ∧ self = some (.method s)) → ∀ x,
      guessInitial E values ny (some s) = .ok x → x.length = E.length + ny →
      startValues arg self E values ny = .ok x) ∧
    (arg = none → self = none → ∀ x, guessInitial E values ny none = .ok x → x.length = E.length + ny →
      startValues arg self E values ny = .ok x) := by
  refine ⟨?_, ?_, ?_⟩
  · rintro x (rfl | ⟨rfl, rfl⟩) <;>
    · simp only [startValues, Option.isNone, bind, Except.bind, pure, Except.pure, Bool.false_eq_true, if_false, if_true,
        List.length_map]
      by_cases h : x.length = E.length + ny
      · rw [if_neg (by simpa using h), if_pos h]
      · rw [if_pos h, if_neg h]
  · rintro s (rfl | ⟨rfl, rfl⟩) x hx hl <;>
    · simp only [startValues, Option.isNone, bind, Except.bind, pure, Except.pure, Bool.false_eq_true, if_false, if_true,
        hx]
      rw [if_neg (by simpa using hl)]
  · rintro rfl rfl x hx hl
    simp only [startValues, Option.isNone, bind, Except.bind, pure, Except.pure, if_true, hx]
    rw [if_neg (by simpa using hl)]

/-- **C79.** Randomised start values lie between a fifth and five times the given ones; a start value 0 stays 0 and
only that one; none is negative, so the fit never starts in the forbidden region. -/
theorem C79_random (x0 u : List ℝ) (h0 : ∀ x ∈ x0, 0 ≤ x) (hl : u.length = x0.length)
    (hu : ∀ t ∈ u, 0 ≤ t ∧ t < 1) :
    (randomizeStart x0 u).length = x0.length ∧ ∀ k < x0.length,
      x0.getD k 0 / 5 ≤ (randomizeStart x0 u).getD k 0 ∧ (randomizeStart x0 u).getD k 0 ≤ 5 * x0.getD k 0 ∧
      ((randomizeStart x0 u).getD k 0 = 0 ↔ x0.getD k 0 = 0) := by
  have hlen : (randomizeStart x0 u).length = x0.length := by simp [randomizeStart, hl]
  refine ⟨hlen, fun k hk => ?_⟩
  have hk' : k < u.length := by omega
  rw [List.getD_eq_getElem _ _ (by omega : k < (randomizeStart x0 u).length), List.getD_eq_getElem _ _ hk]
  have hv : (randomizeStart x0 u)[k]'(by omega) = x0[k] / 5 + (x0[k] * 5 - x0[k] / 5) * u[k] := by
    simp [randomizeStart]
  rw [hv]
  have hx := h0 _ (List.getElem_mem hk)
  obtain ⟨ht0, ht1⟩ := hu _ (List.getElem_mem hk')
  set x := x0[k]
  set t := u[k]
  have h1 : 0 ≤ x * t := mul_nonneg hx ht0
  have h2 : x * t ≤ x := by nlinarith
  refine ⟨by nlinarith, by nlinarith, ⟨fun h => ?_, fun h => by rw [h]; ring⟩⟩
  have : x / 5 + 24 / 5 * (x * t) = 0 := by rw [← h]; ring
  nlinarith

/-- C79 is false: on an axis with one bin the default start value is NaN, and the check for finite values, which
lacks the call of `all`, lets it pass. -/
theorem C79_single_fails (e : ℝ) (values : List (List ℝ)) (ny : ℕ) :
    startValues none none [e] values ny = .ok ((colSums values ny).map some ++ [none]) := by
  have hb : ∀ e' : ℝ, x0BSFG [e'] (-(2 / 10)) 15 = .ok [none] := by
    intro e'
    unfold x0BSFG
    rw [if_neg (by simp)]
    simp only
    rw [if_pos (by simp)]
    rfl
  have hg : guessInitial [e] values ny none = .ok ((colSums values ny).map some ++ [none]) := by
    unfold guessInitial
    rw [if_neg (by simp)]
    simp only [true_or, if_true]
    split_ifs
    · rw [List.map_cons, List.map_nil, hb]; rfl
    · rw [hb]; rfl
  exact (C79_choice none none [e] values ny).2.2 rfl rfl _ hg (by simp [colSums]; omega)

example : knownMethod (some "CT-like") ∧ ([1, 2, 3] : List ℝ).Pairwise (· < ·) ∧
    guessInitial [1, 2, 3] [[1, 2], [3, 4]] 2 (some "CT-like") = .ok [some 4, some 6, some 1, some 1, some 1] := by
  refine ⟨Or.inr (Or.inr (Or.inl rfl)), by norm_num, ?_⟩
  norm_num [guessInitial, x0CT, colSums, Except.map, List.range_succ]
  rw [if_neg (by simp), if_neg (by decide)]

end Ompy
