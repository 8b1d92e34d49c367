import Verif.Library
import Verif.IndexLemmas
import Mathlib.Tactic.IntervalCases

/-!
# Properties of `library.py`: C17, C18, C22
-/

namespace Ompy

/-! ### Specification shared by C17 and C18 -/

/-- Specification: `row'` is `row` after moving counts from positive to negative bins. The total is
unchanged, non-negative bins shrink at most to 0, negative bins grow at most to 0. -/
structure Improves (row row' : List ℚ) : Prop where
  len : row'.length = row.length
  total : row'.sum = row.sum
  pos : ∀ k, 0 ≤ row.getD k 0 → 0 ≤ row'.getD k 0 ∧ row'.getD k 0 ≤ row.getD k 0
  neg : ∀ k, row.getD k 0 < 0 → row.getD k 0 ≤ row'.getD k 0 ∧ row'.getD k 0 ≤ 0

theorem Improves.refl (row : List ℚ) : Improves row row :=
  ⟨rfl, rfl, fun _ h => ⟨h, le_refl _⟩, fun _ h => ⟨le_refl _, h.le⟩⟩

theorem Improves.trans {a b c : List ℚ} (h1 : Improves a b) (h2 : Improves b c) :
    Improves a c := by
  refine ⟨h2.len.trans h1.len, h2.total.trans h1.total, ?_, ?_⟩
  · intro k hk
    obtain ⟨p1, p2⟩ := h1.pos k hk
    obtain ⟨q1, q2⟩ := h2.pos k p1
    exact ⟨q1, q2.trans p2⟩
  · intro k hk
    obtain ⟨p1, p2⟩ := h1.neg k hk
    rcases lt_or_eq_of_le p2 with h | h
    · obtain ⟨q1, q2⟩ := h2.neg k h
      exact ⟨p1.trans q1, q2⟩
    · obtain ⟨q1, q2⟩ := h2.pos k h.ge
      exact ⟨hk.le.trans q1, by rw [h] at q2; exact q2⟩

theorem getD_set_ite (l : List ℚ) (i k : ℕ) (x : ℚ) :
    (l.set i x).getD k 0 = if i = k ∧ k < l.length then x else l.getD k 0 := by
  simp only [List.getD_eq_getElem?_getD, List.getElem?_set]
  by_cases h : i = k
  · subst h
    by_cases hl : i < l.length
    · simp [hl]
    · simp [hl]
  · simp [h]

theorem sum_set (l : List ℚ) (i : ℕ) (x : ℚ) (h : i < l.length) :
    (l.set i x).sum = l.sum - l.getD i 0 + x := by
  induction l generalizing i with
  | nil => simp at h
  | cons y ys ih =>
    cases i with
    | zero => simp; ring
    | succ i =>
      simp only [List.set_cons_succ, List.sum_cons, List.getD_cons_succ]
      rw [ih i (by simpa using h)]
      ring

theorem shuffle_getD (row : List ℚ) (f t k : ℕ) (hne : f ≠ t) (hf : f < row.length)
    (ht : t < row.length) :
    (shuffleCounts row f t).getD k 0 =
      if k = f then max 0 (row.getD f 0 + row.getD t 0)
      else if k = t then min 0 (row.getD f 0 + row.getD t 0) else row.getD k 0 := by
  unfold shuffleCounts
  simp only [getD_set_ite, List.length_set]
  by_cases h1 : k = f
  · subst h1; simp [hf]
  · have h1' : ¬ f = k := fun h => h1 h.symm
    by_cases h2 : k = t
    · subst h2; simp [h1, h1', ht]
    · have h2' : ¬ t = k := fun h => h2 h.symm
      simp [h1, h1', h2, h2']

theorem shuffle_improves (row : List ℚ) (f t : ℕ) (hf : f < row.length) (ht : t < row.length)
    (hpf : 0 ≤ row.getD f 0) (hnt : row.getD t 0 < 0) :
    Improves row (shuffleCounts row f t) := by
  have hne : f ≠ t := by rintro rfl; linarith
  refine ⟨by simp [shuffleCounts], ?_, ?_, ?_⟩
  · unfold shuffleCounts
    simp only
    rw [sum_set _ _ _ (by simpa using hf), sum_set _ _ _ ht, getD_set_ite]
    have : ¬ (t = f ∧ f < row.length) := fun h => hne h.1.symm
    rw [if_neg this]
    have := min_add_max 0 (row.getD f 0 + row.getD t 0)
    linarith
  · intro k hk
    rw [shuffle_getD row f t k hne hf ht]
    split_ifs with h1 h2
    · subst h1
      exact ⟨le_max_left _ _, max_le hk (by linarith)⟩
    · subst h2; linarith
    · exact ⟨hk, le_refl _⟩
  · intro k hk
    rw [shuffle_getD row f t k hne hf ht]
    split_ifs with h1 h2
    · subst h1; linarith
    · subst h2
      exact ⟨le_min hk.le (by linarith), min_le_left _ _⟩
    · exact ⟨le_refl _, hk.le⟩

/-! ### C17: fill_negative_max -/

/-- Number of bins with positive content. -/
def numPos (row : List ℚ) : ℕ :=
  ((Finset.range row.length).filter fun k => 0 < row.getD k 0).card

theorem numPos_le (row : List ℚ) : numPos row ≤ row.length := by
  have := Finset.card_filter_le (Finset.range row.length) fun k => 0 < row.getD k 0
  rwa [Finset.card_range] at this

theorem numPos_shuffle (row : List ℚ) (f t : ℕ) (hf : f < row.length) (ht : t < row.length)
    (hpf : 0 < row.getD f 0) (hnt : row.getD t 0 < 0)
    (hstill : (shuffleCounts row f t).getD t 0 < 0) :
    numPos (shuffleCounts row f t) < numPos row := by
  have hne : f ≠ t := by rintro rfl; linarith
  have himp := shuffle_improves row f t hf ht hpf.le hnt
  unfold numPos
  apply Finset.card_lt_card
  rw [Finset.ssubset_iff_of_subset]
  · refine ⟨f, Finset.mem_filter.2 ⟨Finset.mem_range.2 hf, hpf⟩, ?_⟩
    simp only [Finset.mem_filter, not_and, not_lt]
    intro _
    rw [shuffle_getD row f t t hne hf ht] at hstill
    rw [shuffle_getD row f t f hne hf ht]
    simp only [if_true, hne.symm, if_false] at hstill ⊢
    rw [min_lt_iff] at hstill
    rcases hstill with h | h
    · exact absurd h (lt_irrefl _)
    · rw [max_eq_left h.le]
  · intro k hk
    simp only [Finset.mem_filter, Finset.mem_range, himp.len] at hk ⊢
    refine ⟨hk.1, ?_⟩
    by_contra hle
    push Not at hle
    rcases lt_or_eq_of_le hle with h | h
    · exact absurd (himp.neg k h).2 (not_le.2 hk.2)
    · have := (himp.pos k h.ge).2
      rw [h] at this
      exact absurd this (not_le.2 hk.2)

/-- What the window slice looks like. -/
theorem slice_window (row : List ℚ) (i : ℕ) (d : ℕ) (hi : i < row.length) :
    ∃ a : ℕ, max 0 ((i : ℤ) - d) = (a : ℤ) ∧ a ≤ i ∧ i ≤ a + d ∧
      (pySlice row (max 0 ((i : ℤ) - d)) (min (row.length : ℤ) ((i : ℤ) + d) + 1)) ≠ [] ∧
      (∀ k, k < (pySlice row (max 0 ((i : ℤ) - d))
          (min (row.length : ℤ) ((i : ℤ) + d) + 1)).length ↔ a + k < row.length ∧ a + k ≤ i + d) ∧
      (∀ k, a + k < row.length → a + k ≤ i + d →
        (pySlice row (max 0 ((i : ℤ) - d)) (min (row.length : ℤ) ((i : ℤ) + d) + 1)).getD k 0
          = row.getD (a + k) 0) ∧
      (∀ k, k + d < i → k < a) := by
  refine ⟨i - d, by omega, by omega, by omega, ?_⟩
  have e1 : max 0 ((i : ℤ) - d) = ((i - d : ℕ) : ℤ) := by omega
  have e2 : min (row.length : ℤ) ((i : ℤ) + d) + 1 = ((min row.length (i + d) + 1 : ℕ) : ℤ) := by
    push_cast; rfl
  rw [e1, e2, pySlice_nat]
  have hlen : ∀ k, k < ((row.take (min row.length (i + d) + 1)).drop (i - d)).length ↔
      i - d + k < row.length ∧ i - d + k ≤ i + d := by
    intro k
    simp only [List.length_drop, List.length_take]
    omega
  refine ⟨?_, hlen, ?_, ?_⟩
  · intro h
    have := (hlen 0).2 ⟨by omega, by omega⟩
    rw [h] at this
    simp at this
  · intro k h1 h2
    simp only [List.getD_eq_getElem?_getD, List.getElem?_drop, List.getElem?_take]
    rw [if_pos (by omega)]
  · intro k hk
    omega

/-- Specification: bins `i` and `k` are at most `d` apart. -/
def Near (d i k : ℕ) : Prop := k ≤ i + d ∧ i ≤ k + d

/-- What one run of the `while` loop achieves for bin `i`. -/
theorem fillMaxLoop_spec (i d : ℕ) (fuel : ℕ) (row : List ℚ) (hi : i < row.length)
    (hneg : row.getD i 0 ≤ 0) (hfuel : numPos row < fuel) :
    ∃ row', fillMaxLoop (max 0 ((i : ℤ) - d)) (min (row.length : ℤ) ((i : ℤ) + d)) i fuel row
        = some (.ok row') ∧ Improves row row' ∧
      (∀ k, ¬ Near d i k → row'.getD k 0 = row.getD k 0) ∧
      (row'.getD i 0 = 0 ∨ ∀ k, Near d i k → row'.getD k 0 ≤ 0) := by
  induction fuel generalizing row with
  | zero => omega
  | succ fuel ih =>
    simp only [fillMaxLoop]
    by_cases hlt : row.getD i 0 < 0
    · rw [if_pos hlt]
      obtain ⟨a, ea, ha1, ha2, hne, hlen, hget, hlow⟩ := slice_window row i d hi
      obtain ⟨r, hr, hr1, hr2, _⟩ := argmax_spec _ hne
      rw [hr]
      simp only
      have hto : (max 0 ((i : ℤ) - d)).toNat = a := by rw [ea]; simp
      rw [hto]
      obtain ⟨hb1, hb2⟩ := (hlen r).1 hr1
      have hmax : ∀ k, Near d i k → k < row.length → row.getD k 0 ≤ row.getD (a + r) 0 := by
        intro k hk hkl
        have hka : a ≤ k := by have := hk.2; omega
        have h := hr2 (k - a) ((hlen _).2 ⟨by omega, by have := hk.1; omega⟩)
        rw [hget _ (by omega) (by have := hk.1; omega), hget r hb1 hb2] at h
        rwa [show a + (k - a) = k by omega] at h
      split_ifs with hle
      · refine ⟨row, rfl, Improves.refl row, fun _ _ => rfl, .inr fun k hk => ?_⟩
        by_cases hkl : k < row.length
        · exact (hmax k hk hkl).trans hle
        · rw [List.getD_eq_default _ _ (by omega)]
      · push Not at hle
        have himp := shuffle_improves row (a + r) i hb1 hi hle.le hlt
        have hne' : a + r ≠ i := by rintro h; rw [h] at hle; linarith
        have hval := shuffle_getD row (a + r) i i hne' hb1 hi
        rw [if_neg hne'.symm, if_pos rfl] at hval
        have hnear : Near d i (a + r) := ⟨hb2, by omega⟩
        have hsame : ∀ k, ¬ Near d i k →
            (shuffleCounts row (a + r) i).getD k 0 = row.getD k 0 := by
          intro k hk
          rw [shuffle_getD row (a + r) i k hne' hb1 hi, if_neg, if_neg]
          · rintro rfl; exact hk ⟨by omega, by omega⟩
          · rintro rfl; exact hk hnear
        by_cases hstill : (shuffleCounts row (a + r) i).getD i 0 < 0
        · have hdec := numPos_shuffle row (a + r) i hb1 hi hle hlt hstill
          obtain ⟨row', h1, h2, h3, h4⟩ := ih (shuffleCounts row (a + r) i)
            (by rw [himp.len]; exact hi) hstill.le (by omega)
          rw [himp.len] at h1
          exact ⟨row', h1, himp.trans h2, fun k hk => (h3 k hk).trans (hsame k hk), h4⟩
        · have h0 : (shuffleCounts row (a + r) i).getD i 0 = 0 := by
            have h1 : (shuffleCounts row (a + r) i).getD i 0 ≤ 0 := by
              rw [hval]; exact min_le_left _ _
            linarith
          refine ⟨shuffleCounts row (a + r) i, ?_, himp, hsame, .inl h0⟩
          cases fuel with
          | zero =>
            exfalso
            have : 0 < numPos row := by
              unfold numPos
              rw [Finset.card_pos]
              exact ⟨a + r, Finset.mem_filter.2 ⟨Finset.mem_range.2 hb1, hle⟩⟩
            omega
          | succ f =>
            simp only [fillMaxLoop]
            rw [if_neg hstill]
    · rw [if_neg hlt]
      exact ⟨row, rfl, Improves.refl row, fun _ _ => rfl, .inl (le_antisymm hneg (not_lt.1 hlt))⟩

theorem maxDistance_nat (w : ℕ) : maxDistance (w : ℤ) = ((w / 2 : ℕ) : ℤ) := by
  unfold maxDistance
  rw [Int.ceil_eq_iff]
  have h : (w : ℚ) = 2 * ((w / 2 : ℕ) : ℚ) + ((w % 2 : ℕ) : ℚ) := by
    exact_mod_cast (Nat.div_add_mod w 2).symm
  have h2 : ((w % 2 : ℕ) : ℚ) < 2 := by exact_mod_cast Nat.mod_lt w (by norm_num)
  have h3 : ((w % 2 : ℕ) : ℚ) ≤ 1 := by
    have := Nat.mod_lt w (show 0 < 2 by norm_num)
    exact_mod_cast (by omega : w % 2 ≤ 1)
  have h4 : (0 : ℚ) ≤ ((w % 2 : ℕ) : ℚ) := by positivity
  rw [Int.cast_natCast, Int.cast_natCast]
  constructor <;> linarith

theorem fillMaxBins_spec (fuel : ℕ) (w : ℕ → ℕ) (is : List ℕ) (row : List ℚ)
    (his : ∀ i ∈ is, i < row.length ∧ row.getD i 0 ≤ 0) (hfuel : row.length < fuel) :
    ∃ row', fillMaxBins fuel (fun i => (w i : ℤ)) is row = some (.ok row') ∧ Improves row row' ∧
      (∀ k, (∀ i ∈ is, ¬ Near (w i / 2) i k) → row'.getD k 0 = row.getD k 0) ∧
      (∀ i ∈ is, row'.getD i 0 = 0 ∨ ∀ k, Near (w i / 2) i k → row'.getD k 0 ≤ 0) := by
  induction is generalizing row with
  | nil => exact ⟨row, rfl, Improves.refl row, fun _ _ => rfl, by simp⟩
  | cons i is ih =>
    obtain ⟨hi1, hi2⟩ := his i (by simp)
    obtain ⟨r1, h1, h2, h3, h4⟩ := fillMaxLoop_spec i (w i / 2) fuel row hi1 hi2
      (lt_of_le_of_lt (numPos_le row) hfuel)
    obtain ⟨row', g1, g2, g3, g4⟩ := ih r1 (by
      intro j hj
      obtain ⟨q1, q2⟩ := his j (by simp [hj])
      refine ⟨by rw [h2.len]; exact q1, ?_⟩
      rcases lt_or_eq_of_le q2 with q | q
      · exact (h2.neg j q).2
      · have := (h2.pos j q.ge).2
        rwa [q] at this) (by rw [h2.len]; exact hfuel)
    refine ⟨row', ?_, h2.trans g2, ?_, ?_⟩
    · simp only [fillMaxBins, maxDistance_nat, h1]
      exact g1
    · intro k hk
      rw [g3 k fun j hj => hk j (by simp [hj]), h3 k (hk i (by simp))]
    · intro j hj
      rcases List.mem_cons.1 hj with rfl | hj
      · have mono : ∀ k, r1.getD k 0 ≤ 0 → row'.getD k 0 ≤ 0 := by
          intro k hk
          rcases lt_or_eq_of_le hk with q | q
          · exact (g2.neg k q).2
          · have := (g2.pos k q.ge).2
            rwa [q] at this
        rcases h4 with h4 | h4
        · left
          exact le_antisymm (mono _ h4.le) (g2.pos _ h4.ge).1
        · right
          exact fun k hk => mono k (h4 k hk)
      · exact g4 j hj

theorem mem_negPositions (row : List ℚ) (k : ℕ) :
    k ∈ negPositions row ↔ k < row.length ∧ row.getD k 0 < 0 := by
  unfold negPositions
  rw [List.mem_filter, List.mem_range, decide_eq_true_eq]

/-- **C17.** For every row and all window sizes `fill_negative_max` terminates (any step budget above
the row length is enough), keeps the total, lets negative bins only rise (at most to 0) and
non-negative bins only fall (at most to 0); a bin is only touched if it is within half a window of
a negative bin; and a bin that stays negative has no positive counts left in its window. -/
theorem C17_fill_negative_max_row (w : ℕ → ℕ) (row : List ℚ) (fuel : ℕ)
    (hfuel : row.length < fuel) :
    ∃ row', fillMaxRow fuel (fun i => (w i : ℤ)) row = some (.ok row') ∧
      row'.length = row.length ∧ row'.sum = row.sum ∧
      (∀ k, 0 ≤ row.getD k 0 → 0 ≤ row'.getD k 0 ∧ row'.getD k 0 ≤ row.getD k 0) ∧
      (∀ k, row.getD k 0 < 0 → row.getD k 0 ≤ row'.getD k 0 ∧ row'.getD k 0 ≤ 0) ∧
      (∀ k, row'.getD k 0 ≠ row.getD k 0 →
        ∃ i, row.getD i 0 < 0 ∧ k ≤ i + w i / 2 ∧ i ≤ k + w i / 2) ∧
      (∀ i, row'.getD i 0 < 0 → ∀ k, k ≤ i + w i / 2 → i ≤ k + w i / 2 → row'.getD k 0 ≤ 0) := by
  obtain ⟨row', h1, h2, h3, h4⟩ := fillMaxBins_spec fuel w (negPositions row) row
    (fun i hi => ⟨((mem_negPositions row i).1 hi).1, ((mem_negPositions row i).1 hi).2.le⟩) hfuel
  refine ⟨row', h1, h2.len, h2.total, h2.pos, h2.neg, ?_, ?_⟩
  · intro k hk
    by_contra hcon
    push Not at hcon
    apply hk
    apply h3 k
    intro i hi hnear
    have := hcon i ((mem_negPositions row i).1 hi).2 hnear.1
    have h5 := hnear.2
    omega
  · intro i hi k hk1 hk2
    have hlt : i < row.length := by
      by_contra hge
      rw [List.getD_eq_default _ _ (by rw [h2.len]; omega)] at hi
      exact lt_irrefl _ hi
    have hneg : row.getD i 0 < 0 := by
      by_contra hge
      push Not at hge
      have := (h2.pos i hge).1
      linarith
    rcases h4 i ((mem_negPositions row i).2 ⟨hlt, hneg⟩) with h | h
    · rw [h] at hi; exact absurd hi (lt_irrefl _)
    · exact h k ⟨hk1, hk2⟩

/-- **C17.** The rows of a matrix are treated independently, so every row sum is conserved. -/
theorem C17_fill_negative_max_rows (w : ℕ → ℕ) (v : List (List ℚ)) (fuel : ℕ)
    (hfuel : ∀ r ∈ v, r.length < fuel) :
    ∃ v', fillNegativeMax fuel (fun i => (w i : ℤ)) v = some (.ok v') ∧ v'.length = v.length ∧
      v'.map List.sum = v.map List.sum ∧
      ∀ i < v.length, fillMaxRow fuel (fun i => (w i : ℤ)) (v.getD i []) =
        some (.ok (v'.getD i [])) := by
  induction v with
  | nil => exact ⟨[], rfl, rfl, rfl, by simp⟩
  | cons r rs ih =>
    obtain ⟨r', h1, _, h2, _⟩ := C17_fill_negative_max_row w r fuel (hfuel r (by simp))
    obtain ⟨v', g1, g2, g3, g4⟩ := ih fun r hr => hfuel r (by simp [hr])
    refine ⟨r' :: v', ?_, by simp [g2], by simp [h2, g3], ?_⟩
    · simp only [fillNegativeMax, h1, g1]
    · intro i hi
      cases i with
      | zero => simpa using h1
      | succ i => simpa using g4 i (by simpa using hi)

example : fillMaxRow 10 (fun _ => 3) [5, -2, 1, -4, 2, 0, 9] = some (.ok [3, 0, 0, -1, 0, 0, 9]) ∧
    negPositions [5, -2, 1, -4, 2, 0, 9] = [1, 3] := by decide +kernel

/-! ### C18: fill_negative_gauss -/

/-- Specification of `np.argsort`: a permutation of the positions along which the array ascends.
The order of equal entries is left open (numpy's default sort is not stable). -/
def IsArgsort (argsort : List ℚ → List ℕ) : Prop :=
  ∀ l, (argsort l).Perm (List.range l.length) ∧
    (argsort l).Pairwise fun a b => l.getD a 0 ≤ l.getD b 0

theorem fillGaussFrom_spec (i : ℕ) (ks : List ℕ) (row : List ℚ) (hi : i < row.length)
    (hks : ∀ k ∈ ks, k < row.length) (hneg : row.getD i 0 < 0) :
    Improves row (fillGaussFrom i ks row) ∧
      ∀ j, j ≠ i → row.getD j 0 < 0 → (fillGaussFrom i ks row).getD j 0 = row.getD j 0 := by
  induction ks generalizing row with
  | nil => exact ⟨Improves.refl row, fun _ _ _ => rfl⟩
  | cons k ks ih =>
    simp only [fillGaussFrom]
    by_cases h1 : row.getD k 0 < 0
    · rw [if_pos h1]
      exact ⟨Improves.refl row, fun _ _ _ => rfl⟩
    · rw [if_neg h1]
      have hk := hks k (by simp)
      have hne : k ≠ i := by rintro rfl; exact h1 hneg
      have himp := shuffle_improves row k i hk hi (not_lt.1 h1) hneg
      have hoth : ∀ j, j ≠ i → row.getD j 0 < 0 →
          (shuffleCounts row k i).getD j 0 = row.getD j 0 := by
        intro j hj hjn
        rw [shuffle_getD row k i j hne hk hi, if_neg, if_neg hj]
        rintro rfl
        exact h1 hjn
      split_ifs with h2
      · exact ⟨himp, hoth⟩
      · obtain ⟨g1, g2⟩ := ih (shuffleCounts row k i) (by rw [himp.len]; exact hi)
          (by intro j hj; rw [himp.len]; exact hks j (by simp [hj])) (not_le.1 h2)
        refine ⟨himp.trans g1, ?_⟩
        intro j hj hjn
        rw [g2 j hj (by rw [hoth j hj hjn]; exact hjn), hoth j hj hjn]

theorem gaussWeights_length (g row : List ℚ) : (gaussWeights g row).length ≤ row.length := by
  simp [gaussWeights]

theorem fillGaussBins_spec (argsort : List ℚ → List ℕ) (hsort : IsArgsort argsort)
    (gauss : ℕ → List ℚ) (is : List ℕ) (row : List ℚ) (hnd : is.Nodup)
    (his : ∀ i ∈ is, i < row.length ∧ row.getD i 0 < 0) :
    Improves row (fillGaussBins argsort gauss is row) := by
  induction is generalizing row with
  | nil => exact Improves.refl row
  | cons i is ih =>
    simp only [fillGaussBins]
    obtain ⟨h1, h2⟩ := his i (by simp)
    rw [List.nodup_cons] at hnd
    obtain ⟨g1, g2⟩ := fillGaussFrom_spec i (argsort (gaussWeights (gauss i) row)) row h1
      (by
        intro k hk
        have := (hsort (gaussWeights (gauss i) row)).1.mem_iff.1 hk
        have h3 := gaussWeights_length (gauss i) row
        rw [List.mem_range] at this
        omega) h2
    refine g1.trans (ih _ hnd.2 ?_)
    intro j hj
    obtain ⟨q1, q2⟩ := his j (by simp [hj])
    refine ⟨by rw [g1.len]; exact q1, ?_⟩
    rw [g2 j (by rintro rfl; exact hnd.1 hj) q2]
    exact q2

/-- **C18 (partial).** For every table of Gaussian values and every argsort, each row keeps its total,
negative bins only rise (at most to 0) and no bin becomes negative.  Missing: the bins of largest
weight are *not* used first and counts are taken from outside the window, see below. -/
theorem C18_fill_negative_gauss_partial (argsort : List ℚ → List ℕ) (hsort : IsArgsort argsort)
    (gauss : ℕ → List ℚ) (row : List ℚ) :
    (fillGaussRow argsort gauss row).length = row.length ∧
    (fillGaussRow argsort gauss row).sum = row.sum ∧
    (∀ k, 0 ≤ row.getD k 0 → 0 ≤ (fillGaussRow argsort gauss row).getD k 0 ∧
      (fillGaussRow argsort gauss row).getD k 0 ≤ row.getD k 0) ∧
    (∀ k, row.getD k 0 < 0 → row.getD k 0 ≤ (fillGaussRow argsort gauss row).getD k 0 ∧
      (fillGaussRow argsort gauss row).getD k 0 ≤ 0) := by
  have h := fillGaussBins_spec argsort hsort gauss (negPositions row) row
    (List.Nodup.filter _ List.nodup_range) (fun i hi => (mem_negPositions row i).1 hi)
  exact ⟨h.len, h.total, h.pos, h.neg⟩

/-- C18 is false: bin 1 is negative, only bin 2 has counts inside the window of bin 1 (bin 0 has
Gaussian weight 0), but for every argsort bin 2 is left untouched: either the counts are taken from
bin 0 outside of the window or nothing is filled at all. -/
theorem C18_largest_weight_first_fails (argsort : List ℚ → List ℕ) (hsort : IsArgsort argsort) :
    let gauss : ℕ → List ℚ := fun _ => [0, 1, 1/2]
    fillGaussRow argsort gauss [5, -1, 3] = [4, 0, 3] ∨
      fillGaussRow argsort gauss [5, -1, 3] = [5, -1, 3] := by
  have hw : gaussWeights [0, 1, 1/2] [5, -1, 3] = [0, 0, 3/2] := by decide +kernel
  have hn : negPositions [5, -1, 3] = [1] := by decide +kernel
  obtain ⟨h1, h2⟩ := hsort [0, 0, 3/2]
  simp only [fillGaussRow, hn, fillGaussBins, hw]
  generalize argsort [0, 0, 3/2] = l at h1 h2
  have hmem : l ∈ [[0, 1, 2], [0, 2, 1], [1, 0, 2], [1, 2, 0], [2, 0, 1], [2, 1, 0]] := by
    have hlen : l.length = 3 := by simpa using h1.length_eq
    have hnd : l.Nodup := h1.nodup_iff.2 List.nodup_range
    have hlt : ∀ x ∈ l, x < 3 := fun x hx => by
      have := h1.mem_iff.1 hx
      rw [List.mem_range] at this
      exact this
    match l, hlen with
    | [a, b, c], _ =>
      have ha := hlt a (by simp)
      have hb := hlt b (by simp)
      have hc := hlt c (by simp)
      clear h1 h2 hlt hn hw
      interval_cases a <;> interval_cases b <;> interval_cases c <;>
        first
        | decide
        | exact absurd hnd (by decide)
  simp only [List.mem_cons, List.not_mem_nil, or_false] at hmem
  rcases hmem with rfl | rfl | rfl | rfl | rfl | rfl
  · left; decide +kernel
  · exact absurd h2 (by decide +kernel)
  · right; decide +kernel
  · exact absurd h2 (by decide +kernel)
  · exact absurd h2 (by decide +kernel)
  · exact absurd h2 (by decide +kernel)

/-- A stable argsort exists, so the hypothesis of the theorems above can be met. -/
theorem isArgsort_exists : ∃ f, IsArgsort f := by
  refine ⟨fun l => (List.range l.length).mergeSort (fun a b => decide (l.getD a 0 ≤ l.getD b 0)),
    fun l => ⟨List.mergeSort_perm _ _, ?_⟩⟩
  have := List.pairwise_mergeSort (le := fun a b => decide (l.getD a 0 ≤ l.getD b 0))
    (by intro a b c h1 h2; rw [decide_eq_true_eq] at *; exact h1.trans h2)
    (by intro a b; rw [Bool.or_eq_true, decide_eq_true_eq, decide_eq_true_eq]; exact le_total _ _)
    (List.range l.length)
  refine this.imp ?_
  intro a b h
  simpa using h

/-! ### C22: E_array_from_calibration -/

theorem roundHalfEven_near (q : ℚ) : |(roundHalfEven q : ℚ) - q| ≤ 1 / 2 := by
  have h1 := Int.floor_le q
  have h2 := Int.lt_floor_add_one q
  unfold roundHalfEven
  rw [abs_le]
  split_ifs <;> push_cast <;> constructor <;> linarith

theorem linspace_eq_grid (a0 a1 : ℚ) (n : ℕ) :
    linspace a0 (a0 + a1 * ((n : ℚ) - 1)) n = grid a0 a1 n := by
  unfold linspace grid
  split_ifs with h
  · subst h; simp
  · apply List.map_congr_left
    intro k hk
    rw [List.mem_range] at hk
    have hn : (n : ℚ) - 1 ≠ 0 := by
      intro h0
      have : (n : ℚ) = 1 := by linarith
      exact h (by exact_mod_cast this)
    field_simp
    ring

/-- **C22.** With `N` given, the array is `a0 + a1*i` for `i < N`. -/
theorem C22_N_given (a0 a1 : ℚ) (n : ℕ) :
    ∃ E, eArrayFromCalibration a0 a1 (some n) none = .ok E ∧ E.length = n ∧
      ∀ i < n, E.getD i 0 = a0 + a1 * i := by
  refine ⟨grid a0 a1 n, ?_, grid_length _ _ _, fun i hi => grid_getD _ _ hi⟩
  unfold eArrayFromCalibration linspaceZ
  simp only
  rw [if_neg (by omega), Int.toNat_natCast, ← linspace_eq_grid]
  simp

/-- **C22.** With `E_max` at or above the first bin given, the array is an equidistant axis starting
at `a0` with step `a1` whose last energy is within half a bin of `E_max`, so that
`E[-1] ≥ E_max - a1` and it overshoots by at most half a bin. -/
theorem C22_Emax_given (a0 a1 eMax : ℚ) (ha : 0 < a1) (hmax : a0 ≤ eMax) :
    ∃ E n, eArrayFromCalibration a0 a1 none (some eMax) = .ok E ∧ E.length = n + 1 ∧
      (∀ i < n + 1, E.getD i 0 = a0 + a1 * i) ∧
      eMax - a1 / 2 ≤ E.getD n 0 ∧ E.getD n 0 ≤ eMax + a1 / 2 := by
  have hx : 0 ≤ (eMax - a0) / a1 := div_nonneg (by linarith) ha.le
  have hr := abs_le.1 (roundHalfEven_near ((eMax - a0) / a1))
  have hnn : 0 ≤ roundHalfEven ((eMax - a0) / a1) := by
    have : (-1 : ℚ) < (roundHalfEven ((eMax - a0) / a1) : ℚ) := by linarith
    have : (-1 : ℤ) < roundHalfEven ((eMax - a0) / a1) := by exact_mod_cast this
    omega
  obtain ⟨n, hn⟩ := Int.eq_ofNat_of_zero_le hnn
  have hmul : (eMax - a0) / a1 * a1 = eMax - a0 := div_mul_cancel₀ _ ha.ne'
  refine ⟨grid a0 a1 (n + 1), n, ?_, grid_length _ _ _, fun i hi => grid_getD _ _ hi, ?_, ?_⟩
  · unfold eArrayFromCalibration linspaceZ
    simp only [ha.ne', if_false]
    rw [hn, if_neg (by omega)]
    have : ((n : ℤ) + 1).toNat = n + 1 := by omega
    rw [this, ← linspace_eq_grid]
    push_cast
    rfl
  · rw [grid_getD _ _ (by omega)]
    rw [hn] at hr
    push_cast at hr
    nlinarith [hr.1, hr.2]
  · rw [grid_getD _ _ (by omega)]
    rw [hn] at hr
    push_cast at hr
    nlinarith [hr.1, hr.2]

/-- **C22.** Giving both or neither is a ValueError. -/
theorem C22_both_or_neither (a0 a1 eMax : ℚ) (n : ℤ) :
    eArrayFromCalibration a0 a1 (some n) (some eMax) = .error .valueError ∧
    eArrayFromCalibration a0 a1 none none = .error .valueError := ⟨rfl, rfl⟩

example : eArrayFromCalibration 0 2 none (some 7) = .ok [0, 2, 4, 6, 8] ∧
    eArrayFromCalibration 1 2 (some 3) none = .ok [1, 3, 5] := by decide +kernel

end Ompy
