import Verif.Decomposition
import Verif.VectorProps

/-!
# C32, C35: product of level density and transmission coefficient, chi-square
-/

namespace Ompy

section Product

variable {α : Type} [Field α] [DecidableEq α]

theorem rowLoop_length (nld T : List α) (Enld : List ℚ) (ex mx : ℚ) (j : ℕ) (Eg : List ℚ) :
    (rowLoop nld T Enld ex mx j Eg).length = Eg.length := by
  induction Eg generalizing j with
  | nil => rfl
  | cons g gs ih =>
    rw [rowLoop]
    split_ifs
    · simp [ih]
    · simp

theorem rowLoop_entry (nld T : List α) (Enld : List ℚ) (ex mx : ℚ) (j : ℕ) (Eg : List ℚ) {k : ℕ}
    (hk : k < Eg.length) :
    (∀ q ≤ k, Eg.getD q 0 ≤ mx) → (rowLoop nld T Enld ex mx j Eg).getD k 0 =
      prodEntry nld T Enld ex (Eg.getD k 0) (j + k) := by
  induction Eg generalizing j k with
  | nil => simp at hk
  | cons g gs ih =>
    intro h
    rw [rowLoop, if_pos (by simpa using h 0 (Nat.zero_le _))]
    cases k with
    | zero => simp
    | succ k =>
      have := ih (j + 1) (k := k) (by simpa using hk) (fun q hq => by
        simpa using h (q + 1) (by omega))
      rw [List.getD_cons_succ, List.getD_cons_succ, this]
      congr 1
      omega

theorem rowLoop_beyond (nld T : List α) (Enld : List ℚ) (ex mx : ℚ) (j : ℕ) (Eg : List ℚ) {k : ℕ}
    (h : ∃ q ≤ k, q < Eg.length ∧ mx < Eg.getD q 0) :
    (rowLoop nld T Enld ex mx j Eg).getD k 0 = 0 := by
  induction Eg generalizing j k with
  | nil => obtain ⟨q, _, h2, _⟩ := h; simp at h2
  | cons g gs ih =>
    rw [rowLoop]
    split_ifs with hg
    · obtain ⟨q, h1, h2, h3⟩ := h
      cases q with
      | zero => simp at h3; linarith
      | succ q =>
        cases k with
        | zero => omega
        | succ k =>
          rw [List.getD_cons_succ]
          exact ih (j + 1) ⟨q, by omega, by simpa using h2, by simpa using h3⟩
    · rw [List.getD_eq_getElem?_getD, List.getElem?_replicate]
      split_ifs <;> simp

theorem rawProduct_row (nld T : List α) (res Enld Eg Ex : List ℚ) {i : ℕ} (hi : i < Ex.length) :
    (rawProduct nld T res Enld Eg Ex).getD i [] =
      rowLoop nld T Enld (Ex.getD i 0)
        (Ex.getD i 0 + res.getD i 0 + (Eg.getD 1 0 - Eg.getD 0 0) / 2) 0 Eg := by
  unfold rawProduct
  rw [List.getD_eq_getElem _ _ (by simpa using hi)]
  simp

/-- Entry `(i, k)` of the product before normalisation, for increasing gamma energies. -/
theorem rawProduct_entry (nld T : List α) (res Enld Eg Ex : List ℚ) (hs : Eg.Pairwise (· < ·))
    {i k : ℕ} (hi : i < Ex.length) (hk : k < Eg.length) :
    ((rawProduct nld T res Enld Eg Ex).getD i []).getD k 0 =
      if Eg.getD k 0 ≤ Ex.getD i 0 + res.getD i 0 + (Eg.getD 1 0 - Eg.getD 0 0) / 2
      then nld.getD (indexD Enld (Ex.getD i 0 - Eg.getD k 0)) 0 * T.getD k 0 else 0 := by
  rw [rawProduct_row _ _ _ _ _ _ hi]
  split_ifs with h
  · rw [rowLoop_entry _ _ _ _ _ _ _ hk, Nat.zero_add]
    · rfl
    · intro q hq
      rcases Nat.lt_or_eq_of_le hq with hlt | rfl
      · exact (getD_strictMono hs hlt hk).le.trans h
      · exact h
  · exact rowLoop_beyond _ _ _ _ _ _ _ ⟨k, le_refl k, hk, not_le.1 h⟩

theorem list_sum_div (l : List α) (c : α) : (l.map (· / c)).sum = l.sum / c := by
  induction l with
  | nil => simp
  | cons x xs ih => simp [ih, add_div]

/-- **C32.** Every row of the product of level density and transmission coefficient has the shape of the
gamma axis and is 0 beyond `Ex + resolution` plus half a bin; it sums to 1 and is proportional to
`nld(Ex - Eg) · T(Eg)` whenever the un-normalised sum is not 0. -/
theorem C32_rows (nld T : List α) (res Enld Eg Ex : List ℚ) (hs : Eg.Pairwise (· < ·))
    (P : List (Option (List α))) (h : nldTProduct nld T res Enld Eg Ex = .ok P) :
    P.length = Ex.length ∧ ∀ i < Ex.length,
      let lim := Ex.getD i 0 + res.getD i 0 + (Eg.getD 1 0 - Eg.getD 0 0) / 2
      let raw := fun k => if Eg.getD k 0 ≤ lim
        then nld.getD (indexD Enld (Ex.getD i 0 - Eg.getD k 0)) 0 * T.getD k 0 else 0
      let S := ∑ k ∈ Finset.range Eg.length, raw k
      (S = 0 → P.getD i none = none) ∧
      (S ≠ 0 → ∃ row, P.getD i none = some row ∧ row.length = Eg.length ∧ row.sum = 1 ∧
        ∀ k < Eg.length, row.getD k 0 = raw k / S ∧ (lim < Eg.getD k 0 → row.getD k 0 = 0)) := by
  unfold nldTProduct at h
  split_ifs at h with hbad
  simp only [Except.ok.injEq] at h
  subst h
  have hlen : (rawProduct nld T res Enld Eg Ex).length = Ex.length := by simp [rawProduct]
  refine ⟨by simp [hlen], fun i hi => ?_⟩
  intro lim raw S
  have hget : (List.map normRow (rawProduct nld T res Enld Eg Ex)).getD i none =
      normRow ((rawProduct nld T res Enld Eg Ex).getD i []) := by
    rw [List.getD_eq_getElem _ _ (by simp [hlen]; exact hi), List.getD_eq_getElem _ _ (by omega)]
    simp
  set r := (rawProduct nld T res Enld Eg Ex).getD i [] with hr
  have hrl : r.length = Eg.length := by rw [hr, rawProduct_row _ _ _ _ _ _ hi, rowLoop_length]
  have hre : ∀ k < Eg.length, r.getD k 0 = raw k := fun k hk =>
    rawProduct_entry nld T res Enld Eg Ex hs hi hk
  have hsum : r.sum = S := by
    have : ∀ l : List α, l.sum = ∑ q ∈ Finset.range l.length, l.getD q 0 := by
      intro l
      induction l with
      | nil => simp
      | cons x xs ih =>
        rw [List.sum_cons, List.length_cons, Finset.sum_range_succ', ih, add_comm]
        simp
    rw [this, hrl]
    exact Finset.sum_congr rfl fun k hk => hre k (Finset.mem_range.1 hk)
  rw [hget]
  constructor
  · intro h0
    rw [normRow, hsum, if_pos h0]
  · intro h0
    refine ⟨r.map (· / S), ?_, by simp [hrl], ?_, ?_⟩
    · rw [normRow, hsum, if_neg h0]
    · rw [list_sum_div, hsum, div_self h0]
    · intro k hk
      have e : (r.map (· / S)).getD k 0 = raw k / S := by
        rw [List.getD_eq_getElem _ _ (by simp [hrl]; exact hk), List.getElem_map, ← hre k hk,
          List.getD_eq_getElem _ _ (by omega)]
      refine ⟨e, fun hb => ?_⟩
      rw [e]
      simp only [raw, if_neg (not_le.2 hb), zero_div]

/-- Invariant of the parallel loop. -/
theorem par_inv (nld T : List α) (res Enld Eg Ex : List ℚ) (sched : List ℕ) :
    ∀ i < Ex.length, (parRun nld T res Enld Eg Ex sched).pc i ≤ Eg.length ∧
      (∀ q < (parRun nld T res Enld Eg Ex sched).pc i,
        Eg.getD q 0 ≤ Ex.getD i 0 + res.getD i 0 + (Eg.getD 1 0 - Eg.getD 0 0) / 2) ∧
      ∀ k, (parRun nld T res Enld Eg Ex sched).mem i k =
        if k < (parRun nld T res Enld Eg Ex sched).pc i
        then prodEntry nld T Enld (Ex.getD i 0) (Eg.getD k 0) k else 0 := by
  induction sched using List.reverseRecOn with
  | nil => intro i _; simp [parRun]
  | append_singleton l a ih =>
    intro i hi
    have hrun : parRun nld T res Enld Eg Ex (l ++ [a]) =
        parStep nld T res Enld Eg Ex (parRun nld T res Enld Eg Ex l) a := by
      simp [parRun]
    rw [hrun]
    set s := parRun nld T res Enld Eg Ex l with hs
    obtain ⟨h1, h2, h3⟩ := ih i hi
    unfold parStep
    simp only
    split_ifs with hc
    · obtain ⟨c1, c2, c3⟩ := hc
      by_cases hai : i = a
      · subst hai
        simp only [Function.update_self]
        refine ⟨by omega, ?_, ?_⟩
        · intro q hq
          rcases Nat.lt_succ_iff_lt_or_eq.1 hq with h | rfl
          · exact h2 q h
          · exact c3
        · intro k
          by_cases hk : k = s.pc i
          · subst hk
            rw [Function.update_self, if_pos (by omega)]
          · rw [Function.update_of_ne hk, h3 k]
            by_cases hlt : k < s.pc i
            · rw [if_pos hlt, if_pos (by omega)]
            · rw [if_neg hlt, if_neg (by omega)]
      · simp only [Function.update_of_ne hai]
        exact ⟨h1, h2, h3⟩
    · exact ⟨h1, h2, h3⟩

/-- **C32.** Whatever the order in which the threads make their steps: when all rows are finished, the shared
array holds the result of the serial loop. -/
theorem C32_schedule (nld T : List α) (res Enld Eg Ex : List ℚ) (sched : List ℕ)
    (hdone : parDone res Eg Ex (parRun nld T res Enld Eg Ex sched)) (i k : ℕ) (hi : i < Ex.length)
    (hk : k < Eg.length) :
    (parRun nld T res Enld Eg Ex sched).mem i k =
      ((rawProduct nld T res Enld Eg Ex).getD i []).getD k 0 := by
  obtain ⟨h1, h2, h3⟩ := par_inv nld T res Enld Eg Ex sched i hi
  have hd := hdone i hi
  rw [rawProduct_row _ _ _ _ _ _ hi, h3 k]
  split_ifs with hlt
  · rw [rowLoop_entry _ _ _ _ _ _ _ hk fun q hq => h2 q (by omega), Nat.zero_add]
  · rw [not_and'] at hd
    symm
    have hpc : (parRun nld T res Enld Eg Ex sched).pc i < Eg.length := by omega
    apply rowLoop_beyond
    refine ⟨(parRun nld T res Enld Eg Ex sched).pc i, by omega, hpc, ?_⟩
    by_contra hcon
    exact hd (not_lt.1 hcon) hpc

/-- **C32.** Every schedule that lets each row make as many steps as there are gamma bins finishes. -/
theorem C32_schedule_finishes (nld T : List α) (res Enld Eg Ex : List ℚ) (sched : List ℕ)
    (hfair : ∀ i < Ex.length, Eg.length ≤ sched.count i) :
    parDone res Eg Ex (parRun nld T res Enld Eg Ex sched) := by
  have key : ∀ l : List ℕ, ∀ i < Ex.length,
      (let s := parRun nld T res Enld Eg Ex l
       (s.pc i < Eg.length ∧ Eg.getD (s.pc i) 0 ≤
        Ex.getD i 0 + res.getD i 0 + (Eg.getD 1 0 - Eg.getD 0 0) / 2) → l.count i ≤ s.pc i) := by
    intro l
    induction l using List.reverseRecOn with
    | nil => intro i _ s _; simp
    | append_singleton l a ih =>
      intro i hi
      have hrun : parRun nld T res Enld Eg Ex (l ++ [a]) =
          parStep nld T res Enld Eg Ex (parRun nld T res Enld Eg Ex l) a := by
        simp [parRun]
      simp only [hrun]
      have ih' := ih i hi
      simp only at ih'
      have inv := (par_inv nld T res Enld Eg Ex l i hi).2.1
      set s := parRun nld T res Enld Eg Ex l with hs
      unfold parStep
      simp only
      by_cases hai : i = a
      · subst hai
        split_ifs with hc
        · simp only [Function.update_self]
          intro _
          have := ih' ⟨hc.2.1, hc.2.2⟩
          rw [List.count_append, List.count_singleton_self]
          omega
        · intro hcon
          exact absurd ⟨hi, hcon⟩ hc
      · have hcnt : (l ++ [a]).count i = l.count i := by
          rw [List.count_append, List.count_singleton]
          simp [Ne.symm hai]
        rw [hcnt]
        split_ifs with hc
        · simp only [Function.update_of_ne hai]
          exact ih'
        · exact ih'
  intro i hi hcon
  have := key sched i hi hcon
  have := hfair i hi
  omega

end Product

/-- Non-vacuity of C32: two rows, one of them cut by the diagonal, and an interleaved schedule. -/
example :
    nldTProduct ([1, 2, 3, 4] : List ℚ) [5, 6] [0, 0] [-1, 0, 1, 2] [1, 2] [1, 3] =
        .ok [some [1, 0], some [20/38, 18/38]] ∧
      (parRun ([1, 2, 3, 4] : List ℚ) [5, 6] [0, 0] [-1, 0, 1, 2] [1, 2] [1, 3] [1, 0, 1, 0, 0, 1]).mem 1 1
        = (18 : ℚ) := by
  decide +kernel

/-! ### C35: chi-square -/

theorem chiDiagRow_sum {α : Type} [Field α] [DecidableEq α] (mx : ℚ) (chi : α) (fact fit std : List α) (j : ℕ) (Eg : List ℚ)
    (hs : Eg.Pairwise (· < ·)) :
    chiDiagRow mx chi fact fit std j Eg = chi + ∑ k ∈ Finset.range Eg.length,
      if Eg.getD k 0 ≤ mx then chiTerm (fact.getD (j + k) 0) (fit.getD (j + k) 0) (std.getD (j + k) 0)
      else 0 := by
  induction Eg generalizing j chi with
  | nil => simp [chiDiagRow]
  | cons g gs ih =>
    have hs' : gs.Pairwise (· < ·) := (List.pairwise_cons.1 hs).2
    rw [chiDiagRow, List.length_cons, Finset.sum_range_succ']
    by_cases hg : g > mx
    · rw [if_pos hg, Finset.sum_eq_zero]
      · simp only [List.getD_cons_zero]
        rw [if_neg (not_le.2 hg)]
        ring
      · intro k hk
        rw [Finset.mem_range] at hk
        rw [List.getD_cons_succ, if_neg]
        rw [not_le, List.getD_eq_getElem _ _ hk]
        exact lt_trans hg ((List.pairwise_cons.1 hs).1 _ (List.getElem_mem _))
    · rw [if_neg hg]
      have e : ∀ k, (g :: gs).getD (k + 1) 0 = gs.getD k 0 := fun k => List.getD_cons_succ ..
      simp only [e, List.getD_cons_zero, Nat.add_zero]
      rw [if_pos (not_lt.1 hg)]
      rw [Finset.sum_congr rfl fun k _ => by rw [show j + (k + 1) = j + 1 + k by omega]]
      split_ifs with hz
      · rw [ih _ _ hs', chiTerm, if_pos hz]
        ring
      · rw [ih _ _ hs', chiTerm, if_neg hz]
        ring

theorem foldl_add_sum {α : Type} [Field α] [DecidableEq α] (f : α → ℕ → α) (g : ℕ → α) (n : ℕ) (c : α) (h : ∀ c, ∀ i < n, f c i = c + g i) :
    (List.range n).foldl f c = c + ∑ i ∈ Finset.range n, g i := by
  induction n with
  | zero => simp
  | succ n ih =>
    rw [List.range_succ, List.foldl_append, ih fun c i hi => h c i (by omega), Finset.sum_range_succ]
    simp only [List.foldl_cons, List.foldl_nil]
    rw [h _ n (by omega)]
    ring

/-- Entry of a list of rows. -/
def binOf {α : Type} [Field α] (M : List (List α)) (i j : ℕ) : α := (M.getD i []).getD j 0

/-- **C35.** `chisquare` is the sum over all bins with non-zero standard deviation of the squared deviation in
units of the standard deviation. -/
theorem C35_chisquare_sum {α : Type} [Field α] [DecidableEq α] (fact fit std : List (List α)) (nx ny : ℕ) :
    chisquare fact fit std nx ny = ∑ i ∈ Finset.range nx, ∑ j ∈ Finset.range ny,
      if binOf std i j = 0 then 0 else ((binOf fact i j - binOf fit i j) / binOf std i j) ^ 2 := by
  unfold chisquare
  rw [foldl_add_sum _ (fun i => ∑ j ∈ Finset.range ny,
    if binOf std i j = 0 then 0 else ((binOf fact i j - binOf fit i j) / binOf std i j) ^ 2), zero_add]
  intro c i _
  rw [foldl_add_sum _ (fun j =>
    if binOf std i j = 0 then 0 else ((binOf fact i j - binOf fit i j) / binOf std i j) ^ 2)]
  intro c j _
  unfold binOf
  split_ifs
  · ring
  · rw [div_pow]

/-- **C35.** `chisquare_diagonal` is the same sum restricted to the bins with `Eg ≤ Ex + resolution`. -/
theorem C35_diagonal_sum {α : Type} [Field α] [DecidableEq α] (fact fit std : List (List α)) (res Eg Ex : List ℚ)
    (hs : Eg.Pairwise (· < ·)) :
    chisquareDiagonal fact fit std res Eg Ex =
      ∑ i ∈ Finset.range Ex.length, ∑ j ∈ Finset.range Eg.length,
        if Eg.getD j 0 ≤ Ex.getD i 0 + res.getD i 0 ∧ binOf std i j ≠ 0
        then ((binOf fact i j - binOf fit i j) / binOf std i j) ^ 2 else 0 := by
  unfold chisquareDiagonal
  rw [foldl_add_sum _ (fun i => ∑ j ∈ Finset.range Eg.length,
        if Eg.getD j 0 ≤ Ex.getD i 0 + res.getD i 0 ∧ binOf std i j ≠ 0
        then ((binOf fact i j - binOf fit i j) / binOf std i j) ^ 2 else 0), zero_add]
  intro c i _
  rw [chiDiagRow_sum _ _ _ _ _ _ _ hs]
  congr 1
  apply Finset.sum_congr rfl
  intro j _
  rw [Nat.zero_add]
  unfold chiTerm binOf
  by_cases h1 : Eg.getD j 0 ≤ Ex.getD i 0 + res.getD i 0
  · by_cases h2 : (std.getD i []).getD j 0 = 0
    · rw [if_pos h1, if_pos h2, if_neg (by tauto)]
    · rw [if_pos h1, if_neg h2, if_pos ⟨h1, h2⟩, div_pow]
  · rw [if_neg h1, if_neg (by tauto)]

/-- **C35.** Both are non-negative; `chisquare` is 0 exactly if fact and fit agree in every bin with non-zero
standard deviation, `chisquare_diagonal` exactly if they agree in those up to the diagonal. -/
theorem C35_nonneg_zero {α : Type} [Field α] [LinearOrder α] [IsStrictOrderedRing α] (fact fit std : List (List α)) (res Eg Ex : List ℚ) (nx ny : ℕ)
    (hs : Eg.Pairwise (· < ·)) :
    0 ≤ chisquare fact fit std nx ny ∧ 0 ≤ chisquareDiagonal fact fit std res Eg Ex ∧
    (chisquare fact fit std nx ny = 0 ↔
      ∀ i < nx, ∀ j < ny, binOf std i j ≠ 0 → binOf fact i j = binOf fit i j) ∧
    (chisquareDiagonal fact fit std res Eg Ex = 0 ↔
      ∀ i < Ex.length, ∀ j < Eg.length, Eg.getD j 0 ≤ Ex.getD i 0 + res.getD i 0 →
        binOf std i j ≠ 0 → binOf fact i j = binOf fit i j) := by
  have sq : ∀ a b s : α, s ≠ 0 → (((a - b) / s) ^ 2 = 0 ↔ a = b) := by
    intro a b s hs
    rw [pow_eq_zero_iff (by norm_num), div_eq_zero_iff, sub_eq_zero]
    tauto
  rw [C35_chisquare_sum, C35_diagonal_sum _ _ _ _ _ _ hs]
  have n1 : ∀ i j, 0 ≤ (if binOf std i j = 0 then (0 : α)
      else ((binOf fact i j - binOf fit i j) / binOf std i j) ^ 2) := by
    intro i j
    split_ifs <;> positivity
  have n2 : ∀ i j, 0 ≤ (if Eg.getD j 0 ≤ Ex.getD i 0 + res.getD i 0 ∧ binOf std i j ≠ 0
      then ((binOf fact i j - binOf fit i j) / binOf std i j) ^ 2 else (0 : α)) := by
    intro i j
    split_ifs <;> positivity
  refine ⟨Finset.sum_nonneg fun i _ => Finset.sum_nonneg fun j _ => n1 i j,
    Finset.sum_nonneg fun i _ => Finset.sum_nonneg fun j _ => n2 i j, ?_, ?_⟩
  · rw [Finset.sum_eq_zero_iff_of_nonneg fun i _ => Finset.sum_nonneg fun j _ => n1 i j]
    constructor
    · intro h i hi j hj hne
      have := (Finset.sum_eq_zero_iff_of_nonneg fun j _ => n1 i j).1 (h i (Finset.mem_range.2 hi)) j
        (Finset.mem_range.2 hj)
      rw [if_neg hne] at this
      exact (sq _ _ _ hne).1 this
    · intro h i hi
      apply Finset.sum_eq_zero
      intro j hj
      split_ifs with hz
      · rfl
      · exact (sq _ _ _ hz).2 (h i (Finset.mem_range.1 hi) j (Finset.mem_range.1 hj) hz)
  · rw [Finset.sum_eq_zero_iff_of_nonneg fun i _ => Finset.sum_nonneg fun j _ => n2 i j]
    constructor
    · intro h i hi j hj hle hne
      have := (Finset.sum_eq_zero_iff_of_nonneg fun j _ => n2 i j).1 (h i (Finset.mem_range.2 hi)) j
        (Finset.mem_range.2 hj)
      rw [if_pos ⟨hle, hne⟩] at this
      exact (sq _ _ _ hne).1 this
    · intro h i hi
      apply Finset.sum_eq_zero
      intro j hj
      split_ifs with hz
      · exact (sq _ _ _ hz.2).2 (h i (Finset.mem_range.1 hi) j (Finset.mem_range.1 hj) hz.1 hz.2)
      · rfl

example : chisquare (α := ℚ) [[1, 2], [3, 4]] [[2, 2], [3, 6]] [[2, 1], [1, 0]] 2 2 = 1/4 ∧
    chisquareDiagonal (α := ℚ) [[1, 2], [3, 4]] [[2, 5], [3, 6]] [[2, 1], [1, 4]] [0, 0] [1, 2] [1, 2] = 1/2 := by
  decide +kernel

end Ompy
