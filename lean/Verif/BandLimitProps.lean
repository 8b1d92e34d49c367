import Verif.StatsProps
import Mathlib.Probability.StrongLaw
import Mathlib.Probability.IdentDistrib
import Mathlib.Probability.Independence.InfinitePi

/-!
# What the bands of an ensemble of many members tend to

C134: the percentiles over the samples of all the members, when there are many members.
-/

namespace Ompy

open MeasureTheory ProbabilityTheory Filter Topology

/-! ## What is meant -/

/-- How many of the samples of a column are numbers of at most `a`. -/
def atMost (a : ℚ) (col : List (Option ℚ)) : ℕ := col.countP fun x => x.any fun y => decide (y ≤ a)

/-- How many of the samples of a column are numbers. -/
def howMany (col : List (Option ℚ)) : ℕ := col.countP Option.isSome

/-- The samples of the members at one energy: member `i` gives the list `L i`, of at most `cap` samples, which may depend on each other and of which some may be NaN;
different members are independent and have the same law. -/
structure Members {Ω : Type*} [MeasurableSpace Ω] (μ : Measure Ω) (L : ℕ → Ω → List (Option ℚ)) (cap : ℕ) : Prop where
  meas : ∀ i (A : Set (List (Option ℚ))), MeasurableSet (L i ⁻¹' A)
  ident : ∀ i (A : Set (List (Option ℚ))), μ (L i ⁻¹' A) = μ (L 0 ⁻¹' A)
  indep : ∀ i j, i ≠ j → ∀ A B : Set (List (Option ℚ)), μ (L i ⁻¹' A ∩ L j ⁻¹' B) = μ (L i ⁻¹' A) * μ (L j ⁻¹' B)
  cap : ∀ i ω, (L i ω).length ≤ cap

/-- The samples of the first `n` members, one after the other (`samples_from_res`, ompy/ensembleNormalizer.py:322-334). -/
def poolOf (L : ℕ → List (Option ℚ)) (n : ℕ) : List (Option ℚ) := (List.range n).flatMap L

/-! ## Lists -/

lemma numbersOf_length (col : List (Option ℚ)) : (numbersOf col).length = howMany col := by
  unfold numbersOf howMany
  induction col with
  | nil => rfl
  | cons x xs ih =>
    cases x with
    | none => rw [List.filterMap_cons_none rfl, ih]; simp
    | some y => rw [List.filterMap_cons_some (f := id) (b := y) rfl, List.length_cons, ih]; simp

lemma numbersOf_count (a : ℚ) (col : List (Option ℚ)) : (numbersOf col).countP (fun y => decide (y ≤ a)) = atMost a col := by
  unfold numbersOf atMost
  induction col with
  | nil => rfl
  | cons x xs ih =>
    cases x with
    | none => simpa using ih
    | some y => rw [List.filterMap_cons_some (f := id) (b := y) rfl, List.countP_cons, List.countP_cons, ih]; rfl

lemma atMost_le (a : ℚ) (col : List (Option ℚ)) : atMost a col ≤ howMany col := by
  rw [← numbersOf_length, ← numbersOf_count]
  exact List.countP_le_length

lemma sorted_count {s : List ℚ} (hs : s.Pairwise (· ≤ ·)) (a : ℚ) {i : ℕ} (hi : i < s.length) :
    s.getD i 0 ≤ a ↔ i < s.countP (fun y => decide (y ≤ a)) := by
  induction s generalizing i with
  | nil => simp at hi
  | cons x xs ih =>
    have hx := List.pairwise_cons.1 hs
    by_cases hxa : x ≤ a
    · rw [List.countP_cons_of_pos (by simpa using hxa)]
      cases i with
      | zero => simpa using hxa
      | succ i =>
        rw [List.getD_cons_succ, ih hx.2 (by simpa using hi)]
        omega
    · have h0 : (x :: xs).countP (fun y => decide (y ≤ a)) = 0 := by
        rw [List.countP_eq_zero]
        intro y hy
        have : x ≤ y := by
          rcases List.mem_cons.1 hy with rfl | h
          · exact le_refl _
          · exact hx.1 y h
        simpa using lt_of_lt_of_le (not_le.1 hxa) this
      rw [h0]
      simp only [Nat.not_lt_zero, iff_false, not_le]
      refine lt_of_lt_of_le (not_le.1 hxa) ?_
      cases i with
      | zero => simp
      | succ i =>
        rw [List.getD_cons_succ, List.getD_eq_getElem _ _ (by simpa using hi)]
        exact hx.1 _ (List.getElem_mem _)

/-- **C134.** Where a percentile lies: above `a` if at most `(N-1) p` of the `N` numbers are at most `a`, and at most `a` if
at least `(N-1) p + 1` of them are. -/
theorem C134_place (col : List (Option ℚ)) (p : ℚ) (h0 : 0 ≤ p) (h1 : p ≤ 1) (hn : 0 < howMany col) :
    ∃ v, quantileCol p col = some v ∧ ∀ a : ℚ,
      ((atMost a col : ℚ) ≤ ((howMany col : ℚ) - 1) * p → a < v) ∧
      (((howMany col : ℚ) - 1) * p + 1 ≤ atMost a col → v ≤ a) := by
  have hne : numbersOf col ≠ [] := by
    rw [← List.length_pos_iff, numbersOf_length]
    exact hn
  have hs := sortedCol_sorted col
  have hp := sortedCol_perm col
  have hl : (sortedCol col).length = howMany col := by rw [hp.length_eq, numbersOf_length]
  have hc : ∀ a, (sortedCol col).countP (fun y => decide (y ≤ a)) = atMost a col := fun a => by
    rw [hp.countP_eq, numbersOf_count]
  have hpos : 0 < (sortedCol col).length := by omega
  refine ⟨_, quantileCol_eq p col hne, fun a => ?_⟩
  obtain ⟨f1, f2, f3⟩ := floor_facts hpos h0 h1
  obtain ⟨o1, o2⟩ := ordStat_place hs hpos h0 h1
  rw [hl] at f1 f2 f3 o1 o2
  set k := ⌊((howMany col : ℚ) - 1) * p⌋.toNat
  refine ⟨fun h => ?_, fun h => ?_⟩
  · have hk : atMost a col ≤ k := by
      have : (atMost a col : ℚ) < k + 1 := by linarith
      have : atMost a col < k + 1 := by exact_mod_cast this
      omega
    refine lt_of_lt_of_le ?_ (o1 k f3 f1)
    by_contra hcon
    have := (sorted_count hs a (by omega)).1 (not_lt.1 hcon)
    rw [hc a] at this
    omega
  · have hA : 0 < atMost a col := by
      have h2 : (1 : ℚ) ≤ howMany col := by exact_mod_cast hn
      have : (1 : ℚ) ≤ atMost a col := by nlinarith [mul_nonneg (sub_nonneg.2 h2) h0]
      exact_mod_cast this
    have hle := atMost_le a col
    have hcast : ((atMost a col - 1 : ℕ) : ℚ) = atMost a col - 1 := by
      rw [Nat.cast_sub hA]; simp
    refine (o2 (atMost a col - 1) (by omega) (by rw [hcast]; linarith)).trans ?_
    rw [sorted_count hs a (by omega), hc a]
    omega

/-- Five numbers and a NaN: one number is at most 2, four are at most 7. -/
example : quantileCol (1 / 2) [some 3, none, some 1, some 7, some 9, some 4] = some 4 ∧
    atMost 2 [some 3, none, some 1, some 7, some 9, some 4] = 1 ∧ atMost 7 [some 3, none, some 1, some 7, some 9, some 4] = 4 ∧
    howMany [some 3, none, some 1, some 7, some 9, some 4] = 5 := by decide +kernel

lemma pool_atMost (a : ℚ) (L : ℕ → List (Option ℚ)) (n : ℕ) : atMost a (poolOf L n) = ∑ i ∈ Finset.range n, atMost a (L i) := by
  unfold poolOf
  induction n with
  | zero => rfl
  | succ n ih =>
    rw [List.range_succ, List.flatMap_append, Finset.sum_range_succ, ← ih]
    simp [atMost, List.countP_append]

lemma pool_howMany (L : ℕ → List (Option ℚ)) (n : ℕ) : howMany (poolOf L n) = ∑ i ∈ Finset.range n, howMany (L i) := by
  unfold poolOf
  induction n with
  | zero => rfl
  | succ n ih =>
    rw [List.range_succ, List.flatMap_append, Finset.sum_range_succ, ← ih]
    simp [howMany, List.countP_append]

/-- Percentiles of a sequence of columns whose frequencies settle. -/
lemma pool_quantile {L : ℕ → List (Option ℚ)} {N : ℝ} {F : ℚ → ℝ} (hN : 0 < N)
    (tN : Tendsto (fun n : ℕ => (howMany (poolOf L n) : ℝ) / n) atTop (𝓝 N))
    (tF : ∀ a, Tendsto (fun n : ℕ => (atMost a (poolOf L n) : ℝ) / n) atTop (𝓝 (F a)))
    {p : ℚ} (h0 : 0 ≤ p) (h1 : p ≤ 1) {ql qh : ℝ} (hl : ∀ a : ℚ, (a : ℝ) < ql → F a < p * N)
    (hh : ∀ a : ℚ, qh < (a : ℝ) → p * N < F a) {ε : ℝ} (hε : 0 < ε) :
    ∀ᶠ n in atTop, ∃ v, quantileCol p (poolOf L n) = some v ∧ ql - ε < v ∧ (v : ℝ) < qh + ε := by
  obtain ⟨a, ha1, ha2⟩ := exists_rat_btwn (show ql - ε < ql by linarith)
  obtain ⟨b, hb1, hb2⟩ := exists_rat_btwn (show qh < qh + ε by linarith)
  have tinv : Tendsto (fun n : ℕ => (1 : ℝ) / n) atTop (𝓝 0) := tendsto_one_div_atTop_nhds_zero_nat
  have e0 : ∀ᶠ n : ℕ in atTop, (0 : ℝ) < (howMany (poolOf L n) : ℝ) / n := tN.eventually_const_lt hN
  have e1 : ∀ᶠ n : ℕ in atTop, (atMost a (poolOf L n) : ℝ) / n < (howMany (poolOf L n) : ℝ) / n * p - 1 / n * p := by
    have t : Tendsto (fun n : ℕ => (howMany (poolOf L n) : ℝ) / n * p - 1 / n * p) atTop (𝓝 (N * p - 0 * p)) :=
      (tN.mul_const _).sub (tinv.mul_const _)
    exact (tF a).eventually_lt t (by have := hl a ha2; linarith [mul_comm (p : ℝ) N])
  have e2 : ∀ᶠ n : ℕ in atTop, (howMany (poolOf L n) : ℝ) / n * p + 1 / n < (atMost b (poolOf L n) : ℝ) / n := by
    have t : Tendsto (fun n : ℕ => (howMany (poolOf L n) : ℝ) / n * p + 1 / n) atTop (𝓝 (N * p + 0)) :=
      (tN.mul_const _).add tinv
    exact t.eventually_lt (tF b) (by have := hh b hb1; linarith [mul_comm (p : ℝ) N])
  filter_upwards [e0, e1, e2, eventually_gt_atTop 0] with n g0 g1 g2 hn
  have nR : (0 : ℝ) < n := by exact_mod_cast hn
  have hm : 0 < howMany (poolOf L n) := by
    have : (0 : ℝ) < howMany (poolOf L n) := by
      have := mul_pos g0 nR
      rwa [div_mul_cancel₀ _ nR.ne'] at this
    exact_mod_cast this
  have p0 : (0 : ℝ) ≤ p := by exact_mod_cast h0
  obtain ⟨v, hv, hp⟩ := C134_place (poolOf L n) p h0 h1 hm
  refine ⟨v, hv, ?_, ?_⟩
  · have : a < v := (hp a).1 (by
      have h : (atMost a (poolOf L n) : ℝ) ≤ ((howMany (poolOf L n) : ℝ) - 1) * p := by
        have h2 : (howMany (poolOf L n) : ℝ) / n * p - 1 / n * p = (((howMany (poolOf L n) : ℝ) - 1) * p) / n := by ring
        rw [h2] at g1
        exact ((div_lt_div_iff_of_pos_right nR).1 g1).le
      exact_mod_cast h)
    have : (a : ℝ) < v := by exact_mod_cast this
    linarith
  · have : v ≤ b := (hp b).2 (by
      have h : ((howMany (poolOf L n) : ℝ) - 1) * p + 1 ≤ (atMost b (poolOf L n) : ℝ) := by
        have h2 : (howMany (poolOf L n) : ℝ) / n * p + 1 / n = ((howMany (poolOf L n) : ℝ) * p + 1) / n := by ring
        rw [h2] at g2
        have := (div_lt_div_iff_of_pos_right nR).1 g2
        nlinarith
      exact_mod_cast h)
    have : (v : ℝ) ≤ b := by exact_mod_cast this
    linarith

/-! ## Random members -/

section
variable {Ω : Type*} [MeasurableSpace Ω] {μ : Measure Ω} [IsProbabilityMeasure μ] {L : ℕ → Ω → List (Option ℚ)} {cap : ℕ}

/-- A bounded number that every member gives settles at its expectation. -/
lemma Members.average (h : Members μ L cap) (f : List (Option ℚ) → ℕ) (hf : ∀ l, f l ≤ l.length) :
    ∀ᵐ ω ∂μ, Tendsto (fun n : ℕ => ((∑ i ∈ Finset.range n, f (L i ω) : ℕ) : ℝ) / n) atTop (𝓝 (∫ ω, (f (L 0 ω) : ℝ) ∂μ)) := by
  let _ : MeasurableSpace (List (Option ℚ)) := ⊤
  have mL : ∀ i, Measurable (L i) := fun i A _ => h.meas i A
  have mf : Measurable (fun l : List (Option ℚ) => (f l : ℝ)) := measurable_from_top
  have int : Integrable (fun ω => (f (L 0 ω) : ℝ)) μ := by
    refine Integrable.of_bound (mf.comp (mL 0)).aestronglyMeasurable (cap : ℝ) (Eventually.of_forall fun ω => ?_)
    rw [Real.norm_of_nonneg (by positivity)]
    exact_mod_cast (hf _).trans (h.cap 0 ω)
  have ind : Pairwise fun i j => IndepFun (fun ω => (f (L i ω) : ℝ)) (fun ω => (f (L j ω) : ℝ)) μ := fun i j hij => by
    have : IndepFun (L i) (L j) μ := by
      rw [indepFun_iff_measure_inter_preimage_eq_mul]
      intro A B _ _
      exact h.indep i j hij A B
    exact this.comp mf mf
  have ide : ∀ i, IdentDistrib (fun ω => (f (L i ω) : ℝ)) (fun ω => (f (L 0 ω) : ℝ)) μ μ := fun i => by
    have : IdentDistrib (L i) (L 0) μ μ := ⟨(mL i).aemeasurable, (mL 0).aemeasurable, by
      ext A hA
      rw [Measure.map_apply (mL i) hA, Measure.map_apply (mL 0) hA]
      exact h.ident i A⟩
    exact this.comp mf
  filter_upwards [strong_law_ae_real (fun i ω => (f (L i ω) : ℝ)) int ind ide] with ω hω
  refine hω.congr fun n => ?_
  push_cast
  rfl

/-- **C134.** With more and more members the percentile `p` over the samples of all the members comes as close as wanted to the quantiles
`p` of the samples of a member: with `N` numbers and `F a` numbers of at most `a` to expect from a member, it is eventually above every
`ql - ε` for `F < p N` below `ql` and below every `qh + ε` for `F > p N` above `qh`. -/
theorem C134_between (h : Members μ L cap) {p : ℚ} (h0 : 0 ≤ p) (h1 : p ≤ 1) (hN : 0 < ∫ ω, (howMany (L 0 ω) : ℝ) ∂μ) {ql qh : ℝ}
    (hl : ∀ a : ℚ, (a : ℝ) < ql → ∫ ω, (atMost a (L 0 ω) : ℝ) ∂μ < p * ∫ ω, (howMany (L 0 ω) : ℝ) ∂μ)
    (hh : ∀ a : ℚ, qh < (a : ℝ) → p * ∫ ω, (howMany (L 0 ω) : ℝ) ∂μ < ∫ ω, (atMost a (L 0 ω) : ℝ) ∂μ) :
    ∀ᵐ ω ∂μ, ∀ ε : ℝ, 0 < ε → ∀ᶠ n in atTop, ∃ v, quantileCol p (poolOf (fun i => L i ω) n) = some v ∧
      ql - ε < v ∧ (v : ℝ) < qh + ε := by
  have aN := h.average howMany (fun l => List.countP_le_length)
  have aF : ∀ᵐ ω ∂μ, ∀ a : ℚ, Tendsto (fun n : ℕ => ((∑ i ∈ Finset.range n, atMost a (L i ω) : ℕ) : ℝ) / n) atTop
      (𝓝 (∫ ω, (atMost a (L 0 ω) : ℝ) ∂μ)) := ae_all_iff.2 fun a => h.average (atMost a) (fun l => List.countP_le_length)
  filter_upwards [aN, aF] with ω tN tF ε hε
  refine pool_quantile (F := fun a => ∫ ω, (atMost a (L 0 ω) : ℝ) ∂μ) hN ?_ (fun a => ?_) h0 h1 hl hh hε
  · exact tN.congr fun n => by rw [pool_howMany]
  · exact (tF a).congr fun n => by rw [pool_atMost]

/-- **C134.** If the quantile of the samples of a member is a single number `q`, the percentile over all the members tends to it. -/
theorem C134_limit (h : Members μ L cap) {p : ℚ} (h0 : 0 ≤ p) (h1 : p ≤ 1) (hN : 0 < ∫ ω, (howMany (L 0 ω) : ℝ) ∂μ) {q : ℝ}
    (hl : ∀ a : ℚ, (a : ℝ) < q → ∫ ω, (atMost a (L 0 ω) : ℝ) ∂μ < p * ∫ ω, (howMany (L 0 ω) : ℝ) ∂μ)
    (hh : ∀ a : ℚ, q < (a : ℝ) → p * ∫ ω, (howMany (L 0 ω) : ℝ) ∂μ < ∫ ω, (atMost a (L 0 ω) : ℝ) ∂μ) :
    ∀ᵐ ω ∂μ, Tendsto (fun n => ((quantileCol p (poolOf (fun i => L i ω) n)).getD 0 : ℝ)) atTop (𝓝 q) ∧
      ∀ᶠ n in atTop, (quantileCol p (poolOf (fun i => L i ω) n)).isSome := by
  filter_upwards [C134_between h h0 h1 hN hl hh] with ω hω
  refine ⟨?_, ?_⟩
  · rw [Metric.tendsto_atTop']
    intro ε hε
    obtain ⟨n0, hn0⟩ := (hω ε hε).exists_forall_of_atTop
    refine ⟨n0, fun n hn => ?_⟩
    obtain ⟨v, hv, g1, g2⟩ := hn0 n hn.le
    rw [hv, Option.getD_some, Real.dist_eq, abs_lt]
    exact ⟨by linarith, by linarith⟩
  · filter_upwards [hω 1 one_pos] with n hn
    obtain ⟨v, hv, -⟩ := hn
    rw [hv]
    rfl

/-- **C134.** The band between two percentiles eventually holds at least the part `ph - pl` of all the numbers, up to any `ε`. -/
theorem C134_share (h : Members μ L cap) {pl ph : ℚ} (h0 : 0 ≤ pl) (hlh : pl ≤ ph) (h1 : ph ≤ 1)
    (hN : 0 < ∫ ω, (howMany (L 0 ω) : ℝ) ∂μ) :
    ∀ᵐ ω ∂μ, ∀ ε : ℚ, 0 < ε → ∀ᶠ n in atTop, ∃ lo hi, quantileCol pl (poolOf (fun i => L i ω) n) = some lo ∧
      quantileCol ph (poolOf (fun i => L i ω) n) = some hi ∧
      (ph - pl - ε) * (numbersOf (poolOf (fun i => L i ω) n)).length < insideCount (numbersOf (poolOf (fun i => L i ω) n)) lo hi := by
  filter_upwards [h.average howMany (fun l => List.countP_le_length)] with ω tN ε hε
  have tinf : Tendsto (fun n : ℕ => (howMany (poolOf (fun i => L i ω) n) : ℝ)) atTop atTop := by
    have : Tendsto (fun n : ℕ => ((∑ i ∈ Finset.range n, howMany (L i ω) : ℕ) : ℝ) / n * (n : ℝ)) atTop atTop :=
      tN.pos_mul_atTop hN tendsto_natCast_atTop_atTop
    refine this.congr' ?_
    filter_upwards [eventually_gt_atTop 0] with n hn
    rw [pool_howMany, div_mul_cancel₀]
    exact_mod_cast hn.ne'
  filter_upwards [tinf.eventually_gt_atTop (((2 / ε : ℚ) : ℝ))] with n hn
  have hn' : 2 / ε < (howMany (poolOf (fun i => L i ω) n) : ℚ) := by exact_mod_cast hn
  have hm : 0 < howMany (poolOf (fun i => L i ω) n) := by
    have : (0 : ℚ) < howMany (poolOf (fun i => L i ω) n) := lt_trans (by positivity) hn'
    exact_mod_cast this
  obtain ⟨lo, hlo, -⟩ := C134_place (poolOf (fun i => L i ω) n) pl h0 (hlh.trans h1) hm
  obtain ⟨hi, hhi, -⟩ := C134_place (poolOf (fun i => L i ω) n) ph (h0.trans hlh) h1 hm
  refine ⟨lo, hi, hlo, hhi, ?_⟩
  have hc := C91_coverage_partial (poolOf (fun i => L i ω) n) pl ph lo hi h0 hlh h1 hlo hhi
  refine lt_of_le_of_lt ?_ hc
  rw [numbersOf_length]
  have h2 : 2 < howMany (poolOf (fun i => L i ω) n) * ε := (div_lt_iff₀ hε).1 hn'
  nlinarith

end

/-! ## Members that give different numbers of samples -/

/-- Members drawn from a law. -/
lemma members_of_law {α : Type*} [MeasurableSpace α] [DiscreteMeasurableSpace α] (ν : Measure α) [IsProbabilityMeasure ν] {cap : ℕ}
    (f : α → List (Option ℚ)) (hf : ∀ l, (f l).length ≤ cap) :
    Members (Measure.infinitePi fun _ : ℕ => ν) (fun i (ω : ℕ → α) => f (ω i)) cap := by
  let _ : MeasurableSpace (List (Option ℚ)) := ⊤
  have mf : Measurable f := Measurable.of_discrete
  have ind := iIndepFun_infinitePi (P := fun _ : ℕ => ν) (X := fun _ l => f l) (fun _ => mf)
  have e : ∀ i (A : Set (List (Option ℚ))), (Measure.infinitePi fun _ : ℕ => ν) ((fun ω : ℕ → α => f (ω i)) ⁻¹' A) = ν (f ⁻¹' A) := by
    intro i A
    have mp := measurePreserving_eval_infinitePi (fun _ : ℕ => ν) i
    exact mp.measure_preimage (s := f ⁻¹' A) (mf trivial).nullMeasurableSet
  refine ⟨fun i A => ?_, fun i A => by rw [e, e], fun i j hij A B => ?_, fun i ω => hf _⟩
  · exact (mf.comp (measurable_pi_apply i)) (show MeasurableSet A from trivial)
  · exact (indepFun_iff_measure_inter_preimage_eq_mul.1 (ind.indepFun hij)) A B trivial trivial

lemma members_integral {α : Type*} [MeasurableSpace α] [DiscreteMeasurableSpace α] (ν : Measure α) [IsProbabilityMeasure ν] (g : α → ℝ) :
    ∫ ω : ℕ → α, g (ω 0) ∂(Measure.infinitePi fun _ : ℕ => ν) = ∫ a, g a ∂ν := by
  have mp := measurePreserving_eval_infinitePi (fun _ : ℕ => ν) 0
  have := integral_map (μ := Measure.infinitePi fun _ : ℕ => ν) (φ := Function.eval 0) (f := g) mp.measurable.aemeasurable
    (Measurable.of_discrete (f := g)).aestronglyMeasurable
  rw [mp.map_eq] at this
  exact this.symm

/-- A fair coin. -/
noncomputable def coin : Measure Bool := (2⁻¹ : ENNReal) • Measure.dirac true + (2⁻¹ : ENNReal) • Measure.dirac false

instance : IsProbabilityMeasure coin := ⟨by
  unfold coin
  simp [ENNReal.inv_two_add_inv_two]⟩

lemma coin_integral (g : Bool → ℝ) : ∫ b, g b ∂coin = (g true + g false) / 2 := by
  unfold coin
  have i : ∀ b, Integrable g ((2⁻¹ : ENNReal) • Measure.dirac b) := fun b =>
    (Integrable.of_finite (μ := Measure.dirac b)).smul_measure (by simp)
  rw [integral_add_measure (i _) (i _)]
  rw [integral_smul_measure, integral_smul_measure, integral_dirac, integral_dirac]
  simp only [ENNReal.toReal_inv, ENNReal.toReal_ofNat, smul_eq_mul]
  ring

/-- Half of the members give `k` samples of `y`, the others `m` samples of `x`. -/
def unequal (x y : ℚ) (m k : ℕ) (b : Bool) : List (Option ℚ) :=
  if b then List.replicate k (some y) else List.replicate m (some x)

/-- **C134 (disagreement).** Members do not count alike, but by the number of their samples: if half of the members say `x` with `m` samples and the
others `y` with `k`, every percentile above the part `m / (m + k)` tends to `y`, the median among them if `m < k`, and the lower end of
the band of 68 % if `84 m < 16 k`, as for `m = 10` and `k = 100`. -/
theorem C134_weights_fails (x y : ℚ) (hxy : x < y) (m k : ℕ) (p : ℚ) (h0 : (m : ℚ) < p * (m + k)) (h1 : p < 1) :
    ∀ᵐ ω ∂(Measure.infinitePi fun _ : ℕ => coin),
      Tendsto (fun n => ((quantileCol p (poolOf (fun i => unequal x y m k (ω i)) n)).getD 0 : ℝ)) atTop (𝓝 (y : ℝ)) := by
  have hmk : (0 : ℚ) ≤ (m : ℚ) + k := by positivity
  have m0 : (0 : ℚ) ≤ m := by positivity
  have p0 : 0 < p := by
    by_contra hp
    have := mul_nonneg (neg_nonneg.2 (not_lt.1 hp)) hmk
    linarith
  have hs : (0 : ℚ) < (m : ℚ) + k := by
    rcases hmk.lt_or_eq with h | h
    · exact h
    · rw [← h] at h0; simp at h0; linarith
  have M := members_of_law coin (cap := m + k) (unequal x y m k) (fun b => by cases b <;> simp [unequal])
  have hH : ∫ ω : ℕ → Bool, (howMany (unequal x y m k (ω 0)) : ℝ) ∂(Measure.infinitePi fun _ : ℕ => coin) = ((m : ℝ) + k) / 2 := by
    rw [members_integral coin (fun b => (howMany (unequal x y m k b) : ℝ)), coin_integral]
    simp [unequal, howMany, List.countP_replicate, add_comm]
  have hA : ∀ a : ℚ, ∫ ω : ℕ → Bool, (atMost a (unequal x y m k (ω 0)) : ℝ) ∂(Measure.infinitePi fun _ : ℕ => coin) =
      ((if y ≤ a then (k : ℝ) else 0) + if x ≤ a then (m : ℝ) else 0) / 2 := fun a => by
    rw [members_integral coin (fun b => (atMost a (unequal x y m k b) : ℝ)), coin_integral]
    simp [unequal, atMost, List.countP_replicate]
  have hR : (m : ℝ) < p * (m + k) := by exact_mod_cast h0
  have hsR : (0 : ℝ) < (m : ℝ) + k := by exact_mod_cast hs
  have m0R : (0 : ℝ) ≤ m := by positivity
  have h1R : (p : ℝ) < 1 := by exact_mod_cast h1
  have := C134_limit M p0.le h1.le (q := (y : ℝ)) (by rw [hH]; linarith) (fun a ha => ?_) (fun a ha => ?_)
  · filter_upwards [this] with ω hω using hω.1
  · have : a < y := by exact_mod_cast ha
    rw [hA, hH, if_neg (not_le.2 this)]
    split_ifs <;> linarith
  · have : y < a := by exact_mod_cast ha
    rw [hA, hH, if_pos this.le, if_pos (hxy.trans this).le]
    nlinarith

/-- Ten samples of 0 against a hundred of 1, for the band of 68 %. -/
example : ((10 : ℕ) : ℚ) < 16 / 100 * ((10 : ℕ) + (100 : ℕ)) ∧
    quantileCol (16 / 100) (poolOf (fun i => unequal 0 1 10 100 (i % 2 == 0)) 4) = some 1 := by decide +kernel

open Classical in
lemma atMost_sum (a : ℚ) (l : List (Option ℚ)) :
    atMost a l = ∑ j ∈ Finset.range l.length, if ∃ x, l[j]? = some (some x) ∧ x ≤ a then 1 else 0 := by
  unfold atMost
  induction l with
  | nil => rfl
  | cons y ys ih =>
    rw [List.countP_cons, ih, List.length_cons, Finset.sum_range_succ']
    simp only [List.getElem?_cons_succ, List.getElem?_cons_zero]
    congr 1
    cases y with
    | none => simp
    | some y => simp

/-- **C134.** Members that all have `k` samples, all of them numbers, count alike: the percentiles tend to those of the average of the laws of
the `k` samples of a member, which is the law of a sample taken from a member at random. -/
theorem C134_equal {Ω : Type*} [MeasurableSpace Ω] {μ : Measure Ω} [IsProbabilityMeasure μ] {L : ℕ → Ω → List (Option ℚ)} (k : ℕ) (hk : 0 < k)
    (h : Members μ L k) (hL : ∀ ω, (L 0 ω).length = k) (hN : ∀ ω, ∀ x ∈ L 0 ω, x.isSome) {p : ℚ} (h0 : 0 ≤ p) (h1 : p ≤ 1) {q : ℝ}
    (hl : ∀ a : ℚ, (a : ℝ) < q → (∑ j ∈ Finset.range k, μ.real {ω | ∃ x, (L 0 ω)[j]? = some (some x) ∧ x ≤ a}) / k < p)
    (hh : ∀ a : ℚ, q < (a : ℝ) → p < (∑ j ∈ Finset.range k, μ.real {ω | ∃ x, (L 0 ω)[j]? = some (some x) ∧ x ≤ a}) / k) :
    ∀ᵐ ω ∂μ, Tendsto (fun n => ((quantileCol p (poolOf (fun i => L i ω) n)).getD 0 : ℝ)) atTop (𝓝 q) := by
  have kR : (0 : ℝ) < k := by exact_mod_cast hk
  have hH : ∫ ω, (howMany (L 0 ω) : ℝ) ∂μ = k := by
    rw [show (fun ω => (howMany (L 0 ω) : ℝ)) = fun _ => (k : ℝ) from funext fun ω => by
      unfold howMany
      rw [List.countP_eq_length.2 (hN ω), hL ω]]
    simp
  have hA : ∀ a : ℚ, ∫ ω, (atMost a (L 0 ω) : ℝ) ∂μ =
      ∑ j ∈ Finset.range k, μ.real {ω | ∃ x, (L 0 ω)[j]? = some (some x) ∧ x ≤ a} := fun a => by
    have ms : ∀ j : ℕ, MeasurableSet {ω | ∃ x, (L 0 ω)[j]? = some (some x) ∧ x ≤ a} := fun j : ℕ =>
      h.meas 0 {l | ∃ x, l[j]? = some (some x) ∧ x ≤ a}
    have e : (fun ω => (atMost a (L 0 ω) : ℝ)) =
        fun ω => ∑ j ∈ Finset.range k, {ω | ∃ x, (L 0 ω)[j]? = some (some x) ∧ x ≤ a}.indicator (fun _ => (1 : ℝ)) ω := by
      funext ω
      rw [atMost_sum, hL ω]
      push_cast
      refine Finset.sum_congr rfl fun j _ => ?_
      by_cases hω : ∃ x, (L 0 ω)[j]? = some (some x) ∧ x ≤ a
      · rw [if_pos hω, Set.indicator_of_mem (show ω ∈ {ω | ∃ x, (L 0 ω)[j]? = some (some x) ∧ x ≤ a} from hω)]
      · rw [if_neg hω, Set.indicator_of_notMem (show ω ∉ {ω | ∃ x, (L 0 ω)[j]? = some (some x) ∧ x ≤ a} from hω)]
    rw [e, integral_finsetSum _ fun j _ => (integrable_const (1 : ℝ)).indicator (ms j)]
    refine Finset.sum_congr rfl fun j _ => ?_
    rw [integral_indicator_const _ (ms j), smul_eq_mul, mul_one]
  have := C134_limit h h0 h1 (q := q) (by rw [hH]; exact kR) (fun a ha => ?_) (fun a ha => ?_)
  · filter_upwards [this] with ω hω using hω.1
  · rw [hA, hH, ← div_lt_iff₀ kR]; exact hl a ha
  · rw [hA, hH, ← lt_div_iff₀ kR]; exact hh a ha

/-- A coin decides whether a member gives 1 and 3 or 2 and 3: the percentile 0.4 tends to 2, since a quarter of the samples is at most 1 and half of them at most 2. -/
example : ∀ᵐ ω ∂(Measure.infinitePi fun _ : ℕ => coin),
    Tendsto (fun n => ((quantileCol (4 / 10) (poolOf (fun i => if ω i then [some 1, some 3] else [some 2, some 3]) n)).getD 0 : ℝ)) atTop
      (𝓝 (2 : ℝ)) := by
  have M := members_of_law coin (cap := 2) (fun b => if b then [some 1, some 3] else [some 2, some 3]) (fun b => by cases b <;> simp)
  have hH : ∫ ω : ℕ → Bool, (howMany (if ω 0 then [some 1, some 3] else [some 2, some 3]) : ℝ) ∂(Measure.infinitePi fun _ : ℕ => coin) = 2 := by
    rw [members_integral coin (fun b => (howMany (if b then [some 1, some 3] else [some 2, some 3]) : ℝ)), coin_integral]
    norm_num [howMany]
  have hA : ∀ a : ℚ, ∫ ω : ℕ → Bool, (atMost a (if ω 0 then [some 1, some 3] else [some 2, some 3]) : ℝ) ∂(Measure.infinitePi fun _ : ℕ => coin) =
      ((if 1 ≤ a then 1 else 0) + (if 2 ≤ a then 1 else 0)) / 2 + (if 3 ≤ a then 1 else 0) := fun a => by
    rw [members_integral coin (fun b => (atMost a (if b then [some 1, some 3] else [some 2, some 3]) : ℝ)), coin_integral]
    simp only [atMost, if_true, List.countP_cons, List.countP_nil, Option.any_some, decide_eq_true_eq, Bool.false_eq_true, if_false]
    push_cast
    split_ifs <;> norm_num
  have := C134_limit M (p := 4 / 10) (by norm_num) (by norm_num) (q := 2) (by rw [hH]; norm_num) (fun a ha => ?_) (fun a ha => ?_)
  · filter_upwards [this] with ω hω using hω.1
  · have h2 : ¬ (2 : ℚ) ≤ a := not_le.2 (by exact_mod_cast ha)
    have h3 : ¬ (3 : ℚ) ≤ a := fun h => h2 (le_trans (by norm_num) h)
    rw [hA, hH, if_neg h2, if_neg h3]
    split_ifs <;> norm_num
  · have h2 : (2 : ℚ) < a := by exact_mod_cast ha
    rw [hA, hH, if_pos h2.le, if_pos (le_trans (by norm_num) h2.le)]
    split_ifs <;> norm_num

end Ompy
