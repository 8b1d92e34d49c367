import Verif.DecompositionProps
import Verif.Extractor
import Verif.EnsLimitProps
import Mathlib.Probability.Kernel.Composition.MeasureCompProd
import Mathlib.Probability.Kernel.Composition.IntegralCompProd

/-!
# The chi-square to expect

C132: averages of the chi-square of `Decomposition.lean` over data with noise, for the members of an ensemble, and what
the uncertainties of normalised rows mean.
-/

namespace Ompy

open MeasureTheory ProbabilityTheory Filter Topology

/-! ## What is meant -/

/-- Bins that enter the chi-square: below the diagonal and with an uncertainty. -/
def Counted (std : List (List ℝ)) (res Eg Ex : List ℚ) (i j : ℕ) : Prop :=
  Eg.getD j 0 ≤ Ex.getD i 0 + res.getD i 0 ∧ binOf std i j ≠ 0

/-- Their number. -/
noncomputable def countedBins (std : List (List ℝ)) (res Eg Ex : List ℚ) : ℕ :=
  open Classical in ((Finset.range Ex.length ×ˢ Finset.range Eg.length).filter fun p => Counted std res Eg Ex p.1 p.2).card

/-- Data with averages `t` and variances `w`. -/
structure Noisy {Ω : Type*} [MeasurableSpace Ω] (μ : Measure Ω) (F : Ω → List (List ℝ)) (t w : ℕ → ℕ → ℝ) : Prop where
  sq : ∀ i j, MemLp (fun ω => binOf (F ω) i j) 2 μ
  mean : ∀ i j, ∫ ω, binOf (F ω) i j ∂μ = t i j
  var : ∀ i j, Var[fun ω => binOf (F ω) i j; μ] = w i j

lemma diag_counted (fact fit std : List (List ℝ)) (res Eg Ex : List ℚ) (hs : Eg.Pairwise (· < ·)) :
    chisquareDiagonal fact fit std res Eg Ex = open Classical in ∑ i ∈ Finset.range Ex.length, ∑ j ∈ Finset.range Eg.length,
      if Counted std res Eg Ex i j then ((binOf fact i j - binOf fit i j) / binOf std i j) ^ 2 else 0 := by
  classical
  rw [C35_diagonal_sum _ _ _ _ _ _ hs]
  refine Finset.sum_congr rfl fun i _ => Finset.sum_congr rfl fun j _ => ?_
  by_cases hc : Counted std res Eg Ex i j
  · rw [if_pos (show _ ∧ _ from hc), if_pos hc]
  · rw [if_neg (show ¬ (_ ∧ _) from hc), if_neg hc]

section
variable {Ω : Type*} [MeasurableSpace Ω] {μ : Measure Ω} [IsProbabilityMeasure μ]

lemma mean_square {X : Ω → ℝ} (h : MemLp X 2 μ) (c : ℝ) :
    Integrable (fun ω => (X ω - c) ^ 2) μ ∧ ∫ ω, (X ω - c) ^ 2 ∂μ = Var[X; μ] + ((∫ ω, X ω ∂μ) - c) ^ 2 := by
  have I := h.integrable one_le_two
  refine ⟨(h.sub (memLp_const c)).integrable_sq, ?_⟩
  have q : ∀ ω, (X ω - c) ^ 2 = X ω ^ 2 - 2 * c * X ω + c ^ 2 := fun ω => by ring
  have v1 : Var[X; μ] = (∫ ω, X ω ^ 2 ∂μ) - (∫ ω, X ω ∂μ) ^ 2 := variance_eq_sub h
  simp only [q]
  have a1 := integral_add (h.integrable_sq.sub (I.const_mul (2 * c))) (integrable_const (μ := μ) (c ^ 2))
  simp only [Pi.sub_apply] at a1
  rw [a1, integral_sub h.integrable_sq (I.const_mul _), integral_const_mul, v1]
  simp
  ring

/-- **C132.** The average chi-square of a fit is the sum over the counted bins of the variance of the data and the squared
distance of the fit from the average data, both in units of the uncertainty squared. -/
theorem C132_expected {F : Ω → List (List ℝ)} {t w : ℕ → ℕ → ℝ} (h : Noisy μ F t w) (fit std : List (List ℝ)) (res Eg Ex : List ℚ)
    (hs : Eg.Pairwise (· < ·)) : Integrable (fun ω => chisquareDiagonal (F ω) fit std res Eg Ex) μ ∧
    ∫ ω, chisquareDiagonal (F ω) fit std res Eg Ex ∂μ =
      open Classical in ∑ i ∈ Finset.range Ex.length, ∑ j ∈ Finset.range Eg.length,
        if Counted std res Eg Ex i j then (w i j + (t i j - binOf fit i j) ^ 2) / binOf std i j ^ 2 else 0 := by
  classical
  have e : ∀ ω, chisquareDiagonal (F ω) fit std res Eg Ex = ∑ i ∈ Finset.range Ex.length, ∑ j ∈ Finset.range Eg.length,
      if Counted std res Eg Ex i j then (binOf (F ω) i j - binOf fit i j) ^ 2 * (1 / binOf std i j ^ 2) else 0 := by
    intro ω
    rw [diag_counted _ _ _ _ _ _ hs]
    refine Finset.sum_congr rfl fun i _ => Finset.sum_congr rfl fun j _ => ?_
    by_cases hc : Counted std res Eg Ex i j
    · rw [if_pos hc, if_pos hc, div_pow]
      ring
    · rw [if_neg hc, if_neg hc]
  have I : ∀ i j, Integrable (fun ω => if Counted std res Eg Ex i j then
      (binOf (F ω) i j - binOf fit i j) ^ 2 * (1 / binOf std i j ^ 2) else 0) μ := by
    intro i j
    split_ifs
    · exact (mean_square (h.sq i j) _).1.mul_const _
    · exact integrable_const 0
  simp only [e]
  refine ⟨integrable_finsetSum _ fun i _ => integrable_finsetSum _ fun j _ => I i j, ?_⟩
  rw [integral_finsetSum _ fun i _ => integrable_finsetSum _ fun j _ => I i j]
  refine Finset.sum_congr rfl fun i _ => ?_
  rw [integral_finsetSum _ fun j _ => I i j]
  refine Finset.sum_congr rfl fun j _ => ?_
  split_ifs
  · rw [integral_mul_const, (mean_square (h.sq i j) _).2, h.mean, h.var]
    ring
  · simp

lemma counted_sum (std : List (List ℝ)) (res Eg Ex : List ℚ) : (countedBins std res Eg Ex : ℝ) =
    open Classical in ∑ i ∈ Finset.range Ex.length, ∑ j ∈ Finset.range Eg.length, if Counted std res Eg Ex i j then (1 : ℝ) else 0 := by
  classical
  unfold countedBins
  rw [← Finset.sum_product', Finset.card_filter]
  push_cast
  refine Finset.sum_congr rfl fun p _ => ?_
  split_ifs <;> rfl

/-- **C132.** If the uncertainties are right, the average chi-square of the truth is the number of counted bins; every
other fit has a larger one, by its squared distance from the truth. -/
theorem C132_truth {F : Ω → List (List ℝ)} {t : ℕ → ℕ → ℝ} (std truth : List (List ℝ)) (res Eg Ex : List ℚ)
    (h : Noisy μ F t fun i j => binOf std i j ^ 2) (ht : ∀ i j, binOf truth i j = t i j) (hs : Eg.Pairwise (· < ·)) :
    ∫ ω, chisquareDiagonal (F ω) truth std res Eg Ex ∂μ = countedBins std res Eg Ex ∧
    ∀ fit, ∫ ω, chisquareDiagonal (F ω) fit std res Eg Ex ∂μ =
      countedBins std res Eg Ex + chisquareDiagonal truth fit std res Eg Ex ∧
      (∫ ω, chisquareDiagonal (F ω) fit std res Eg Ex ∂μ ≤ ∫ ω, chisquareDiagonal (F ω) truth std res Eg Ex ∂μ ↔
        ∀ i < Ex.length, ∀ j < Eg.length, Counted std res Eg Ex i j → binOf fit i j = t i j) := by
  classical
  have all : ∀ fit, ∫ ω, chisquareDiagonal (F ω) fit std res Eg Ex ∂μ =
      countedBins std res Eg Ex + chisquareDiagonal truth fit std res Eg Ex := by
    intro fit
    rw [(C132_expected h fit std res Eg Ex hs).2, counted_sum, diag_counted _ _ _ _ _ _ hs, ← Finset.sum_add_distrib]
    refine Finset.sum_congr rfl fun i _ => ?_
    rw [← Finset.sum_add_distrib]
    refine Finset.sum_congr rfl fun j _ => ?_
    by_cases hc : Counted std res Eg Ex i j
    · rw [if_pos hc, if_pos hc, if_pos hc, ht, div_pow, add_div, div_self (pow_ne_zero 2 hc.2)]
    · rw [if_neg hc, if_neg hc, if_neg hc, add_zero]
  have at0 : ∫ ω, chisquareDiagonal (F ω) truth std res Eg Ex ∂μ = countedBins std res Eg Ex := by
    rw [all truth, (C35_nonneg_zero truth truth std res Eg Ex 0 0 hs).2.2.2.2 (fun _ _ _ _ _ _ => rfl), add_zero]
  refine ⟨at0, fun fit => ⟨all fit, ?_⟩⟩
  obtain ⟨-, p, -, z⟩ := C35_nonneg_zero truth fit std res Eg Ex 0 0 hs
  rw [all fit, at0]
  constructor
  · intro h i hi j hj hc
    rw [← ht]
    exact (z.1 (le_antisymm (by linarith) p) i hi j hj hc.1 hc.2).symm
  · intro h
    have := z.2 fun i hi j hj a b => (ht i j).trans (h i hi j hj ⟨a, b⟩).symm
    linarith

end

/-! ## Members -/

lemma ensSd_pulls (l : List ℝ) (h : ensSd l ≠ 0) : (l.map fun x : ℝ => ((x - meanOf l) / ensSd l) ^ 2).sum = (l.length : ℝ) := by
  have hl : (l.length : ℝ) ≠ 0 := by
    intro h0
    apply h
    unfold ensSd meanOf
    simp [h0]
  have s2 : ensSd l ^ 2 = (l.map fun x => (x - meanOf l) ^ 2).sum / l.length := by
    have e : ensSd l = Real.sqrt ((l.map fun x => (x - meanOf l) ^ 2).sum / l.length) := by
      unfold ensSd
      show Real.sqrt ((l.map fun x => (x - meanOf l) ^ 2).sum / ((l.map fun x => (x - meanOf l) ^ 2).length : ℕ)) = _
      rw [List.length_map]
    rw [e, Real.sq_sqrt]
    refine div_nonneg (List.sum_nonneg fun y hy => ?_) (Nat.cast_nonneg _)
    obtain ⟨x, _, rfl⟩ := List.mem_map.1 hy
    exact sq_nonneg _
  have m : ∀ t : List ℝ, (t.map fun x => ((x - meanOf l) / ensSd l) ^ 2).sum = (t.map fun x => (x - meanOf l) ^ 2).sum / ensSd l ^ 2 := by
    intro t
    induction t with
    | nil => simp
    | cons a as ih => rw [List.map_cons, List.sum_cons, ih, List.map_cons, List.sum_cons, div_pow, add_div]
  rw [m, s2]
  have : (l.map fun x => (x - meanOf l) ^ 2).sum ≠ 0 := by
    intro h0
    rw [h0, zero_div] at s2
    exact h (by simpa using s2)
  field_simp

/-- **C132.** The average over the members of their chi-square with the average matrix and the reported standard deviations
is exactly the number of counted bins, for any members whatsoever. -/
theorem C132_members (members : List (List (List ℝ))) (hm : members ≠ []) (mean std : List (List ℝ)) (res Eg Ex : List ℚ)
    (hs : Eg.Pairwise (· < ·)) (h1 : ∀ i j, binOf mean i j = meanOf (members.map fun M => binOf M i j))
    (h2 : ∀ i j, binOf std i j = ensSd (members.map fun M => binOf M i j)) :
    meanOf (members.map fun M => chisquareDiagonal M mean std res Eg Ex) = countedBins std res Eg Ex := by
  classical
  have key : (members.map fun M => chisquareDiagonal M mean std res Eg Ex).sum =
      ∑ i ∈ Finset.range Ex.length, ∑ j ∈ Finset.range Eg.length, (members.map fun M =>
        if Counted std res Eg Ex i j then ((binOf M i j - binOf mean i j) / binOf std i j) ^ 2 else 0).sum := by
    have gen : ∀ l : List (List (List ℝ)), (l.map fun M => chisquareDiagonal M mean std res Eg Ex).sum =
        ∑ i ∈ Finset.range Ex.length, ∑ j ∈ Finset.range Eg.length, (l.map fun M =>
          if Counted std res Eg Ex i j then ((binOf M i j - binOf mean i j) / binOf std i j) ^ 2 else 0).sum := by
      intro l
      induction l with
      | nil => simp
      | cons a as ih =>
        simp only [List.map_cons, List.sum_cons, ih, Finset.sum_add_distrib]
        congr 1
        rw [diag_counted _ _ _ _ _ _ hs]
    exact gen members
  have hl : (members.length : ℝ) ≠ 0 := by
    have := List.length_pos_iff.2 hm
    positivity
  unfold meanOf
  rw [List.length_map, key, counted_sum, div_eq_iff hl, Finset.sum_mul]
  refine Finset.sum_congr rfl fun i _ => ?_
  rw [Finset.sum_mul]
  refine Finset.sum_congr rfl fun j _ => ?_
  by_cases hc : Counted std res Eg Ex i j
  · simp only [if_pos hc]
    rw [one_mul]
    have := ensSd_pulls (members.map fun M => binOf M i j) (by rw [← h2]; exact hc.2)
    rw [List.map_map, List.length_map] at this
    rw [← this, h1, h2]
    rfl
  · simp only [if_neg hc]
    simp

/-! ## Counts drawn twice -/

/-- A measured spectrum is one draw; a member is a draw about the measured one. -/
noncomputable def drawAbout : Kernel ℕ ℕ := ⟨fun n => countLaw n, measurable_of_countable _⟩

instance : IsMarkovKernel drawAbout := ⟨fun n => by
  show IsProbabilityMeasure (countLaw n)
  infer_instance⟩

/-- Measured counts and counts of a member, for a true value `v`. -/
noncomputable abbrev twice (v : ℝ) : Measure (ℕ × ℕ) := countLaw v ⊗ₘ drawAbout

lemma twice_moments {v : ℝ} (hv : 0 ≤ v) :
    MemLp (fun p : ℕ × ℕ => (p.1 : ℝ)) 2 (twice v) ∧ ∫ p, (p.1 : ℝ) ∂(twice v) = v ∧ Var[fun p : ℕ × ℕ => (p.1 : ℝ); twice v] = v ∧
    MemLp (fun p : ℕ × ℕ => (p.2 : ℝ)) 2 (twice v) ∧ ∫ p, (p.2 : ℝ) ∂(twice v) = v ∧
      Var[fun p : ℕ × ℕ => (p.2 : ℝ); twice v] = 2 * v := by
  obtain ⟨m, e, w⟩ := countLaw_moments hv
  have l1 : HasLaw (Prod.fst : ℕ × ℕ → ℕ) (countLaw v) (twice v) := ⟨by fun_prop, by
    show (twice v).fst = _
    simp [twice]⟩
  have i1 : IdentDistrib (fun n : ℕ × ℕ => (n.1 : ℝ)) (fun n : ℕ => (n : ℝ)) (twice v) (countLaw v) :=
    (l1.identDistrib (HasLaw.id (μ := countLaw v))).comp (u := fun n : ℕ => (n : ℝ)) (measurable_of_countable _)
  have I : Integrable (fun n : ℕ => (n : ℝ)) (countLaw v) := m.integrable one_le_two
  have second : ∀ n : ℕ, ∫ k : ℕ, (k : ℝ) ^ 2 ∂(drawAbout n) = n + n ^ 2 := by
    intro n
    obtain ⟨m', e', w'⟩ := countLaw_moments (v := n) (Nat.cast_nonneg n)
    have q := variance_eq_sub m'
    rw [w', e'] at q
    have q2 : ∫ k : ℕ, (k : ℝ) ^ 2 ∂(countLaw n) = n + n ^ 2 := by
      have : (∫ k : ℕ, ((fun k : ℕ => (k : ℝ)) ^ 2) k ∂(countLaw n)) = n + n ^ 2 := by linarith
      exact this
    exact q2
  have sqI : Integrable (fun p : ℕ × ℕ => (p.2 : ℝ) ^ 2) (twice v) := by
    rw [Measure.integrable_compProd_iff (measurable_of_countable _).aestronglyMeasurable]
    refine ⟨Eventually.of_forall fun n => (countLaw_moments (v := n) (Nat.cast_nonneg n)).1.integrable_sq, ?_⟩
    have : (fun n : ℕ => ∫ k : ℕ, ‖(k : ℝ) ^ 2‖ ∂(drawAbout n)) = fun n : ℕ => (n : ℝ) + (n : ℝ) ^ 2 := by
      funext n
      rw [← second n]
      refine integral_congr_ae (Eventually.of_forall fun k => ?_)
      show ‖(k : ℝ) ^ 2‖ = _
      rw [Real.norm_eq_abs, abs_of_nonneg (sq_nonneg _)]
    rw [this]
    exact I.add m.integrable_sq
  have m2 : MemLp (fun p : ℕ × ℕ => (p.2 : ℝ)) 2 (twice v) :=
    (memLp_two_iff_integrable_sq (measurable_of_countable _).aestronglyMeasurable).2 sqI
  have e2 : ∫ p, (p.2 : ℝ) ∂(twice v) = v := by
    rw [Measure.integral_compProd (m2.integrable one_le_two)]
    refine Eq.trans ?_ e
    refine integral_congr_ae (Eventually.of_forall fun n => ?_)
    exact (countLaw_moments (v := n) (Nat.cast_nonneg n)).2.1
  have s2 : ∫ p, (p.2 : ℝ) ^ 2 ∂(twice v) = v + (v + v ^ 2) := by
    rw [Measure.integral_compProd sqI]
    simp only [second]
    have q := variance_eq_sub m
    rw [w, e] at q
    have q2 : ∫ k : ℕ, (k : ℝ) ^ 2 ∂(countLaw v) = v + v ^ 2 := by
      have : (∫ k : ℕ, ((fun k : ℕ => (k : ℝ)) ^ 2) k ∂(countLaw v)) = v + v ^ 2 := by linarith
      exact this
    have a := integral_add I m.integrable_sq
    rw [a, e, q2]
  refine ⟨i1.symm.memLp_snd m, i1.integral_eq.trans e, i1.variance_eq.trans w, m2, e2, ?_⟩
  have q := variance_eq_sub m2
  rw [e2] at q
  rw [q]
  have : (∫ p, ((fun p : ℕ × ℕ => (p.2 : ℝ)) ^ 2) p ∂(twice v)) = v + (v + v ^ 2) := s2
  rw [this]
  ring

/-- A matrix of given size. -/
def rowsOf (n m : ℕ) (f : ℕ → ℕ → ℝ) : List (List ℝ) := (List.range n).map fun i => (List.range m).map fun j => f i j

lemma binOf_rowsOf (n m : ℕ) (f : ℕ → ℕ → ℝ) (i j : ℕ) : binOf (rowsOf n m f) i j = if i < n ∧ j < m then f i j else 0 := by
  unfold binOf rowsOf
  by_cases hi : i < n
  · by_cases hj : j < m
    · simp [hi, hj]
    · simp [hi, hj]
  · simp [hi]

section
variable {Ω : Type*} [MeasurableSpace Ω] {μ : Measure Ω} [IsProbabilityMeasure μ]

lemma noisy_counts {t : ℕ → ℕ → ℝ} (ht : ∀ i j, 0 ≤ t i j) (n m : ℕ) {N : Ω → ℕ → ℕ → ℕ × ℕ}
    (law : ∀ i j, HasLaw (fun ω => N ω i j) (twice (t i j)) μ) (f : ℕ × ℕ → ℝ) (c : ℝ)
    (hf : ∀ i j, MemLp f 2 (twice (t i j)) ∧ ∫ p, f p ∂(twice (t i j)) = t i j ∧ Var[f; twice (t i j)] = c * t i j) :
    Noisy μ (fun ω => rowsOf n m fun i j => f (N ω i j)) (fun i j => if i < n ∧ j < m then t i j else 0)
      (fun i j => c * binOf (rowsOf n m fun i j => Real.sqrt (t i j)) i j ^ 2) := by
  have idd : ∀ (f : ℕ × ℕ → ℝ) i j, IdentDistrib (fun ω => f (N ω i j)) f μ (twice (t i j)) := fun f i j =>
    ((law i j).identDistrib (HasLaw.id (μ := twice (t i j)))).comp (u := f) (measurable_of_countable _)
  have sq : ∀ i j, binOf (rowsOf n m fun i j => Real.sqrt (t i j)) i j ^ 2 = if i < n ∧ j < m then t i j else 0 := by
    intro i j
    rw [binOf_rowsOf]
    split_ifs
    · exact Real.sq_sqrt (ht i j)
    · norm_num
  refine ⟨fun i j => ?_, fun i j => ?_, fun i j => ?_⟩ <;> simp only [binOf_rowsOf n m fun i j => f _, sq] <;> split_ifs
  · exact (idd f i j).symm.memLp_snd (hf i j).1
  · exact memLp_const 0
  · exact (idd f i j).integral_eq.trans (hf i j).2.1
  · simp
  · exact (idd f i j).variance_eq.trans (hf i j).2.2
  · have z : Var[fun _ : Ω => (0 : ℝ); μ] = 0 := variance_zero μ
    rw [z, mul_zero]

/-- **C132.** With the uncertainties of counting statistics the average chi-square of the truth is the number of counted
bins for the measured spectrum and twice that number for a member drawn about the measured spectrum. -/
theorem C132_counting {t : ℕ → ℕ → ℝ} (ht : ∀ i j, 0 ≤ t i j) (n m : ℕ) {N : Ω → ℕ → ℕ → ℕ × ℕ}
    (law : ∀ i j, HasLaw (fun ω => N ω i j) (twice (t i j)) μ) (res Eg Ex : List ℚ) (hs : Eg.Pairwise (· < ·)) :
    let σ := rowsOf n m fun i j => Real.sqrt (t i j)
    ∫ ω, chisquareDiagonal (rowsOf n m fun i j => ((N ω i j).1 : ℝ)) (rowsOf n m t) σ res Eg Ex ∂μ = countedBins σ res Eg Ex ∧
    ∫ ω, chisquareDiagonal (rowsOf n m fun i j => ((N ω i j).2 : ℝ)) (rowsOf n m t) σ res Eg Ex ∂μ = 2 * countedBins σ res Eg Ex := by
  classical
  intro σ
  have idd : ∀ (f : ℕ × ℕ → ℝ) i j, IdentDistrib (fun ω => f (N ω i j)) f μ (twice (t i j)) := fun f i j =>
    ((law i j).identDistrib (HasLaw.id (μ := twice (t i j)))).comp (u := f) (measurable_of_countable _)
  have sq : ∀ i j, binOf σ i j ^ 2 = if i < n ∧ j < m then t i j else 0 := by
    intro i j
    rw [binOf_rowsOf]
    split_ifs
    · exact Real.sq_sqrt (ht i j)
    · norm_num
  have noisy := noisy_counts ht n m law
  have fin : ∀ (f : ℕ × ℕ → ℝ) (c : ℝ), (∀ i j, MemLp f 2 (twice (t i j)) ∧ ∫ p, f p ∂(twice (t i j)) = t i j ∧
      Var[f; twice (t i j)] = c * t i j) →
      ∫ ω, chisquareDiagonal (rowsOf n m fun i j => f (N ω i j)) (rowsOf n m t) σ res Eg Ex ∂μ = c * countedBins σ res Eg Ex := by
    intro f c hf
    rw [(C132_expected (noisy f c hf) (rowsOf n m t) σ res Eg Ex hs).2, counted_sum, Finset.mul_sum]
    refine Finset.sum_congr rfl fun i _ => ?_
    rw [Finset.mul_sum]
    refine Finset.sum_congr rfl fun j _ => ?_
    by_cases hc : Counted σ res Eg Ex i j
    · rw [if_pos hc, if_pos hc, binOf_rowsOf n m t, sub_self]
      rw [zero_pow two_ne_zero, add_zero, mul_div_assoc, div_self (pow_ne_zero 2 hc.2)]
    · rw [if_neg hc, if_neg hc, mul_zero]
  constructor
  · have := fin (fun p => (p.1 : ℝ)) 1 fun i j => by
      obtain ⟨a, b, c, -⟩ := twice_moments (ht i j)
      exact ⟨a, b, by rw [c, one_mul]⟩
    rw [one_mul] at this
    exact this
  · exact fin (fun p => (p.2 : ℝ)) 2 fun i j => by
      obtain ⟨-, -, -, a, b, c⟩ := twice_moments (ht i j)
      exact ⟨a, b, c⟩

/-! ## Uncertainties of normalised rows -/

/-- **C132.** The variances attached to a normalised row are those of the normalised row to first order: moving the row in
a direction changes the normalised bin with the slope `(d j - x j * sum of d / total) / total`, and for bins that
fluctuate without correlation with the given standard deviations this first-order change has average zero and the variance
that `normUncRow` gives. -/
theorem C132_propagation (row std : List ℝ) (hl : std.length = row.length) (hT : row.sum ≠ 0) {X : ℕ → Ω → ℝ}
    (L : ∀ k < row.length, MemLp (X k) 2 μ) (E : ∀ k < row.length, ∫ ω, X k ω ∂μ = row.getD k 0)
    (V : ∀ k < row.length, Var[X k; μ] = std.getD k 0 ^ 2)
    (C : ∀ k < row.length, ∀ l < row.length, k ≠ l → cov[X k, X l; μ] = 0) :
    ∃ v var, normUncRow row std = .ok (v, var) ∧ v.length = row.length ∧ var.length = row.length ∧ ∀ j < row.length,
      v.getD j 0 = row.getD j 0 / row.sum ∧
      ∃ slope : (ℕ → ℝ) → ℝ,
        (∀ d : ℕ → ℝ, HasDerivAt (fun ε : ℝ => (row.getD j 0 + ε * d j) /
          ∑ k ∈ Finset.range row.length, (row.getD k 0 + ε * d k)) (slope d) 0) ∧
        ∫ ω, slope (fun k => X k ω - row.getD k 0) ∂μ = 0 ∧
        Var[fun ω => slope (fun k => X k ω - row.getD k 0); μ] = var.getD j 0 := by
  have S : ∀ l : List ℝ, l.sum = ∑ k ∈ Finset.range l.length, l.getD k 0 := by
    intro l
    induction l with
    | nil => simp
    | cons a as ih => rw [List.sum_cons, ih, List.length_cons, Finset.sum_range_succ']; simp [add_comm]
  set T := row.sum with hTd
  set n := row.length with hn
  refine ⟨row.map (· / T), List.zipWith (fun x s => (1 / T - x / T ^ 2) ^ 2 * s ^ 2
      + (x / T ^ 2) ^ 2 * ((std.map fun s => s ^ 2).sum - s ^ 2)) row std, ?_, by simp [hn], by simp [hl, hn], ?_⟩
  · unfold normUncRow
    simp only
    rw [if_neg (fun h => hT h.1), if_neg (fun h => hT h.1)]
  intro j hj
  have gj : row[j]'hj = row.getD j 0 := (List.getD_eq_getElem _ _ hj).symm
  refine ⟨by rw [List.getD_eq_getElem _ _ (by simpa using hj)]; simp [gj],
    fun d => ∑ k ∈ Finset.range n, ((if k = j then 1 / T else 0) - row.getD j 0 / T ^ 2) * d k, ?_, ?_, ?_⟩
  · intro d
    have d1 : HasDerivAt (fun ε : ℝ => row.getD j 0 + ε * d j) (d j) 0 := by
      simpa using ((hasDerivAt_id (0 : ℝ)).mul_const (d j)).const_add (row.getD j 0)
    have d2 : HasDerivAt (fun ε : ℝ => ∑ k ∈ Finset.range n, (row.getD k 0 + ε * d k)) (∑ k ∈ Finset.range n, d k) 0 := by
      refine HasDerivAt.fun_sum fun k _ => ?_
      simpa using ((hasDerivAt_id (0 : ℝ)).mul_const (d k)).const_add (row.getD k 0)
    have z : ∑ k ∈ Finset.range n, (row.getD k 0 + 0 * d k) = T := by
      rw [hTd, S]
      simp [hn]
    have := d1.fun_div d2 (by rw [z]; exact hT)
    rw [z] at this
    refine this.congr_deriv ?_
    simp only [sub_mul, Finset.sum_sub_distrib, ite_mul, zero_mul, Finset.sum_ite_eq', Finset.mem_range, hj, if_true, ← Finset.mul_sum]
    field_simp
    ring
  · have I : ∀ k ∈ Finset.range n, Integrable (fun ω => ((if k = j then 1 / T else 0) - row.getD j 0 / T ^ 2) * (X k ω - row.getD k 0)) μ :=
      fun k hk => ((((L k (Finset.mem_range.1 hk)).integrable one_le_two).sub (integrable_const _))).const_mul _
    rw [integral_finsetSum _ I]
    refine Finset.sum_eq_zero fun k hk => ?_
    rw [integral_const_mul, integral_sub ((L k (Finset.mem_range.1 hk)).integrable one_le_two) (integrable_const _), E k (Finset.mem_range.1 hk)]
    simp
  · have LL : ∀ k ∈ Finset.range n, MemLp (fun ω => ((if k = j then 1 / T else 0) - row.getD j 0 / T ^ 2) * (X k ω - row.getD k 0)) 2 μ :=
      fun k hk => ((L k (Finset.mem_range.1 hk)).sub (memLp_const _)).const_mul _
    have me : AEMeasurable (fun ω => ∑ k ∈ Finset.range n, ((if k = j then 1 / T else 0) - row.getD j 0 / T ^ 2) * (X k ω - row.getD k 0)) μ :=
      (memLp_finsetSum _ LL).aestronglyMeasurable.aemeasurable
    have gs : std[j]'(by omega) = std.getD j 0 := (List.getD_eq_getElem _ _ (by omega)).symm
    rw [← covariance_self me, covariance_fun_sum_fun_sum' LL LL]
    conv_rhs => rw [List.getD_eq_getElem _ _ (by rw [List.length_zipWith]; omega), List.getElem_zipWith]
    rw [gj, gs, S (std.map fun s => s ^ 2), List.length_map, hl]
    have one : ∀ k ∈ Finset.range n, ∑ l ∈ Finset.range n, cov[fun ω => ((if k = j then 1 / T else 0) - row.getD j 0 / T ^ 2) * (X k ω - row.getD k 0),
        fun ω => ((if l = j then 1 / T else 0) - row.getD j 0 / T ^ 2) * (X l ω - row.getD l 0); μ] =
        ((if k = j then 1 / T else 0) - row.getD j 0 / T ^ 2) ^ 2 * std.getD k 0 ^ 2 := by
      intro k hk
      have hk' := Finset.mem_range.1 hk
      rw [Finset.sum_eq_single_of_mem k hk]
      · rw [covariance_const_mul_left, covariance_const_mul_right, covariance_sub_const_left ((L k hk').integrable one_le_two),
          covariance_sub_const_right ((L k hk').integrable one_le_two), covariance_self (L k hk').aestronglyMeasurable.aemeasurable, V k hk']
        ring
      · intro l hl' hne
        have hl'' := Finset.mem_range.1 hl'
        rw [covariance_const_mul_left, covariance_const_mul_right, covariance_sub_const_left ((L k hk').integrable one_le_two),
          covariance_sub_const_right ((L l hl'').integrable one_le_two), C k hk' l hl'' hne.symm]
        ring
    rw [Finset.sum_congr rfl one]
    have ms : ∀ k ∈ Finset.range n, (std.map fun s => s ^ 2).getD k 0 = std.getD k 0 ^ 2 := by
      intro k hk
      have hk' : k < std.length := by rw [hl]; exact Finset.mem_range.1 hk
      rw [List.getD_eq_getElem _ _ (by simpa using hk'), List.getD_eq_getElem _ _ hk', List.getElem_map]
    rw [Finset.sum_congr rfl ms, ← Finset.add_sum_erase _ _ (Finset.mem_range.2 hj), ← Finset.add_sum_erase _ (fun k => std.getD k 0 ^ 2) (Finset.mem_range.2 hj),
      if_pos rfl, add_sub_cancel_left, Finset.mul_sum]
    congr 1
    refine Finset.sum_congr rfl fun k hk => ?_
    rw [if_neg (Finset.ne_of_mem_erase hk)]
    ring

end

/-! ## Examples -/

/-- True values 9, 4 and 1. -/
noncomputable def trueCounts (i j : ℕ) : ℝ := if i = 0 then 9 else if j = 0 then 4 else 1

/-- All bins of two rows with three columns, drawn twice. -/
noncomputable def drawnTwice : Measure (ℕ × ℕ → ℕ × ℕ) := Measure.infinitePi fun p : ℕ × ℕ => twice (trueCounts p.1 p.2)

instance : IsProbabilityMeasure drawnTwice := by
  unfold drawnTwice
  infer_instance

lemma drawnTwice_law (i j : ℕ) : HasLaw (fun d : ℕ × ℕ → ℕ × ℕ => d (i, j)) (twice (trueCounts i j)) drawnTwice :=
  ⟨(measurable_pi_apply (i, j)).aemeasurable, Measure.infinitePi_map_eval (fun p : ℕ × ℕ => twice (trueCounts p.1 p.2)) (i, j)⟩

lemma trueCounts_pos (i j : ℕ) : 0 < trueCounts i j := by
  unfold trueCounts
  split_ifs <;> norm_num

/-- Two rows at 1 and 2, three columns at 1, 2 and 3, no resolution: one bin of the first row and two of the second one
are counted, and the averages are 3 and 6. -/
example : ∫ d, chisquareDiagonal (rowsOf 2 3 fun i j => ((d (i, j)).1 : ℝ)) (rowsOf 2 3 trueCounts)
      (rowsOf 2 3 fun i j => Real.sqrt (trueCounts i j)) [0, 0] [1, 2, 3] [1, 2] ∂drawnTwice = 3 ∧
    ∫ d, chisquareDiagonal (rowsOf 2 3 fun i j => ((d (i, j)).2 : ℝ)) (rowsOf 2 3 trueCounts)
      (rowsOf 2 3 fun i j => Real.sqrt (trueCounts i j)) [0, 0] [1, 2, 3] [1, 2] ∂drawnTwice = 6 := by
  have hs : ([1, 2, 3] : List ℚ).Pairwise (· < ·) := by norm_num
  have := C132_counting (μ := drawnTwice) (t := trueCounts) (fun i j => (trueCounts_pos i j).le) 2 3
    (N := fun d i j => d (i, j)) drawnTwice_law [0, 0] [1, 2, 3] [1, 2] hs
  have c : countedBins (rowsOf 2 3 fun i j => Real.sqrt (trueCounts i j)) [0, 0] [1, 2, 3] [1, 2] = 3 := by
    classical
    have e := counted_sum (rowsOf 2 3 fun i j => Real.sqrt (trueCounts i j)) [0, 0] [1, 2, 3] [1, 2]
    have nz : ∀ i j, i < 2 → j < 3 → binOf (rowsOf 2 3 fun i j => Real.sqrt (trueCounts i j)) i j ≠ 0 := by
      intro i j hi hj
      rw [binOf_rowsOf, if_pos ⟨hi, hj⟩]
      exact (Real.sqrt_pos.2 (trueCounts_pos i j)).ne'
    have nz' : ∀ i j, i < 2 → j < 3 → (binOf (rowsOf 2 3 fun i j => Real.sqrt (trueCounts i j)) i j = 0) = False :=
      fun i j hi hj => eq_false (nz i j hi hj)
    simp only [List.length_cons, List.length_nil, zero_add, Nat.reduceAdd, Finset.sum_range_succ, Finset.sum_range_zero, Counted] at e
    simp [nz'] at e
    norm_num at e
    exact_mod_cast e
  simp only [c] at this
  refine ⟨by rw [this.1]; norm_num, by rw [this.2]; norm_num⟩

/-- A fit other than the truth, 9 and 9 in the first column: its average chi-square is larger by 25/4. -/
example : ∫ d, chisquareDiagonal (rowsOf 2 3 fun i j => ((d (i, j)).1 : ℝ)) (rowsOf 2 3 fun i j => if j = 0 then 9 else trueCounts i j)
      (rowsOf 2 3 fun i j => Real.sqrt (trueCounts i j)) [0, 0] [1, 2, 3] [1, 2] ∂drawnTwice =
    countedBins (rowsOf 2 3 fun i j => Real.sqrt (trueCounts i j)) [0, 0] [1, 2, 3] [1, 2] + 25 / 4 := by
  have hs : ([1, 2, 3] : List ℚ).Pairwise (· < ·) := by norm_num
  have N := noisy_counts (μ := drawnTwice) (t := trueCounts) (fun i j => (trueCounts_pos i j).le) 2 3
    (N := fun d i j => d (i, j)) drawnTwice_law (fun p => (p.1 : ℝ)) 1 fun i j => by
      obtain ⟨a, b, c, -⟩ := twice_moments (trueCounts_pos i j).le
      exact ⟨a, b, by rw [c, one_mul]⟩
  simp only [one_mul] at N
  rw [((C132_truth _ (rowsOf 2 3 trueCounts) [0, 0] [1, 2, 3] [1, 2] N (fun i j => binOf_rowsOf 2 3 trueCounts i j) hs).2 _).1,
    C35_diagonal_sum _ _ _ _ _ _ hs]
  congr 1
  simp only [List.length_cons, List.length_nil, zero_add, Nat.reduceAdd, Finset.sum_range_succ, Finset.sum_range_zero, binOf_rowsOf, trueCounts]
  have q : Real.sqrt 4 = 2 := by
    rw [show (4 : ℝ) = 2 ^ 2 by norm_num, Real.sqrt_sq (by norm_num)]
  norm_num [q]

/-- Two members with one row: 1, 5 and 3, 5. The second bin has no spread and is not counted. -/
example : meanOf ([[[1, 5]], [[3, 5]]].map fun M : List (List ℝ) => chisquareDiagonal M [[2, 5]] [[1, 0]] [0] [1, 2] [7]) = 1 := by
  have s1 : ensSd [1, 3] = 1 := by
    unfold ensSd meanOf
    norm_num
  have s2 : ensSd [5, 5] = 0 := by
    unfold ensSd meanOf
    norm_num
  have hz : ∀ i j, i ≠ 0 ∨ 2 ≤ j → ∀ a b : ℝ, binOf [[a, b]] i j = 0 := by
    intro i j h a b
    unfold binOf
    rcases i with _ | i
    · rcases h with h | h
      · exact absurd rfl h
      · obtain ⟨k, rfl⟩ := Nat.exists_eq_add_of_le h
        simp [Nat.add_comm 2 k]
    · simp
  have all : ∀ i j, binOf [[(2 : ℝ), 5]] i j = meanOf ([[[1, 5]], [[3, 5]]].map fun M : List (List ℝ) => binOf M i j) ∧
      binOf [[(1 : ℝ), 0]] i j = ensSd ([[[1, 5]], [[3, 5]]].map fun M : List (List ℝ) => binOf M i j) := by
    intro i j
    by_cases h : i ≠ 0 ∨ 2 ≤ j
    · simp only [List.map_cons, List.map_nil, hz i j h]
      constructor
      · simp [meanOf]
      · simp [ensSd, meanOf]
    · push Not at h
      obtain ⟨rfl, h2⟩ := h
      rcases (show j = 0 ∨ j = 1 by omega) with rfl | rfl
      · refine ⟨?_, ?_⟩
        · simp [binOf, meanOf]
          norm_num
        · show (1 : ℝ) = ensSd [1, 3]
          exact s1.symm
      · refine ⟨?_, ?_⟩
        · simp [binOf, meanOf]
        · show (0 : ℝ) = ensSd [5, 5]
          exact s2.symm
  have := C132_members [[[1, 5]], [[3, 5]]] (by simp) [[2, 5]] [[1, 0]] [0] [1, 2] [7] (by norm_num) (fun i j => (all i j).1) (fun i j => (all i j).2)
  rw [this]
  classical
  rw [counted_sum]
  simp only [List.length_cons, List.length_nil, Finset.sum_range_succ, Finset.sum_range_zero, Counted]
  norm_num [binOf]

/-- The row 9, 4 with counting statistics: the variance of the first normalised bin is that of the first-order change. -/
example : ∃ slope : (ℕ → ℝ) → ℝ,
    ∫ d : ℕ × ℕ → ℕ × ℕ, slope (fun k => ((d (k, 0)).1 : ℝ) - [9, 4].getD k 0) ∂drawnTwice = 0 ∧
    Var[fun d : ℕ × ℕ → ℕ × ℕ => slope (fun k => ((d (k, 0)).1 : ℝ) - [9, 4].getD k 0); drawnTwice] =
      (1 / 13 - 9 / 13 ^ 2) ^ 2 * 9 + (9 / 13 ^ 2) ^ 2 * 4 := by
  have ind : iIndepFun (fun (p : ℕ × ℕ) (d : ℕ × ℕ → ℕ × ℕ) => d p) drawnTwice :=
    iIndepFun_infinitePi (P := fun p : ℕ × ℕ => twice (trueCounts p.1 p.2)) (X := fun _ n => n) (fun _ => measurable_id)
  have idd : ∀ k : ℕ, IdentDistrib (fun d : ℕ × ℕ → ℕ × ℕ => ((d (k, 0)).1 : ℝ)) (fun p : ℕ × ℕ => (p.1 : ℝ)) drawnTwice (twice (trueCounts k 0)) :=
    fun k => ((drawnTwice_law k 0).identDistrib (HasLaw.id (μ := twice (trueCounts k 0)))).comp
      (u := fun p : ℕ × ℕ => (p.1 : ℝ)) (measurable_of_countable _)
  have mo := fun k : ℕ => twice_moments (trueCounts_pos k 0).le
  have L : ∀ k, MemLp (fun d : ℕ × ℕ → ℕ × ℕ => ((d (k, 0)).1 : ℝ)) 2 drawnTwice := fun k => (idd k).symm.memLp_snd (mo k).1
  obtain ⟨v, var, h, -, -, H⟩ := C132_propagation (μ := drawnTwice) [9, 4] [3, 2] rfl (by norm_num)
    (X := fun k d => ((d (k, 0)).1 : ℝ)) (fun k _ => L k)
    (fun k hk => by
      rw [(idd k).integral_eq, (mo k).2.1]
      rcases (show k = 0 ∨ k = 1 by simp at hk; omega) with rfl | rfl <;> simp [trueCounts])
    (fun k hk => by
      rw [(idd k).variance_eq, (mo k).2.2.1]
      rcases (show k = 0 ∨ k = 1 by simp at hk; omega) with rfl | rfl <;> norm_num [trueCounts])
    (fun k _ l _ hne => by
      have i2 := (ind.indepFun (show ((k, 0) : ℕ × ℕ) ≠ (l, 0) by simpa using hne)).comp
        (φ := fun p : ℕ × ℕ => (p.1 : ℝ)) (ψ := fun p : ℕ × ℕ => (p.1 : ℝ)) (measurable_of_countable _) (measurable_of_countable _)
      exact i2.covariance_eq_zero (L k) (L l))
  obtain ⟨-, slope, -, e, w⟩ := H 0 (by simp)
  refine ⟨slope, e, w.trans ?_⟩
  have hv : normUncRow ([9, 4] : List ℝ) [3, 2] = .ok ([9 / 13, 4 / 13], [(1 / 13 - 9 / 13 ^ 2) ^ 2 * 9 + (9 / 13 ^ 2) ^ 2 * 4,
      (1 / 13 - 4 / 13 ^ 2) ^ 2 * 4 + (4 / 13 ^ 2) ^ 2 * 9]) := by
    unfold normUncRow
    norm_num
  rw [hv] at h
  injection h with h
  injection h with _ h2
  rw [← h2]
  simp

end Ompy
