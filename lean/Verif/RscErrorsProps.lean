import Verif.RscErrors
import Verif.RhoSigChiFitMore

/-!
# C95: start values and uncertainties of rhosigchi
-/

namespace Ompy

/-- Element of a matrix, 0 outside. -/
def el (m : List (List ℚ)) (i j : ℕ) : ℚ := (m.getD i []).getD j 0

theorem range_map_sum (n : ℕ) (f : ℕ → ℚ) : ((List.range n).map f).sum = ∑ k ∈ Finset.range n, f k := by
  induction n with
  | zero => simp
  | succ n ih => rw [List.range_succ, List.map_append, List.sum_append, ih, Finset.sum_range_succ]; simp

/-- **C95.** The start values are the sums over the spectra within the limits; they refer to bins of the array only if all limits lie in it (IndexError otherwise), and then add up to the number of spectra, if each of these is
normalised. -/
theorem C95_start (F : List (List ℚ)) (imin imax igmin : ℕ) (igmax : List ℕ) (n : ℕ) :
    ((∃ ix, imin ≤ ix ∧ ix < imax ∧ igmin < igmax.getD ix 0 ∧ n < igmax.getD ix 0) →
      rscStart F imin imax igmin igmax n = .error .indexError) ∧
    ((∀ ix, imin ≤ ix → ix < imax → igmin < igmax.getD ix 0 → igmax.getD ix 0 ≤ n) →
      ∃ g, rscStart F imin imax igmin igmax n = .ok g ∧ g.length = n ∧
        (∀ ig < n, g.getD ig 0 = ∑ ix ∈ Finset.Ico imin imax, if igmin ≤ ig ∧ ig < igmax.getD ix 0 then el F ix ig else 0) ∧
        ((∀ ix, imin ≤ ix → ix < imax → ∑ ig ∈ Finset.Ico igmin (igmax.getD ix 0), el F ix ig = 1) →
          g.sum = ((imax - imin : ℕ) : ℚ))) := by
  constructor
  · rintro ⟨ix, h1, h2, h3, h4⟩
    unfold rscStart
    rw [if_pos ⟨ix, List.mem_range.2 h2, h1, h3, h4⟩]
  · intro h
    refine ⟨(List.range n).map fun ig : ℕ =>
      ∑ ix ∈ Finset.Ico imin imax, if igmin ≤ ig ∧ ig < igmax.getD ix 0 then (F.getD ix []).getD ig 0 else 0, ?_, by simp, ?_, ?_⟩
    · unfold rscStart
      rw [if_neg]
      rintro ⟨ix, hx, h1, h2, h3⟩
      have := h ix h1 (List.mem_range.1 hx) h2
      omega
    · intro ig hig
      rw [List.getD_eq_getElem _ _ (by simpa using hig)]
      simp [el]
    · intro hs
      rw [range_map_sum, Finset.sum_comm]
      have : ∀ ix ∈ Finset.Ico imin imax,
          (∑ ig ∈ Finset.range n, if igmin ≤ ig ∧ ig < igmax.getD ix 0 then (F.getD ix []).getD ig 0 else 0) = 1 := by
        intro ix hix
        obtain ⟨h1, h2⟩ := Finset.mem_Ico.1 hix
        rw [← hs ix h1 h2, ← Finset.sum_filter]
        apply Finset.sum_congr
        · ext ig
          simp only [Finset.mem_filter, Finset.mem_range, Finset.mem_Ico]
          constructor
          · exact fun hh => hh.2
          · intro hh
            exact ⟨lt_of_lt_of_le hh.2 (h ix h1 h2 (by omega)), hh⟩
        · intros; rfl
      rw [Finset.sum_congr rfl this]
      simp

/-- Two spectra of three bins. -/
example : rscStart [[1/4, 3/4, 0], [1/2, 1/4, 1/4]] 0 2 0 [2, 3] 4 = .ok [3/4, 1, 1/4, 0] := by decide +kernel

theorem perturb_el (v s : List (List ℚ)) (z : ℕ → ℕ → ℚ) (i j : ℕ) (hi : i < v.length) (hj : j < (v.getD i []).length) :
    el (rscPerturb v s z) i j = if el v i j + z i j * el s i j < 0 then 0 else el v i j + z i j * el s i j := by
  unfold el rscPerturb
  rw [List.getD_eq_getElem _ [] (by simpa using hi)]
  simp only [List.getElem_map, List.getElem_range]
  rw [List.getD_eq_getElem _ (0 : ℚ) (by simpa using hj)]
  simp only [List.getElem_map, List.getElem_range]

/-- **C95.** The perturbed matrix has the shape of the matrix and no negative numbers; a bin is moved by the random number times its uncertainty, unless that is negative. -/
theorem C95_perturb (v s : List (List ℚ)) (z : ℕ → ℕ → ℚ) :
    (rscPerturb v s z).map List.length = v.map List.length ∧ (∀ i j, 0 ≤ el (rscPerturb v s z) i j) ∧
    ∀ i j, i < v.length → j < (v.getD i []).length →
      (0 ≤ el v i j + z i j * el s i j → el (rscPerturb v s z) i j = el v i j + z i j * el s i j) ∧
      (el v i j + z i j * el s i j < 0 → el (rscPerturb v s z) i j = 0) := by
  refine ⟨?_, ?_, ?_⟩
  · apply List.ext_getElem
    · simp [rscPerturb]
    · intro i h1 h2
      simp only [List.length_map] at h2
      simp [rscPerturb, h2]
  · intro i j
    by_cases hi : i < v.length
    · by_cases hj : j < (v.getD i []).length
      · rw [perturb_el v s z i j hi hj]
        split
        · exact le_refl _
        · linarith
      · unfold el rscPerturb
        rw [List.getD_eq_getElem _ [] (by simpa using hi)]
        simp only [List.getElem_map, List.getElem_range]
        rw [List.getD_eq_default _ _ (by simpa using hj)]
    · unfold el rscPerturb
      rw [List.getD_eq_default _ [] (by simpa using hi)]
      simp
  · intro i j hi hj
    rw [perturb_el v s z i j hi hj]
    exact ⟨fun h => by rw [if_neg (not_lt.2 h)], fun h => by rw [if_pos h]⟩

example : rscPerturb [[5, 3, 0]] [[1, 2, 1]] (fun _ j => if j = 0 then 2 else -2) = [[7, 0, 0]] := by decide +kernel

/-- **C95 (disagreement).** A spectrum that is perturbed to nothing within its limits is divided by 0: with one such draw of `nunc`, the uncertainties are NaN. -/
theorem C95_nan_fails (v s : List (List ℚ)) (z : ℕ → ℕ → ℚ) (i lo hi : ℕ) (h : i < v.length) (hl : lo < min hi (v.getD i []).length)
    (hz : ∀ j, lo ≤ j → j < min hi (v.getD i []).length → el v i j + z i j * el s i j ≤ 0) :
    rscNormRow ((rscPerturb v s z).getD i []) lo hi = .error .undefined := by
  have hlen : ((rscPerturb v s z).getD i []).length = (v.getD i []).length := by
    unfold rscPerturb
    rw [List.getD_eq_getElem _ [] (by simpa using h)]
    simp
  have h0 : ∑ j ∈ Finset.Ico lo (min hi ((rscPerturb v s z).getD i []).length), ((rscPerturb v s z).getD i []).getD j 0 = 0 := by
    rw [hlen]
    apply Finset.sum_eq_zero
    intro j hj
    obtain ⟨h1, h2⟩ := Finset.mem_Ico.1 hj
    have hj2 : j < (v.getD i []).length := lt_of_lt_of_le h2 (min_le_right _ _)
    change el (rscPerturb v s z) i j = 0
    rw [perturb_el v s z i j h hj2]
    have := hz j h1 h2
    split
    · rfl
    · linarith
  unfold rscNormRow
  simp only
  rw [if_pos ⟨by rw [hlen]; exact hl, h0⟩]

example : rscNormRow ((rscPerturb [[0, 4]] [[1, 2]] fun _ _ => -3).getD 0 []) 0 2 = .error .undefined :=
  C95_nan_fails [[0, 4]] [[1, 2]] (fun _ _ => -3) 0 0 2 (by simp) (by simp)
    (by intro j _ hj; simp at hj; interval_cases j <;> norm_num [el])

theorem list_sq_sum (l : List ℚ) (b : ℚ) :
    (l.map fun x => (x - b) ^ 2).sum = (l.map fun x => (x - l.sum / l.length) ^ 2).sum + l.length * (l.sum / l.length - b) ^ 2 := by
  by_cases h0 : l = []
  · simp [h0]
  have hn : (l.length : ℚ) ≠ 0 := by
    have := List.length_pos_iff.2 h0
    positivity
  have key : ∀ (m : List ℚ) (c : ℚ), (m.map fun x => (x - c) ^ 2).sum = (m.map fun x => x ^ 2).sum - 2 * c * m.sum + m.length * c ^ 2 := by
    intro m c
    induction m with
    | nil => simp
    | cons x m ih => simp only [List.map_cons, List.sum_cons, ih, List.length_cons, Nat.cast_add, Nat.cast_one]; ring
  rw [key, key]
  field_simp
  ring

/-- **C95.** The square of an uncertainty is the variance of the results of the perturbed spectra plus the square of the distance of their mean from the result of the spectra: an offset counts as uncertainty.  It is zero if and only if all
results agree with that of the spectra, and not larger than the largest deviation. -/
theorem C95_errors (base : List ℚ) (runs : List (List ℚ)) (h : runs ≠ []) :
    ∃ e, rmsDev base runs = .ok e ∧ e.length = base.length ∧ ∀ k < base.length,
      let col := runs.map fun r => r.getD k 0
      let mean := col.sum / col.length
      (e.getD k 0) ^ 2 = (((col.map fun x => (x - mean) ^ 2).sum / col.length + (mean - base.getD k 0) ^ 2 : ℚ) : ℝ) ∧
      (e.getD k 0 = 0 ↔ ∀ x ∈ col, x = base.getD k 0) ∧ 0 ≤ e.getD k 0 ∧
      ∀ d : ℚ, (∀ x ∈ col, |x - base.getD k 0| ≤ d) → e.getD k 0 ≤ d := by
  refine ⟨(List.range base.length).map fun k : ℕ =>
    √(((runs.map fun r => (r.getD k 0 - base.getD k 0) ^ 2).sum / runs.length : ℚ) : ℝ), ?_, by simp, ?_⟩
  · unfold rmsDev
    rw [if_neg h]
  · intro k hk
    simp only
    have hlen : (0 : ℚ) < runs.length := by exact_mod_cast List.length_pos_iff.2 h
    have hcol : (runs.map fun r => (r.getD k 0 - base.getD k 0) ^ 2) = (runs.map fun r => r.getD k 0).map fun x => (x - base.getD k 0) ^ 2 := by
      rw [List.map_map]; rfl
    set col := runs.map fun r => r.getD k 0 with hc
    have hcl : col.length = runs.length := by simp [hc]
    have hne : col ≠ [] := by simpa [hc] using h
    have hnn : ∀ (l : List ℚ) (b : ℚ), 0 ≤ (l.map fun x => (x - b) ^ 2).sum := by
      intro l b
      exact List.sum_nonneg (by intro y hy; obtain ⟨x, -, rfl⟩ := List.mem_map.1 hy; positivity)
    rw [List.getD_eq_getElem _ (0 : ℝ) (by simpa using hk)]
    simp only [List.getElem_map, List.getElem_range]
    rw [hcol, ← hcl]
    rw [← hcl] at hlen
    have hnnq : 0 ≤ (col.map fun x => (x - base.getD k 0) ^ 2).sum / (col.length : ℚ) := div_nonneg (hnn _ _) hlen.le
    have hnnr : (0 : ℝ) ≤ (((col.map fun x => (x - base.getD k 0) ^ 2).sum / (col.length : ℚ) : ℚ) : ℝ) := by exact_mod_cast hnnq
    refine ⟨?_, ?_, Real.sqrt_nonneg _, ?_⟩
    · rw [Real.sq_sqrt hnnr]
      congr 1
      rw [list_sq_sum col (base.getD k 0), add_div, mul_comm (col.length : ℚ), mul_div_assoc, div_self hlen.ne', mul_one]
    · rw [Real.sqrt_eq_zero hnnr]
      rw [Rat.cast_eq_zero, div_eq_zero_iff, or_iff_left hlen.ne']
      constructor
      · intro hz x hx
        have hle : (x - base.getD k 0) ^ 2 ≤ (col.map fun x => (x - base.getD k 0) ^ 2).sum :=
          List.single_le_sum (by intro y hy; obtain ⟨x, -, rfl⟩ := List.mem_map.1 hy; positivity) _
            (List.mem_map.2 ⟨x, hx, rfl⟩)
        rw [hz] at hle
        have : x - base.getD k 0 = 0 := pow_eq_zero_iff (two_ne_zero) |>.1 (le_antisymm hle (by positivity))
        linarith
      · intro hx
        apply List.sum_eq_zero
        intro y hy
        obtain ⟨x, hx', rfl⟩ := List.mem_map.1 hy
        rw [hx x hx', sub_self]
        norm_num
    · intro d hd
      have hd0 : 0 ≤ d := by
        obtain ⟨x, hx⟩ := List.exists_mem_of_ne_nil col hne
        exact (abs_nonneg _).trans (hd x hx)
      rw [show (d : ℝ) = √((d : ℝ) ^ 2) by rw [Real.sqrt_sq (by exact_mod_cast hd0)]]
      apply Real.sqrt_le_sqrt
      have hsum : ∀ l : List ℚ, (∀ x ∈ l, |x - base.getD k 0| ≤ d) → (l.map fun x => (x - base.getD k 0) ^ 2).sum ≤ l.length * d ^ 2 := by
        intro l hl
        induction l with
        | nil => simp
        | cons x l ih =>
          have h1 := ih fun y hy => hl y (List.mem_cons_of_mem _ hy)
          have h2 : (x - base.getD k 0) ^ 2 ≤ d ^ 2 := sq_le_sq' (by have := (abs_le.1 (hl x List.mem_cons_self)).1; linarith) (abs_le.1 (hl x List.mem_cons_self)).2
          simp only [List.map_cons, List.sum_cons, List.length_cons, Nat.cast_add, Nat.cast_one]
          linarith
      have : (col.map fun x => (x - base.getD k 0) ^ 2).sum / (col.length : ℚ) ≤ d ^ 2 := by
        rw [div_le_iff₀ hlen]
        have := hsum col hd
        linarith
      exact_mod_cast this

/-- One bin with result 3, perturbed results 4 and 6: mean square deviation (1 + 9)/2 = 5. -/
example : ∃ e, rmsDev [3] [[4], [6]] = .ok e ∧ e.getD 0 0 ^ 2 = 5 := by
  obtain ⟨e, h1, -, h2⟩ := C95_errors [3] [[4], [6]] (by simp)
  refine ⟨e, h1, ?_⟩
  rw [(h2 0 (by simp)).1]
  norm_num

/-- **C95 (disagreement).** Without perturbed spectra (`nunc=0`) the uncertainties are 0/0. -/
theorem C95_none_fails (base : List ℚ) : rmsDev base [] = .error .undefined := rfl

theorem rscRuns_ok {S : Type} (next : S → (ℕ → ℕ → ℚ) × S) (one : (ℕ → ℕ → ℚ) → Except Err (List ℚ × List ℚ))
    (res : (ℕ → ℕ → ℚ) → List ℚ × List ℚ) (h : ∀ z, one z = .ok (res z)) (n : ℕ) (g : S) :
    rscRuns next one n g =
      .ok ((List.range n).map (fun k => res (next ((fun s => (next s).2)^[k] g)).1), (fun s => (next s).2)^[n] g) := by
  induction n generalizing g with
  | zero => rfl
  | succ n ih =>
    unfold rscRuns
    simp only [h, ih, bind, Except.bind, pure, Except.pure]
    rw [List.range_succ_eq_map]
    simp [Function.comp_def]

/-- **C95.** Run `k` uses draw `k` of the generator; afterwards the generator has advanced by `nunc` draws. -/
theorem C95_draws {S : Type} (next : S → (ℕ → ℕ → ℚ) × S) (one : (ℕ → ℕ → ℚ) → Except Err (List ℚ × List ℚ))
    (res : (ℕ → ℕ → ℚ) → List ℚ × List ℚ) (h : ∀ z, one z = .ok (res z)) (n : ℕ) (g : S) :
    ∃ rs, rscRuns next one n g = .ok (rs, (fun s => (next s).2)^[n] g) ∧ rs.length = n ∧
      ∀ k (hk : k < rs.length), rs[k] = res (next ((fun s => (next s).2)^[k] g)).1 :=
  ⟨_, rscRuns_ok next one res h n g, by simp, by intro k hk; simp⟩

/-- **C95.** Nonnegative spectra without uncertainties have results without uncertainty, whatever is drawn. -/
theorem C95_exact {S : Type} (fit : List (List ℚ) → List ℚ → Except Err (List ℚ × List ℚ)) (next : S → (ℕ → ℕ → ℚ) × S) (mat std : List (List ℚ))
    (l : RscLims) (nunc : ℕ) (hn : 0 < nunc) (g : S) (hv : ∀ i j, 0 ≤ el mat i j) (hs : ∀ i j, el std i j = 0) (base : List ℚ × List ℚ)
    (hb : rscRun fit mat std l = .ok base) (hl : maxOf l.igmax ≤ base.2.length) :
    ∃ o g', rscFit fit next mat std l nunc g = .ok (o, g') ∧ o.nld = base.1 ∧ o.gsf = base.2.take (maxOf l.igmax) ∧
      (∀ e ∈ o.nldErr, e = 0) ∧ (∀ e ∈ o.gsfErr, e = 0) ∧ o.nldErr.length = o.nld.length ∧ o.gsfErr.length = o.gsf.length := by
  have hp : ∀ z, rscPerturb mat std z = mat := by
    intro z
    apply List.ext_getElem
    · simp [rscPerturb]
    · intro i h1 h2
      apply List.ext_getElem
      · simp [rscPerturb, h2]
      · intro j h3 h4
        have := perturb_el mat std z i j h2 (by rw [List.getD_eq_getElem _ [] h2]; exact h4)
        rw [hs, mul_zero, add_zero, if_neg (not_lt.2 (hv i j))] at this
        unfold el at this
        rw [List.getD_eq_getElem _ [] h1, List.getD_eq_getElem _ [] h2, List.getD_eq_getElem _ (0 : ℚ) h3,
          List.getD_eq_getElem _ (0 : ℚ) h4] at this
        exact this
  have hruns := rscRuns_ok next (fun z => rscRun fit (rscPerturb mat std z) std l) (fun _ => base) (by intro z; simp only [hp, hb]) nunc g
  have hne : ∀ f : List ℚ × List ℚ → List ℚ, ((List.range nunc).map (fun _ => base)).map f ≠ [] := by
    intro f h
    have := congrArg List.length h
    simp at this
    omega
  obtain ⟨e1, a1, a2, a3⟩ := C95_errors base.1 _ (hne Prod.fst)
  obtain ⟨e2, b1, b2, b3⟩ := C95_errors base.2 _ (hne Prod.snd)
  have z1 : ∀ e ∈ e1, e = 0 := by
    intro e he
    obtain ⟨k, hk, rfl⟩ := List.mem_iff_getElem.1 he
    have := ((a3 k (by omega)).2.1).2 (by intro x hx; simp at hx; obtain ⟨-, rfl⟩ := hx; simp)
    rwa [List.getD_eq_getElem _ _ hk] at this
  have z2 : ∀ e ∈ e2, e = 0 := by
    intro e he
    obtain ⟨k, hk, rfl⟩ := List.mem_iff_getElem.1 he
    have := ((b3 k (by omega)).2.1).2 (by intro x hx; simp at hx; obtain ⟨-, rfl⟩ := hx; simp)
    rwa [List.getD_eq_getElem _ _ hk] at this
  refine ⟨⟨base.1, e1, base.2.take (maxOf l.igmax), e2.take (maxOf l.igmax)⟩, (fun s => (next s).2)^[nunc] g, ?_, rfl, rfl, z1, fun e he => z2 e (List.mem_of_mem_take he), a2, ?_⟩
  · unfold rscFit
    simp only [hb, hruns, bind, Except.bind, a1, b1]
    unfold rscVectors
    rw [if_neg (by simp; exact hl)]
    rfl
  · simp only [List.length_take, b2]

/-- A fit for the examples that gives its start values twice. -/
def echoFit (_ : List (List ℚ)) (g : List ℚ) : Except Err (List ℚ × List ℚ) := .ok (g, g)

example : rscRun echoFit [[1, 3]] [[0, 0]] ⟨0, 1, 0, [2], 1⟩ = .ok ([1/4, 3/4], [1/4, 3/4]) := by decide +kernel

/-- **C95 (disagreement).** Negative bins of the first-generation matrix, which take part in the fit, are set to 0 in the perturbed spectra: there is an uncertainty even if the spectra have none. -/
theorem C95_negative_fails (z : ℕ → ℕ → ℚ) :
    rscRun echoFit [[-1, 3]] [[0, 0]] ⟨0, 1, 0, [2], 1⟩ = .ok ([-1/2, 3/2], [-1/2, 3/2]) ∧
    rscRun echoFit (rscPerturb [[-1, 3]] [[0, 0]] z) [[0, 0]] ⟨0, 1, 0, [2], 1⟩ = .ok ([0, 1], [0, 1]) := by
  have hp : rscPerturb [[-1, 3]] [[0, 0]] z = [[0, 3]] := by
    simp [rscPerturb, List.range_succ]
  rw [hp]
  constructor <;> decide +kernel

/-- **C95 (disagreement).** The default generator is made when the module is imported and shared by all calls: the same call again uses other draws, and its uncertainties differ.  (One bin of uncertainty 1
whose perturbed value is the result; `z 0`, `z 1` are the first two draws.) -/
theorem C95_repeat_fails (z : ℕ → ℚ) (v : ℚ) (h0 : 0 ≤ v + z 0) (h1 : 0 ≤ v + z 1) (hne : |z 0| ≠ |z 1|) :
    let next : ℕ → (ℕ → ℕ → ℚ) × ℕ := fun g => (fun _ _ => z g, g + 1)
    let one : (ℕ → ℕ → ℚ) → Except Err (List ℚ × List ℚ) := fun d => .ok ((rscPerturb [[v]] [[1]] d).getD 0 [], [])
    ∃ r1 r2, rscRuns next one 1 0 = .ok (r1, 1) ∧ rscRuns next one 1 1 = .ok (r2, 2) ∧
      rmsDev [v] (r1.map Prod.fst) ≠ rmsDev [v] (r2.map Prod.fst) := by
  have hp : ∀ k, 0 ≤ v + z k → (rscPerturb [[v]] [[1]] fun _ _ => z k) = [[v + z k]] := by
    intro k hk
    simp [rscPerturb, List.range_succ, not_lt.2 hk]
  refine ⟨[([v + z 0], [])], [([v + z 1], [])], ?_, ?_, ?_⟩
  · simp [rscRuns, bind, Except.bind, pure, Except.pure, hp 0 h0]
  · simp [rscRuns, bind, Except.bind, pure, Except.pure, hp 1 h1]
  · unfold rmsDev
    simp only [List.map_cons, List.map_nil, List.cons_ne_nil, if_false, List.length_cons, List.length_nil, List.range_succ, List.range_zero,
      List.nil_append, List.sum_cons, List.sum_nil, List.getD_cons_zero]
    intro h
    have h := Except.ok.inj h
    simp only [List.cons.injEq, and_true] at h
    norm_num at h
    rw [Real.sqrt_sq_eq_abs, Real.sqrt_sq_eq_abs] at h
    apply hne
    exact_mod_cast h

example : let z : ℕ → ℚ := fun k => if k = 0 then 1 else 2
    |z 0| ≠ |z 1| := by norm_num

/-- **C95.** If the start values could be written, the transmission coefficient has as many values as energies. -/
theorem C95_lengths (F : List (List ℚ)) (l : RscLims) (g : List ℚ) (base : List ℚ × List ℚ) (e1 e2 : List ℝ)
    (hg : rscStart F l.imin l.imax l.igmin l.igmax (l.imax + l.u0) = .ok g) (hb : base.2.length = l.imax + l.u0)
    (hi : ∀ k, l.igmax.getD k 0 ≠ 0 → l.imin ≤ k ∧ k < l.imax ∧ l.igmin < l.igmax.getD k 0) :
    ∃ o, rscVectors base e1 e2 l = .ok o ∧ o.gsf.length = maxOf l.igmax := by
  have hle : ∀ m : List ℕ, (∀ x ∈ m, x ≤ l.imax + l.u0) → maxOf m ≤ l.imax + l.u0 := by
    intro m hm
    induction m with
    | nil => simp [maxOf]
    | cons x m ih =>
      have := ih fun y hy => hm y (List.mem_cons_of_mem _ hy)
      exact max_le (hm x List.mem_cons_self) this
  have hmax : maxOf l.igmax ≤ l.imax + l.u0 := by
    apply hle
    intro x hx
    obtain ⟨k, hk, rfl⟩ := List.mem_iff_getElem.1 hx
    by_contra hc
    rw [not_le] at hc
    have e : l.igmax.getD k 0 = l.igmax[k] := List.getD_eq_getElem _ _ hk
    obtain ⟨h1, h2, h3⟩ := hi k (by omega)
    rw [((C95_start F l.imin l.imax l.igmin l.igmax (l.imax + l.u0)).1 ⟨k, h1, h2, h3, by omega⟩)] at hg
    simp at hg
  refine ⟨⟨base.1, e1, base.2.take (maxOf l.igmax), e2.take (maxOf l.igmax)⟩, ?_, by simp; omega⟩
  unfold rscVectors
  rw [if_neg (by simp; omega)]

example : ∃ o, rscVectors ([1, 1], [1, 2, 3]) [0, 0] [0, 0, 0] ⟨0, 1, 0, [2], 2⟩ = .ok o ∧ o.gsf.length = 2 :=
  C95_lengths [[1/4, 3/4]] ⟨0, 1, 0, [2], 2⟩ [1/4, 3/4, 0] ([1, 1], [1, 2, 3]) _ _ (by decide +kernel) rfl
    (by intro k hk; match k with | 0 => simp | k + 1 => simp at hk)

end Ompy
