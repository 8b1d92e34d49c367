import Verif.UnfolderProps

/-!
# More on C29, C30, C50: folding, refusals, the scores, the parts of the Compton subtraction
-/

namespace Ompy

/-- **C29.** `fold` replaces the counts by their matrix product with the response (entry by entry) and
leaves the rest of the matrix alone. -/
theorem C29_fold (o : Unf) (m R : Mat) (hR : o.R = some R) (hl : m.Eg.length = R.Ex.length) :
    ∃ M, o.fold m = .ok M ∧ M.Eg = m.Eg ∧ M.Ex = m.Ex ∧ M.std = m.std ∧ M.state = m.state ∧
      ∀ i < m.Ex.length, ∀ k < R.Eg.length, at2 M.values i k =
        ∑ j ∈ Finset.range R.Ex.length, at2 m.values i j * at2 R.values j k := by
  refine ⟨{ m with values := matMul m.values R.values m.Ex.length R.Ex.length R.Eg.length },
    by simp [Unf.fold, hR, hl], rfl, rfl, rfl, rfl, fun i hi k hk => ?_⟩
  simp only [matMul, at2_tabulate _ _ _ hi hk]

/-- **C29.** `fold` raises in exactly two cases: no response (AssertionError), or a response with the
wrong number of rows (ValueError). -/
theorem C29_fold_refuses (o : Unf) (m : Mat) :
    (o.fold m = .error .assertion ↔ o.R = none) ∧
    (o.fold m = .error .valueError ↔ ∃ R, o.R = some R ∧ m.Eg.length ≠ R.Ex.length) := by
  unfold Unf.fold
  cases o.R with
  | none => simp
  | some R =>
    by_cases h : m.Eg.length = R.Ex.length <;> simp [h]

/-- **C29.** When `apply` gets past its checks: there is a response, it is square, its gamma axis has
the length of that of the raw matrix and is close to it, and neither has a negative entry. -/
theorem C29_accepts (close : List ℚ → List ℚ → Bool) (R : Option Mat) (raw R' : Mat) :
    updateValues close R raw = .ok R' ↔
      R = some R' ∧ R'.values.length = R'.Eg.length ∧ raw.Eg.length = R'.Eg.length ∧
        close raw.Eg R'.Eg = true ∧ (∀ r ∈ raw.values, ∀ x ∈ r, 0 ≤ x) ∧
        (∀ r ∈ R'.values, ∀ x ∈ r, 0 ≤ x) := by
  unfold updateValues
  cases R with
  | none => simp
  | some R =>
    by_cases h1 : R.values.length = R.Eg.length
    · by_cases h2 : raw.Eg.length = R.Eg.length
      · by_cases h3 : close raw.Eg R.Eg = true
        · by_cases h4 : (∀ r ∈ raw.values, ∀ x ∈ r, (0 : ℚ) ≤ x) ∧ (∀ r ∈ R.values, ∀ x ∈ r, (0 : ℚ) ≤ x)
          · have c : (raw.values.any (fun r => r.any fun x => x < 0) ||
                R.values.any (fun r => r.any fun x => x < 0)) = false := by
              rw [Bool.or_eq_false_iff]
              constructor <;> rw [List.any_eq_false] <;> intro r hr <;>
                simp only [Bool.not_eq_true, List.any_eq_false] <;> intro x hx
              · simpa using h4.1 r hr x hx
              · simpa using h4.2 r hr x hx
            simp only [h1, h2, h3, c, ne_eq, not_true_eq_false, if_false, Bool.not_true,
              Bool.false_eq_true, Except.ok.injEq, Option.some.injEq]
            constructor
            · rintro rfl; exact ⟨rfl, h1, rfl, h3, h4.1, h4.2⟩
            · rintro ⟨h, _⟩; exact h
          · have c : (raw.values.any (fun r => r.any fun x => x < 0) ||
                R.values.any (fun r => r.any fun x => x < 0)) = true := by
              rw [Bool.or_eq_true]
              rcases not_and_or.1 h4 with h | h
              · left
                push Not at h
                obtain ⟨r, hr, x, hx, h0⟩ := h
                exact List.any_eq_true.2 ⟨r, hr, List.any_eq_true.2 ⟨x, hx, by simpa using h0⟩⟩
              · right
                push Not at h
                obtain ⟨r, hr, x, hx, h0⟩ := h
                exact List.any_eq_true.2 ⟨r, hr, List.any_eq_true.2 ⟨x, hx, by simpa using h0⟩⟩
            simp only [h1, h2, h3, c, ne_eq, not_true_eq_false, if_false, Bool.not_true,
              Bool.false_eq_true, if_true, reduceCtorEq, false_iff]
            rintro ⟨h, _, _, _, h5, h6⟩
            cases h
            exact h4 ⟨h5, h6⟩
        · simp only [h1, h2, h3, ne_eq, not_true_eq_false, if_false, Bool.not_false, if_true,
            reduceCtorEq, false_iff]
          rintro ⟨h, _, _, h5, _⟩
          cases h
          exact h3 h5
      · simp only [h1, h2, ne_eq, not_true_eq_false, not_false_eq_true, if_false, if_true,
          reduceCtorEq, false_iff]
        rintro ⟨h, _, h5, _⟩
        cases h
        exact h2 h5
    · simp only [h1, ne_eq, not_false_eq_true, if_true, reduceCtorEq, false_iff]
      rintro ⟨h, h5, _⟩
      cases h
      exact h1 h5

/-- **C29.** No response or one that is not square is an AssertionError, everything else that is refused
a ValueError; the object keeps the response it was given, and nothing else changes. -/
theorem C29_refuses (smooth : List ℚ → List ℚ) (close : List ℚ → List ℚ → Bool)
    (gs : List ℚ → List ℚ → List ℚ → Except Err (List ℚ)) (o : Unf) (raw : Mat)
    (response : Option Mat) (e : Err)
    (h : updateValues close (response.orElse fun _ => o.R) raw = .error e) :
    o.apply smooth close gs raw response =
        ({ o with R := response.orElse fun _ => o.R }, .error e) ∧
      (e = .assertion ↔ ∀ R, (response.orElse fun _ => o.R) = some R → R.values.length ≠ R.Eg.length) ∧
      (e = .assertion ∨ e = .valueError) := by
  refine ⟨by simp only [Unf.apply, h], ?_⟩
  unfold updateValues at h
  generalize (response.orElse fun _ => o.R) = R0 at h
  cases R0 with
  | none => cases h; simp
  | some R =>
    simp only at h
    by_cases h1 : R.values.length = R.Eg.length
    · have : e = .valueError := by
        rw [if_neg (by simp [h1])] at h
        split_ifs at h <;> cases h <;> rfl
      subst this
      simp [h1]
    · rw [if_pos h1] at h
      cases h
      simp [h1]

theorem zipWith_sum (f : ℚ → ℚ → ℚ) (a b : List ℚ) (n : ℕ) (ha : a.length = n) (hb : b.length = n) :
    (List.zipWith f a b).sum = ∑ k ∈ Finset.range n, f (a.getD k 0) (b.getD k 0) := by
  rw [list_sum_eq_range]
  have : (List.zipWith f a b).length = n := by simp [ha, hb]
  rw [this]
  apply Finset.sum_congr rfl
  intro k hk
  have hk' := Finset.mem_range.1 hk
  rw [getD_zipWith _ _ _ (by omega) (by omega)]

/-- **C30.** The chi-square score of a row: the squared differences of folded and raw counts divided by
the raw counts, over the bins with positive raw counts only. -/
theorem C30_chi_square (r f : List ℚ) (n : ℕ) (hr : r.length = n) (hf : f.length = n) :
    chiSquareRow r f = ∑ k ∈ Finset.range n,
      if 0 < r.getD k 0 then (f.getD k 0 - r.getD k 0) ^ 2 / r.getD k 0 else 0 := by
  unfold chiSquareRow
  rw [zipWith_sum _ f r n hf hr]
  apply Finset.sum_congr rfl
  intro k _
  unfold div0
  by_cases h : 0 < r.getD k 0
  · rw [if_pos h, if_neg h.ne', if_pos h]
  · rw [if_neg h, if_pos rfl, if_neg h]

/-- **C30.** The fluctuation score: relative deviations from the smoothed row, over the bins where the
smoothed row is not zero. -/
theorem C30_fluctuations (smooth : List ℚ → List ℚ) (c : List ℚ) (n : ℕ) (hc : c.length = n)
    (hs : (smooth c).length = n) :
    fluctRow smooth c = ∑ k ∈ Finset.range n, if (smooth c).getD k 0 = 0 then 0
      else |((smooth c).getD k 0 - c.getD k 0) / (smooth c).getD k 0| := by
  unfold fluctRow
  rw [zipWith_sum _ _ c n hs hc]
  apply Finset.sum_congr rfl
  intro k _
  unfold div0
  split_ifs <;> simp

/-- **C30.** The ratio of fluctuations and the score of an iteration: finite if the raw row fluctuates;
otherwise NaN or infinite, and (with a positive weight) so is the score.  A weight of 0 does not remove
an infinite ratio. -/
theorem C30_score (fr fu w chi : ℚ) (hu : 0 ≤ fu) :
    (fr ≠ 0 → scoreNum w chi (fluctRatio fr fu) = .fin ((1 - w) * chi + w * (fu / fr))) ∧
    (fr = 0 → fu = 0 → scoreNum w chi (fluctRatio fr fu) = .nan) ∧
    (fr = 0 → 0 < fu → 0 < w → scoreNum w chi (fluctRatio fr fu) = .pinf) ∧
    (fr = 0 → 0 < fu → w = 0 → scoreNum w chi (fluctRatio fr fu) = .nan) := by
  refine ⟨fun h => ?_, fun h h' => ?_, fun h h' hw => ?_, fun h h' hw => ?_⟩
  · simp only [fluctRatio, h, if_false, scoreNum, Num.fin.injEq]
    ring
  · simp [fluctRatio, h, h', scoreNum]
  · simp [fluctRatio, h, h'.ne', scoreNum, hw, hw.ne']
  · simp [fluctRatio, h, h'.ne', scoreNum, hw]

theorem argminFrom_nan (l : List Num) : ∀ (bi i : ℕ), argminNumFrom .nan bi i l = bi := by
  induction l with
  | nil => intro bi i; rfl
  | cons x xs ih =>
    intro bi i
    have : argminBetter x .nan = false := by simp [argminBetter, Num.isNan]
    rw [argminNumFrom, this]
    exact ih bi (i + 1)

/-- **C30.** A score that is NaN is taken for the best one, the first of them if there are several;
`minimum_iterations` is applied to its index. -/
theorem C30_first_nan (minIter : ℕ) (pre post : List Num) (h : ∀ x ∈ pre, x.isNan = false) :
    selectIter minIter (pre ++ .nan :: post) =
      .ok (if pre.length < minIter then minIter else pre.length) := by
  have key : ∀ (pre : List Num), (∀ x ∈ pre, x.isNan = false) → ∀ (b : Num) (bi i : ℕ),
      b.isNan = false → argminNumFrom b bi i (pre ++ .nan :: post) = i + pre.length := by
    intro pre
    induction pre with
    | nil =>
      intro _ b bi i hb
      have : argminBetter .nan b = true := by cases b <;> simp_all [argminBetter, Num.isNan]
      rw [List.nil_append, argminNumFrom, this, if_pos rfl, argminFrom_nan]
      simp
    | cons x xs ih =>
      intro hx b bi i hb
      rw [List.cons_append, argminNumFrom]
      have h1 := ih (fun y hy => hx y (by simp [hy]))
      split_ifs
      · rw [h1 _ _ _ (hx x (by simp))]; simp; omega
      · rw [h1 _ _ _ hb]; simp; omega
  have : argminNum (pre ++ .nan :: post) = .ok pre.length := by
    cases pre with
    | nil => simp [argminNum, argminFrom_nan]
    | cons x xs =>
      rw [List.cons_append, argminNum, key xs (fun y hy => h y (by simp [hy])) _ _ _ (h x (by simp))]
      simp; omega
  unfold selectIter
  rw [this]
  rfl

example : selectIter 0 [.fin 5, .fin 1, .nan, .fin 0, .nan] = .ok 2 := by decide +kernel

example : chiSquareRow [4, 0, -1] [6, 3, 5] = 1 := by decide +kernel

/-- **C50.** The table must lie on the gamma axis of the response: another number of bins is a
ValueError, other energies an AssertionError. -/
theorem C50_table_axis (gs : List ℚ → List ℚ → List ℚ → Except Err (List ℚ)) (o : Unf) (R raw : Mat)
    (u : List (List ℚ)) (t : RespTab) (ht : o.tab = some t) :
    (t.E.length ≠ R.Eg.length → comptonSubtraction gs o R raw u = .error .valueError) ∧
    (t.E.length = R.Eg.length → t.E ≠ R.Eg →
      comptonSubtraction gs o R raw u = .error .assertion) := by
  constructor
  · intro h
    simp [comptonSubtraction, ht, h]
  · intro h h'
    simp [comptonSubtraction, ht, h, h']

/-- **C50.** The parts of the Compton subtraction with the multipliers of `response_tweak`: the full-energy
part smoothed with `fe/2` times the fwhm; single and double escape smoothed with `se/2` and `de/2` times
the fwhm, then moved down by 511 and 1024; the annihilation peak, all its counts in the bin of 511,
smoothed with `511` times the fwhm. -/
theorem C50_parts (gs : List ℚ → List ℚ → List ℚ → Except Err (List ℚ)) (t : RespTab)
    (tw : ℚ × ℚ × ℚ × ℚ) (d : List (String × ℚ)) (a b c e : ℚ) (u0 uf w : List ℚ)
    (ha : d.lookup "fe" = some a) (hb : d.lookup "se" = some b) (hc : d.lookup "de" = some c)
    (he : d.lookup "511" = some e) (htw : tweakOf (some d) = .ok tw) :
    comptonParts gs t tw u0 = .ok (uf, w) ↔
      ∃ us0 us ud0 ud i ua,
        gs (mulL t.pf u0) t.E (t.fwhm.map fun f => 1 / 2 * a * f) = .ok uf ∧
        gs (mulL t.ps u0) t.E (t.fwhm.map fun f => 1 / 2 * b * f) = .ok us0 ∧
        rebin1D us0 (t.E.map (· + -511)) t.E = .ok us ∧
        gs (mulL t.pd u0) t.E (t.fwhm.map fun f => 1 / 2 * c * f) = .ok ud0 ∧
        rebin1D ud0 (t.E.map (· + -1024)) t.E = .ok ud ∧
        iFromE 511 t.E = .ok i ∧
        gs ((List.replicate u0.length 0).set i (mulL t.pa u0).sum) t.E (t.fwhm.map fun f => e * f)
          = .ok ua ∧
        w = addL (addL us ud) ua := by
  have : tw = (a, b, c, e) := by
    simp only [tweakOf, ha, hb, hc, he, Except.ok.injEq] at htw
    exact htw.symm
  subst this
  unfold comptonParts shiftRow
  simp only [bind, Except.bind, pure, Except.pure]
  cases h1 : gs (mulL t.pf u0) t.E (t.fwhm.map fun f => 1 / 2 * a * f) with
  | error x => simp
  | ok uf' =>
    cases h2 : gs (mulL t.ps u0) t.E (t.fwhm.map fun f => 1 / 2 * b * f) with
    | error x => simp
    | ok us0 =>
      cases h3 : rebin1D us0 (t.E.map (· + -511)) t.E with
      | error x => simp [h3]
      | ok us =>
        cases h4 : gs (mulL t.pd u0) t.E (t.fwhm.map fun f => 1 / 2 * c * f) with
        | error x => simp [h3]
        | ok ud0 =>
          cases h5 : rebin1D ud0 (t.E.map (· + -1024)) t.E with
          | error x => simp [h3, h5]
          | ok ud =>
            cases h6 : iFromE 511 t.E with
            | error x => simp [h3, h5]
            | ok i =>
              cases h7 : gs ((List.replicate u0.length 0).set i (mulL t.pa u0).sum) t.E
                  (t.fwhm.map fun f => e * f) with
              | error x => simp [h3, h5, h7]
              | ok ua =>
                simp only [h3, h5, h7, Except.ok.injEq, Prod.mk.injEq]
                constructor
                · rintro ⟨rfl, rfl⟩
                  exact ⟨us0, us, ud0, ud, i, ua, rfl, rfl, h3, rfl, h5, rfl, h7, rfl⟩
                · rintro ⟨us0', us', ud0', ud', i', ua', g1, g2, g3, g4, g5, g6, g7, g8⟩
                  subst g1 g2 g4 g6
                  rw [h3] at g3
                  rw [h5] at g5
                  rw [h7] at g7
                  cases g3; cases g5; cases g7
                  exact ⟨rfl, g8.symm⟩

example : tweakOf (some [("fe", 2), ("se", 3), ("de", 4), ("511", 5)]) = .ok (2, 3, 4, 5) := by
  decide +kernel

end Ompy
