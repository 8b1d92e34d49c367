import Verif.Trapezoid
import Verif.MatrixMore
import Verif.ExtractorProps

/-!
# C77: the trapezoidal cut
-/

namespace Ompy

/-- The two cuts of `trapezoid` one after the other. -/
theorem rect_cut (m : Mat) (a b : ℚ) (hc : m.consistent = true)
    (hEx : m.Ex ≠ []) (hEg : m.Eg ≠ []) (hsx : m.Ex.Pairwise (· < ·)) (hsg : m.Eg.Pairwise (· < ·)) :
    ∃ m1, m.cut 1 (some a) (some b) true true = .ok m1 ∧ m1.Eg = m.Eg ∧
      m1.Ex = m.Ex.filter (fun e => decide (a ≤ e ∧ e ≤ b)) ∧
      m1.Ex.zip m1.values = (m.Ex.zip m.values).filter (fun p => decide (a ≤ p.1 ∧ p.1 ≤ b)) ∧
      m1.values.length = m1.Ex.length ∧ (∀ r ∈ m1.values, r.length = m.Eg.length) ∧
      m1.std = m.std ∧ m1.state = m.state ∧
    ∀ c d, ∃ m2, m1.cut 0 (some c) (some d) true true = .ok m2 ∧ m2.Ex = m1.Ex ∧
      m2.Eg = m.Eg.filter (fun e => decide (c ≤ e ∧ e ≤ d)) ∧
      m2.values = m1.values.map (fun r =>
        ((m.Eg.zip r).filter (fun q => decide (c ≤ q.1 ∧ q.1 ≤ d))).map Prod.snd) ∧
      m2.std = m.std ∧ m2.state = m.state := by
  obtain ⟨m1, e1, x1, z1, g1⟩ := (C07_inclusive_exact m a b).1 hEx hsx
  have hEg1 : m1.Eg ≠ [] := by rw [g1]; exact hEg
  obtain ⟨hl, hw⟩ := consistent_shape m hc
  have hl1 : m1.values.length = m1.Ex.length ∧ (∀ r ∈ m1.values, r.length = m1.Eg.length) ∧
      m1.std = m.std ∧ m1.state = m.state := by
    have hcut := e1
    unfold Mat.cut at hcut
    cases hb : cutBounds m.Ex (some a) (some b) true true with
    | error e => simp [hb] at hcut
    | ok ab =>
      obtain ⟨i, j⟩ := ab
      simp only [one_ne_zero, if_false, hb, if_true, Except.ok.injEq] at hcut
      subst hcut
      exact ⟨pySlice_length_congr _ _ _ _ hl, fun r hr => hw r (pySlice_mem hr), rfl, rfl⟩
  refine ⟨m1, e1, g1, x1, z1, hl1.1, fun r hr => by rw [hl1.2.1 r hr, g1], hl1.2.2.1, hl1.2.2.2, ?_⟩
  intro c d
  obtain ⟨m', e2, g2, r2, x2⟩ := (C07_inclusive_exact m1 c d).2 hEg1 (by rw [g1]; exact hsg)
  have hl2 : m'.values.length = m1.values.length ∧ (∀ i < m1.values.length,
      (m'.values.getD i []).length = m'.Eg.length) ∧ m'.std = m1.std ∧ m'.state = m1.state := by
    have hcut := e2
    unfold Mat.cut at hcut
    cases hb : cutBounds m1.Eg (some c) (some d) true true with
    | error e => simp [hb] at hcut
    | ok ab =>
      obtain ⟨i, j⟩ := ab
      simp only [hb, if_true, Except.ok.injEq] at hcut
      subst hcut
      refine ⟨by simp, fun k hk => ?_, rfl, rfl⟩
      rw [List.getD_eq_getElem _ _ (by simpa using hk)]
      simp only [List.getElem_map]
      exact pySlice_length_congr _ _ _ _ (hl1.2.1 _ (List.getElem_mem hk))
  refine ⟨m', e2, x2, by rw [g2, g1], ?_, by rw [hl2.2.2.1, hl1.2.2.1], by rw [hl2.2.2.2, hl1.2.2.2]⟩
  apply List.ext_getElem
  · simp [hl2.1]
  · intro k hk hk'
    have hkv : k < m1.values.length := by rw [← hl2.1]; exact hk
    simp only [List.getElem_map]
    have hrow := r2 k hkv
    rw [List.getD_eq_getElem _ _ hk, List.getD_eq_getElem _ _ hkv, g1] at hrow
    rw [← hrow, List.map_snd_zip]
    have := hl2.2.1 k hkv
    rw [List.getD_eq_getElem _ _ hk] at this
    omega

/-- What a trapezoidal cut of the matrix is: `keep` says which entries (Ex, Eg) inside the rectangle are kept, the
others are zero. -/
def IsTrapezoid (m t : Mat) (exMin exMax egMin egMax : ℚ) (keep : ℚ → ℚ → Bool) : Prop :=
  t.Ex = m.Ex.filter (fun e => decide (exMin ≤ e ∧ e ≤ exMax)) ∧
  t.Eg = m.Eg.filter (fun e => decide (egMin ≤ e ∧ e ≤ egMax)) ∧
  t.Ex.zip t.values =
    ((m.Ex.zip m.values).filter (fun p => decide (exMin ≤ p.1 ∧ p.1 ≤ exMax))).map (fun p =>
      (p.1, ((m.Eg.zip p.2).filter (fun q => decide (egMin ≤ q.1 ∧ q.1 ≤ egMax))).map (fun q =>
        if keep p.1 q.1 then q.2 else 0))) ∧
  t.values.length = t.Ex.length ∧ t.std = m.std ∧ t.state = m.state

theorem zipWith_filter_zip (E : List ℚ) (r : List ℚ) (h : r.length = E.length) (p : ℚ → Bool) (f : ℚ → ℚ → ℚ) :
    List.zipWith f (E.filter p) (((E.zip r).filter (fun q => p q.1)).map Prod.snd)
      = ((E.zip r).filter (fun q => p q.1)).map (fun q => f q.1 q.2) := by
  induction E generalizing r with
  | nil => simp
  | cons e E ih =>
    cases r with
    | nil => simp at h
    | cons v r =>
      have ih' := ih r (by simpa using h)
      by_cases hp : p e = true
      · simp [hp, ih']
      · simp [hp, ih']

theorem zip_zipWith_eq (xs : List ℚ) (vs : List (List ℚ)) (f : ℚ → List ℚ → List ℚ) :
    xs.zip (List.zipWith f xs vs) = (xs.zip vs).map (fun p => (p.1, f p.1 p.2)) := by
  induction xs generalizing vs with
  | nil => simp
  | cons x xs ih =>
    cases vs with
    | nil => simp
    | cons v vs => simp [ih]

theorem zip_map_map (E : List ℚ) (s : Option ℚ) (f : ℚ × Option ℚ → ℚ → ℚ) (r : List ℚ) :
    List.zipWith f (E.zip (E.map fun _ => s)) r = List.zipWith (fun e v => f (e, s) v) E r := by
  induction E generalizing r with
  | nil => simp
  | cons e E ih =>
    cases r with
    | nil => simp
    | cons v r => simpa using ih r

/-- The mask of a fixed shift applied to the rectangle. -/
theorem trapezoid_core (m : Mat) (exMin exMax egMin : ℚ) (hc : m.consistent = true)
    (hEx : m.Ex ≠ []) (hEg : m.Eg ≠ []) (hsx : m.Ex.Pairwise (· < ·)) (hsg : m.Eg.Pairwise (· < ·)) :
    ∃ m1, m.cut 1 (some exMin) (some exMax) true true = .ok m1 ∧ m1.Eg = m.Eg ∧
      m1.Ex = m.Ex.filter (fun e => decide (exMin ≤ e ∧ e ≤ exMax)) ∧
      m1.Ex.zip m1.values = (m.Ex.zip m.values).filter (fun p => decide (exMin ≤ p.1 ∧ p.1 ≤ exMax)) ∧
      m1.values.length = m1.Ex.length ∧ (∀ r ∈ m1.values, r.length = m.Eg.length) ∧
      ∀ g, ∃ m2, m1.cut 0 (some egMin) (some g) true true = .ok m2 ∧ m2.Ex = m1.Ex ∧
        (∀ s : Option ℚ, IsTrapezoid m (maskDiag m2 (m2.Eg.map fun _ => s)) exMin exMax egMin g
          (fun ex eg => match s with | none => true | some d => decide (eg < ex + d))) := by
  obtain ⟨m1, e1, g1, x1, z1, l1, w1, -, -, H⟩ := rect_cut m exMin exMax hc hEx hEg hsx hsg
  refine ⟨m1, e1, g1, x1, z1, l1, w1, fun g => ?_⟩
  obtain ⟨m2, e2, x2, g2, v2, s2, t2⟩ := H egMin g
  refine ⟨m2, e2, x2, fun s => ⟨by rw [← x1, ← x2]; rfl, g2, ?_, ?_, s2, t2⟩⟩
  · show m2.Ex.zip (List.zipWith _ m2.Ex m2.values) = _
    rw [zip_zipWith_eq, ← z1, x2, v2, List.zip_map_right (l₁ := m1.Ex), List.map_map]
    apply List.map_congr_left
    intro p hp
    have hr : p.2.length = m.Eg.length := w1 _ (List.of_mem_zip hp).2
    simp only [Function.comp, Prod.map_fst, Prod.map_snd, id, Prod.mk.injEq, true_and]
    rw [g2, zip_map_map, zipWith_filter_zip _ _ hr (fun e => decide (egMin ≤ e ∧ e ≤ g))]
    apply List.map_congr_left
    intro q _
    cases s with
    | none => simp
    | some d =>
      by_cases h : q.1 < p.1 + d
      · simp [h]
      · simp [h, not_lt.mp h]
  · show (List.zipWith _ m2.Ex m2.values).length = m2.Ex.length
    rw [List.length_zipWith, v2, List.length_map, l1, x2, min_self]

/-- A matrix whose values have the shape of its increasing, nonempty axes. -/
def RegularMat (m : Mat) : Prop :=
  m.consistent = true ∧ m.Ex ≠ [] ∧ m.Eg ≠ [] ∧ m.Ex.Pairwise (· < ·) ∧ m.Eg.Pairwise (· < ·)

/-- **C77 (partial).** With a gamma limit not above the excitation limit, the cut is the rectangle of both windows in
which exactly the entries strictly below the diagonal through the corner `(Ex_max, Eg_max)` are kept.  Missing: the
entries on the diagonal (`C77_last_column_fails`) and limits with `Eg_max > Ex_max` (`C77_above_fails`). -/
theorem C77_trapezoid_partial (m : Mat) (exMin exMax egMin g : ℚ) (hm : RegularMat m) (hg : g ≤ exMax) :
    ∃ t, m.trapezoid exMin exMax egMin (some g) = .ok t ∧
      IsTrapezoid m t exMin exMax egMin g (fun ex eg => decide (eg - ex < g - exMax)) := by
  obtain ⟨hc, h1, h2, h3, h4⟩ := hm
  obtain ⟨m1, e1, -, -, -, -, -, H⟩ := trapezoid_core m exMin exMax egMin hc h1 h2 h3 h4
  obtain ⟨m2, e2, -, H2⟩ := H g
  have h0 : ¬ 0 < g - exMax := by linarith
  refine ⟨maskDiag m2 (m2.Eg.map fun _ => some (g - exMax)), ?_, ?_⟩
  · simp only [Mat.trapezoid, bind, Except.bind, pure, Except.pure, e1, e2, diagShift, if_neg h0]
  · have := H2 (some (g - exMax))
    have he : (fun ex eg : ℚ => decide (eg - ex < g - exMax))
        = (fun ex eg : ℚ => decide (eg < ex + (g - exMax))) := by
      funext ex eg
      exact decide_eq_decide.2 ⟨fun h => by linarith, fun h => by linarith⟩
    rw [he]
    exact this

/-- C77 is false: with a gamma limit above the excitation limit nothing at all is cut along the diagonal (the bin
width is computed from two rows of the mesh, it is zero and the diagonal NaN); with fewer than two excitation bins
left the call raises IndexError. -/
theorem C77_above_fails (m : Mat) (exMin exMax egMin g : ℚ) (hm : RegularMat m) (hg : exMax < g) :
    (2 ≤ (m.Ex.filter (fun e => decide (exMin ≤ e ∧ e ≤ exMax))).length →
      ∃ t, m.trapezoid exMin exMax egMin (some g) = .ok t ∧
        IsTrapezoid m t exMin exMax egMin g (fun _ _ => true)) ∧
    ((m.Ex.filter (fun e => decide (exMin ≤ e ∧ e ≤ exMax))).length < 2 →
      m.trapezoid exMin exMax egMin (some g) = .error .indexError) := by
  obtain ⟨hc, h1, h2, h3, h4⟩ := hm
  obtain ⟨m1, e1, -, x1, -, -, -, H⟩ := trapezoid_core m exMin exMax egMin hc h1 h2 h3 h4
  obtain ⟨m2, e2, x2, H2⟩ := H g
  have h0 : 0 < g - exMax := by linarith
  constructor
  · intro hl
    rw [← x1, ← x2] at hl
    refine ⟨maskDiag m2 (m2.Eg.map fun _ => none), ?_, H2 none⟩
    have hz : (List.zipWith (fun a b => a - b) (meshEg m2 1) (meshEg m2 0)).map
        (fun b => if b = 0 then none else some ((⌈(g - exMax) / b⌉ : ℤ) * b : ℚ)) = m2.Eg.map fun _ => none := by
      unfold meshEg
      generalize m2.Eg = l
      induction l with
      | nil => rfl
      | cons a l ih => simpa using ih
    simp only [Mat.trapezoid, bind, Except.bind, pure, Except.pure, e1, e2, diagShift, if_pos h0,
      if_neg (not_lt.2 hl), hz]
  · intro hl
    rw [← x1, ← x2] at hl
    simp only [Mat.trapezoid, bind, Except.bind, pure, Except.pure, e1, e2, diagShift, if_pos h0, if_pos hl]

theorem lastNonzero_none (row : List ℚ) (h : ∀ v ∈ row, v = 0) : lastNonzero row = none := by
  unfold lastNonzero
  rw [List.getLast?_eq_none_iff, List.filter_eq_nil_iff]
  intro k hk
  simp only [List.mem_range] at hk
  have := h _ (List.getElem_mem hk)
  rw [List.getD_eq_getElem _ _ hk]
  simp [this]

theorem lastNonzero_some (row : List ℚ) (k : ℕ) (hk : k < row.length) (h : row.getD k 0 ≠ 0)
    (hmax : ∀ i < row.length, row.getD i 0 ≠ 0 → i ≤ k) : lastNonzero row = some k := by
  unfold lastNonzero
  set l := (List.range row.length).filter fun k => decide (row.getD k 0 ≠ 0) with hl
  have hmem : ∀ i, i ∈ l ↔ i < row.length ∧ row.getD i 0 ≠ 0 := by
    intro i; rw [hl, List.mem_filter, List.mem_range]; simp
  have hs : l.Pairwise (· < ·) := List.pairwise_lt_range.filter _
  have hkl : k ∈ l := (hmem k).2 ⟨hk, h⟩
  have hne : l ≠ [] := List.ne_nil_of_mem hkl
  rw [List.getLast?_eq_some_getLast hne]
  congr 1
  apply le_antisymm
  · have := (hmem _).1 (List.getLast_mem hne)
    exact hmax _ this.1 this.2
  · obtain ⟨i, hi, rfl⟩ := List.getElem_of_mem hkl
    rw [List.getLast_eq_getElem]
    rcases Nat.lt_or_ge i (l.length - 1) with hlt | hge
    · exact (List.pairwise_iff_getElem.1 hs i (l.length - 1) hi (by omega) hlt).le
    · have : i = l.length - 1 := by omega
      exact le_of_eq (by congr 1)

/-- **C77.** Without `Eg_max` the limit is the largest gamma energy with a nonzero entry in the last kept row.  A
last row of zeros raises TypeError (the handler for the announced ValueError names an instance), no row IndexError. -/
theorem C77_auto (m : Mat) (exMin exMax egMin : ℚ) (hm : RegularMat m) :
    let rows := (m.Ex.zip m.values).filter (fun p => decide (exMin ≤ p.1 ∧ p.1 ≤ exMax))
    (rows = [] → m.trapezoid exMin exMax egMin none = .error .indexError) ∧
    (∀ p, rows.getLast? = some p → (∀ q ∈ m.Eg.zip p.2, q.2 = 0) →
      m.trapezoid exMin exMax egMin none = .error .typeError) ∧
    (∀ p, rows.getLast? = some p → ∀ q ∈ m.Eg.zip p.2, q.2 ≠ 0 →
      (∀ r ∈ m.Eg.zip p.2, r.2 ≠ 0 → r.1 ≤ q.1) →
      m.trapezoid exMin exMax egMin none = m.trapezoid exMin exMax egMin (some q.1)) := by
  intro rows
  obtain ⟨hc, h1, h2, h3, h4⟩ := hm
  obtain ⟨m1, e1, g1, x1, z1, l1, w1, H⟩ := trapezoid_core m exMin exMax egMin hc h1 h2 h3 h4
  have hv : m1.values = rows.map Prod.snd := by
    show _ = List.map Prod.snd (List.filter _ _)
    rw [← z1, List.map_snd_zip (by omega)]
  have hauto : ∀ e, autoEgMax m1 = .error e → m.trapezoid exMin exMax egMin none = .error e := by
    intro e he
    simp only [Mat.trapezoid, bind, Except.bind, e1, he]
  have hlast : ∀ p, rows.getLast? = some p → m1.values.getLast? = some p.2 := by
    intro p hp
    rw [hv, List.getLast?_map, hp]; rfl
  have hlen : ∀ p, rows.getLast? = some p → p.2.length = m.Eg.length := by
    intro p hp
    exact w1 _ (List.mem_of_getLast? (hlast p hp))
  refine ⟨fun hr => hauto _ ?_, fun p hp hz => hauto _ ?_, fun p hp q hq hqn hqm => ?_⟩
  · unfold autoEgMax
    rw [hv, hr]; rfl
  · unfold autoEgMax
    rw [hlast p hp]
    simp only
    rw [lastNonzero_none]
    intro v hv'
    obtain ⟨i, hi, rfl⟩ := List.getElem_of_mem hv'
    have hi' : i < m.Eg.length := by rw [← hlen p hp]; exact hi
    have := hz (m.Eg[i], p.2[i]) (by
      rw [List.mem_iff_getElem]
      exact ⟨i, by simp [hi, hi'], by simp⟩)
    exact this
  · obtain ⟨i, hi, rfl⟩ := List.getElem_of_mem hq
    have hi2 : i < p.2.length := by simp only [List.length_zip] at hi; omega
    have hi1 : i < m.Eg.length := by simp only [List.length_zip] at hi; omega
    rw [List.getElem_zip] at hqn hqm ⊢
    have hn : lastNonzero p.2 = some i := by
      apply lastNonzero_some _ _ hi2
      · rw [List.getD_eq_getElem _ _ hi2]; exact hqn
      · intro j hj hjn
        rw [List.getD_eq_getElem _ _ hj] at hjn
        have hj' : j < m.Eg.length := by rw [← hlen p hp]; exact hj
        have := hqm (m.Eg[j], p.2[j]) (by
          rw [List.mem_iff_getElem]
          exact ⟨j, by simp [hj, hj'], by simp⟩) hjn
        by_contra hlt
        have := List.pairwise_iff_getElem.1 h4 i j hi1 hj' (by omega)
        simp only at *
        linarith
    have ha : autoEgMax m1 = .ok m.Eg[i] := by
      unfold autoEgMax
      rw [hlast p hp]
      simp only
      rw [hn, g1]
      simp only
      rw [if_pos hi1, List.getD_eq_getElem _ _ hi1]
    simp only [Mat.trapezoid, bind, Except.bind, e1, ha, pure, Except.pure]

theorem filter_le_getLast (E : List ℚ) (hs : E.Pairwise (· < ·)) (a g : ℚ) (hg : g ∈ E) (ha : a ≤ g) :
    (E.filter (fun e => decide (a ≤ e ∧ e ≤ g))).getLast? = some g := by
  set l := E.filter (fun e => decide (a ≤ e ∧ e ≤ g)) with hl
  have hmem : ∀ e, e ∈ l ↔ e ∈ E ∧ a ≤ e ∧ e ≤ g := by
    intro e; rw [hl, List.mem_filter]; simp
  have hgl : g ∈ l := (hmem g).2 ⟨hg, ha, le_refl _⟩
  have hne : l ≠ [] := List.ne_nil_of_mem hgl
  rw [List.getLast?_eq_some_getLast hne]
  congr 1
  apply le_antisymm ((hmem _).1 (List.getLast_mem hne)).2.2
  have hsl : l.Pairwise (· < ·) := hs.filter _
  obtain ⟨i, hi, he⟩ := List.getElem_of_mem hgl
  rw [List.getLast_eq_getElem, ← he]
  rcases Nat.lt_or_ge i (l.length - 1) with hlt | hge
  · exact (List.pairwise_iff_getElem.1 hsl i (l.length - 1) hi (by omega) hlt).le
  · have : i = l.length - 1 := by omega
    exact le_of_eq (by congr 1)

/-- C77 is false: the column at `Eg_max` itself stays in the matrix but all of it, also the corner at `Ex_max`, is
set to zero. -/
theorem C77_last_column_fails (m t : Mat) (exMin exMax egMin g : ℚ) (hm : RegularMat m) (hg : g ≤ exMax)
    (hmem : g ∈ m.Eg) (hlo : egMin ≤ g) (ht : m.trapezoid exMin exMax egMin (some g) = .ok t) :
    t.Eg.getLast? = some g ∧ ∀ r ∈ t.values, r.length = t.Eg.length ∧ r.getLast? = some 0 := by
  obtain ⟨t', ht', tx, tg, tz, tl, -, -⟩ := C77_trapezoid_partial m exMin exMax egMin g hm hg
  rw [ht] at ht'
  obtain rfl := Except.ok.inj ht'
  obtain ⟨hc, h1, h2, h3, h4⟩ := hm
  obtain ⟨hl, hw⟩ := consistent_shape m hc
  have hE := filter_le_getLast m.Eg h4 egMin g hmem hlo
  refine ⟨by rw [tg]; exact hE, fun r hr => ?_⟩
  have hv : t.values = (t.Ex.zip t.values).map Prod.snd := by rw [List.map_snd_zip (by omega)]
  rw [hv, tz, List.map_map] at hr
  obtain ⟨p, hp, rfl⟩ := List.mem_map.1 hr
  have hp' := List.mem_filter.1 hp
  have hpx : p.1 ≤ exMax := by
    have := hp'.2
    simp only [decide_eq_true_eq] at this
    exact this.2
  have hlen : p.2.length = m.Eg.length := hw _ (List.of_mem_zip hp'.1).2
  have hfst : ((m.Eg.zip p.2).filter (fun q => decide (egMin ≤ q.1 ∧ q.1 ≤ g))).map Prod.fst
      = m.Eg.filter (fun e => decide (egMin ≤ e ∧ e ≤ g)) := by
    have : m.Eg = (m.Eg.zip p.2).map Prod.fst := by rw [List.map_fst_zip (by omega)]
    conv_rhs => rw [this, List.filter_map]
    rfl
  refine ⟨?_, ?_⟩
  · rw [tg, ← hfst]; simp
  · simp only [Function.comp, List.getLast?_map]
    have hE' := hE
    rw [← hfst, List.getLast?_map] at hE'
    cases hq : ((m.Eg.zip p.2).filter (fun q => decide (egMin ≤ q.1 ∧ q.1 ≤ g))).getLast? with
    | none => rw [hq] at hE'; simp at hE'
    | some q =>
      rw [hq] at hE'
      simp only [Option.map_some, Option.some.injEq] at hE' ⊢
      rw [hE', if_neg]
      simp only [decide_eq_true_eq]
      linarith

/-- Consequence for the extraction: after a trapezoidal cut with `Eg_max ≤ Ex_max` the last bin of the gamma
strength function is constrained by no counts at all (and is therefore reported as NaN), whatever the data. -/
theorem C77_unconstrained_fails (m t : Mat) (exMin exMax egMin g : ℚ) (res : List ℚ) (hm : RegularMat m) (hg : g ≤ exMax)
    (hmem : g ∈ m.Eg) (hlo : egMin ≤ g) (ht : m.trapezoid exMin exMax egMin (some g) = .ok t) :
    (constrainingCounts t res).2.length = t.Eg.length ∧
    (constrainingCounts t res).2.getD (t.Eg.length - 1) 1 = 0 := by
  obtain ⟨hE, hR⟩ := C77_last_column_fails m t exMin exMax egMin g hm hg hmem hlo ht
  have hpos : 0 < t.Eg.length := by
    rcases hh : t.Eg with _ | ⟨a, l⟩
    · rw [hh] at hE; simp at hE
    · simp
  refine ⟨by simp [constrainingCounts, countsV], ?_⟩
  unfold constrainingCounts countsV
  rw [List.getD_eq_getElem _ _ (by simpa using hpos)]
  simp only [List.getElem_map, List.getElem_range]
  apply Finset.sum_eq_zero
  intro i _
  unfold maskedV
  split_ifs
  · rfl
  · rcases Nat.lt_or_ge i t.values.length with hi | hi
    · rw [List.getD_eq_getElem _ [] hi]
      obtain ⟨hlen, hl0⟩ := hR _ (List.getElem_mem hi)
      rw [List.getLast?_eq_getElem?, hlen] at hl0
      rw [List.getD_eq_getElem?_getD, hl0]
      rfl
    · rw [List.getD_eq_default _ _ hi]; rfl

/-- **C77.** The call: in place the object becomes the cut matrix and nothing is returned; otherwise the object is
unchanged and the cut matrix returned.  A failing call changes nothing. -/
theorem C77_call (m : Mat) (exMin exMax egMin : ℚ) (g : Option ℚ) :
    (∀ t, m.trapezoid exMin exMax egMin g = .ok t →
      m.trapezoidCall exMin exMax egMin g true = (t, .ok none) ∧
      m.trapezoidCall exMin exMax egMin g false = (m, .ok (some t))) ∧
    (∀ e b, m.trapezoid exMin exMax egMin g = .error e → m.trapezoidCall exMin exMax egMin g b = (m, .error e)) := by
  constructor
  · intro t ht
    have hstd : t.std = m.std := by
      unfold Mat.trapezoid at ht
      cases h1 : m.cut 1 (some exMin) (some exMax) true true with
      | error e => rw [h1] at ht; simp [bind, Except.bind] at ht
      | ok m1 =>
        rw [h1] at ht
        have hcut : ∀ (a b : Mat) (ax : ℕ) (c d : Option ℚ), a.cut ax c d true true = .ok b → b.std = a.std := by
          intro a b ax c d h
          unfold Mat.cut at h
          cases hb : cutBounds (if ax = 0 then a.Eg else a.Ex) c d true true with
          | error e => simp [hb] at h
          | ok ab =>
            simp only [hb] at h
            by_cases h0 : ax = 0
            · rw [if_pos h0] at h; rw [← Except.ok.inj h]
            · rw [if_neg h0] at h
              by_cases h1 : ax = 1
              · rw [if_pos h1] at h; rw [← Except.ok.inj h]
              · rw [if_neg h1] at h; exact absurd h (by simp)
        have key : ∀ gg, (do
            let m2 ← m1.cut 0 (some egMin) (some gg) true true
            let s ← diagShift m2 (gg - exMax)
            pure (maskDiag m2 s)) = (.ok t : Except Err Mat) → t.std = m.std := by
          intro gg h
          simp only [bind, Except.bind, pure, Except.pure] at h
          cases h2 : m1.cut 0 (some egMin) (some gg) true true with
          | error e => rw [h2] at h; simp at h
          | ok m2 =>
            rw [h2] at h
            simp only at h
            cases h3 : diagShift m2 (gg - exMax) with
            | error e => rw [h3] at h; simp at h
            | ok s =>
              rw [h3] at h
              simp only at h
              rw [← Except.ok.inj h]
              show m2.std = _
              rw [hcut _ _ _ _ _ h2, hcut _ _ _ _ _ h1]
        cases g with
        | some gg => exact key gg ht
        | none =>
          cases ha : autoEgMax m1 with
          | error e => simp [ha, bind, Except.bind] at ht
          | ok gg => exact key gg (by rw [← ht]; simp only [bind, Except.bind, ha])
    simp only [Mat.trapezoidCall, ht, if_true, Bool.false_eq_true, if_false]
    rw [← hstd]
    exact ⟨rfl, trivial⟩
  · intro e b he
    simp only [Mat.trapezoidCall, he]

/-- A trapezoid of a trapezoid with the same limits is the same. -/
theorem isTrapezoid_idem (m t t' : Mat) (exMin exMax egMin g : ℚ) (keep : ℚ → ℚ → Bool)
    (hw : ∀ r ∈ m.values, r.length = m.Eg.length)
    (h : IsTrapezoid m t exMin exMax egMin g keep) (h' : IsTrapezoid t t' exMin exMax egMin g keep) : t' = t := by
  obtain ⟨tx, tg, tz, tl, ts, tt⟩ := h
  obtain ⟨tx', tg', tz', tl', ts', tt'⟩ := h'
  have ex : t'.Ex = t.Ex := by rw [tx', tx, List.filter_filter]; simp
  have eg : t'.Eg = t.Eg := by rw [tg', tg, List.filter_filter]; simp
  have ev : t'.values = t.values := by
    have a' : t'.values = (t'.Ex.zip t'.values).map Prod.snd := by rw [List.map_snd_zip (by omega)]
    have a : t.values = (t.Ex.zip t.values).map Prod.snd := by rw [List.map_snd_zip (by omega)]
    rw [a', tz']
    conv_rhs => rw [a]
    rw [List.map_map]
    have hf : (t.Ex.zip t.values).filter (fun p => decide (exMin ≤ p.1 ∧ p.1 ≤ exMax)) = t.Ex.zip t.values := by
      rw [List.filter_eq_self]
      intro p hp
      have := (List.of_mem_zip hp).1
      rw [tx] at this
      exact (List.mem_filter.1 this).2
    rw [hf]
    apply List.map_congr_left
    intro p hp
    simp only [Function.comp]
    rw [tz] at hp
    obtain ⟨p0, hp0, rfl⟩ := List.mem_map.1 hp
    have hlen : p0.2.length = m.Eg.length := hw _ (List.of_mem_zip (List.mem_filter.1 hp0).1).2
    have hz : t.Eg.zip (((m.Eg.zip p0.2).filter (fun q => decide (egMin ≤ q.1 ∧ q.1 ≤ g))).map (fun q =>
          if keep p0.1 q.1 then q.2 else 0))
        = ((m.Eg.zip p0.2).filter (fun q => decide (egMin ≤ q.1 ∧ q.1 ≤ g))).map (fun q =>
          (q.1, if keep p0.1 q.1 then q.2 else 0)) := by
      have hfst : t.Eg = ((m.Eg.zip p0.2).filter (fun q => decide (egMin ≤ q.1 ∧ q.1 ≤ g))).map Prod.fst := by
        rw [tg]
        have : m.Eg = (m.Eg.zip p0.2).map Prod.fst := by rw [List.map_fst_zip (by omega)]
        conv_lhs => rw [this, List.filter_map]
        rfl
      rw [hfst, List.zip_map']
    simp only
    rw [hz, List.filter_map, List.map_map, List.filter_filter]
    have : ((fun q : ℚ × ℚ => decide (egMin ≤ q.1 ∧ q.1 ≤ g)) ∘ fun q : ℚ × ℚ =>
        (q.1, if keep p0.1 q.1 = true then q.2 else 0)) = fun q => decide (egMin ≤ q.1 ∧ q.1 ≤ g) := rfl
    rw [this]
    simp only [Bool.and_self]
    apply List.map_congr_left
    intro q _
    simp only [Function.comp]
    split_ifs <;> rfl
  cases t; cases t'
  simp only at ex eg ev ts ts' tt tt'
  subst ex eg ev
  rw [ts', tt']

/-- **C77.** Cutting twice with the same explicit limits is cutting once (for a matrix without `std`; `std` is not
cut and the matrix inconsistent afterwards). -/
theorem C77_idempotent (m t : Mat) (exMin exMax egMin g : ℚ) (hm : RegularMat m) (hg : g ≤ exMax) (hstd : m.std = none)
    (ht : m.trapezoid exMin exMax egMin (some g) = .ok t) (hx : t.Ex ≠ []) (hgg : t.Eg ≠ []) :
    t.trapezoid exMin exMax egMin (some g) = .ok t := by
  obtain ⟨t', ht', hT⟩ := C77_trapezoid_partial m exMin exMax egMin g hm hg
  rw [ht] at ht'
  obtain rfl := Except.ok.inj ht'
  obtain ⟨hc, h1, h2, h3, h4⟩ := hm
  obtain ⟨hl, hw⟩ := consistent_shape m hc
  have hrows : ∀ r ∈ t.values, r.length = t.Eg.length := by
    intro r hr
    obtain ⟨tx, tg, tz, tl, -, -⟩ := hT
    have hv : t.values = (t.Ex.zip t.values).map Prod.snd := by rw [List.map_snd_zip (by omega)]
    rw [hv, tz, List.map_map] at hr
    obtain ⟨p, hp, rfl⟩ := List.mem_map.1 hr
    have hlen : p.2.length = m.Eg.length := hw _ (List.of_mem_zip (List.mem_filter.1 hp).1).2
    have hfst : ((m.Eg.zip p.2).filter (fun q => decide (egMin ≤ q.1 ∧ q.1 ≤ g))).map Prod.fst = t.Eg := by
      rw [tg]
      have : m.Eg = (m.Eg.zip p.2).map Prod.fst := by rw [List.map_fst_zip (by omega)]
      conv_rhs => rw [this, List.filter_map]
      rfl
    rw [← hfst]; simp
  have hreg : RegularMat t := by
    refine ⟨?_, hx, hgg, ?_, ?_⟩
    · have hn : t.std = none := by rw [hT.2.2.2.2.1, hstd]
      unfold Mat.consistent
      rw [hn]
      have := (hasShape_iff t.values t.Ex.length t.Eg.length).2 ⟨hT.2.2.2.1, hrows⟩
      simp [this]
    · rw [hT.1]; exact h3.filter _
    · rw [hT.2.1]; exact h4.filter _
  obtain ⟨t'', ht'', hT''⟩ := C77_trapezoid_partial t exMin exMax egMin g hreg hg
  rw [ht'', isTrapezoid_idem m t t'' _ _ _ _ _ hw hT hT'']

/-- C77 is false for the automatic limit: the element that defines it is erased, and every further call with the same
arguments takes one more column away. -/
theorem C77_shrinks_fails :
    let m : Mat := ⟨[[1, 2, 3, 4], [5, 6, 7, 8], [1, 9, 2, 3], [1, 1, 1, 0]], [1, 2, 3, 4], [1, 2, 3, 4], none, none⟩
    let t1 : Mat := ⟨[[0, 0, 0], [0, 0, 0], [1, 0, 0], [1, 1, 0]], [1, 2, 3], [1, 2, 3, 4], none, none⟩
    let t2 : Mat := ⟨[[0, 0], [0, 0], [0, 0], [1, 0]], [1, 2], [1, 2, 3, 4], none, none⟩
    let t3 : Mat := ⟨[[0], [0], [0], [0]], [1], [1, 2, 3, 4], none, none⟩
    m.trapezoid 1 4 1 none = .ok t1 ∧ t1.trapezoid 1 4 1 none = .ok t2 ∧ t2.trapezoid 1 4 1 none = .ok t3 ∧
      t3.trapezoid 1 4 1 none = .error .typeError := by decide +kernel

example : let m : Mat := ⟨[[1, 2, 3], [4, 5, 6], [7, 8, 9]], [1, 2, 3], [1, 2, 3], none, none⟩
    RegularMat m ∧ (2 : ℚ) ≤ 3 ∧ m.trapezoid 2 3 1 (some 2) = .ok ⟨[[0, 0], [7, 0]], [1, 2], [2, 3], none, none⟩ := by
  refine ⟨⟨by decide +kernel, by decide +kernel, by decide +kernel, by decide +kernel, by decide +kernel⟩, by norm_num,
    by decide +kernel⟩

/-- A gamma limit above the excitation limit: the rectangle, with counts far beyond the diagonal. -/
example : let m : Mat := ⟨[[1, 2, 3, 4], [4, 5, 6, 7], [7, 8, 9, 10]], [1, 2, 3, 4], [1, 2, 3], none, none⟩
    m.trapezoid 1 2 1 (some 3) = .ok ⟨[[1, 2, 3], [4, 5, 6]], [1, 2, 3], [1, 2], none, none⟩ ∧
    m.trapezoid 2 2 1 (some 3) = .error .indexError := by decide +kernel

end Ompy
