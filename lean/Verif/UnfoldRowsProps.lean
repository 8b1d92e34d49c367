import Verif.UnfolderProps
import Verif.MatrixProps

/-!
# C103: the unfolder treats the excitation bins one by one

About `Unfolder.apply` (ompy/unfolder.py:122-187) as modelled in `Unfolder.lean`.
-/

namespace Ompy

/-- The matrix made of the rows with the given numbers. -/
def pickRows (m : Mat) (idx : List ℕ) : Mat :=
  ⟨idx.map fun i => m.values.getD i [], m.Eg, idx.map fun i => m.Ex.getD i 0, m.std.map fun s => idx.map fun i => s.getD i [], m.state⟩

theorem mapM_iff {α β : Type} (f : α → Except Err β) (d : β) (l : List α) (r : List β) :
    l.mapM f = .ok r ↔ r.length = l.length ∧ ∀ k (hk : k < l.length), f l[k] = .ok (r.getD k d) := by
  induction l generalizing r with
  | nil =>
    simp only [List.mapM_nil, pure, Except.pure, Except.ok.injEq, List.length_nil]
    constructor
    · rintro rfl; exact ⟨rfl, fun k hk => by omega⟩
    · rintro ⟨h, -⟩; exact (List.length_eq_zero_iff.1 h).symm
  | cons a l ih =>
    simp only [List.mapM_cons, bind, Except.bind, pure, Except.pure]
    cases ha : f a with
    | error e =>
      simp only [reduceCtorEq, false_iff]
      rintro ⟨-, h⟩
      have := h 0 (by simp)
      simp only [List.getElem_cons_zero] at this
      rw [ha] at this
      cases this
    | ok y =>
      simp only
      cases hl : l.mapM f with
      | error e =>
        simp only [reduceCtorEq, false_iff]
        rintro ⟨h1, h2⟩
        cases r with
        | nil => simp at h1
        | cons b r =>
          have : l.mapM f = .ok r := (ih r).2 ⟨by simpa using h1, fun k hk => by
            have := h2 (k + 1) (by simpa using hk)
            rwa [List.getElem_cons_succ, List.getD_cons_succ] at this⟩
          rw [hl] at this
          cases this
      | ok ys =>
        simp only [Except.ok.injEq]
        constructor
        · rintro rfl
          obtain ⟨h1, h2⟩ := (ih ys).1 hl
          refine ⟨by simp [h1], fun k hk => ?_⟩
          cases k with
          | zero => simpa using ha
          | succ k => simpa using h2 k (by simpa using hk)
        · rintro ⟨h1, h2⟩
          cases r with
          | nil => simp at h1
          | cons b r =>
            have h0 := h2 0 (by simp)
            simp only [List.getElem_cons_zero, List.getD_cons_zero] at h0
            rw [ha] at h0
            have : l.mapM f = .ok r := (ih r).2 ⟨by simpa using h1, fun k hk => by
              have := h2 (k + 1) (by simpa using hk)
              rwa [List.getElem_cons_succ, List.getD_cons_succ] at this⟩
            rw [hl] at this
            rw [Except.ok.inj h0, Except.ok.inj this]

/-- Equal rows stay equal, wherever they are. -/
theorem iter_row (r r' R : List (List ℚ)) (n n' m : ℕ) {i i' : ℕ} (hi : i < n) (hi' : i' < n') (h : r.getD i [] = r'.getD i' []) (k : ℕ) :
    (unfoldIter r R n m k).1.getD i [] = (unfoldIter r' R n' m k).1.getD i' [] ∧ (unfoldIter r R n m k).2.getD i [] = (unfoldIter r' R n' m k).2.getD i' [] := by
  have mm : ∀ A A' : List (List ℚ), A.getD i [] = A'.getD i' [] → (matMul A R n m m).getD i [] = (matMul A' R n' m m).getD i' [] := by
    intro A A' hA
    unfold matMul
    rw [tabulate_row _ _ _ hi, tabulate_row _ _ _ hi']
    simp only [at2, hA]
  induction k with
  | zero =>
    simp only [unfoldIter, unfoldStep, lt_irrefl, if_false]
    exact ⟨h, mm _ _ h⟩
  | succ k ih =>
    simp only [unfoldIter, unfoldStep, Nat.succ_pos, if_true]
    have e : (tabulate n m fun a b => at2 (unfoldIter r R n m k).1 a b + (at2 r a b - at2 (unfoldIter r R n m k).2 a b)).getD i []
        = (tabulate n' m fun a b => at2 (unfoldIter r' R n' m k).1 a b + (at2 r' a b - at2 (unfoldIter r' R n' m k).2 a b)).getD i' [] := by
      rw [tabulate_row _ _ _ hi, tabulate_row _ _ _ hi']
      simp only [at2, h, ih.1, ih.2]
    exact ⟨e, mm _ _ e⟩

/-- What `apply` does with one spectrum `r`: the iteration selected and the spectrum returned. -/
def RowOut (smooth : List ℚ → List ℚ) (gs : List ℚ → List ℚ → List ℚ → Except Err (List ℚ)) (o : Unf) (R : Mat) (m : ℕ) (r : List ℚ) (s : ℕ) (out : List ℚ) : Prop :=
  selectIter (min o.minIter o.numIter) (rowScores smooth o.weight [r] R.values 1 m o.numIter 0) = .ok s ∧ s < o.numIter ∧
    ∃ out', (if o.useCompton then ∃ t tw, o.tab = some t ∧ tweakOf o.tweak = .ok tw ∧ comptonRow gs t tw r ((unfoldIter [r] R.values 1 m s).1.getD 0 []) = .ok out'
      else out' = (unfoldIter [r] R.values 1 m s).1.getD 0 []) ∧ out = out'.map fun x => if 0 < x then x else 0

/-- The response table is usable if it is needed. -/
def TabOk (o : Unf) (R : Mat) : Prop := o.useCompton = true → ∃ t tw, o.tab = some t ∧ t.E = R.Eg ∧ tweakOf o.tweak = .ok tw

theorem rowScores_row (smooth : List ℚ → List ℚ) (w : ℚ) (r r' R : List (List ℚ)) (n n' m K : ℕ) {i i' : ℕ} (hi : i < n) (hi' : i' < n') (h : r.getD i [] = r'.getD i' []) :
    rowScores smooth w r R n m K i = rowScores smooth w r' R n' m K i' := by
  unfold rowScores
  apply List.map_congr_left
  intro k _
  obtain ⟨h1, h2⟩ := iter_row r r' R n n' m hi hi' h k
  simp only [h, h1, h2]

theorem removeNegative_getD (u : List (List ℚ)) (i : ℕ) : (removeNegativeQ u).getD i [] = (u.getD i []).map fun x => if 0 < x then x else 0 := by
  unfold removeNegativeQ
  rw [List.getD_eq_getElem?_getD, List.getD_eq_getElem?_getD, List.getElem?_map]
  cases u[i]? <;> simp

theorem compton_iff (gs : List ℚ → List ℚ → List ℚ → Except Err (List ℚ)) (o : Unf) (R raw : Mat) (u u' : List (List ℚ)) (hu : u.length = raw.values.length) :
    comptonSubtraction gs o R raw u = .ok u' ↔ ∃ t tw, o.tab = some t ∧ t.E = R.Eg ∧ tweakOf o.tweak = .ok tw ∧ u'.length = u.length ∧
      ∀ i < u.length, comptonRow gs t tw (raw.values.getD i []) (u.getD i []) = .ok (u'.getD i []) := by
  unfold comptonSubtraction
  cases ht : o.tab with
  | none => simp
  | some t =>
    simp only [Option.some.injEq]
    by_cases h1 : t.E = R.Eg
    · rw [if_neg (by rw [h1]; simp), if_neg (by simpa using h1)]
      cases htw : tweakOf o.tweak with
      | error e => simp [bind, Except.bind]
      | ok tw =>
        simp only [bind, Except.bind, Except.ok.injEq]
        rw [mapM_iff _ []]
        have hz : (raw.values.zip u).length = u.length := by simp [hu]
        constructor
        · rintro ⟨a, b⟩
          refine ⟨t, tw, rfl, h1, rfl, by rw [a, hz], fun i hi => ?_⟩
          have := b i (by omega)
          rw [List.getElem_zip] at this
          rwa [List.getD_eq_getElem raw.values [] (by omega), List.getD_eq_getElem u [] hi]
        · rintro ⟨t', tw', rfl, -, rfl, a, b⟩
          refine ⟨by rw [a, hz], fun i hi => ?_⟩
          have := b i (by omega)
          rw [List.getElem_zip]
          rwa [List.getD_eq_getElem raw.values [] (by omega), List.getD_eq_getElem u [] (by omega)] at this
    · have : (if t.E.length ≠ R.Eg.length then (.error .valueError : Except Err (List (List ℚ))) else if t.E ≠ R.Eg then .error .assertion else do
          let tw ← tweakOf o.tweak
          (List.zip raw.values u).mapM fun p => comptonRow gs t tw p.1 p.2) ≠ .ok u' := by
        split
        · simp
        · simp
      constructor
      · intro h; exact absurd h this
      · rintro ⟨t', tw, rfl, h, -⟩; exact absurd h h1

/-- `apply` succeeds exactly if the energies fit and every row can be treated; then every row of the result is what becomes of that row of the raw matrix. -/
theorem apply_iff (smooth : List ℚ → List ℚ) (close : List ℚ → List ℚ → Bool) (gs : List ℚ → List ℚ → List ℚ → Except Err (List ℚ)) (o o' : Unf) (raw M : Mat)
    (response : Option Mat) (hv : raw.values.length = raw.Ex.length) :
    o.apply smooth close gs raw response = (o', .ok M) ↔
      ∃ R sel, updateValues close (response.orElse fun _ => o.R) raw = .ok R ∧ 2 ≤ raw.Eg.length ∧ TabOk o R ∧
        o' = { o with R := response.orElse fun _ => o.R, minIter := min o.minIter o.numIter, iscores := some sel } ∧
        M.Eg = raw.Eg ∧ M.Ex = raw.Ex ∧ M.std = none ∧ M.state = some .unfolded ∧ sel.length = raw.Ex.length ∧ M.values.length = raw.Ex.length ∧
        ∀ i < raw.Ex.length, RowOut smooth gs o R raw.Eg.length (raw.values.getD i []) (sel.getD i 0) (M.values.getD i []) := by
  have hrow : ∀ i, raw.values.getD i [] = [raw.values.getD i []].getD 0 [] := fun i => rfl
  constructor
  · intro h
    have hlen : 2 ≤ raw.Eg.length := by
      by_contra hc
      unfold Unf.apply at h
      simp only at h
      split at h
      · simp at h
      · rw [if_pos (by omega)] at h; simp at h
    obtain ⟨R, sel, u, u', hR, ho, hsel, hu, hc, hM⟩ := apply_ok h
    obtain ⟨s1, s2⟩ := (mapM_iff _ 0 _ _).1 hsel
    obtain ⟨u1, u2⟩ := (mapM_iff _ [] _ _).1 hu
    rw [List.length_range] at s1 u1
    have hs : ∀ i < raw.Ex.length, selectIter (min o.minIter o.numIter) (rowScores smooth o.weight [raw.values.getD i []] R.values 1 raw.Eg.length o.numIter 0) = .ok (sel.getD i 0) := by
      intro i hi
      have := s2 i (by simpa using hi)
      simp only [List.getElem_range] at this
      rwa [rowScores_row smooth o.weight raw.values [raw.values.getD i []] R.values raw.Ex.length 1 raw.Eg.length o.numIter hi Nat.zero_lt_one (hrow i)] at this
    have hcube : ∀ i < raw.Ex.length, sel.getD i 0 < o.numIter ∧ u.getD i [] = (unfoldIter [raw.values.getD i []] R.values 1 raw.Eg.length (sel.getD i 0)).1.getD 0 [] := by
      intro i hi
      have := u2 i (by simpa using hi)
      simp only [List.getElem_range] at this
      unfold cubeRow at this
      by_cases hlt : sel.getD i 0 < o.numIter
      · rw [if_pos hlt] at this
        refine ⟨hlt, ?_⟩
        rw [← Except.ok.inj this]
        exact (iter_row raw.values [raw.values.getD i []] R.values raw.Ex.length 1 raw.Eg.length hi Nat.zero_lt_one (hrow i) _).1
      · rw [if_neg hlt] at this; cases this
    have ht : o'.tab = o.tab ∧ o'.tweak = o.tweak := by rw [ho]; exact ⟨rfl, rfl⟩
    by_cases hcomp : o.useCompton = true
    · rw [if_pos hcomp, compton_iff gs o' R raw u u' (by omega), ht.1, ht.2] at hc
      obtain ⟨t, tw, h1, h2, h3, h4, h5⟩ := hc
      refine ⟨R, sel, hR, hlen, fun _ => ⟨t, tw, h1, h2, h3⟩, ho, by rw [hM], by rw [hM], by rw [hM], by rw [hM], s1, ?_, ?_⟩
      · rw [hM]; simp [removeNegativeQ, h4, u1]
      · intro i hi
        refine ⟨hs i hi, (hcube i hi).1, u'.getD i [], ?_, ?_⟩
        · rw [if_pos hcomp]
          exact ⟨t, tw, h1, h3, by rw [← (hcube i hi).2]; exact h5 i (by omega)⟩
        · rw [hM]; exact removeNegative_getD u' i
    · rw [if_neg hcomp] at hc
      have e := Except.ok.inj hc
      refine ⟨R, sel, hR, hlen, fun h => absurd h hcomp, ho, by rw [hM], by rw [hM], by rw [hM], by rw [hM], s1, ?_, ?_⟩
      · rw [hM]; simp [removeNegativeQ, ← e, u1]
      · intro i hi
        refine ⟨hs i hi, (hcube i hi).1, u.getD i [], ?_, ?_⟩
        · rw [if_neg hcomp]; exact (hcube i hi).2
        · rw [hM, ← e]; exact removeNegative_getD u i
  · rintro ⟨R, sel, hR, hlen, htab, ho, e1, e2, e3, e4, s1, m1, hrows⟩
    have hsel : (List.range raw.Ex.length).mapM (fun i : ℕ => selectIter (min o.minIter o.numIter)
        (rowScores smooth o.weight raw.values R.values raw.Ex.length raw.Eg.length o.numIter i)) = .ok sel := by
      rw [mapM_iff _ 0]
      refine ⟨by simpa using s1, fun k hk => ?_⟩
      have hk' : k < raw.Ex.length := by simpa using hk
      simp only [List.getElem_range]
      rw [rowScores_row smooth o.weight raw.values [raw.values.getD k []] R.values raw.Ex.length 1 raw.Eg.length o.numIter hk' Nat.zero_lt_one (hrow k)]
      exact (hrows k hk').1
    set u := (List.range raw.Ex.length).map fun i => (unfoldIter [raw.values.getD i []] R.values 1 raw.Eg.length (sel.getD i 0)).1.getD 0 [] with hu
    have hulen : u.length = raw.Ex.length := by simp [hu]
    have hug : ∀ i < raw.Ex.length, u.getD i [] = (unfoldIter [raw.values.getD i []] R.values 1 raw.Eg.length (sel.getD i 0)).1.getD 0 [] := by
      intro i hi
      rw [hu, List.getD_eq_getElem _ [] (by simpa using hi)]
      simp
    have hcube : (List.range raw.Ex.length).mapM (fun i : ℕ => cubeRow raw.values R.values raw.Ex.length raw.Eg.length o.numIter i (sel.getD i 0)) = .ok u := by
      rw [mapM_iff _ []]
      refine ⟨by simpa using hulen, fun k hk => ?_⟩
      have hk' : k < raw.Ex.length := by simpa using hk
      simp only [List.getElem_range]
      unfold cubeRow
      rw [if_pos (hrows k hk').2.1, hug k hk']
      congr 1
      exact (iter_row raw.values [raw.values.getD k []] R.values raw.Ex.length 1 raw.Eg.length hk' Nat.zero_lt_one (hrow k) _).1
    have hu' : ∃ u', (if o.useCompton then comptonSubtraction gs o' R raw u else .ok u) = .ok u' ∧ M.values = removeNegativeQ u' := by
      have ext : ∀ u' : List (List ℚ), u'.length = raw.Ex.length → (∀ i < raw.Ex.length, M.values.getD i [] = (u'.getD i []).map fun x => if 0 < x then x else 0) →
          M.values = removeNegativeQ u' := by
        intro u' hl h
        apply List.ext_getElem
        · simp [removeNegativeQ, hl, m1]
        · intro i h1 h2
          have := h i (by omega)
          rw [← removeNegative_getD] at this
          rwa [List.getD_eq_getElem _ [] h1, List.getD_eq_getElem _ [] h2] at this
      by_cases hcomp : o.useCompton = true
      · obtain ⟨t, tw, t1, t2, t3⟩ := htab hcomp
        have hx : ∀ i < raw.Ex.length, ∃ out, comptonRow gs t tw (raw.values.getD i []) (u.getD i []) = .ok out ∧ M.values.getD i [] = out.map fun x => if 0 < x then x else 0 := by
          intro i hi
          obtain ⟨-, -, out, ha, hb⟩ := hrows i hi
          rw [if_pos hcomp] at ha
          obtain ⟨t', tw', q1, q2, q3⟩ := ha
          rw [t1] at q1
          rw [t3] at q2
          rw [Option.some.inj q1, Except.ok.inj q2, hug i hi]
          exact ⟨out, q3, hb⟩
        choose! f f1 f2 using hx
        have hfl : ∀ i < raw.Ex.length, ((List.range raw.Ex.length).map f).getD i [] = f i := by
          intro i hi
          rw [List.getD_eq_getElem _ [] (by simpa using hi)]
          simp
        refine ⟨(List.range raw.Ex.length).map f, ?_, ext _ (by simp) ?_⟩
        · rw [if_pos hcomp, compton_iff gs o' R raw u _ (by omega)]
          refine ⟨t, tw, by rw [ho]; exact t1, t2, by rw [ho]; exact t3, by simp [hulen], fun i hi => ?_⟩
          rw [hulen] at hi
          rw [hfl i hi]
          exact f1 i hi
        · intro i hi
          rw [hfl i hi]
          exact f2 i hi
      · refine ⟨u, by rw [if_neg hcomp], ext u hulen ?_⟩
        intro i hi
        obtain ⟨-, -, out, ha, hb⟩ := hrows i hi
        rw [if_neg hcomp] at ha
        rw [hug i hi, hb, ha]
    obtain ⟨u', hc, hM⟩ := hu'
    unfold Unf.apply
    simp only
    rw [hR]
    simp only
    rw [if_neg (by omega), hsel]
    simp only
    rw [hcube]
    simp only
    rw [ho] at hc
    rw [hc, ho]
    simp only
    have : M = ⟨removeNegativeQ u', raw.Eg, raw.Ex, none, some .unfolded⟩ := by
      rw [← hM, ← e1, ← e2, ← e3, ← e4]
    rw [this]

theorem update_ok (close : List ℚ → List ℚ → Bool) (R? : Option Mat) (raw R : Mat) :
    updateValues close R? raw = .ok R ↔ R? = some R ∧ R.values.length = R.Eg.length ∧ raw.Eg.length = R.Eg.length ∧ close raw.Eg R.Eg = true ∧
      (∀ r ∈ raw.values, ∀ x ∈ r, 0 ≤ x) ∧ ∀ r ∈ R.values, ∀ x ∈ r, 0 ≤ x := by
  have neg : ∀ v : List (List ℚ), (v.any fun r => r.any fun x => decide (x < 0)) = false ↔ ∀ r ∈ v, ∀ x ∈ r, 0 ≤ x := by
    intro v
    simp [List.any_eq_false]
  cases R? with
  | none => simp [updateValues]
  | some R' =>
    unfold updateValues
    simp only [Option.some.injEq]
    constructor
    · intro h
      split at h
      · cases h
      · split at h
        · cases h
        · split at h
          · cases h
          · split at h
            · cases h
            · rename_i h1 h2 h3 h4
              have e := Except.ok.inj h
              subst e
              rw [Bool.or_eq_true, not_or, Bool.not_eq_true, Bool.not_eq_true, neg, neg] at h4
              exact ⟨rfl, by simpa using h1, by simpa using h2, by simpa using h3, h4.1, h4.2⟩
    · rintro ⟨rfl, h1, h2, h3, h4, h5⟩
      rw [if_neg (by simpa using h1), if_neg (by simpa using h2), if_neg (by simp [h3]), if_neg]
      rw [Bool.or_eq_true, not_or, Bool.not_eq_true, Bool.not_eq_true, neg, neg]
      exact ⟨h4, h5⟩

/-- **C103.** Any selection of the rows of a raw matrix — some of them, in another order, or repeated — is unfolded to the same selection of the rows of the unfolded matrix, and for every row the
same iteration is selected. -/
theorem C103_selection (smooth : List ℚ → List ℚ) (close : List ℚ → List ℚ → Bool) (gs : List ℚ → List ℚ → List ℚ → Except Err (List ℚ)) (o o' : Unf) (raw raw' M : Mat)
    (response : Option Mat) (hv : raw.values.length = raw.Ex.length) (h : o.apply smooth close gs raw response = (o', .ok M)) (idx : List ℕ) (hidx : ∀ i ∈ idx, i < raw.Ex.length)
    (hg : raw'.Eg = raw.Eg) (hx : raw'.Ex = (pickRows raw idx).Ex) (hr : raw'.values = (pickRows raw idx).values) :
    o.apply smooth close gs raw' response = ({ o' with iscores := o'.iscores.map fun s => idx.map fun i => s.getD i 0 }, .ok (pickRows M idx)) := by
  obtain ⟨R, sel, hR, hlen, htab, ho, e1, e2, e3, e4, s1, m1, hrows⟩ := (apply_iff smooth close gs o o' raw M response hv).1 h
  have hxl : raw'.Ex.length = idx.length := by rw [hx]; simp [pickRows]
  have hrl : raw'.values.length = idx.length := by rw [hr]; simp [pickRows]
  rw [apply_iff smooth close gs o _ raw' _ response (by omega)]
  refine ⟨R, idx.map fun i => sel.getD i 0, ?_, by rw [hg]; exact hlen, htab, by rw [ho]; rfl, ?_, ?_, ?_, e4, by simp [hxl], by simp [pickRows, hxl], ?_⟩
  · rw [update_ok] at hR ⊢
    refine ⟨hR.1, hR.2.1, by rw [hg]; exact hR.2.2.1, by rw [hg]; exact hR.2.2.2.1, ?_, hR.2.2.2.2.2⟩
    intro r hr'
    rw [hr] at hr'
    simp only [pickRows, List.mem_map] at hr'
    obtain ⟨i, hi, rfl⟩ := hr'
    have hi' := hidx i hi
    rw [List.getD_eq_getElem raw.values [] (by omega)]
    exact hR.2.2.2.2.1 _ (List.getElem_mem _)
  · rw [hg]; exact e1
  · rw [hx]; simp only [pickRows, e2]
  · simp [pickRows, e3]
  · intro k hk
    have hk' : k < idx.length := by omega
    have g : ∀ {α : Type} (l : List α) (d : α), (idx.map fun i => l.getD i d).getD k d = l.getD idx[k] d := by
      intro α l d
      rw [List.getD_eq_getElem _ d (by simpa using hk')]
      simp
    rw [hr, hg]
    simp only [pickRows]
    rw [g, g, g]
    exact hrows idx[k] (hidx _ (List.getElem_mem _))

/-- **C103.** Conversely a matrix can be unfolded if each of its rows can, and the results of the rows put together are the result of the matrix. -/
theorem C103_join (smooth : List ℚ → List ℚ) (close : List ℚ → List ℚ → Bool) (gs : List ℚ → List ℚ → List ℚ → Except Err (List ℚ)) (o : Unf) (raw : Mat)
    (response : Option Mat) (hv : raw.values.length = raw.Ex.length) (h0 : 0 < raw.Ex.length)
    (h : ∀ i < raw.Ex.length, ∃ o1 M1, o.apply smooth close gs (pickRows raw [i]) response = (o1, .ok M1)) :
    ∃ o' M, o.apply smooth close gs raw response = (o', .ok M) ∧ ∀ i < raw.Ex.length, ∃ o1, o.apply smooth close gs (pickRows raw [i]) response = (o1, .ok (pickRows M [i])) := by
  have one : ∀ i < raw.Ex.length, ∃ R s out, updateValues close (response.orElse fun _ => o.R) (pickRows raw [i]) = .ok R ∧ 2 ≤ raw.Eg.length ∧ TabOk o R ∧
      RowOut smooth gs o R raw.Eg.length (raw.values.getD i []) s out := by
    intro i hi
    obtain ⟨o1, M1, h1⟩ := h i hi
    obtain ⟨R, sel, hR, hlen, htab, -, -, -, -, -, -, -, hrows⟩ := (apply_iff smooth close gs o o1 _ M1 response rfl).1 h1
    exact ⟨R, _, _, hR, hlen, htab, hrows 0 (by simp [pickRows])⟩
  obtain ⟨R, _, _, hR, hlen, htab, -⟩ := one 0 h0
  have two : ∀ i < raw.Ex.length, ∃ p : ℕ × List ℚ, (∀ x ∈ raw.values.getD i [], 0 ≤ x) ∧ RowOut smooth gs o R raw.Eg.length (raw.values.getD i []) p.1 p.2 := by
    intro i hi
    obtain ⟨R1, s, out, hR1, -, -, hrow⟩ := one i hi
    rw [update_ok] at hR hR1
    have e : R1 = R := by
      have := hR1.1.symm.trans hR.1
      exact Option.some.inj this
    rw [e] at hrow
    exact ⟨(s, out), hR1.2.2.2.2.1 _ (by simp [pickRows]), hrow⟩
  choose! f f1 f2 using two
  have gd : ∀ {α : Type} (k : ℕ → α) (d : α), ∀ i < raw.Ex.length, ((List.range raw.Ex.length).map k).getD i d = k i := by
    intro α k d i hi
    rw [List.getD_eq_getElem _ d (by simpa using hi)]
    simp
  have key : o.apply smooth close gs raw response =
      ({ o with R := (response.orElse fun _ => o.R), minIter := min o.minIter o.numIter, iscores := some ((List.range raw.Ex.length).map fun i => (f i).1) }, .ok ⟨(List.range raw.Ex.length).map (fun i => (f i).2), raw.Eg, raw.Ex, none, some .unfolded⟩) := by
    rw [apply_iff smooth close gs o _ raw _ response hv]
    refine ⟨R, (List.range raw.Ex.length).map fun i => (f i).1, ?_, hlen, htab, rfl, rfl, rfl, rfl, rfl, by simp, by simp, ?_⟩
    · rw [update_ok] at hR ⊢
      refine ⟨hR.1, hR.2.1, hR.2.2.1, hR.2.2.2.1, ?_, hR.2.2.2.2.2⟩
      intro r hr
      obtain ⟨i, hi, rfl⟩ := List.mem_iff_getElem.1 hr
      have := f1 i (by omega)
      rwa [List.getD_eq_getElem raw.values [] hi] at this
    · intro i hi
      simp only
      rw [gd _ _ i hi, gd _ _ i hi]
      exact f2 i hi
  refine ⟨_, _, key, fun i hi => ?_⟩
  have := C103_selection smooth close gs o _ raw (pickRows raw [i]) _ response hv key [i] (by simpa using hi) rfl rfl rfl
  exact ⟨_, this⟩

theorem pySlice_pick {α : Type} (l : List α) (d : α) (n : ℕ) (hn : l.length = n) (a b : ℤ) :
    pySlice l a b = (pySlice (List.range n) a b).map fun i => l.getD i d := by
  have e : l = (List.range n).map fun i => l.getD i d := by
    apply List.ext_getElem
    · simp [hn]
    · intro i h1 h2
      rw [List.getElem_map, List.getElem_range, List.getD_eq_getElem l d h1]
  unfold pySlice
  rw [List.length_range, hn]
  conv_lhs => rw [e]
  rw [List.map_drop, List.map_take]

/-- **C103.** Cutting a range of excitation energies out of the raw matrix and unfolding, or unfolding and cutting, is the same. -/
theorem C103_cut (smooth : List ℚ → List ℚ) (close : List ℚ → List ℚ → Bool) (gs : List ℚ → List ℚ → List ℚ → Except Err (List ℚ)) (o o' : Unf) (raw c M : Mat)
    (response : Option Mat) (hv : raw.values.length = raw.Ex.length) (h : o.apply smooth close gs raw response = (o', .ok M)) (emin emax : Option ℚ) (i1 i2 : Bool)
    (hc : raw.cut 1 emin emax i1 i2 = .ok c) :
    ∃ o1 M1, o.apply smooth close gs c response = (o1, .ok M1) ∧ M.cut 1 emin emax i1 i2 = .ok M1 := by
  obtain ⟨R, sel, hR, hlen, htab, ho, e1, e2, e3, e4, s1, m1, hrows⟩ := (apply_iff smooth close gs o o' raw M response hv).1 h
  unfold Mat.cut at hc ⊢
  simp only [one_ne_zero, if_false, if_true] at hc ⊢
  rw [e2]
  cases hb : cutBounds raw.Ex emin emax i1 i2 with
  | error e => rw [hb] at hc; cases hc
  | ok ab =>
    obtain ⟨a, b⟩ := ab
    rw [hb] at hc
    simp only [Except.ok.injEq] at hc
    subst hc
    refine ⟨_, _, C103_selection smooth close gs o o' raw _ M response hv h (pySlice (List.range raw.Ex.length) a b) ?_ rfl ?_ ?_, ?_⟩
    · intro i hi
      unfold pySlice at hi
      exact List.mem_range.1 (List.mem_of_mem_take (List.mem_of_mem_drop hi))
    · exact pySlice_pick raw.Ex 0 _ rfl a b
    · exact pySlice_pick raw.values [] _ hv a b
    · simp only [Except.ok.injEq, pickRows, e3, Option.map_none]
      rw [pySlice_pick M.values [] _ m1 a b, ← e2, ← pySlice_pick M.Ex 0 _ rfl a b]

/-- Non-vacuity: three spectra, of which different iterations are selected, and the cut of the upper two. -/
example :
    let R : Mat := ⟨[[1, 0], [1/4, 3/4]], [1, 2], [1, 2], none, none⟩
    let o : Unf := ⟨4, 0, 1/5, some R, false, none, none, none⟩
    let raw : Mat := ⟨[[11, 9], [5, 0], [2, 10]], [1, 2], [1, 2, 3], none, none⟩
    let out := o.apply flatSmooth (fun _ _ => true) (fun r _ _ => .ok r) raw none
    out.2.isOk = true ∧ out.1.iscores = some [1, 0, 3] ∧
    raw.cut 1 (some 2) (some 3) true true = .ok ⟨[[5, 0], [2, 10]], [1, 2], [2, 3], none, none⟩ := by
  decide +kernel

end Ompy
