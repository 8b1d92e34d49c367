import Verif.TornText
import Verif.MamaTextProps
import Verif.FileIOProps
import Mathlib.Data.List.TakeWhile

/-!
# C143: text files that end too early
-/

namespace Ompy

/-! ### Lines and words of a text that ends too early -/

theorem cutAt_take (c : Char) (t : List Char) : ∀ n, ∃ k p w, cutAt c (t.take n) = (cutAt c t).take k ++ [p] ∧
    (cutAt c t)[k]? = some w ∧ p <+: w := by
  induction t with
  | nil => intro n; exact ⟨0, [], [], by simp [cutAt], by simp [cutAt], List.prefix_refl _⟩
  | cons x xs ih =>
    intro n
    cases n with
    | zero =>
      obtain ⟨w, ws, hw⟩ := List.exists_cons_of_ne_nil (cutAt_ne c (x :: xs))
      exact ⟨0, [], w, by simp [cutAt], by simp [hw], List.nil_prefix⟩
    | succ n =>
      obtain ⟨k, p, w, h1, h2, h3⟩ := ih n
      rw [List.take_succ_cons]
      by_cases hx : x = c
      · refine ⟨k + 1, p, w, ?_, ?_, h3⟩
        · simp [cutAt, hx, h1]
        · simpa [cutAt, hx] using h2
      · obtain ⟨a, L, hL⟩ := List.exists_cons_of_ne_nil (cutAt_ne c xs)
        cases k with
        | zero =>
          refine ⟨0, x :: p, x :: a, ?_, ?_, ?_⟩
          · simp [cutAt, hx, h1]
          · simp [cutAt, hx, hL]
          · rw [hL] at h2
            simp at h2
            rw [h2]
            exact (List.prefix_cons_inj x).2 h3
        | succ k =>
          refine ⟨k + 1, p, w, ?_, ?_, h3⟩
          · simp [cutAt, hx, h1, hL]
          · rw [hL] at h2
            simpa [cutAt, hx, hL] using h2

/-- The fields of the beginning of a row: the first numbers, then the beginning of a number. -/
theorem fields_prefix (r : List ℚ) (p : List Char) (hp : p <+: txtRow r) :
    fieldsOf p = [] ∨ ∃ j q y, r[j]? = some y ∧ q <+: printL 'e' 18 y ∧
      ((q = [] ∧ 0 < j ∧ fieldsOf p = (r.take j).map fun x => printL 'e' 18 x) ∨
        (q ≠ [] ∧ fieldsOf p = ((r.take j).map fun x => printL 'e' 18 x) ++ [q])) := by
  have hclean : '#' ∉ p := fun h => (txtRow_clean r).2.2 (hp.subset h)
  rw [fieldsOf_clean _ hclean]
  cases hr : r with
  | nil =>
    left
    rw [hr] at hp
    have : p = [] := by simpa [txtRow, joinC] using hp
    subst this
    simp [wordsIn, cutAt]
  | cons a b =>
    rw [← hr]
    have hrow : cutAt ' ' (txtRow r) = r.map fun x => printL 'e' 18 x := by
      unfold txtRow
      refine cutAt_join ' ' _ (by simp [hr]) ?_
      intro w hw
      obtain ⟨x, -, rfl⟩ := List.mem_map.1 hw
      exact (printe_clean x).1
    obtain ⟨n, rfl⟩ : ∃ n, p = (txtRow r).take n := ⟨p.length, List.prefix_iff_eq_take.1 hp⟩
    obtain ⟨j, q, w, h1, h2, h3⟩ := cutAt_take ' ' (txtRow r) n
    rw [hrow] at h1 h2
    have hfil : ((r.map fun x => printL 'e' 18 x).take j).filter (fun f => decide (f ≠ [])) =
        (r.take j).map fun x => printL 'e' 18 x := by
      rw [← List.map_take, List.filter_eq_self]
      intro f hf
      obtain ⟨x, -, rfl⟩ := List.mem_map.1 hf
      simpa using (printe_clean x).2.2.2.2
    have hw : wordsIn ((txtRow r).take n) =
        ((r.take j).map fun x => printL 'e' 18 x) ++ [q].filter (fun f => decide (f ≠ [])) := by
      unfold wordsIn
      rw [h1, List.filter_append, hfil]
    simp only [List.getElem?_map, Option.map_eq_some_iff] at h2
    obtain ⟨y, hy, rfl⟩ := h2
    by_cases hq : q = []
    · subst hq
      by_cases hj : j = 0
      · left; subst hj; simpa using hw
      · right
        exact ⟨j, [], y, hy, h3, .inl ⟨rfl, Nat.pos_of_ne_zero hj, by simpa using hw⟩⟩
    · right
      exact ⟨j, q, y, hy, h3, .inr ⟨hq, by simpa [hq] using hw⟩⟩

theorem mapM_txtNums (l : List ℚ) : (l.map fun x => printL 'e' 18 x).mapM floatOf = .ok (l.map (sigRound 18)) := by
  induction l with
  | nil => rfl
  | cons x xs ih =>
    have hone : floatOf (printL 'e' 18 x) = .ok (sigRound 18 x) := by
      unfold floatOf
      rw [(C98_read 'e' (Or.inr rfl) 0 18 x x).1]
    simp only [List.map_cons, List.mapM_cons, hone, ih, bind, Except.bind, pure, Except.pure]

theorem mapM_txtRows (L : List (List ℚ)) : (L.map fun r => r.map fun x => printL 'e' 18 x).mapM
    (fun f : List (List Char) => f.mapM floatOf) = .ok (L.map fun r => r.map (sigRound 18)) := by
  induction L with
  | nil => rfl
  | cons x xs ih => simp only [List.map_cons, List.mapM_cons, mapM_txtNums, ih, bind, Except.bind, pure, Except.pure]

theorem mapM_append_ok {α β : Type} (f : α → Except Err β) (a b : List α) (l m : List β) (ha : a.mapM f = .ok l)
    (hb : b.mapM f = .ok m) : (a ++ b).mapM f = .ok (l ++ m) := by
  rw [List.mapM_append, ha, hb]; rfl

theorem mapM_append_error {α β : Type} (f : α → Except Err β) (a b : List α) (l : List β) (e : Err) (ha : a.mapM f = .ok l)
    (hb : b.mapM f = .error e) : (a ++ b).mapM f = .error e := by
  rw [List.mapM_append, ha, hb]; rfl

/-- The lines of a table that ends too early. -/
theorem torn_lines (header : List Char) (hh : '\r' ∉ header) (rows : List (List ℚ)) (n : ℕ) :
    ∃ k p w, linesOf (tornText n (saveTxtText header rows)) = (hashed header ++ rows.map txtRow ++ [[]]).take k ++ [p] ∧
      (hashed header ++ rows.map txtRow ++ [[]])[k]? = some w ∧ p <+: w := by
  obtain ⟨h1, -⟩ := hashed_lines header hh
  have hclean : ∀ l ∈ hashed header ++ rows.map txtRow ++ [[]], OneLine l := by
    intro l hl
    rcases List.mem_append.1 hl with hl | hl
    · rcases List.mem_append.1 hl with hl | hl
      · exact h1 l hl
      · obtain ⟨r, -, rfl⟩ := List.mem_map.1 hl
        exact ⟨(txtRow_clean r).1, (txtRow_clean r).2.1⟩
    · rw [List.mem_singleton.1 hl]
      exact ⟨by simp, by simp⟩
  have hcr : '\r' ∉ saveTxtText header rows := by
    intro h
    rcases mem_joinC _ _ _ h with h | ⟨w, hw, h⟩
    · exact absurd h (by decide)
    · exact (hclean w hw).2 h
  have hcut : cutAt '\n' (saveTxtText header rows) = hashed header ++ rows.map txtRow ++ [[]] :=
    cutAt_join '\n' _ (by simp) fun l hl => (hclean l hl).1
  have hlin : linesOf (tornText n (saveTxtText header rows)) = cutAt '\n' ((saveTxtText header rows).take n) := by
    unfold linesOf tornText
    rw [univNl_id _ fun h => hcr (List.mem_of_mem_take h)]
  rw [hlin, ← hcut]
  exact cutAt_take '\n' _ n

/-- The fields of a table that ends too early: whole rows, then perhaps the beginning of a row. -/
theorem torn_fields (header : List Char) (hh : '\r' ∉ header) (rows : List (List ℚ)) (c : ℕ) (hc : 0 < c)
    (hr : ∀ r ∈ rows, r.length = c) (n : ℕ) :
    ∃ i ≤ rows.length, ∃ T : List (List (List Char)),
      ((linesOf (tornText n (saveTxtText header rows))).map fieldsOf).filter (fun f => decide (f ≠ [])) =
        ((rows.take i).map fun r => r.map fun x => printL 'e' 18 x) ++ T ∧
      (T = [] ∨ ∃ r j q y, rows[i]? = some r ∧ r[j]? = some y ∧ q <+: printL 'e' 18 y ∧
        ((q = [] ∧ 0 < j ∧ T = [(r.take j).map fun x => printL 'e' 18 x]) ∨
          (q ≠ [] ∧ T = [((r.take j).map fun x => printL 'e' 18 x) ++ [q]]))) := by
  obtain ⟨h1, h2⟩ := hashed_lines header hh
  obtain ⟨k, p, w, hl, hw, hp⟩ := torn_lines header hh rows n
  have hE : fieldsOf [] = [] := by decide
  have hhash : ∀ m, (((hashed header).take m).map fieldsOf).filter (fun f => decide (f ≠ [])) = [] := by
    intro m
    rw [List.filter_eq_nil_iff]
    intro f hf
    obtain ⟨l, hl, rfl⟩ := List.mem_map.1 hf
    simp [h2 l (List.mem_of_mem_take hl)]
  have hrows : ∀ m, (((rows.take m).map txtRow).map fieldsOf).filter (fun f => decide (f ≠ [])) =
      (rows.take m).map fun r => r.map fun x => printL 'e' 18 x := by
    intro m
    have e2 : ((rows.take m).map txtRow).map fieldsOf = (rows.take m).map fun r => r.map fun x => printL 'e' 18 x := by
      rw [List.map_map]
      exact List.map_congr_left fun r _ => fields_txtRow r
    rw [e2, List.filter_eq_self]
    intro f hf
    obtain ⟨r, hm, rfl⟩ := List.mem_map.1 hf
    have := hr r (List.mem_of_mem_take hm)
    simp only [decide_eq_true_eq, ne_eq, List.map_eq_nil_iff]
    rintro rfl
    simp at this
    omega
  rw [hl]
  by_cases hk1 : k < (hashed header).length
  · refine ⟨0, Nat.zero_le _, [], ?_, .inl rfl⟩
    have ht : (hashed header ++ rows.map txtRow ++ [[]]).take k = (hashed header).take k := by
      rw [List.append_assoc, List.take_append_of_le_length hk1.le]
    have hww : w ∈ hashed header := by
      rw [List.append_assoc, List.getElem?_append_left hk1] at hw
      exact List.mem_of_getElem? hw
    have hp0 : fieldsOf p = [] := by
      cases p with
      | nil => exact hE
      | cons a t =>
        have : a = '#' := by
          unfold hashed at hww
          split_ifs at hww
          · simp at hww
          · obtain ⟨l, -, rfl⟩ := List.mem_map.1 hww
            exact (List.cons_prefix_cons.1 hp).1
        subst this
        simp [fieldsOf, cutAt]
    rw [ht, List.map_append, List.filter_append, hhash]
    simp [hp0]
  · obtain ⟨i, rfl⟩ := Nat.exists_eq_add_of_le (not_lt.1 hk1)
    by_cases hk2 : i < rows.length
    · have ht : (hashed header ++ rows.map txtRow ++ [[]]).take ((hashed header).length + i) =
          (hashed header).take (hashed header).length ++ (rows.take i).map txtRow := by
        rw [List.append_assoc, List.take_length_add_append, List.take_length,
          List.take_append_of_le_length (by simpa using hk2.le), List.map_take]
      have hww : rows[i]?.map txtRow = some w := by
        rw [List.append_assoc, List.getElem?_append_right (by omega), Nat.add_sub_cancel_left,
          List.getElem?_append_left (by simpa using hk2), List.getElem?_map] at hw
        exact hw
      rw [Option.map_eq_some_iff] at hww
      obtain ⟨r, hri, rfl⟩ := hww
      rw [ht, List.map_append, List.map_append, List.filter_append, List.filter_append, hhash, hrows, List.nil_append]
      rcases fields_prefix r p hp with h0 | ⟨j, q, y, hy, hq, hcase⟩
      · exact ⟨i, hk2.le, [], by simp [h0], .inl rfl⟩
      · rcases hcase with ⟨rfl, hj, hf⟩ | ⟨hq0, hf⟩
        · refine ⟨i, hk2.le, _, rfl, .inr ⟨r, j, [], y, hri, hy, hq, .inl ⟨rfl, hj, ?_⟩⟩⟩
          have hne : fieldsOf p ≠ [] := by
            rw [hf]
            intro h
            have := congrArg List.length h
            have hlt := (List.getElem?_eq_some_iff.1 hy).1
            simp at this
            rcases this with h | h
            · omega
            · subst h; simp at hlt
          show [fieldsOf p].filter (fun f => decide (f ≠ [])) = _
          rw [List.filter_cons_of_pos (by simpa using hne), hf]
          rfl
        · refine ⟨i, hk2.le, _, rfl, .inr ⟨r, j, q, y, hri, hy, hq, .inr ⟨hq0, ?_⟩⟩⟩
          simp [hf]
    · have hlen : (hashed header).length + i < (hashed header ++ rows.map txtRow ++ [[]]).length :=
        (List.getElem?_eq_some_iff.1 hw).1
      have hi : i = rows.length := by
        simp at hlen
        omega
      subst hi
      have ht : (hashed header ++ rows.map txtRow ++ [[]]).take ((hashed header).length + rows.length) =
          (hashed header).take (hashed header).length ++ (rows.take rows.length).map txtRow := by
        rw [List.take_length, List.take_length, List.take_left' (by simp)]
      have hww : w = [] := by
        rw [List.getElem?_append_right (by simp)] at hw
        simp at hw
        exact hw
      subst hww
      have hp0 : p = [] := List.prefix_nil.1 hp
      subst hp0
      refine ⟨rows.length, le_rfl, [], ?_, .inl rfl⟩
      rw [ht, List.map_append, List.map_append, List.filter_append, List.filter_append, hhash, hrows]
      simp [hE]

/-! ### Theorems: tables -/

/-- **C143.** Whatever part of a table was written, what `np.loadtxt` returns are rows of the table, and at most the
very last number is wrong: all rows but the last are complete and right, the last one is complete unless it is the
only one, and all its numbers but the last are right. -/
theorem C143_table (header : List Char) (hh : '\r' ∉ header) (rows : List (List ℚ)) (c : ℕ) (hc : 0 < c)
    (hr : ∀ r ∈ rows, r.length = c) (n nc : ℕ) (R : List (List ℚ))
    (h : loadTxtText (tornText n (saveTxtText header rows)) = .ok (nc, R)) :
    ∃ i ≤ rows.length, R = (rows.take i).map (fun r => r.map (sigRound 18)) ∨
      ∃ r s, rows[i]? = some r ∧ R = (rows.take i).map (fun r => r.map (sigRound 18)) ++ [s] ∧ s ≠ [] ∧ s.length ≤ c ∧
        (0 < i → s.length = c) ∧ s.dropLast = (r.take (s.length - 1)).map (sigRound 18) := by
  obtain ⟨i, hi, T, hfs, hT⟩ := torn_fields header hh rows c hc hr n
  refine ⟨i, hi, ?_⟩
  unfold loadTxtText at h
  simp only at h
  rw [hfs] at h
  split_ifs at h with hall
  have hM := mapM_txtRows (rows.take i)
  have hfirst : ∀ r ∈ rows.take i, r.length = c := fun r hm => hr r (List.mem_of_mem_take hm)
  rcases hT with rfl | ⟨r, j, q, y, hri, hy, hq, hcase⟩
  · left
    rw [List.append_nil, hM] at h
    simp only [Except.map, Except.ok.injEq, Prod.mk.injEq] at h
    exact h.2.symm
  · right
    have hrc : r.length = c := hr r (List.mem_of_getElem? hri)
    have hjc : j < c := by
      have := (List.getElem?_eq_some_iff.1 hy).1
      omega
    -- the last row of fields, and what is read from it
    obtain ⟨g, s, rfl, hgs, hgl, hs0, hsl⟩ : ∃ g s, T = [g] ∧ (g.mapM floatOf = .ok s ∨ ∃ e, g.mapM floatOf = .error e) ∧
        g.length ≤ c ∧ (g.mapM floatOf = .ok s → s ≠ [] ∧ s.length = g.length) ∧
        (g.mapM floatOf = .ok s → s.dropLast = (r.take (s.length - 1)).map (sigRound 18)) := by
      rcases hcase with ⟨-, hj, rfl⟩ | ⟨-, rfl⟩
      · refine ⟨_, (r.take j).map (sigRound 18), rfl, .inl (mapM_txtNums _), by simp; omega, fun _ => ⟨?_, by simp⟩, fun _ => ?_⟩
        · intro h0
          have := congrArg List.length h0
          simp at this
          rcases this with h | h
          · omega
          · subst h; simp at hrc; omega
        · rw [← List.map_dropLast, List.dropLast_eq_take, List.take_take, List.length_map]
          congr 2
          simp
      · have hlen : (r.take j).length = j := by simp; omega
        cases hfq : floatOf q with
        | error e =>
          refine ⟨_, [], rfl, .inr ⟨e, mapM_append_error floatOf _ [q] _ e (mapM_txtNums _) ?_⟩, by simp; omega, fun h0 => ?_, fun h0 => ?_⟩
          · simp [List.mapM_cons, hfq, bind, Except.bind]
          all_goals
            rw [mapM_append_error floatOf _ [q] _ e (mapM_txtNums _) (by simp [List.mapM_cons, hfq, bind, Except.bind])] at h0
            cases h0
        | ok z =>
          have hz : ([q] : List (List Char)).mapM floatOf = .ok [z] := by
            simp [List.mapM_cons, hfq, bind, Except.bind, pure, Except.pure]
          refine ⟨_, (r.take j).map (sigRound 18) ++ [z], rfl, .inl (mapM_append_ok floatOf _ _ _ _ (mapM_txtNums _) hz),
            by simp; omega, fun _ => ⟨by simp, by simp⟩, fun _ => ?_⟩
          rw [List.dropLast_concat]
          simp
    rcases hgs with hg | ⟨e, hg⟩
    · have hg1 : ([g] : List (List (List Char))).mapM (fun f : List (List Char) => f.mapM floatOf) = .ok [s] := by
        simp [List.mapM_cons, hg, bind, Except.bind, pure, Except.pure]
      rw [mapM_append_ok _ _ _ _ _ hM hg1] at h
      simp only [Except.map, Except.ok.injEq, Prod.mk.injEq] at h
      obtain ⟨hs0', hsl'⟩ := hs0 hg
      refine ⟨r, s, hri, h.2.symm, hs0', by omega, fun hi0 => ?_, hsl hg⟩
      -- all rows have as many fields as the first
      have hx : ∃ a b, rows.take i = a :: b := by
        cases hti : rows.take i with
        | nil =>
          have := congrArg List.length hti
          simp at this
          rcases this with h | h
          · omega
          · subst h; simp at hri
        | cons a b => exact ⟨a, b, rfl⟩
      obtain ⟨a, b, hab⟩ := hx
      rw [hab] at hall
      simp only [List.map_cons, List.cons_append, List.headD_cons, List.all_cons, List.length_map, Bool.and_eq_true,
        List.all_append, decide_eq_true_eq] at hall
      have ha : a.length = c := hfirst a (by rw [hab]; simp)
      have := hall.2.2.1
      rw [hsl', this, ha]
    · have hg1 : ([g] : List (List (List Char))).mapM (fun f : List (List Char) => f.mapM floatOf) = .error e := by
        simp [List.mapM_cons, hg, bind, Except.bind]
      rw [mapM_append_error _ _ _ _ e hM hg1] at h
      cases h

theorem joinC_append (c : Char) (a b : List (List Char)) (ha : a ≠ []) (hb : b ≠ []) :
    joinC c (a ++ b) = joinC c a ++ c :: joinC c b := by
  induction a with
  | nil => exact absurd rfl ha
  | cons w ws ih =>
    cases ws with
    | nil =>
      obtain ⟨v, vs, rfl⟩ := List.exists_cons_of_ne_nil hb
      rfl
    | cons v vs =>
      have := ih (by simp)
      simp only [List.cons_append] at this ⊢
      simp only [joinC, this]
      simp

/-- The text of the first rows is the beginning of the text of all rows. -/
theorem save_prefix (header : List Char) (rows : List (List ℚ)) (i : ℕ) :
    saveTxtText header (rows.take i) <+: saveTxtText header rows := by
  unfold saveTxtText
  by_cases hi : rows.length ≤ i
  · rw [List.take_of_length_le hi]
  · by_cases hA : hashed header ++ (rows.take i).map txtRow = []
    · simp only [hA, List.nil_append, joinC]
      exact List.nil_prefix
    · have e : hashed header ++ rows.map txtRow ++ [[]] =
          (hashed header ++ (rows.take i).map txtRow) ++ ((rows.drop i).map txtRow ++ [[]]) := by
        conv_lhs => rw [← List.take_append_drop i rows, List.map_append]
        simp only [List.append_assoc]
      rw [e, joinC_append _ _ [[]] hA (by simp),
        joinC_append _ (hashed header ++ (rows.take i).map txtRow) ((rows.drop i).map txtRow ++ [[]]) hA (by simp)]
      rw [List.prefix_append_right_inj, List.cons_prefix_cons]
      exact ⟨rfl, List.nil_prefix⟩

/-- **C143.** A table that ends after row `i` is read without complaint as the table of its first `i` rows. -/
theorem C143_lines (header : List Char) (hh : '\r' ∉ header) (rows : List (List ℚ)) (c : ℕ) (hc : 0 < c)
    (hr : ∀ r ∈ rows, r.length = c) (i : ℕ) (hi : i ≤ rows.length) :
    ∃ n, loadTxtText (tornText n (saveTxtText header rows)) =
      .ok (if i = 0 then 0 else c, (rows.take i).map fun r => r.map (sigRound 18)) := by
  refine ⟨(saveTxtText header (rows.take i)).length, ?_⟩
  unfold tornText
  rw [← List.prefix_iff_eq_take.1 (save_prefix header rows i),
    C99_table_partial header hh (rows.take i) c hc fun r hm => hr r (List.mem_of_mem_take hm)]
  congr 2
  by_cases h0 : i = 0
  · simp [h0]
  · rw [if_neg h0, if_neg]
    intro h
    have := congrArg List.length h
    simp at this
    rcases this with h | h
    · omega
    · subst h; simp at hi; omega

theorem column_round (R : List (List ℚ)) (i k : ℕ) :
    column ((R.take i).map fun r => r.map (sigRound 18)) k = ((column R k).take i).map (sigRound 18) := by
  unfold column
  rw [← List.map_take, List.map_map, List.map_map]
  refine List.map_congr_left fun r _ => ?_
  simp only [Function.comp_apply, List.getD_eq_getElem?_getD, List.getElem?_map]
  cases r[k]? <;> simp [sigRound_zero]

/-- `np.loadtxt` of at least two rows and columns. -/
theorem loadtxt_two (nc : ℕ) (R : List (List ℚ)) (hn : 2 ≤ nc) (hR : 2 ≤ R.length) : loadtxt nc R = .d2 nc R := by
  unfold loadtxt
  split
  · simp at hR
  · simp at hR
  · rw [if_neg (by omega)]

/-- **C143.** A spectrum saved as text whose file ends after bin `i` (of at least two) is loaded without complaint as
the spectrum of its first `i` bins. -/
theorem C143_spectrum (v : Vec ℚ) (hv : v.consistent = true) (i : ℕ) (h2 : 2 ≤ i) (hi : i ≤ v.values.length) :
    ∃ n, loadVecText (tornText n (saveVecText v)) =
      .ok ((v.values.take i).map (sigRound 18), (v.E.take i).map (sigRound 18),
        v.std.map fun s => (s.take i).map (sigRound 18)) := by
  have hl := columns_len v hv
  have hne : columns1D v ≠ [] := by unfold columns1D; split <;> simp
  have hcl : 2 ≤ (columns1D v).length := by unfold columns1D; split <;> simp
  have hlen := columnStack_length _ _ hl hne
  have hrow : ∀ r ∈ columnStack (columns1D v), r.length = (columns1D v).length := by
    intro r hm
    obtain ⟨k, -, rfl⟩ := List.mem_map.1 hm
    simp
  obtain ⟨n, hn⟩ := C143_lines "E[keV] values".toList (by decide) (columnStack (columns1D v)) _ (by omega) hrow i (by omega)
  refine ⟨n, ?_⟩
  unfold loadVecText saveVecText
  rw [hn, if_neg (by omega)]
  simp only
  rw [loadtxt_two _ _ hcl (by simp; omega)]
  unfold split1D
  simp only [if_neg (show ¬ (columns1D v).length < 2 by omega), column_round]
  cases hs : v.std with
  | none =>
    have e : columns1D v = [v.E, v.values] := by simp [columns1D, hs]
    rw [e] at hl ⊢
    have c0 := column_stack _ _ hl 0 (by simp)
    have c1 := column_stack _ _ hl 1 (by simp)
    simp only [List.getElem_cons_zero, List.getElem_cons_succ] at c0 c1
    simp [c0, c1]
  | some s =>
    have e : columns1D v = [v.E, v.values, s] := by simp [columns1D, hs]
    rw [e] at hl ⊢
    have c0 := column_stack _ _ hl 0 (by simp)
    have c1 := column_stack _ _ hl 1 (by simp)
    have c2 := column_stack _ _ hl 2 (by simp)
    simp only [List.getElem_cons_zero, List.getElem_cons_succ] at c0 c1 c2
    simp [c0, c1, c2]

/-- **C143.** A matrix saved as text whose file ends after row `i` is loaded without complaint as the matrix of its
first `i` excitation bins. -/
theorem C143_matrix (m : Mat) (hv : m.values.length = m.Ex.length) (hr : ∀ r ∈ m.values, r.length = m.Eg.length)
    (hg : 0 < m.Eg.length) (i : ℕ) (h1 : 1 ≤ i) (hi : i ≤ m.Ex.length) :
    ∃ n, loadMatText (tornText n (saveMatText m)) =
      .ok ((m.values.take i).map (fun r => r.map (sigRound 18)), m.Eg.map (sigRound 18), (m.Ex.take i).map (sigRound 18)) := by
  have hrow : ∀ r ∈ pack2D 0 m.values m.Eg m.Ex, r.length = m.Eg.length + 1 := by
    intro r hm
    unfold pack2D at hm
    rcases List.mem_cons.1 hm with rfl | hm
    · simp
    · obtain ⟨k, hk, rfl⟩ := List.mem_iff_getElem.1 hm
      simp only [List.getElem_zipWith, List.length_cons]
      rw [hr _ (List.getElem_mem _)]
  have hlen : (pack2D 0 m.values m.Eg m.Ex).length = m.Ex.length + 1 := by simp [pack2D, hv]
  obtain ⟨n, hn⟩ := C143_lines header2D (by decide) (pack2D 0 m.values m.Eg m.Ex) _ (by omega) hrow (i + 1) (by omega)
  refine ⟨n, ?_⟩
  unfold loadMatText saveMatText
  rw [hn, if_neg (by omega)]
  simp only
  rw [loadtxt_two _ _ (by omega) (by simp [hlen]; omega)]
  unfold pack2D
  simp only [List.take_succ_cons, List.map_cons, unpack2D, List.tail_cons, Except.ok.injEq, Prod.mk.injEq, true_and]
  constructor
  · rw [List.map_map]
    apply List.ext_getElem
    · simp [hv]
    · intro k h1 h2
      simp
  · rw [column_round]
    congr 2
    unfold column
    apply List.ext_getElem
    · simp [hv]
    · intro k h1 h2
      simp

/-! ### A number without its last digit -/

theorem readExp_torn (e : ℤ) :
    readExp ((if e < 0 then ['-'] else ['+']) ++ padDigits (expWidth e.natAbs - 1) (e.natAbs / 10)) = some (e.tdiv 10) := by
  have hw : 2 ≤ expWidth e.natAbs := le_max_left _ _
  have hne : padDigits (expWidth e.natAbs - 1) (e.natAbs / 10) ≠ [] := by
    intro h
    have := pad_length (expWidth e.natAbs - 1) (e.natAbs / 10)
    rw [h, List.length_nil] at this
    omega
  have hlt : e.natAbs / 10 < 10 ^ (expWidth e.natAbs - 1) := by
    rw [Nat.div_lt_iff_lt_mul (by norm_num), ← pow_succ, Nat.sub_add_cancel (by omega)]
    exact exp_fits _
  have hr := readDigits_pad (expWidth e.natAbs - 1) (e.natAbs / 10) 0 hlt
  simp only [zero_mul, zero_add] at hr
  by_cases h : e < 0
  · rw [if_pos h]
    unfold readExp
    simp only [List.singleton_append, readSign, if_neg hne, hr, Option.map_some, if_true, Option.some.injEq]
    obtain ⟨n, rfl⟩ : ∃ n : ℕ, e = -n := ⟨e.natAbs, by omega⟩
    simp [Int.neg_tdiv]
  · rw [if_neg h]
    unfold readExp
    simp only [List.singleton_append, readSign, if_neg hne, hr, Option.map_some, Option.some.injEq]
    obtain ⟨n, rfl⟩ : ∃ n : ℕ, e = n := ⟨e.natAbs, by omega⟩
    simp

/-- **C143.** A printed number that lacks its last character is still a number: the exponent has lost its last
digit. -/
theorem C143_last_digit (c : Char) (hc : c = 'E' ∨ c = 'e') (p : ℕ) (x : ℚ) :
    readFloat (printL c p x).dropLast = some (sigRound p x * (10 : ℚ) ^ ((eParts p x).2.tdiv 10 - (eParts p x).2)) := by
  have hb : (eParts p x).1 < 10 ^ (p + 1) := by
    by_cases hx : x = 0
    · subst hx; simp [eParts]
    · exact (eParts_spec p x hx).2.1
  have hsp := (C98_no_separator c hc p x).1
  set d := eParts p x with hd
  have hform : (printL c p x).dropLast = (if decide (x < 0) then ['-'] else []) ++ ((padDigits 1 (d.1 / 10 ^ p) ++ ['.'] ++ padDigits p (d.1 % 10 ^ p)) ++
      c :: ((if d.2 < 0 then ['-'] else ['+']) ++ padDigits (expWidth d.2.natAbs - 1) (d.2.natAbs / 10))) := by
    unfold printL
    simp only [decide_eq_true_eq, ← hd]
    obtain ⟨w, hw⟩ : ∃ w, expWidth d.2.natAbs = w + 1 := ⟨expWidth d.2.natAbs - 1, by
      have : 2 ≤ expWidth d.2.natAbs := le_max_left _ _
      omega⟩
    rw [hw]
    simp only [padDigits, Nat.add_sub_cancel, ← List.append_assoc, List.dropLast_concat]
    simp
  unfold readFloat
  have hst : stripC (printL c p x).dropLast = (printL c p x).dropLast := by
    have := strip_pad 0 0 (printL c p x).dropLast (fun h => hsp (List.dropLast_subset _ h))
    simpa using this
  rw [hst]
  have hsign : readSign (printL c p x).dropLast = (decide (x < 0), (padDigits 1 (d.1 / 10 ^ p) ++ ['.'] ++ padDigits p (d.1 % 10 ^ p)) ++
      c :: ((if d.2 < 0 then ['-'] else ['+']) ++ padDigits (expWidth d.2.natAbs - 1) (d.2.natAbs / 10))) := by
    rw [hform]
    refine readSign_print _ _ ?_
    intro b hb'
    simp [padDigits] at hb'
    exact ⟨d.1 / 10 ^ p % 10, Nat.mod_lt _ (by norm_num), hb'.symm⟩
  have hq : ∀ c ∈ padDigits 1 (d.1 / 10 ^ p) ++ ['.'] ++ padDigits p (d.1 % 10 ^ p), (!isE c) = true := by
    intro c hc
    simp only [List.mem_append, List.mem_singleton] at hc
    rcases hc with (hc | rfl) | hc
    · obtain ⟨q, hq, rfl⟩ := digit_mem _ _ _ hc
      simp [(digit_ne q hq).2.2.2.2.2.2.2.2]
    · decide
    · obtain ⟨q, hq, rfl⟩ := digit_mem _ _ _ hc
      simp [(digit_ne q hq).2.2.2.2.2.2.2.2]
  obtain ⟨t1, t2⟩ := takeWhile_all (fun c => !isE c) _ c ((if d.2 < 0 then ['-'] else ['+']) ++ padDigits (expWidth d.2.natAbs - 1) (d.2.natAbs / 10)) hq (by rcases hc with rfl | rfl <;> decide)
  simp only [hsign, t1, t2, readMantissa_print p d.1 hb, Option.bind_some, List.drop_succ_cons, List.drop_zero]
  rw [if_neg (List.cons_ne_nil _ _), readExp_torn]
  simp only [Option.map_some, decide_eq_true_eq, Option.some.injEq]
  unfold sigRound
  rw [← hd, mul_assoc (_ * _) (_ ^ _), ← zpow_add₀ (by norm_num)]
  congr 2
  ring

/-- **C143.** This is the number printed only if the exponent is zero or the number is. -/
theorem C143_last_digit_right (c : Char) (hc : c = 'E' ∨ c = 'e') (p : ℕ) (x : ℚ) (hx : x ≠ 0) :
    readFloat (printL c p x).dropLast = some (sigRound p x) ↔ (eParts p x).2 = 0 := by
  have h0 : sigRound p x ≠ 0 := fun h => hx ((C98_sign p x).1.1 h)
  rw [C143_last_digit c hc, Option.some.injEq, mul_eq_left₀ h0]
  constructor
  · intro h
    have := (zpow_eq_one_iff_right₀ (by norm_num) (by norm_num)).1 h
    set e := (eParts p x).2
    have h1 : e.tdiv 10 = e := by omega
    rcases Int.lt_or_le e 0 with hn | hn
    · obtain ⟨n, hn'⟩ : ∃ n : ℕ, e = -n := ⟨e.natAbs, by omega⟩
      rw [hn', Int.neg_tdiv, neg_inj, Int.tdiv_eq_ediv_of_nonneg (by omega)] at h1
      omega
    · rw [Int.tdiv_eq_ediv_of_nonneg hn] at h1
      omega
  · intro h
    simp [h]

example : readFloat (printL 'e' 18 100).dropLast = some 1 := by decide +kernel

theorem dropLast_two (s : List Char) : s.dropLast.dropLast = tornText (s.length - 1 - 1) s := by
  unfold tornText
  rw [List.dropLast_eq_take, List.dropLast_eq_take, List.take_take, List.length_take]
  congr 1
  omega

theorem joinC_dropLast (c : Char) (a : List (List Char)) (w : List Char) (hw : w ≠ []) :
    (joinC c (a ++ [w])).dropLast = joinC c (a ++ [w.dropLast]) := by
  by_cases ha : a = []
  · subst ha; rfl
  · rw [joinC_append _ _ _ ha (by simp), joinC_append _ _ _ ha (by simp), List.dropLast_append_of_ne_nil (by simp)]
    simp only [joinC]
    rw [List.dropLast_cons_of_ne_nil hw]

/-- **C143.** A table without its last two characters, a line end and a digit, is read without complaint; all numbers
are right but the very last one, whose exponent has lost a digit. -/
theorem C143_wrong_number (header : List Char) (hh : '\r' ∉ header) (rows : List (List ℚ)) (pre : List ℚ) (x : ℚ)
    (hr : ∀ r ∈ rows, r.length = pre.length + 1) :
    ∃ n, loadTxtText (tornText n (saveTxtText header (rows ++ [pre ++ [x]]))) =
      .ok (pre.length + 1, rows.map (fun r => r.map (sigRound 18)) ++
        [pre.map (sigRound 18) ++ [sigRound 18 x * (10 : ℚ) ^ ((eParts 18 x).2.tdiv 10 - (eParts 18 x).2)]]) := by
  obtain ⟨g1, g2⟩ := hashed_lines header hh
  set q := (printL 'e' 18 x).dropLast with hq
  have hread := C143_last_digit 'e' (.inr rfl) 18 x
  rw [← hq] at hread
  have hq0 : q ≠ [] := by
    intro h
    rw [h] at hread
    have : readFloat [] = none := by decide +kernel
    rw [this] at hread
    cases hread
  set last := joinC ' ' ((pre.map fun y => printL 'e' 18 y) ++ [q]) with hlast
  have hrow : (txtRow (pre ++ [x])).dropLast = last := by
    unfold txtRow
    rw [List.map_append, List.map_singleton, joinC_dropLast _ _ _ (printe_clean x).2.2.2.2]
  have hrow0 : txtRow (pre ++ [x]) ≠ [] := by
    intro h
    have := fields_txtRow (pre ++ [x])
    rw [h] at this
    have e : fieldsOf [] = [] := by decide
    rw [e] at this
    simp at this
  have htext : (saveTxtText header (rows ++ [pre ++ [x]])).dropLast.dropLast = joinC '\n' (hashed header ++ rows.map txtRow ++ [last]) := by
    unfold saveTxtText
    rw [joinC_append _ _ [[]] (by simp) (by simp)]
    simp only [joinC]
    rw [List.dropLast_concat, List.map_append, List.map_singleton, ← List.append_assoc, joinC_dropLast _ _ _ hrow0, hrow]
  have hqm : ∀ y ∈ q, y ∈ printL 'e' 18 x := fun y hy => List.dropLast_subset _ hy
  have hqc : ' ' ∉ q ∧ '\n' ∉ q ∧ '\r' ∉ q ∧ '#' ∉ q := by
    obtain ⟨a1, a2, a3, a4, -⟩ := printe_clean x
    exact ⟨fun h => a1 (hqm _ h), fun h => a2 (hqm _ h), fun h => a3 (hqm _ h), fun h => a4 (hqm _ h)⟩
  have hsub : ∀ y ∈ last, y ∈ txtRow (pre ++ [x]) := by
    intro y hy
    rw [← hrow] at hy
    exact List.dropLast_subset _ hy
  have hlines : linesOf (joinC '\n' (hashed header ++ rows.map txtRow ++ [last])) = hashed header ++ rows.map txtRow ++ [last] := by
    refine linesOf_join _ (by simp) ?_
    intro l hl
    rcases List.mem_append.1 hl with hl | hl
    · rcases List.mem_append.1 hl with hl | hl
      · exact g1 l hl
      · obtain ⟨r, -, rfl⟩ := List.mem_map.1 hl
        exact ⟨(txtRow_clean r).1, (txtRow_clean r).2.1⟩
    · rw [List.mem_singleton.1 hl]
      exact ⟨fun h => (txtRow_clean _).1 (hsub _ h), fun h => (txtRow_clean _).2.1 (hsub _ h)⟩
  have hfl : fieldsOf last = (pre.map fun y => printL 'e' 18 y) ++ [q] := by
    rw [fieldsOf_clean _ fun h => (txtRow_clean _).2.2 (hsub _ h)]
    unfold wordsIn
    rw [hlast, cutAt_join ' ' _ (by simp), List.filter_eq_self]
    · intro f hf
      rcases List.mem_append.1 hf with hf | hf
      · obtain ⟨y, -, rfl⟩ := List.mem_map.1 hf
        simpa using (printe_clean y).2.2.2.2
      · rw [List.mem_singleton.1 hf]; simpa using hq0
    · intro w hw
      rcases List.mem_append.1 hw with hw | hw
      · obtain ⟨y, -, rfl⟩ := List.mem_map.1 hw
        exact (printe_clean y).1
      · rw [List.mem_singleton.1 hw]; exact hqc.1
  have hfs : ((hashed header ++ rows.map txtRow ++ [last]).map fieldsOf).filter (fun f => decide (f ≠ [])) =
      (rows.map fun r => r.map fun y => printL 'e' 18 y) ++ [(pre.map fun y => printL 'e' 18 y) ++ [q]] := by
    rw [List.map_append, List.map_append, List.filter_append, List.filter_append]
    have e1 : ((hashed header).map fieldsOf).filter (fun f => decide (f ≠ [])) = [] := by
      rw [List.filter_eq_nil_iff]
      intro f hf
      obtain ⟨l, hl, rfl⟩ := List.mem_map.1 hf
      simp [g2 l hl]
    have e2 : (rows.map txtRow).map fieldsOf = rows.map fun r => r.map fun y => printL 'e' 18 y := by
      rw [List.map_map]
      exact List.map_congr_left fun r _ => fields_txtRow r
    rw [e1, e2, List.map_singleton, hfl, List.nil_append]
    congr 1
    · rw [List.filter_eq_self]
      intro f hf
      obtain ⟨r, hm, rfl⟩ := List.mem_map.1 hf
      have := hr r hm
      simp only [decide_eq_true_eq, ne_eq, List.map_eq_nil_iff]
      rintro rfl
      simp at this
    · simp
  refine ⟨(saveTxtText header (rows ++ [pre ++ [x]])).length - 1 - 1, ?_⟩
  have htorn : tornText ((saveTxtText header (rows ++ [pre ++ [x]])).length - 1 - 1) (saveTxtText header (rows ++ [pre ++ [x]])) =
      joinC '\n' (hashed header ++ rows.map txtRow ++ [last]) := by
    rw [← htext]
    exact (dropLast_two _).symm
  unfold loadTxtText
  simp only
  rw [htorn, hlines, hfs]
  have hnc : (((rows.map fun r => r.map fun y => printL 'e' 18 y) ++ [(pre.map fun y => printL 'e' 18 y) ++ [q]]).headD []).length = pre.length + 1 := by
    cases hrr : rows with
    | nil => simp
    | cons a b =>
      have := hr a (by rw [hrr]; simp)
      simp [this]
  rw [hnc, if_pos]
  · have hone : floatOf q = .ok (sigRound 18 x * (10 : ℚ) ^ ((eParts 18 x).2.tdiv 10 - (eParts 18 x).2)) := by
      unfold floatOf; rw [hread]
    have hz : ([q] : List (List Char)).mapM floatOf = .ok [sigRound 18 x * (10 : ℚ) ^ ((eParts 18 x).2.tdiv 10 - (eParts 18 x).2)] := by
      simp only [List.mapM_cons, List.mapM_nil, hone, bind, Except.bind, pure, Except.pure]
    have hz2 := mapM_append_ok floatOf _ _ _ _ (mapM_txtNums pre) hz
    have hz3 : ([(pre.map fun y => printL 'e' 18 y) ++ [q]] : List (List (List Char))).mapM (fun f : List (List Char) => f.mapM floatOf) =
        .ok [pre.map (sigRound 18) ++ [sigRound 18 x * (10 : ℚ) ^ ((eParts 18 x).2.tdiv 10 - (eParts 18 x).2)]] := by
      simp only [List.mapM_cons, List.mapM_nil, hz2, bind, Except.bind, pure, Except.pure]
    rw [mapM_append_ok _ _ _ _ _ (mapM_txtRows rows) hz3]
    rfl
  · simp only [List.all_append, List.all_map, Bool.and_eq_true, List.all_eq_true, Function.comp_apply, List.length_map, decide_eq_true_eq]
    constructor
    · intro r hm
      exact hr r hm
    · simp

/-- **C143.** So numbers read from a text file need not be those that were to be written: the spectrum 7, 100 is read
as 7, 1, and no error is raised. -/
theorem C143_wrong_number_fails : ∃ n, loadVecText (tornText n (saveVecText ⟨[1, 2], [7, 100], none, "keV"⟩)) =
    .ok ([7, 1], [1, 2], none) := ⟨114, by decide +kernel⟩

/-! ### MAMA files -/

/-- What `genfromtxt` finds in the first lines of a MAMA file: the last line with something in it is taken for the
footer. -/
theorem gen_torn (hdr : List (List Char)) (h10 : hdr.length = 10) (rows : List (List ℚ)) (c : ℕ) (hc : 0 < c)
    (hr : ∀ r ∈ rows, r.length = c) (p : List Char) (e : ℕ) :
    genFromTxt 10 1 (hdr ++ rows.map mamaRow ++ p :: List.replicate e []) =
      .ok (if rows = [] then (fieldsOf p).length else c,
        (if fieldsOf p = [] then rows.take (rows.length - 1) else rows).map fun r => r.map fun x => some (sigRound 8 x)) := by
  have hE : fieldsOf [] = [] := by decide
  set q := fieldsOf p with hq
  set R : List (List (List Char)) := rows.map fun r => r.map fun x => printL 'E' 8 x with hR
  have hRlen : R.length = rows.length := by simp [hR]
  have hRnil : R = [] ↔ rows = [] := by simp [hR]
  have hRmem : ∀ f ∈ R, f.length = c := by
    intro f hf
    obtain ⟨r, hm, rfl⟩ := List.mem_map.1 hf
    simpa using hr r hm
  have hRne : ∀ f ∈ R, f ≠ [] := by
    intro f hf he
    have := hRmem f hf
    rw [he] at this
    simp at this
    omega
  have hdrop : (hdr ++ rows.map mamaRow ++ p :: List.replicate e []).drop 10 = rows.map mamaRow ++ p :: List.replicate e [] := by
    rw [List.append_assoc, ← h10, List.drop_left]
  have hmap : (rows.map mamaRow ++ p :: List.replicate e []).map fieldsOf = R ++ q :: List.replicate e [] := by
    rw [List.map_append, List.map_map]
    congr 1
    · exact List.map_congr_left fun r _ => fields_mamaRow r
    · simp [hE, ← hq]
  have hread : R.map (fun f => f.map readFloat) = rows.map fun r => r.map fun x => some (sigRound 8 x) := by
    have hone : ∀ x : ℚ, readFloat (printL 'E' 8 x) = some (sigRound 8 x) := fun x => (C98_read 'E' (Or.inl rfl) 0 8 x x).1
    rw [hR, List.map_map]
    refine List.map_congr_left fun r _ => ?_
    simp only [Function.comp_apply, List.map_map]
    refine List.map_congr_left fun x _ => ?_
    rw [Function.comp_apply, hone x]
  have hmz : (R.zipIdx.map fun p => p.1.map readFloat) = R.map fun f => f.map readFloat := by
    have : (fun p : List (List Char) × ℕ => p.1.map readFloat) = (fun f : List (List Char) => f.map readFloat) ∘ Prod.fst := rfl
    rw [this, ← List.map_map, List.zipIdx_map_fst]
  have hzl : R.zipIdx.length = R.length := by simp
  have hzne : R.zipIdx.filter (fun p => decide (p.1 ≠ [])) = R.zipIdx := by
    rw [List.filter_eq_self]
    intro p hp
    have : p.1 ∈ R := by
      have := List.mem_map_of_mem (f := Prod.fst) hp
      rwa [List.zipIdx_map_fst] at this
    simpa using hRne _ this
  have hfst : ∀ p ∈ R.zipIdx, p.1.length = c := by
    intro p hp
    have := List.mem_map_of_mem (f := Prod.fst) hp
    rw [List.zipIdx_map_fst] at this
    exact hRmem _ this
  have hemp : ∀ (k : ℕ), ((List.replicate e ([] : List (List Char))).zipIdx k).filter (fun p => decide (p.1 ≠ [])) = [] := by
    intro k
    rw [List.filter_eq_nil_iff]
    intro x hx
    have := List.mem_map_of_mem (f := Prod.fst) hx
    rw [List.zipIdx_map_fst] at this
    simpa using (List.eq_of_mem_replicate this)
  unfold genFromTxt
  simp only [hdrop, hmap]
  by_cases hq0 : q = []
  · have hzip : (((R ++ q :: List.replicate e []).dropWhile (fun f => decide (f = []))).zipIdx).filter (fun p => decide (p.1 ≠ [])) = R.zipIdx := by
      cases hRR : R with
      | nil =>
        have : ([] ++ q :: List.replicate e ([] : List (List Char))).dropWhile (fun f => decide (f = [])) = [] := by
          rw [List.dropWhile_eq_nil_iff]
          intro x hx
          simp only [List.nil_append, List.mem_cons] at hx
          rcases hx with rfl | hx
          · simpa using hq0
          · simpa using List.eq_of_mem_replicate hx
        rw [this]; rfl
      | cons f fs =>
        have : f ≠ [] := hRne f (by rw [hRR]; simp)
        have e1 : (f :: fs ++ q :: List.replicate e ([] : List (List Char))).dropWhile (fun f => decide (f = [])) =
            R ++ ([] :: List.replicate e []) := by simp [this, hRR, hq0]
        rw [e1, List.zipIdx_append, List.filter_append, hzne, hRR]
        have := hemp (0 + R.length + 1)
        simp only [List.zipIdx_cons]
        rw [List.filter_cons_of_neg (by simp), ← hRR, this, List.append_nil]
    rw [hzip]
    have hnc : (R.zipIdx.head?.map fun p => p.1.length).getD 0 = if rows = [] then 0 else c := by
      cases hRR : R with
      | nil => rw [if_pos (hRnil.1 hRR)]; rfl
      | cons f fs =>
        have hn : rows ≠ [] := fun h => by rw [hRnil.2 h] at hRR; cases hRR
        have := hRmem f (by rw [hRR]; simp)
        simp [this, hn]
    have hall : ∀ p ∈ R.zipIdx, p.1.length = if rows = [] then 0 else c := by
      intro p hp
      by_cases hn : rows = []
      · rw [hRnil.2 hn] at hp; simp at hp
      · rw [if_neg hn]; exact hfst p hp
    have hgood : R.zipIdx.filter (fun p => decide (p.1.length = if rows = [] then 0 else c)) = R.zipIdx := by
      rw [List.filter_eq_self]
      intro p hp
      simpa using hall p hp
    have hbad : R.zipIdx.filter (fun p => decide (p.1.length ≠ if rows = [] then 0 else c)) = [] := by
      rw [List.filter_eq_nil_iff]
      intro p hp
      simpa using hall p hp
    rw [hnc, hgood, hbad]
    simp only [List.filter_nil, List.length_nil, lt_irrefl, if_false, Nat.sub_zero, hq0, if_true, hzl, hRlen]
    rw [List.map_take, hmz, hread, ← List.map_take]
  · have hdw : (R ++ q :: List.replicate e []).dropWhile (fun f => decide (f = [])) = R ++ q :: List.replicate e [] := by
      cases hRR : R with
      | nil => simp [hq0]
      | cons f fs =>
        have : f ≠ [] := hRne f (by rw [hRR]; simp)
        simp [this]
    have hzip : ((R ++ q :: List.replicate e []).zipIdx).filter (fun p => decide (p.1 ≠ [])) = R.zipIdx ++ [(q, R.length)] := by
      rw [List.zipIdx_append, List.filter_append, hzne, List.zipIdx_cons, List.filter_cons_of_pos (by simpa using hq0), hemp]
      simp
    simp only [hdw, hzip, if_neg hq0]
    by_cases h1 : rows = [] ∨ c = q.length
    · have hnc : ((R.zipIdx ++ [(q, R.length)]).head?.map fun p => p.1.length).getD 0 = q.length := by
        cases hRR : R with
        | nil => rfl
        | cons f fs =>
          have hrn : rows ≠ [] := fun h => by rw [hRnil.2 h] at hRR; cases hRR
          have hc1 := h1.resolve_left hrn
          have := hRmem f (by rw [hRR]; simp)
          simp [this, hc1]
      have hall : ∀ p ∈ R.zipIdx ++ [(q, R.length)], p.1.length = q.length := by
        intro p hp
        rcases List.mem_append.1 hp with hp | hp
        · rcases h1 with h1 | h1
          · rw [hRnil.2 h1] at hp; simp at hp
          · rw [hfst p hp, h1]
        · rw [List.mem_singleton.1 hp]
      have hgood : (R.zipIdx ++ [(q, R.length)]).filter (fun p => decide (p.1.length = q.length)) = R.zipIdx ++ [(q, R.length)] := by
        rw [List.filter_eq_self]
        intro p hp
        simpa using hall p hp
      have hbad : (R.zipIdx ++ [(q, R.length)]).filter (fun p => decide (p.1.length ≠ q.length)) = [] := by
        rw [List.filter_eq_nil_iff]
        intro p hp
        simpa using hall p hp
      rw [hnc, hgood, hbad]
      simp only [List.filter_nil, List.length_nil, lt_irrefl, if_false, Nat.sub_zero, List.length_append, List.length_singleton, Nat.add_sub_cancel,
        List.take_left, hmz, hread]
      congr 2
      by_cases hrn : rows = []
      · rw [if_pos hrn]
      · rw [if_neg hrn, h1.resolve_left hrn]
    · push Not at h1
      obtain ⟨hrn, hc1⟩ := h1
      have hnc : ((R.zipIdx ++ [(q, R.length)]).head?.map fun p => p.1.length).getD 0 = c := by
        cases hRR : R with
        | nil => exact absurd (hRnil.1 hRR) hrn
        | cons f fs =>
          have := hRmem f (by rw [hRR]; simp)
          simp [this]
      have hqc : ¬ (q.length = c) := fun h => hc1 h.symm
      have hgood : (R.zipIdx ++ [(q, R.length)]).filter (fun p => decide (p.1.length = c)) = R.zipIdx := by
        rw [List.filter_append, List.filter_eq_self.2 (fun p hp => by simpa using hfst p hp)]
        simp [hqc]
      have hbad : (R.zipIdx ++ [(q, R.length)]).filter (fun p => decide (p.1.length ≠ c)) = [(q, R.length)] := by
        rw [List.filter_append, List.filter_eq_nil_iff.2 (fun p hp => by simpa using hfst p hp)]
        simp [hqc]
      have hsk : ([(q, R.length)] : List (List (List Char) × ℕ)).filter
          (fun p => decide (R.zipIdx.length + [(q, R.length)].length + 10 < p.2 + 10 + 1 + 1)) = [(q, R.length)] := by
        rw [hzl, List.filter_cons_of_pos]
        · rfl
        · simp
      rw [hnc, hgood, hbad, hsk]
      simp only [List.length_singleton, lt_irrefl, if_false, Nat.sub_self, Nat.sub_zero, List.take_length, hmz, hread, if_neg hrn]

/-- Line ends are the only difference between a file and its lines. -/
theorem mama_oneLine (rows : List (List ℚ)) : ∀ l ∈ rows.map mamaRow ++ ["!IDEND=".toList, [], []], OneLine l := by
  intro l hl
  rcases List.mem_append.1 hl with hl | hl
  · obtain ⟨r, -, rfl⟩ := List.mem_map.1 hl
    exact ⟨(mamaRow_clean r).1, (mamaRow_clean r).2.1⟩
  · simp only [List.mem_cons, List.not_mem_nil, or_false] at hl
    unfold OneLine
    rcases hl with rfl | rfl | rfl
    · decide
    · decide
    · decide

theorem cutAt_lines (c : Char) (ws : List (List Char)) (hw : ∀ w ∈ ws, c ∉ w) (hne : ws ≠ []) (r : List Char) :
    cutAt c (joinC c ws ++ c :: r) = ws ++ cutAt c r := by
  induction ws with
  | nil => exact absurd rfl hne
  | cons w ws ih =>
    cases ws with
    | nil => exact cutAt_append c w r (hw w (by simp))
    | cons v vs =>
      simp only [joinC, List.append_assoc, List.cons_append]
      rw [cutAt_append c w _ (hw w (by simp)), ih (fun x hx => hw x (List.mem_cons_of_mem _ hx)) (by simp)]
      simp

theorem mem_join_ne (ls : List (List Char)) (h : ∀ l ∈ ls, OneLine l) : '\r' ∉ joinC '\n' ls := by
  intro hm
  rcases mem_joinC _ _ _ hm with h1 | ⟨w, hw, h1⟩
  · exact absurd h1 (by decide)
  · exact (h w hw).2 h1

/-- The lines of a MAMA file that ends behind its header. -/
theorem mama_lines (hdr : List (List Char)) (hne : hdr ≠ []) (hh : ∀ l ∈ hdr, OneLine l) (rows : List (List ℚ)) (n : ℕ)
    (hn : (joinC '\n' hdr).length < n) :
    ∃ k p w, linesOf (tornText n (mamaFile hdr rows)) = hdr ++ ((rows.map mamaRow ++ ["!IDEND=".toList, [], []]).take k ++ [p]) ∧
      (rows.map mamaRow ++ ["!IDEND=".toList, [], []])[k]? = some w ∧ p <+: w := by
  have hone := mama_oneLine rows
  have hfile : mamaFile hdr rows = joinC '\n' hdr ++ '\n' :: joinC '\n' (rows.map mamaRow ++ ["!IDEND=".toList, [], []]) := by
    unfold mamaFile
    rw [List.append_assoc, joinC_append _ _ _ hne (by simp)]
  have hcr : '\r' ∉ mamaFile hdr rows := by
    refine mem_join_ne _ ?_
    rw [List.append_assoc]
    intro l hl
    rcases List.mem_append.1 hl with hl | hl
    · exact hh l hl
    · exact hone l hl
  obtain ⟨m, rfl⟩ := Nat.exists_eq_add_of_lt hn
  obtain ⟨k, p, w, h1, h2, h3⟩ := cutAt_take '\n' (joinC '\n' (rows.map mamaRow ++ ["!IDEND=".toList, [], []])) m
  rw [cutAt_join '\n' _ (by simp) fun l hl => (hone l hl).1] at h1 h2
  refine ⟨k, p, w, ?_, h2, h3⟩
  unfold linesOf tornText
  rw [univNl_id _ fun h => hcr (List.mem_of_mem_take h), hfile, add_assoc, List.take_length_add_append, List.take_succ_cons,
    cutAt_lines '\n' _ (fun l hl => (hh l hl).1) hne, h1]

/-- **C143.** A MAMA file of which the header and something more was written is never read with a wrong count: it is
read as a file with the first rows of counts and the same calibration. -/
theorem C143_mama (kind comment time : List Char) (cal : List ℚ) (dim channel : List Char) (hcal : cal.length = 3 ∨ cal.length = 6)
    (hh : ∀ l ∈ mamaHeader kind comment time cal dim channel, OneLine l) (rows : List (List ℚ)) (c : ℕ) (hc : 0 < c)
    (hr : ∀ r ∈ rows, r.length = c) (n : ℕ)
    (hn : (joinC '\n' (mamaHeader kind comment time cal dim channel)).length < n) :
    ∃ i ≤ rows.length, ∃ c', (0 < i → c' = c) ∧
      mamaReadText (tornText n (mamaFile (mamaHeader kind comment time cal dim channel) rows)) =
        mamaArrays c' ((rows.take i).map fun r => r.map fun x => some (sigRound 8 x)) (cal.map (sigRound 6)) := by
  have h10 : (mamaHeader kind comment time cal dim channel).length = 10 := rfl
  obtain ⟨k, p, w, hl, hw, hp⟩ := mama_lines _ (by simp [mamaHeader]) hh rows n hn
  -- the lines are the header, rows, and the beginning of a line or the footer
  obtain ⟨j, hj, q, e, hform⟩ : ∃ j ≤ rows.length, ∃ q e,
      (rows.map mamaRow ++ ["!IDEND=".toList, [], []]).take k ++ [p] = (rows.take j).map mamaRow ++ q :: List.replicate e [] := by
    by_cases hk : k ≤ rows.length
    · refine ⟨k, hk, p, 0, ?_⟩
      rw [List.take_append_of_le_length (by simpa using hk), List.map_take]
      rfl
    · have hlt := (List.getElem?_eq_some_iff.1 hw).1
      simp at hlt
      obtain ⟨d, rfl⟩ := Nat.exists_eq_add_of_lt (not_le.1 hk)
      have hd : d = 0 ∨ d = 1 := by omega
      refine ⟨rows.length, le_rfl, "!IDEND=".toList, d + 1, ?_⟩
      have hlen : rows.length + d + 1 = (rows.map mamaRow).length + (d + 1) := by simp; omega
      rw [hlen, List.getElem?_append_right (by omega), Nat.add_sub_cancel_left] at hw
      rw [hlen, List.take_length_add_append, List.take_length]
      have hw0 : w = [] := by
        rcases hd with rfl | rfl <;> simpa using hw.symm
      subst hw0
      rw [List.prefix_nil.1 hp]
      rcases hd with rfl | rfl <;> simp [List.replicate]
  rw [hform, ← List.append_assoc] at hl
  have hgen := gen_torn _ h10 (rows.take j) c hc (fun r hm => hr r (List.mem_of_mem_take hm)) q e
  have hcl := cal_found kind comment time cal dim channel ((rows.take j).map mamaRow ++ q :: List.replicate e []) hcal
  rw [← List.append_assoc] at hcl
  unfold mamaReadText
  rw [hl, hgen, hcl]
  simp only [bind, Except.bind]
  by_cases hq : fieldsOf q = []
  · refine ⟨j - 1, by omega, if rows.take j = [] then (fieldsOf q).length else c, fun h0 => ?_, ?_⟩
    rotate_left
    · rw [if_pos hq, List.length_take, Nat.min_eq_left hj, List.take_take, Nat.min_eq_left (by omega)]
    · rw [if_neg]
      intro h
      have := congrArg List.length h
      simp at this
      rcases this with h | h
      · omega
      · subst h; simp at hj; omega
  · refine ⟨j, hj, if rows.take j = [] then (fieldsOf q).length else c, fun h0 => ?_, ?_⟩
    rotate_left
    · rw [if_neg hq]
    · rw [if_neg]
      intro h
      have := congrArg List.length h
      simp at this
      rcases this with h | h
      · omega
      · subst h; simp at hj; omega

/-- **C143.** If the file ends behind a row of counts, that row is taken for the footer and lost, and all that should
follow is missing; nothing is raised for that. -/
theorem C143_mama_short (kind comment time : List Char) (cal : List ℚ) (dim channel : List Char) (hcal : cal.length = 3 ∨ cal.length = 6)
    (hh : ∀ l ∈ mamaHeader kind comment time cal dim channel, OneLine l) (rows : List (List ℚ)) (c : ℕ) (hc : 0 < c)
    (hr : ∀ r ∈ rows, r.length = c) (i : ℕ) (hi : i < rows.length) :
    mamaReadText (tornText (joinC '\n' (mamaHeader kind comment time cal dim channel ++ (rows.take (i + 1)).map mamaRow ++ [[]])).length
        (mamaFile (mamaHeader kind comment time cal dim channel) rows)) =
      mamaArrays c ((rows.take i).map fun r => r.map fun x => some (sigRound 8 x)) (cal.map (sigRound 6)) := by
  have h10 : (mamaHeader kind comment time cal dim channel).length = 10 := rfl
  set hdr := mamaHeader kind comment time cal dim channel with hhdr
  have hpre : joinC '\n' (hdr ++ (rows.take (i + 1)).map mamaRow ++ [[]]) <+: mamaFile hdr rows := by
    unfold mamaFile
    have e : hdr ++ rows.map mamaRow ++ ["!IDEND=".toList, [], []] = (hdr ++ (rows.take (i + 1)).map mamaRow) ++
        ((rows.drop (i + 1)).map mamaRow ++ ["!IDEND=".toList, [], []]) := by
      conv_lhs => rw [← List.take_append_drop (i + 1) rows, List.map_append]
      simp only [List.append_assoc]
    have hA : hdr ++ (rows.take (i + 1)).map mamaRow ≠ [] := by
      intro h
      have := congrArg List.length h
      rw [List.length_append, h10] at this
      simp at this
    rw [e, joinC_append _ _ [[]] hA (by simp),
      joinC_append _ (hdr ++ (rows.take (i + 1)).map mamaRow) ((rows.drop (i + 1)).map mamaRow ++ ["!IDEND=".toList, [], []]) hA (by simp),
      List.prefix_append_right_inj, List.cons_prefix_cons]
    exact ⟨rfl, List.nil_prefix⟩
  have hl : linesOf (joinC '\n' (hdr ++ (rows.take (i + 1)).map mamaRow ++ [[]])) = hdr ++ (rows.take (i + 1)).map mamaRow ++ [] :: List.replicate 0 [] := by
    refine linesOf_join _ (by simp) ?_
    intro l hl
    rcases List.mem_append.1 hl with hl | hl
    · rcases List.mem_append.1 hl with hl | hl
      · exact hh l hl
      · obtain ⟨r, -, rfl⟩ := List.mem_map.1 hl
        exact ⟨(mamaRow_clean r).1, (mamaRow_clean r).2.1⟩
    · rw [List.mem_singleton.1 hl]
      exact ⟨by simp, by simp⟩
  have hgen := gen_torn _ h10 (rows.take (i + 1)) c hc (fun r hm => hr r (List.mem_of_mem_take hm)) [] 0
  have hcl := cal_found kind comment time cal dim channel ((rows.take (i + 1)).map mamaRow ++ [] :: List.replicate 0 []) hcal
  rw [← List.append_assoc, ← hhdr] at hcl
  unfold mamaReadText tornText
  rw [← List.prefix_iff_eq_take.1 hpre, hl, hgen, hcl]
  simp only [bind, Except.bind]
  have hE : fieldsOf [] = [] := by decide
  rw [if_pos hE, List.length_take, Nat.min_eq_left (by omega), List.take_take, Nat.min_eq_left (by omega), if_neg, Nat.add_sub_cancel]
  intro h
  have := congrArg List.length h
  simp at this
  subst this
  simp at hi

/-- **C143.** A MAMA file with a spectrum can end such that it is read, without complaint, as the spectrum of its first
`i` bins, for every `i` of at least two. -/
theorem C143_mama_spectrum (comment time : List Char) (hc : OneLine comment) (ht : OneLine time) (v : Vec ℚ) (text : List Char)
    (h : mamaText1D comment time v = .ok text) (i : ℕ) (h2 : 2 ≤ i) (hi : i < v.values.length) :
    ∃ n c, vecCalibration v.E = .ok c ∧ mamaReadText (tornText n text) =
      .ok (.one ((v.values.take i).map fun x => some (sigRound 8 x)) (calAxis (sigRound 6 c.1) (sigRound 6 c.2) 0 i)) := by
  unfold mamaText1D at h
  split_ifs at h
  cases hcal : vecCalibration v.E with
  | error e => simp [hcal, Except.map] at h
  | ok c =>
    simp only [hcal, Except.map, Except.ok.injEq] at h
    subst h
    have hh := header_clean "Spectrum".toList comment time [c.1, c.2, 0] ("!DIMENSION=1,0:".toList ++ int4 (v.values.length - 1) ++ [' '])
      ("!CHANNEL=(0:".toList ++ int4 (v.values.length - 1) ++ ") ".toList) (by unfold OneLine; decide) hc ht
      ((OneLine.append (by unfold OneLine; decide) (int4_clean _)).append (by unfold OneLine; decide))
      ((OneLine.append (by unfold OneLine; decide) (int4_clean _)).append (by unfold OneLine; decide))
    have hs := C143_mama_short "Spectrum".toList comment time [c.1, c.2, 0] _ _ (.inl rfl) hh (v.values.map fun x => [x]) 1 (by norm_num)
      (by intro r hr; obtain ⟨x, -, rfl⟩ := List.mem_map.1 hr; rfl) i (by simpa using hi)
    refine ⟨_, c, rfl, hs.trans ?_⟩
    have hlen : ((v.values.take i).map fun x => [some (sigRound 8 x)]).length = i := by simp; omega
    have e : ((v.values.map fun x => [x]).take i).map (fun r => r.map fun x => some (sigRound 8 x)) =
        (v.values.take i).map fun x => [some (sigRound 8 x)] := by
      rw [← List.map_take, List.map_map]; rfl
    rw [e]
    simp only [List.map_cons, List.map_nil, mamaArrays, hlen, sigRound_zero]
    rw [if_neg, if_pos trivial, if_neg (by omega)]
    · simp only [List.map_map]
      rfl
    · intro h
      have := congrArg List.length h
      rw [hlen] at this
      simp at this
      omega

/-- Four counts; the file ends behind the third. -/
example : mamaReadText (tornText 270 (mamaFile (mamaHeader "Spectrum".toList "c".toList "t".toList [100, 200, 0] "d".toList "h".toList)
    [[10], [20], [30], [40]])) = .ok (.one [some 10, some 20] [100, 300]) := by
  decide +kernel

/-- The second row lacks its second number: refused. -/
example : loadTxtText (tornText 70 (saveTxtText "h".toList [[1, 200], [3, 4]])) = .error .valueError ∧
    loadTxtText (tornText 54 (saveTxtText "h".toList [[1, 200], [3, 4]])) = .ok (2, [[1, 200]]) ∧
    loadTxtText (tornText 53 (saveTxtText "h".toList [[1, 200], [3, 4]])) = .ok (2, [[1, 200]]) ∧
    loadTxtText (tornText 52 (saveTxtText "h".toList [[1, 200], [3, 4]])) = .ok (2, [[1, 2]]) := by
  refine ⟨?_, ?_, ?_, ?_⟩ <;> decide +kernel

/-- A file that ends after the second of three bins. -/
example : loadVecText (tornText 116 (saveVecText ⟨[1, 2, 3], [7, 100, 5], none, "keV"⟩)) = .ok ([7, 100], [1, 2], none) := by
  decide +kernel

end Ompy
