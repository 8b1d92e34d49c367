import Verif.Helpers
import Verif.UnfolderProps
import Verif.MatrixMore
import Verif.FirstGenProps
import Verif.GlobalRngProps

/-!
# C107: small helpers
-/

namespace Ompy

/-! ## Cells -/

/-- **C107.** `iter` visits every cell of the matrix once, row by row: cell number `k` is in row `k / columns`, column `k % columns`. -/
theorem C107_cells (nr nc : ℕ) : (cells nr nc).Nodup ∧ (∀ p, p ∈ cells nr nc ↔ p.1 < nr ∧ p.2 < nc) ∧ (cells nr nc).length = nr * nc ∧
    ∀ k < nr * nc, (cells nr nc)[k]? = some (k / nc, k % nc) := by
  refine ⟨?_, ?_, ?_, ?_⟩
  · unfold cells
    rw [List.nodup_flatMap]
    constructor
    · intro r _
      exact List.Nodup.map (fun a b h => (Prod.mk.inj h).2) List.nodup_range
    · refine List.Pairwise.imp_of_mem ?_ (List.nodup_range (n := nr))
      intro a b _ _ hab
      simp only [Function.onFun]
      intro x hx hy
      simp only [List.mem_map] at hx hy
      obtain ⟨c, -, rfl⟩ := hx
      obtain ⟨d, -, h⟩ := hy
      exact hab (Prod.mk.inj h).1.symm
  · intro p
    simp only [cells, List.mem_flatMap, List.mem_range, List.mem_map]
    constructor
    · rintro ⟨r, hr, c, hc, rfl⟩; exact ⟨hr, hc⟩
    · intro h; exact ⟨p.1, h.1, p.2, h.2, rfl⟩
  · simp [cells, List.length_flatMap]
  · induction nr with
    | zero => intro k hk; simp at hk
    | succ nr ih =>
      intro k hk
      have hs : cells (nr + 1) nc = cells nr nc ++ (List.range nc).map fun c : ℕ => (nr, c) := by
        simp [cells, List.range_succ, List.flatMap_append]
      have hl : (cells nr nc).length = nr * nc := by simp [cells, List.length_flatMap]
      rw [hs]
      by_cases h : k < nr * nc
      · rw [List.getElem?_append_left (by rw [hl]; exact h)]
        exact ih k h
      · have h' : nr * nc ≤ k := not_lt.1 h
        rw [List.getElem?_append_right (by rw [hl]; exact h'), hl]
        have hk2 : k - nr * nc < nc := by
          rw [Nat.add_mul, one_mul] at hk; omega
        obtain ⟨j, rfl⟩ := Nat.exists_eq_add_of_le h'
        rw [Nat.add_sub_cancel_left] at hk2 ⊢
        rw [List.getElem?_map, List.getElem?_range hk2]
        have hnc : 0 < nc := by omega
        simp only [Option.map_some, Option.some.injEq, Prod.mk.injEq]
        constructor
        · rw [Nat.add_div_of_dvd_right (Dvd.intro_left nr rfl), Nat.mul_div_cancel _ hnc, Nat.div_eq_of_lt hk2, add_zero]
        · rw [Nat.mul_add_mod_self_right, Nat.mod_eq_of_lt hk2]

example : cells 2 3 = [(0, 0), (0, 1), (0, 2), (1, 0), (1, 1), (1, 2)] := by decide

/-- **C107.** Adding up a matrix cell by cell gives its counts. -/
theorem C107_cells_sum (v : List (List ℚ)) (nr nc : ℕ) (h : hasShape v nr nc = true) : ((cells nr nc).map fun p => at2 v p.1 p.2).sum = (v.map List.sum).sum := by
  obtain ⟨h1, h2⟩ := (hasShape_iff v nr nc).1 h
  have e1 : (cells nr nc).map (fun p => at2 v p.1 p.2) = (List.range nr).flatMap fun r : ℕ => (List.range nc).map fun c : ℕ => at2 v r c := by
    simp [cells, List.map_flatMap, Function.comp_def]
  have e2 : v = (List.range nr).map fun r : ℕ => v.getD r [] := by
    apply List.ext_getElem
    · simp [h1]
    · intro i hi hi'
      simp [List.getD_eq_getElem?_getD, hi]
  rw [e1, List.flatMap_def, List.sum_flatten, List.map_map]
  conv_rhs => rw [e2, List.map_map]
  congr 1
  refine List.map_congr_left fun r hr => ?_
  simp only [Function.comp_apply]
  have hr' : r < v.length := by rw [h1]; exact List.mem_range.1 hr
  have hrow : (v.getD r []).length = nc := by
    rw [List.getD_eq_getElem v [] hr']
    exact h2 _ (List.getElem_mem hr')
  rw [list_map_range_sum, list_sum_eq_range (v.getD r []), hrow]
  rfl

/-! ## Searching several energies -/

/-- **C107.** On a sorted axis every energy of the list gets a bin that is closest to it. -/
theorem C107_indices (E es : List ℚ) (hE : E ≠ []) (hs : E.Pairwise (· ≤ ·)) :
    ∃ is, indicesOf E es = .ok is ∧ is.length = es.length ∧ ∀ k < es.length, IsClosest E (es.getD k 0) (is.getD k 0) := by
  induction es with
  | nil => exact ⟨[], rfl, rfl, by simp⟩
  | cons e es ih =>
    obtain ⟨i, h1, h2, -⟩ := C05_index_closest E e hE hs
    obtain ⟨is, h3, h4, h5⟩ := ih
    refine ⟨i :: is, ?_, by simp [h4], ?_⟩
    · unfold indicesOf at h3 ⊢
      rw [List.mapM_cons, h1, h3]
      rfl
    · intro k hk
      cases k with
      | zero => simpa using h2
      | succ k => simpa using h5 k (by simpa using hk)

example : indicesOf [1, 2, 4] [0, 3, 9] = .ok [0, 2, 2] := by decide +kernel

/-! ## Cutting like another matrix -/

/-- **C107.** Both ways to cut like another matrix give the same values and axes; the one that returns a new matrix drops `std` and `state`. -/
theorem C107_cut_like (m other m1 m2 : Mat) (h1 : m.cutLikeInplace other = (m1, .ok ())) (h2 : m.cutLikeCopy other = .ok m2) :
    m2.values = m1.values ∧ m2.Eg = m1.Eg ∧ m2.Ex = m1.Ex ∧ m1.std = m.std ∧ m1.state = m.state ∧ m2.std = none ∧ m2.state = none := by
  have hcut : ∀ (m m' : Mat) (ax : ℕ) (a b : Option ℚ), m.cut ax a b true true = .ok m' → m'.std = m.std ∧ m'.state = m.state := by
    intro m m' ax a b h
    unfold Mat.cut at h
    dsimp only at h
    rcases hb : cutBounds (if ax = 0 then m.Eg else m.Ex) a b true true with e | ⟨i, j⟩
    · rw [hb] at h; cases h
    · rw [hb] at h
      dsimp only at h
      split_ifs at h
      · cases h; exact ⟨rfl, rfl⟩
      · cases h; exact ⟨rfl, rfl⟩
  have hcong : ∀ (m m' : Mat) (a b : Option ℚ), m.values = m'.values → m.Eg = m'.Eg → m.Ex = m'.Ex →
      ∀ r r', m.cut 0 a b true true = .ok r → m'.cut 0 a b true true = .ok r' → r.values = r'.values ∧ r.Eg = r'.Eg ∧ r.Ex = r'.Ex := by
    intro m m' a b hv hg hx r r' hr hr'
    unfold Mat.cut at hr hr'
    simp only [if_true] at hr hr'
    rw [← hg] at hr'
    rcases hb : cutBounds m.Eg a b true true with e | ⟨i, j⟩
    · rw [hb] at hr; cases hr
    · rw [hb] at hr hr'
      cases hr
      cases hr'
      exact ⟨by rw [hv], rfl, hx⟩
  unfold Mat.cutLikeInplace at h1
  unfold Mat.cutLikeCopy Mat.cutCopy at h2
  cases ha : listMin other.Ex with
  | error e => rw [ha] at h1; simp at h1
  | ok a =>
    cases hb : listMax other.Ex with
    | error e => rw [ha, hb] at h1; simp at h1
    | ok b =>
      rw [ha, hb] at h1 h2
      dsimp only at h1
      simp only [bind, Except.bind] at h2
      cases hc : m.cut 1 (some a) (some b) true true with
      | error e => rw [hc] at h1; simp at h1
      | ok c1 =>
        rw [hc] at h1 h2
        dsimp only at h1 h2
        cases hn : Mat.new c1.values c1.Eg.length (some c1.Eg) (some c1.Ex) none none with
        | error e => rw [hn] at h2; cases h2
        | ok n1 =>
          rw [hn] at h2
          dsimp only at h2
          have hn1 : n1 = ⟨c1.values, c1.Eg, c1.Ex, none, none⟩ := by
            unfold Mat.new at hn
            simp only [Option.getD_some] at hn
            split_ifs at hn
            cases hn; rfl
          cases hmin : listMin other.Eg with
          | error e => rw [hmin] at h1; simp at h1
          | ok c =>
            cases hmax : listMax other.Eg with
            | error e => rw [hmin, hmax] at h1; simp at h1
            | ok d =>
              rw [hmin, hmax] at h1 h2
              dsimp only at h1 h2
              cases hd : c1.cut 0 (some c) (some d) true true with
              | error e => rw [hd] at h1; simp at h1
              | ok r1 =>
                rw [hd] at h1
                simp only [Prod.mk.injEq, and_true] at h1
                subst h1
                obtain ⟨s1, s2⟩ := hcut _ _ _ _ _ hc
                obtain ⟨s3, s4⟩ := hcut _ _ _ _ _ hd
                obtain ⟨s5, s6⟩ := hcut _ _ _ _ _ h2
                obtain ⟨q1, q2, q3⟩ := hcong n1 c1 (some c) (some d) (by rw [hn1]) (by rw [hn1]) (by rw [hn1]) _ _ h2 hd
                refine ⟨q1, q2, q3, s3.trans s1, s4.trans s2, ?_, ?_⟩
                · rw [s5, hn1]
                · rw [s6, hn1]

example : (⟨[[1, 2], [3, 4]], [0, 1], [5, 6], none, some .raw⟩ : Mat).cutLikeInplace ⟨[[0]], [1], [6], none, none⟩ = (⟨[[4]], [1], [6], none, some .raw⟩, .ok ()) ∧
    (⟨[[1, 2], [3, 4]], [0, 1], [5, 6], none, some .raw⟩ : Mat).cutLikeCopy ⟨[[0]], [1], [6], none, none⟩ = .ok ⟨[[4]], [1], [6], none, none⟩ := by
  constructor <;> decide +kernel

/-- **C107 (disagreement).** A cut in place that raises an exception (here: the other matrix has no gamma bins) leaves the excitation axis cut already. -/
theorem C107_cut_like_fails : (⟨[[1, 2], [3, 4]], [0, 1], [5, 6], none, none⟩ : Mat).cutLikeInplace ⟨[[]], [], [6], none, none⟩ = (⟨[[3, 4]], [0, 1], [6], none, none⟩, .error .valueError) := by
  decide +kernel

/-! ## Shifting a matrix -/

/-- **C107.** `shift_matrix` by whole bins moves every row; what leaves at the lower end is lost. -/
theorem C107_shift_matrix (values : List (List ℚ)) (a w : ℚ) (n s : ℕ) (hn : 2 ≤ n) (hw : 0 < w) (hv : ∀ r ∈ values, r.length = n) :
    ∃ out, shiftMatrix values (grid a w n) (-(w * s)) = .ok out ∧ hasShape out values.length n = true ∧
      ∀ i < values.length, ∀ k < n, at2 out i k = at2 values i (k + s) := by
  induction values with
  | nil => exact ⟨[], rfl, rfl, by simp⟩
  | cons r rs ih =>
    obtain ⟨o, h1, h2, h3⟩ := C50_shift_down r a w n s hn hw (hv r List.mem_cons_self)
    obtain ⟨os, h4, h5, h6⟩ := ih fun r' hr' => hv r' (List.mem_cons_of_mem _ hr')
    refine ⟨o :: os, ?_, ?_, ?_⟩
    · unfold shiftMatrix at h4 ⊢
      rw [List.mapM_cons, h4]
      have : shiftInto r (grid a w n) (-(w * s)) = .ok o := by
        unfold shiftInto
        rw [h1]
        dsimp only
        rw [if_pos (h2.trans (hv r List.mem_cons_self).symm)]
      rw [this]
      rfl
    · rw [hasShape_iff] at h5 ⊢
      refine ⟨by simp [h5.1], ?_⟩
      intro x hx
      rcases List.mem_cons.1 hx with rfl | hx
      · exact h2
      · exact h5.2 x hx
    · intro i hi k hk
      cases i with
      | zero => simpa [at2] using h3 k hk
      | succ i => simpa [at2] using h6 i (by simpa using hi) k hk

example : shiftMatrix [[1, 2, 3], [4, 5, 6]] (grid 0 10 3) (-(10 * (1 : ℕ))) = .ok [[2, 3, 0], [5, 6, 0]] := by decide +kernel

/-! ## Examples -/

/-- **C107.** Every example that is listed has raw data, whatever the case of its name. -/
theorem C107_examples (name : String) : (∃ p, examplePath "raw" name = .ok p) ↔ name.toLower ∈ listExamples := by
  unfold examplePath listExamples exampleTable
  simp only [List.map_cons, List.map_nil, List.mem_cons, List.not_mem_nil, or_false]
  by_cases h1 : name.toLower = "dy164"
  · rw [h1]
    constructor
    · intro _; exact Or.inl rfl
    · intro _; exact ⟨_, rfl⟩
  · by_cases h2 : name.toLower = "si28"
    · rw [h2]
      constructor
      · intro _; exact Or.inr rfl
      · intro _; exact ⟨_, rfl⟩
    · have b1 : (name.toLower == "dy164") = false := by simpa using h1
      have b2 : (name.toLower == "si28") = false := by simpa using h2
      simp only [List.lookup, b1, b2]
      simp [h1, h2]

/-- **C107 (disagreement).** `example_response` fails for every name, also for those that are listed. -/
theorem C107_example_response_fails (name : String) : examplePath "response" name = .error .keyError := by
  unfold examplePath exampleTable
  by_cases h1 : name.toLower = "dy164"
  · rw [h1]; rfl
  · by_cases h2 : name.toLower = "si28"
    · rw [h2]; rfl
    · have b1 : (name.toLower == "dy164") = false := by simpa using h1
      have b2 : (name.toLower == "si28") = false := by simpa using h2
      simp only [List.lookup, b1, b2]

/-- **C107.** The mock matrix: odd rows hold as many ones as their number (at most the whole row), even rows nothing. -/
theorem C107_disjoint_rows (nr nc : ℕ) : ∃ m, disjointRows nr nc = .ok m ∧ hasShape m.values nr nc = true ∧ m.Eg = defaultAxis nc ∧ m.Ex = defaultAxis nr ∧
    ∀ i < nr, (m.values.getD i []).sum = if i % 2 = 1 then ((min i nc : ℕ) : ℚ) else 0 := by
  have hsh : hasShape (tabulate nr nc fun r c => if r % 2 ≠ 0 ∧ c < r then 1 else 0) nr nc = true := by
    rw [hasShape_iff]
    refine ⟨by simp [tabulate], ?_⟩
    intro r hr
    simp only [tabulate, List.mem_map] at hr
    obtain ⟨i, -, rfl⟩ := hr
    simp
  have hax : ∀ n, (defaultAxis n).length = n := fun n => by simp [defaultAxis]
  have hlen : (tabulate nr nc fun r c => if r % 2 ≠ 0 ∧ c < r then (1 : ℚ) else 0).length = nr := by simp [tabulate]
  refine ⟨⟨tabulate nr nc fun r c => if r % 2 ≠ 0 ∧ c < r then 1 else 0, defaultAxis nc, defaultAxis nr, none, none⟩, ?_, hsh, rfl, rfl, ?_⟩
  · unfold disjointRows Mat.new
    simp only [Option.getD_none, hlen]
    rw [if_pos]
    simp only [Mat.consistent, hax, hsh, Bool.and_self]
  · intro i hi
    rw [tabulate_row _ _ _ hi, list_map_range_sum]
    by_cases h : i % 2 = 1
    · rw [if_pos h]
      have : ∀ c ∈ Finset.range nc, (if i % 2 ≠ 0 ∧ c < i then (1 : ℚ) else 0) = if c < i then 1 else 0 := by
        intro c _
        have h0 : i % 2 ≠ 0 := by omega
        simp [h0]
      rw [Finset.sum_congr rfl this, Finset.sum_boole]
      congr 1
      rw [← Finset.card_range (min i nc)]
      congr 1
      ext c
      simp only [Finset.mem_filter, Finset.mem_range, lt_min_iff]
      exact ⟨fun h => ⟨h.2, h.1⟩, fun h => ⟨h.2, h.1⟩⟩
    · rw [if_neg h]
      apply Finset.sum_eq_zero
      intro c _
      have h0 : ¬ (i % 2 ≠ 0 ∧ c < i) := fun hh => h (by omega)
      rw [if_neg h0]

example : disjointRows 4 2 = .ok ⟨[[0, 0], [1, 0], [0, 0], [1, 1]], [1 / 2, 3 / 2], [1 / 2, 3 / 2, 5 / 2, 7 / 2], none, none⟩ := by decide +kernel

/-! ## `read_response` -/

/-- **C107 (disagreement).** `read_response` never returns: whatever is in the file, assigning four names from the two or three results of `mama_read` raises ValueError. -/
theorem C107_read_response_fails (mama : Except Err MamaOut) : (∃ e, readResponse mama = .error e) ∧ ∀ o, mama = .ok o → readResponse mama = .error .valueError := by
  rcases mama with e | (⟨c, x⟩ | ⟨c, x, y⟩)
  · exact ⟨⟨e, rfl⟩, fun o h => by cases h⟩
  · exact ⟨⟨_, rfl⟩, fun o h => rfl⟩
  · exact ⟨⟨_, rfl⟩, fun o h => rfl⟩

/-! ## `gettype` -/

/-- No name in front of a dot. -/
def Unqualified (s : List Char) : Prop := s.IsChain fun x y => ¬ (nameChar x = true ∧ y = '.')

theorem stripGo_unqualified (cs : List Char) : ∀ run : List Char, (∀ c ∈ run, nameChar c = true) → Unqualified (stripGo run cs) := by
  have hdot : nameChar '.' = false := by decide
  have hrev : ∀ run : List Char, (∀ c ∈ run, nameChar c = true) → Unqualified run.reverse := by
    intro run h
    unfold Unqualified
    rw [List.isChain_iff_getElem]
    intro i hi hh
    have : run.reverse[i + 1] ∈ run := List.mem_reverse.1 (List.getElem_mem _)
    have := h _ this
    rw [hh.2, hdot] at this
    cases this
  induction cs with
  | nil => intro run h; exact hrev run h
  | cons c cs ih =>
    intro run h
    unfold stripGo
    by_cases hc : nameChar c = true
    · rw [if_pos hc]
      exact ih (c :: run) fun x hx => by
        rcases List.mem_cons.1 hx with rfl | hx
        · exact hc
        · exact h x hx
    · rw [if_neg hc]
      by_cases hd : c = '.' ∧ run ≠ []
      · rw [if_pos hd]
        exact ih [] (by simp)
      · rw [if_neg hd]
        unfold Unqualified
        rw [List.isChain_append]
        refine ⟨hrev run h, ?_, ?_⟩
        · have h1 := ih [] (by simp)
          unfold Unqualified at h1
          rw [List.isChain_cons]
          exact ⟨fun y _ hh => hc hh.1, h1⟩
        · intro x hx y hy hh
          simp only [List.head?_cons, Option.mem_def, Option.some.injEq] at hy
          subst hy
          refine hd ⟨hh.2, ?_⟩
          rintro rfl
          simp at hx

theorem cutAt_chain (q : Char) (s : List Char) (h : Unqualified s) : ∀ p ∈ cutAt q s, Unqualified p := by
  have aux : ∀ s : List Char, Unqualified s → (∀ p ∈ cutAt q s, Unqualified p) ∧ ∃ t, cutAt q s = t :: (cutAt q s).tail ∧ t <+: s := by
    intro s
    induction s with
    | nil =>
      intro _
      refine ⟨?_, [], rfl, List.prefix_rfl⟩
      intro p hp
      simp only [cutAt, List.mem_singleton] at hp
      subst hp
      exact List.isChain_nil
    | cons x xs ih =>
      intro hs
      have hs' : Unqualified xs := (List.isChain_cons.1 hs).2
      obtain ⟨h1, t, h2, h3⟩ := ih hs'
      unfold cutAt
      by_cases hx : x = q
      · rw [if_pos hx]
        refine ⟨?_, [], rfl, List.nil_prefix⟩
        intro p hp
        rcases List.mem_cons.1 hp with rfl | hp
        · exact List.isChain_nil
        · exact h1 p hp
      · rw [if_neg hx]
        have hh : (cutAt q xs).headD [] = t := by rw [h2]; rfl
        rw [hh]
        have hpre : x :: t <+: x :: xs := by
          obtain ⟨u, hu⟩ := h3
          exact ⟨u, by rw [List.cons_append, hu]⟩
        refine ⟨?_, x :: t, rfl, hpre⟩
        intro p hp
        rcases List.mem_cons.1 hp with rfl | hp
        · exact List.IsChain.prefix hs hpre
        · exact h1 p (by rw [h2]; exact List.mem_cons_of_mem _ hp)
  exact (aux s h).1

/-- **C107.** The name of a type is printed without the modules it comes from, in every part of it. -/
theorem C107_gettype (signature t : List Char) (h : gettype signature = .ok t) : Unqualified t := by
  have h0 := stripGo_unqualified (dropTyping signature) [] (by simp)
  unfold gettype at h
  cases hs : stripGo [] (dropTyping signature) with
  | nil => rw [hs] at h; cases h
  | cons c cs =>
    rw [hs] at h h0
    dsimp only at h
    by_cases hc : c = '<'
    · rw [if_pos hc] at h
      cases hq : (cutAt '\'' (c :: cs))[1]? with
      | none => rw [hq] at h; cases h
      | some u =>
        rw [hq] at h
        cases h
        exact cutAt_chain _ _ h0 _ (List.mem_of_getElem? hq)
    · rw [if_neg hc] at h
      cases h
      exact h0

/-- **C107 (disagreement).** A module whose name ends with "typing" is not removed properly: its beginning becomes part of the name. -/
theorem C107_gettype_fails : gettype "mytyping.Foo".toList = .ok "myFoo".toList := by decide +kernel

example : gettype "<class 'ompy.models.Model'>".toList = .ok "Model".toList ∧ gettype "typing.Optional[numpy.ndarray]".toList = .ok "Optional[ndarray]".toList := by
  constructor <;> decide +kernel

/-! ## The choice of the multiplicity -/

/-- **C107.** What the setter has accepted, the dispatch can do: the branch "Impossible condition" is not reached, and the case of the letters does not matter. -/
theorem C107_multiplicity (method s : String) (h : setMultiplicity method = .ok s) : ∃ b, multiplicityKind s = .ok b ∧ (b = true ↔ method.toLower = "total") := by
  unfold setMultiplicity at h
  split_ifs at h with hc
  cases h
  rcases hc with hc | hc
  · exact ⟨false, by rw [hc]; rfl, by rw [hc]; decide⟩
  · exact ⟨true, by rw [hc]; rfl, by rw [hc]; decide⟩

example : setMultiplicity "Total" = .ok "total" ∧ setMultiplicity "foo" = .error .valueError := by decide +kernel

/-! ## The version -/

/-- **C107.** The working directory is the same after the version was found out, and the version names the first seven characters of the revision. -/
theorem C107_version (version : List Char) (e : VersionEnv) (cwd cwd' here : String) (full rev : List Char) (h : versionInfo version e cwd here = (cwd', .ok (full, rev))) :
    cwd' = cwd ∧ full = version ++ ".dev0+".toList ++ rev.take 7 ∧ (e.hasGit = true → rev ≠ []) := by
  unfold versionInfo at h
  dsimp only at h
  split at h
  · simp at h
  · rename_i r hr
    simp only [Prod.mk.injEq, Except.ok.injEq] at h
    obtain ⟨h1, h2, h3⟩ := h
    refine ⟨h1.symm, by rw [← h2, h3], ?_⟩
    intro hg
    rw [if_pos hg, Option.some.injEq] at hr
    rw [← h3, ← hr]
    unfold gitVersion
    cases e.gitOut with
    | none => decide
    | some r =>
      dsimp only
      by_cases hr : r = []
      · rw [if_pos hr]; decide
      · rw [if_neg hr]; exact hr

/-- **C107 (disagreement).** If the import of the revision fails, the exception leaves the program in another working directory. -/
theorem C107_version_fails : ∃ (e : VersionEnv), versionInfo [] e "/home/x" "/lib" = ("/lib", .error .runtimeError) := ⟨⟨false, none, true, none⟩, rfl⟩

end Ompy
