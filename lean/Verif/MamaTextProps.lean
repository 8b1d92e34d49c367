import Verif.MamaText
import Verif.PrintfProps
import Verif.MatrixProps
import Verif.FileIOProps

/-!
# C99: text files hold what was written
-/

namespace Ompy

/-! ## Lines and words -/

theorem cutAt_notMem (c : Char) (w : List Char) (h : c ∉ w) : cutAt c w = [w] := by
  induction w with
  | nil => rfl
  | cons x xs ih =>
    have hx : x ≠ c := fun e => h (e ▸ List.mem_cons_self)
    simp [cutAt, hx, ih fun hm => h (List.mem_cons_of_mem _ hm)]

theorem cutAt_append (c : Char) (w r : List Char) (h : c ∉ w) : cutAt c (w ++ c :: r) = w :: cutAt c r := by
  induction w with
  | nil => simp [cutAt]
  | cons x xs ih =>
    have hx : x ≠ c := fun e => h (e ▸ List.mem_cons_self)
    simp [cutAt, hx, ih fun hm => h (List.mem_cons_of_mem _ hm)]

theorem cutAt_join (c : Char) (ws : List (List Char)) (hne : ws ≠ []) (h : ∀ w ∈ ws, c ∉ w) : cutAt c (joinC c ws) = ws := by
  induction ws with
  | nil => exact absurd rfl hne
  | cons w ws ih =>
    cases ws with
    | nil => exact cutAt_notMem c w (h w (by simp))
    | cons v vs =>
      show cutAt c (w ++ c :: joinC c (v :: vs)) = _
      rw [cutAt_append c w _ (h w (by simp)), ih (by simp) fun u hu => h u (List.mem_cons_of_mem _ hu)]

theorem mem_joinC (c : Char) (ws : List (List Char)) (x : Char) (h : x ∈ joinC c ws) : x = c ∨ ∃ w ∈ ws, x ∈ w := by
  induction ws with
  | nil => cases h
  | cons w ws ih =>
    cases ws with
    | nil => exact Or.inr ⟨w, by simp, h⟩
    | cons v vs =>
      have h' : x ∈ w ++ c :: joinC c (v :: vs) := h
      rcases List.mem_append.1 h' with h' | h'
      · exact Or.inr ⟨w, by simp, h'⟩
      · rcases List.mem_cons.1 h' with rfl | h'
        · exact Or.inl rfl
        · rcases ih h' with rfl | ⟨u, hu, hx⟩
          · exact Or.inl rfl
          · exact Or.inr ⟨u, List.mem_cons_of_mem _ hu, hx⟩

theorem univNl_id (t : List Char) (h : '\r' ∉ t) : univNl t = t := by
  induction t with
  | nil => rfl
  | cons c cs ih =>
    have hc : c ≠ '\r' := fun e => h (e ▸ List.mem_cons_self)
    have ht := ih fun hm => h (List.mem_cons_of_mem _ hm)
    unfold univNl
    split
    · rename_i heq; exact absurd (List.cons.inj heq).1 hc
    · rename_i heq; exact absurd (List.cons.inj heq).1 hc
    · rename_i heq
      obtain ⟨rfl, rfl⟩ := List.cons.inj heq
      rw [ht]
    · rename_i heq; cases heq

/-- Lines without line ends are found again. -/
theorem linesOf_join (ls : List (List Char)) (hne : ls ≠ []) (h : ∀ l ∈ ls, '\n' ∉ l ∧ '\r' ∉ l) : linesOf (joinC '\n' ls) = ls := by
  unfold linesOf
  rw [univNl_id, cutAt_join '\n' ls hne fun l hl => (h l hl).1]
  intro hm
  rcases mem_joinC _ _ _ hm with hm | ⟨l, hl, hm⟩
  · exact absurd hm (by decide)
  · exact (h l hl).2 hm

/-- Words between blanks. -/
def wordsIn (l : List Char) : List (List Char) := (cutAt ' ' l).filter (· ≠ [])

theorem words_cons (w r : List Char) (h : ' ' ∉ w) (hw : w ≠ []) : wordsIn (w ++ ' ' :: r) = w :: wordsIn r := by
  unfold wordsIn
  rw [cutAt_append _ _ _ h, List.filter_cons_of_pos (by simpa using hw)]

theorem words_blank (r : List Char) : wordsIn (' ' :: r) = wordsIn r := by
  unfold wordsIn
  rw [show (' ' :: r) = [] ++ ' ' :: r from rfl, cutAt_append _ _ _ (by simp), List.filter_cons_of_neg (by simp)]

theorem words_blanks (k : ℕ) (r : List Char) : wordsIn (List.replicate k ' ' ++ r) = wordsIn r := by
  induction k with
  | zero => rfl
  | succ k ih => rw [List.replicate_succ, List.cons_append, words_blank, ih]

theorem words_end (w : List Char) (k : ℕ) (h : ' ' ∉ w) (hw : w ≠ []) : wordsIn (w ++ List.replicate k ' ') = [w] := by
  cases k with
  | zero =>
    rw [List.replicate_zero, List.append_nil]
    unfold wordsIn
    rw [cutAt_notMem _ _ h]
    simp [hw]
  | succ k =>
    rw [List.replicate_succ, words_cons _ _ h hw]
    have := words_blanks k []
    rw [List.append_nil] at this
    rw [this]
    rfl

/-- Padded words joined by blanks are found again. -/
theorem words_join {α : Type} (f : α → List Char) (k : α → ℕ) (L : List α) (h : ∀ x ∈ L, ' ' ∉ f x ∧ f x ≠ []) :
    wordsIn (joinC ' ' (L.map fun x => f x ++ List.replicate (k x) ' ')) = L.map f := by
  induction L with
  | nil => rfl
  | cons x xs ih =>
    obtain ⟨h1, h2⟩ := h x (by simp)
    cases xs with
    | nil => exact words_end _ _ h1 h2
    | cons y ys =>
      have ih' := ih fun z hz => h z (List.mem_cons_of_mem _ hz)
      show wordsIn ((f x ++ List.replicate (k x) ' ') ++ ' ' :: joinC ' ' ((y :: ys).map fun x => f x ++ List.replicate (k x) ' ')) = f x :: (y :: ys).map f
      rw [← ih', List.append_assoc]
      cases hk : k x with
      | zero => rw [List.replicate_zero, List.nil_append, words_cons _ _ h1 h2]
      | succ n =>
        rw [List.replicate_succ, List.cons_append, words_cons _ _ h1 h2, words_blanks, words_blank]

theorem takeWhile_self {α : Type} (q : α → Bool) (l : List α) (h : ∀ x ∈ l, q x = true) : l.takeWhile q = l := by
  induction l with
  | nil => rfl
  | cons x xs ih => simp [h x (by simp), ih fun y hy => h y (List.mem_cons_of_mem _ hy)]

theorem fieldsOf_clean (l : List Char) (h : '#' ∉ l) : fieldsOf l = wordsIn l := by
  unfold fieldsOf wordsIn
  rw [takeWhile_self]
  intro x hx
  simp only [decide_eq_true_eq]
  exact fun e => h (e ▸ hx)

/-- A character of a padded number. -/
theorem mem_printLeft (w p : ℕ) (x : ℚ) (c : Char) (h : c ∈ printLeft w p x) : c ∈ printL 'E' p x ∨ c = ' ' := by
  unfold printLeft printE at h
  rcases List.mem_append.1 h with h | h
  · exact Or.inl h
  · exact Or.inr (List.eq_of_mem_replicate h)

theorem mem_printRight (w p : ℕ) (x : ℚ) (c : Char) (h : c ∈ printRight w p x) : c ∈ printL 'E' p x ∨ c = ' ' := by
  unfold printRight printE at h
  rcases List.mem_append.1 h with h | h
  · exact Or.inr (List.eq_of_mem_replicate h)
  · exact Or.inl h

theorem printLeft_clean (w p : ℕ) (x : ℚ) : '\n' ∉ printLeft w p x ∧ '\r' ∉ printLeft w p x ∧ '#' ∉ printLeft w p x := by
  obtain ⟨-, h2, h3, -, h5, -⟩ := C98_no_separator 'E' (Or.inl rfl) p x
  refine ⟨fun h => ?_, fun h => ?_, fun h => ?_⟩ <;> rcases mem_printLeft _ _ _ _ h with h | h
  · exact h2 h
  · exact absurd h (by decide)
  · exact h3 h
  · exact absurd h (by decide)
  · exact h5 h
  · exact absurd h (by decide)

theorem printRight_clean (w p : ℕ) (x : ℚ) : '\n' ∉ printRight w p x ∧ '\r' ∉ printRight w p x ∧ ',' ∉ printRight w p x := by
  obtain ⟨-, h2, h3, h4, -, -⟩ := C98_no_separator 'E' (Or.inl rfl) p x
  refine ⟨fun h => ?_, fun h => ?_, fun h => ?_⟩ <;> rcases mem_printRight _ _ _ _ h with h | h
  · exact h2 h
  · exact absurd h (by decide)
  · exact h3 h
  · exact absurd h (by decide)
  · exact h4 h
  · exact absurd h (by decide)

/-! ## Rows of counts -/

theorem mamaRow_clean (r : List ℚ) : '\n' ∉ mamaRow r ∧ '\r' ∉ mamaRow r ∧ '#' ∉ mamaRow r := by
  unfold mamaRow
  have key : ∀ c, c ∈ joinC ' ' (r.map fun x => printLeft 17 8 x) → c = ' ' ∨ ∃ x, c ∈ printLeft 17 8 x := by
    intro c hc
    rcases mem_joinC _ _ _ hc with rfl | ⟨w, hw, hx⟩
    · exact Or.inl rfl
    · obtain ⟨x, -, rfl⟩ := List.mem_map.1 hw
      exact Or.inr ⟨x, hx⟩
  refine ⟨fun h => ?_, fun h => ?_, fun h => ?_⟩ <;> rcases key _ h with h | ⟨x, h⟩
  · exact absurd h (by decide)
  · exact (printLeft_clean 17 8 x).1 h
  · exact absurd h (by decide)
  · exact (printLeft_clean 17 8 x).2.1 h
  · exact absurd h (by decide)
  · exact (printLeft_clean 17 8 x).2.2 h

theorem fields_mamaRow (r : List ℚ) : fieldsOf (mamaRow r) = r.map fun x => printL 'E' 8 x := by
  rw [fieldsOf_clean _ (mamaRow_clean r).2.2]
  exact words_join (fun x => printL 'E' 8 x) (fun x => 17 - (printE 8 x).length) r fun x _ =>
    ⟨(C98_no_separator 'E' (Or.inl rfl) 8 x).1, (C98_no_separator 'E' (Or.inl rfl) 8 x).2.2.2.2.2⟩

/-- The counts are found by `genfromtxt` behind ten lines of header, in front of the footer. -/
theorem gen_rows_aux (I : List Char) (hI : fieldsOf I = [I]) (hdr : List (List Char)) (h10 : hdr.length = 10) (rows : List (List ℚ)) (c : ℕ) (hc : 0 < c) (hr : ∀ r ∈ rows, r.length = c) :
    genFromTxt 10 1 (hdr ++ rows.map mamaRow ++ [I, [], []]) =
      .ok (if rows = [] then 1 else c, rows.map fun r => r.map fun x => some (sigRound 8 x)) := by
  have hE : fieldsOf [] = [] := by decide
  set R : List (List (List Char)) := rows.map fun r => r.map fun x => printL 'E' 8 x with hR
  have hRlen : R.length = rows.length := by simp [hR]
  have hRmem : ∀ f ∈ R, f.length = c := by
    intro f hf
    obtain ⟨r, hm, rfl⟩ := List.mem_map.1 hf
    simpa using hr r hm
  have hRne : ∀ f ∈ R, f ≠ [] := by
    intro f hf he
    have := hRmem f hf
    rw [he] at this
    simp at this
    omega
  have hdrop : (hdr ++ rows.map mamaRow ++ [I, [], []]).drop 10 = rows.map mamaRow ++ [I, [], []] := by
    rw [List.append_assoc, ← h10, List.drop_left]
  have hmap : (rows.map mamaRow ++ [I, [], []]).map fieldsOf = R ++ [[I], [], []] := by
    rw [List.map_append, List.map_map]
    congr 1
    · exact List.map_congr_left fun r _ => fields_mamaRow r
    · simp [hI, hE]
  have hdw : (R ++ [[I], [], []]).dropWhile (fun f => decide (f = [])) = R ++ [[I], [], []] := by
    cases hRR : R with
    | nil => rfl
    | cons f fs =>
      have : f ≠ [] := hRne f (by rw [hRR]; simp)
      simp [this]
  have hzip : ((R ++ [[I], [], []]).zipIdx).filter (fun p => decide (p.1 ≠ [])) = R.zipIdx ++ [([I], R.length)] := by
    rw [List.zipIdx_append, List.filter_append]
    congr 1
    · rw [List.filter_eq_self]
      intro p hp
      have : p.1 ∈ R := by
        have := List.mem_map_of_mem (f := Prod.fst) hp
        rwa [List.zipIdx_map_fst] at this
      simpa using hRne _ this
    · simp [List.zipIdx]
  have hread : R.map (fun f => f.map readFloat) = rows.map fun r => r.map fun x => some (sigRound 8 x) := by
    have hone : ∀ x : ℚ, readFloat (printL 'E' 8 x) = some (sigRound 8 x) := fun x => (C98_read 'E' (Or.inl rfl) 0 8 x x).1
    rw [hR, List.map_map]
    refine List.map_congr_left fun r _ => ?_
    simp only [Function.comp_apply, List.map_map]
    refine List.map_congr_left fun x _ => ?_
    rw [Function.comp_apply, hone x]
  have hmz : (R.zipIdx.map fun p => p.1.map readFloat) = R.map fun f => f.map readFloat := by
    have : (fun p : List (List Char) × ℕ => p.1.map readFloat) = (fun f : List (List Char) => f.map readFloat) ∘ Prod.fst := rfl
    rw [this, ← List.map_map, List.zipIdx_map_fst]
  have hzl : R.zipIdx.length = R.length := by simp
  have hfst : ∀ p ∈ R.zipIdx, p.1.length = c := by
    intro p hp
    have := List.mem_map_of_mem (f := Prod.fst) hp
    rw [List.zipIdx_map_fst] at this
    exact hRmem _ this
  unfold genFromTxt
  simp only [hdrop, hmap, hdw, hzip]
  by_cases h1 : rows = [] ∨ c = 1
  · -- the footer has as many fields as the counts: the last row is dropped
    have hnc : ((R.zipIdx ++ [([I], R.length)]).head?.map fun p => p.1.length).getD 0 = 1 := by
      cases hRR : R with
      | nil => rfl
      | cons f fs =>
        have hrn : rows ≠ [] := by
          rintro rfl
          simp [hR] at hRR
        have hc1 := h1.resolve_left hrn
        have := hRmem f (by rw [hRR]; simp)
        simp [this, hc1]
    have hall : ∀ p ∈ R.zipIdx ++ [([I], R.length)], p.1.length = 1 := by
      intro p hp
      rcases List.mem_append.1 hp with hp | hp
      · rcases h1 with h1 | h1
        · subst h1
          simp [hR] at hp
        · rw [hfst p hp, h1]
      · simp at hp
        rw [hp]
        rfl
    have hgood : (R.zipIdx ++ [([I], R.length)]).filter (fun p => decide (p.1.length = 1)) = R.zipIdx ++ [([I], R.length)] := by
      rw [List.filter_eq_self]
      intro p hp
      simpa using hall p hp
    have hbad : (R.zipIdx ++ [([I], R.length)]).filter (fun p => decide (p.1.length ≠ 1)) = [] := by
      rw [List.filter_eq_nil_iff]
      intro p hp
      simpa using hall p hp
    rw [hnc, hgood, hbad]
    simp only [List.filter_nil, List.length_nil, lt_irrefl, if_false, Nat.sub_zero, List.length_append, List.length_singleton, Nat.add_sub_cancel,
      List.take_left, hmz, hread]
    congr 2
    by_cases hrn : rows = []
    · rw [if_pos hrn]
    · rw [if_neg hrn, h1.resolve_left hrn]
  · push Not at h1
    obtain ⟨hrn, hc1⟩ := h1
    have hnc : ((R.zipIdx ++ [([I], R.length)]).head?.map fun p => p.1.length).getD 0 = c := by
      cases hRR : R with
      | nil => simp [hR] at hRR; exact absurd hRR hrn
      | cons f fs =>
        have := hRmem f (by rw [hRR]; simp)
        simp [this]
    have hgood : (R.zipIdx ++ [([I], R.length)]).filter (fun p => decide (p.1.length = c)) = R.zipIdx := by
      rw [List.filter_append, List.filter_eq_self.2 (fun p hp => by simpa using hfst p hp)]
      have : ¬ (1 = c) := fun h => hc1 h.symm
      simp [this]
    have hbad : (R.zipIdx ++ [([I], R.length)]).filter (fun p => decide (p.1.length ≠ c)) = [([I], R.length)] := by
      rw [List.filter_append, List.filter_eq_nil_iff.2 (fun p hp => by simpa using hfst p hp)]
      have : ¬ (1 = c) := fun h => hc1 h.symm
      simp [this]
    have hsk : ([([I], R.length)] : List (List (List Char) × ℕ)).filter
        (fun p => decide (R.zipIdx.length + [(([I] : List (List Char)), R.length)].length + 10 < p.2 + 10 + 1 + 1)) = [([I], R.length)] := by
      rw [hzl, List.filter_cons_of_pos]
      · rfl
      · simp
    rw [hnc, hgood, hbad, hsk]
    simp only [List.length_singleton, lt_irrefl, if_false, Nat.sub_self, Nat.sub_zero, List.take_length, hmz, hread, if_neg hrn]

theorem gen_rows (hdr : List (List Char)) (h10 : hdr.length = 10) (rows : List (List ℚ)) (c : ℕ) (hc : 0 < c) (hr : ∀ r ∈ rows, r.length = c) :
    genFromTxt 10 1 (hdr ++ rows.map mamaRow ++ ["!IDEND=".toList, [], []]) =
      .ok (if rows = [] then 1 else c, rows.map fun r => r.map fun x => some (sigRound 8 x)) :=
  gen_rows_aux _ (by decide) hdr h10 rows c hc hr

/-! ## The header -/

theorem int4_clean (n : ℕ) : '\n' ∉ int4 n ∧ '\r' ∉ int4 n := by
  unfold int4
  refine ⟨fun h => ?_, fun h => ?_⟩ <;> rcases List.mem_append.1 h with h | h
  · exact absurd (List.eq_of_mem_replicate h) (by decide)
  · obtain ⟨d, hd, he⟩ := digit_mem _ _ _ h
    exact (digit_ne d hd).2.1 he.symm
  · exact absurd (List.eq_of_mem_replicate h) (by decide)
  · obtain ⟨d, hd, he⟩ := digit_mem _ _ _ h
    exact (digit_ne d hd).2.2.1 he.symm

/-- No line end in it. -/
def OneLine (s : List Char) : Prop := '\n' ∉ s ∧ '\r' ∉ s

theorem OneLine.append {a b : List Char} (ha : OneLine a) (hb : OneLine b) : OneLine (a ++ b) :=
  ⟨fun h => (List.mem_append.1 h).elim ha.1 hb.1, fun h => (List.mem_append.1 h).elim ha.2 hb.2⟩

theorem calLine_clean (cal : List ℚ) : OneLine (joinC ',' ("!CALIBRATION EkeV=6".toList :: cal.map fun a => ' ' :: printRight 12 6 a) ++ [' ']) := by
  refine OneLine.append ?_ (by unfold OneLine; decide)
  have key : ∀ c, c ∈ joinC ',' ("!CALIBRATION EkeV=6".toList :: cal.map fun a => ' ' :: printRight 12 6 a) →
      c = ',' ∨ c ∈ "!CALIBRATION EkeV=6".toList ∨ c = ' ' ∨ ∃ a, c ∈ printRight 12 6 a := by
    intro c hc
    rcases mem_joinC _ _ _ hc with rfl | ⟨w, hw, hx⟩
    · exact Or.inl rfl
    · rcases List.mem_cons.1 hw with rfl | hw
      · exact Or.inr (Or.inl hx)
      · obtain ⟨a, -, rfl⟩ := List.mem_map.1 hw
        rcases List.mem_cons.1 hx with rfl | hx
        · exact Or.inr (Or.inr (Or.inl rfl))
        · exact Or.inr (Or.inr (Or.inr ⟨a, hx⟩))
  constructor
  · intro h
    rcases key _ h with h | h | h | ⟨a, h⟩
    · exact absurd h (by decide)
    · exact absurd h (by decide)
    · exact absurd h (by decide)
    · exact (printRight_clean 12 6 a).1 h
  · intro h
    rcases key _ h with h | h | h | ⟨a, h⟩
    · exact absurd h (by decide)
    · exact absurd h (by decide)
    · exact absurd h (by decide)
    · exact (printRight_clean 12 6 a).2.1 h

theorem header_clean (kind comment time : List Char) (cal : List ℚ) (dim channel : List Char) (hk : OneLine kind) (hc : OneLine comment)
    (ht : OneLine time) (hd : OneLine dim) (hch : OneLine channel) : ∀ l ∈ mamaHeader kind comment time cal dim channel, OneLine l := by
  intro l hl
  simp only [mamaHeader, List.mem_cons, List.not_mem_nil, or_false] at hl
  rcases hl with rfl | rfl | rfl | rfl | rfl | rfl | rfl | rfl | rfl | rfl
  · unfold OneLine; decide
  · exact OneLine.append (OneLine.append (by unfold OneLine; decide) hk) (by unfold OneLine; decide)
  · unfold OneLine; decide
  · unfold OneLine; decide
  · exact OneLine.append (OneLine.append (by unfold OneLine; decide) hc) (by unfold OneLine; decide)
  · exact OneLine.append (OneLine.append (by unfold OneLine; decide) ht) (by unfold OneLine; decide)
  · exact calLine_clean cal
  · unfold OneLine; decide
  · exact hd
  · exact hch

theorem file_lines (hdr : List (List Char)) (rows : List (List ℚ)) (h : ∀ l ∈ hdr, OneLine l) :
    linesOf (mamaFile hdr rows) = hdr ++ rows.map mamaRow ++ ["!IDEND=".toList, [], []] := by
  unfold mamaFile
  refine linesOf_join _ (by simp) ?_
  intro l hl
  rcases List.mem_append.1 hl with hl | hl
  · rcases List.mem_append.1 hl with hl | hl
    · exact h l hl
    · obtain ⟨r, -, rfl⟩ := List.mem_map.1 hl
      exact ⟨(mamaRow_clean r).1, (mamaRow_clean r).2.1⟩
  · simp only [List.mem_cons, List.not_mem_nil, or_false] at hl
    rcases hl with rfl | rfl | rfl
    · decide
    · decide
    · decide

theorem float_cal (a : ℚ) (l : ℕ) : floatOf (' ' :: printRight 12 6 a ++ List.replicate l ' ') = .ok (sigRound 6 a) := by
  unfold floatOf
  have h := read_padded 'E' (Or.inl rfl) (12 - (printE 6 a).length + 1) l 6 a
  have he : ' ' :: printRight 12 6 a ++ List.replicate l ' ' =
      List.replicate (12 - (printE 6 a).length + 1) ' ' ++ printL 'E' 6 a ++ List.replicate l ' ' := by
    unfold printRight
    rw [List.replicate_succ]
    rfl
  rw [he, h]

theorem cal_nocomma (a : ℚ) (l : ℕ) : ',' ∉ (' ' :: printRight 12 6 a ++ List.replicate l ' ') := by
  intro h
  rcases List.mem_append.1 h with h | h
  · rcases List.mem_cons.1 h with h | h
    · exact absurd h (by decide)
    · exact (printRight_clean 12 6 a).2.2 h
  · exact absurd (List.eq_of_mem_replicate h) (by decide)

/-- The calibration is found in the seventh line. -/
theorem cal_found (kind comment time : List Char) (cal : List ℚ) (dim channel : List Char) (rest : List (List Char)) (h : cal.length = 3 ∨ cal.length = 6) :
    calibrationLine (mamaHeader kind comment time cal dim channel ++ rest) = .ok (cal.map (sigRound 6)) := by
  have h6 : (mamaHeader kind comment time cal dim channel ++ rest)[6]? =
      some (joinC ',' ("!CALIBRATION EkeV=6".toList :: cal.map fun a => ' ' :: printRight 12 6 a) ++ [' ']) := rfl
  have nc : ∀ a, ',' ∉ (' ' :: printRight 12 6 a) := fun a => by simpa using cal_nocomma a 0
  have nc' : ∀ a, ',' ∉ (' ' :: printRight 12 6 a ++ [' ']) := fun a => cal_nocomma a 1
  have fl : ∀ a, floatOf (' ' :: printRight 12 6 a) = .ok (sigRound 6 a) := fun a => by simpa using float_cal a 0
  have fl' : ∀ a, floatOf (' ' :: printRight 12 6 a ++ [' ']) = .ok (sigRound 6 a) := fun a => float_cal a 1
  have n0 : ',' ∉ "!CALIBRATION EkeV=6".toList := by decide
  unfold calibrationLine
  rw [h6]
  rcases h with h | h
  · obtain ⟨a, b, c, rfl⟩ : ∃ a b c, cal = [a, b, c] := by
      rcases cal with _ | ⟨a, _ | ⟨b, _ | ⟨c, _ | ⟨d, t⟩⟩⟩⟩ <;> simp at h
      exact ⟨a, b, c, rfl⟩
    have hj : joinC ',' ("!CALIBRATION EkeV=6".toList :: [a, b, c].map fun a => ' ' :: printRight 12 6 a) ++ [' '] =
        "!CALIBRATION EkeV=6".toList ++ ',' :: ((' ' :: printRight 12 6 a) ++ ',' :: ((' ' :: printRight 12 6 b) ++ ',' :: ((' ' :: printRight 12 6 c) ++ [' ']))) := by
      simp [joinC]
    have hcut : cutAt ',' (joinC ',' ("!CALIBRATION EkeV=6".toList :: [a, b, c].map fun a => ' ' :: printRight 12 6 a) ++ [' ']) =
        ["!CALIBRATION EkeV=6".toList, ' ' :: printRight 12 6 a, ' ' :: printRight 12 6 b, (' ' :: printRight 12 6 c) ++ [' ']] := by
      rw [hj, cutAt_append _ _ _ n0, cutAt_append _ _ _ (nc a), cutAt_append _ _ _ (nc b), cutAt_notMem _ _ (nc' c)]
    dsimp only
    rw [hcut, if_pos (by simp)]
    simp only [List.tail_cons, List.mapM_cons, List.mapM_nil, fl, fl', bind, Except.bind, pure, Except.pure, List.map_cons, List.map_nil]
  · obtain ⟨a, b, c, d, e, f, rfl⟩ : ∃ a b c d e f, cal = [a, b, c, d, e, f] := by
      rcases cal with _ | ⟨a, _ | ⟨b, _ | ⟨c, _ | ⟨d, _ | ⟨e, _ | ⟨f, _ | ⟨g, t⟩⟩⟩⟩⟩⟩⟩ <;> simp at h
      exact ⟨a, b, c, d, e, f, rfl⟩
    have hj : joinC ',' ("!CALIBRATION EkeV=6".toList :: [a, b, c, d, e, f].map fun a => ' ' :: printRight 12 6 a) ++ [' '] =
        "!CALIBRATION EkeV=6".toList ++ ',' :: ((' ' :: printRight 12 6 a) ++ ',' :: ((' ' :: printRight 12 6 b) ++ ',' :: ((' ' :: printRight 12 6 c) ++
          ',' :: ((' ' :: printRight 12 6 d) ++ ',' :: ((' ' :: printRight 12 6 e) ++ ',' :: ((' ' :: printRight 12 6 f) ++ [' '])))))) := by
      simp [joinC]
    have hcut : cutAt ',' (joinC ',' ("!CALIBRATION EkeV=6".toList :: [a, b, c, d, e, f].map fun a => ' ' :: printRight 12 6 a) ++ [' ']) =
        ["!CALIBRATION EkeV=6".toList, ' ' :: printRight 12 6 a, ' ' :: printRight 12 6 b, ' ' :: printRight 12 6 c, ' ' :: printRight 12 6 d,
          ' ' :: printRight 12 6 e, (' ' :: printRight 12 6 f) ++ [' ']] := by
      rw [hj, cutAt_append _ _ _ n0, cutAt_append _ _ _ (nc a), cutAt_append _ _ _ (nc b), cutAt_append _ _ _ (nc c), cutAt_append _ _ _ (nc d),
        cutAt_append _ _ _ (nc e), cutAt_notMem _ _ (nc' f)]
    dsimp only
    rw [hcut, if_pos (by simp)]
    simp only [List.tail_cons, List.mapM_cons, List.mapM_nil, fl, fl', bind, Except.bind, pure, Except.pure, List.map_cons, List.map_nil]

/-! ## The theorems -/

/-- The data with numbers in the place of NaN or numbers. -/
def MamaData.toOut : MamaData → MamaOut
  | .one c x => .one (c.map some) x
  | .two c x y => .two (c.map fun r => r.map some) x y

/-- **C99 (partial: comments of one line).** Reading the text of a MAMA file of a spectrum gives the counts rounded to 9 digits and the axis of the calibration
rounded to 7 digits: the text is read as the file of `FileIO.lean` with `rc = sigRound 6` and `rv = sigRound 8` (C24). -/
theorem C99_vector_partial (comment time : List Char) (hc : OneLine comment) (ht : OneLine time) (v : Vec ℚ) (path : String) (fs fs' : FS)
    (h : mamaWrite1D (sigRound 6) (sigRound 8) v path fs = .ok fs') :
    ∃ text, mamaText1D comment time v = .ok text ∧ mamaReadText text = (mamaRead path fs').map MamaData.toOut := by
  unfold mamaWrite1D at h
  unfold mamaText1D
  by_cases hl : 8192 < v.values.length
  · rw [if_pos hl] at h; cases h
  rw [if_neg hl] at h ⊢
  cases hcal : vecCalibration v.E with
  | error e => simp [hcal, bind, Except.bind] at h
  | ok c =>
    simp only [hcal, bind, Except.bind, Except.ok.injEq] at h
    refine ⟨_, rfl, ?_⟩
    have hcl := header_clean "Spectrum".toList comment time [c.1, c.2, 0] ("!DIMENSION=1,0:".toList ++ int4 (v.values.length - 1) ++ [' '])
      ("!CHANNEL=(0:".toList ++ int4 (v.values.length - 1) ++ ") ".toList) (by unfold OneLine; decide) hc ht
      (OneLine.append (OneLine.append (by unfold OneLine; decide) (int4_clean _)) (by unfold OneLine; decide))
      (OneLine.append (OneLine.append (by unfold OneLine; decide) (int4_clean _)) (by unfold OneLine; decide))
    unfold mamaReadText
    rw [file_lines _ _ hcl, gen_rows _ rfl _ 1 (by norm_num) (by simp)]
    simp only [bind, Except.bind, List.append_assoc]
    rw [cal_found _ _ _ _ _ _ _ (Or.inl rfl)]
    subst h
    unfold mamaRead
    simp only [FS.set, if_true, List.map_cons, List.map_nil, List.map_map]
    unfold mamaArrays loadtxt
    rcases hv : v.values with _ | ⟨x, _ | ⟨y, t⟩⟩
    · simp [MamaData.toOut, Except.map, calAxis]
    · simp [Except.map]
    · simp [MamaData.toOut, Except.map, column, Function.comp_def]

/-- **C99 (partial: comments of one line).** Reading the text of a MAMA file of a matrix gives the counts rounded to 9 digits and the axes of the calibrations rounded
to 7 digits. -/
theorem C99_matrix_partial (comment time : List Char) (hc : OneLine comment) (ht : OneLine time) (m : Mat) (hm : m.consistent = true) (path : String)
    (fs fs' : FS) (h : mamaWrite2D (sigRound 6) (sigRound 8) m path fs = .ok fs') :
    ∃ text, mamaText2D comment time m = .ok text ∧ mamaReadText text = (mamaRead path fs').map MamaData.toOut ∧
      ∃ x y, mamaReadText text = .ok (.two (m.values.map fun r => r.map fun c => some (sigRound 8 c)) x y) ∧
        x.length = m.Eg.length ∧ y.length = m.Ex.length := by
  unfold mamaWrite2D at h
  unfold mamaText2D
  by_cases hl : 2048 < m.Ex.length ∨ 2048 < m.Eg.length
  · rw [if_pos hl] at h; cases h
  rw [if_neg hl] at h ⊢
  cases hx : vecCalibration m.Ex with
  | error e => simp [hx, bind, Except.bind] at h
  | ok cx =>
    cases hg : vecCalibration m.Eg with
    | error e => simp [hx, hg, bind, Except.bind] at h
    | ok cg =>
      simp only [hx, hg, bind, Except.bind, Except.ok.injEq] at h
      have hx2 : 2 ≤ m.Ex.length := by
        rcases hE : m.Ex with _ | ⟨a, _ | ⟨b, t⟩⟩
        · rw [hE] at hx; cases hx
        · rw [hE] at hx; cases hx
        · simp
      have hg2 : 2 ≤ m.Eg.length := by
        rcases hE : m.Eg with _ | ⟨a, _ | ⟨b, t⟩⟩
        · rw [hE] at hg; cases hg
        · rw [hE] at hg; cases hg
        · simp
      have hsh := consistent_shape m hm
      obtain ⟨hr, hcol⟩ := hsh
      refine ⟨_, rfl, ?_⟩
      have hcl := header_clean "Matrix".toList comment time [cg.1, cg.2, 0, cx.1, cx.2, 0]
        ("!DIMENSION=2,0:".toList ++ int4 (m.Eg.length - 1) ++ ",0:".toList ++ int4 (m.Ex.length - 1) ++ [' '])
        ("!CHANNEL=(0:".toList ++ int4 (m.Eg.length - 1) ++ ",0:".toList ++ int4 (m.Ex.length - 1) ++ ") ".toList) (by unfold OneLine; decide) hc ht
        (OneLine.append (OneLine.append (OneLine.append (OneLine.append (by unfold OneLine; decide) (int4_clean _)) (by unfold OneLine; decide))
          (int4_clean _)) (by unfold OneLine; decide))
        (OneLine.append (OneLine.append (OneLine.append (OneLine.append (by unfold OneLine; decide) (int4_clean _)) (by unfold OneLine; decide))
          (int4_clean _)) (by unfold OneLine; decide))
      have hne : m.values ≠ [] := by
        intro he
        rw [he] at hr
        simp at hr
        omega
      have hread : mamaReadText (mamaFile (mamaHeader "Matrix".toList comment time [cg.1, cg.2, 0, cx.1, cx.2, 0]
          ("!DIMENSION=2,0:".toList ++ int4 (m.Eg.length - 1) ++ ",0:".toList ++ int4 (m.Ex.length - 1) ++ [' '])
          ("!CHANNEL=(0:".toList ++ int4 (m.Eg.length - 1) ++ ",0:".toList ++ int4 (m.Ex.length - 1) ++ ") ".toList)) m.values) =
          .ok (.two (m.values.map fun r => r.map fun c => some (sigRound 8 c)) (calAxis (sigRound 6 cg.1) (sigRound 6 cg.2) (sigRound 6 0) m.Eg.length)
            (calAxis (sigRound 6 cx.1) (sigRound 6 cx.2) (sigRound 6 0) m.Ex.length)) := by
        unfold mamaReadText
        rw [file_lines _ _ hcl, gen_rows _ rfl _ m.Eg.length (by omega) hcol]
        simp only [bind, Except.bind, List.append_assoc, if_neg hne]
        rw [cal_found _ _ _ _ _ _ _ (Or.inr rfl)]
        simp only [List.map_cons, List.map_nil, mamaArrays, List.length_map]
        rw [if_neg (by omega), hr]
      rw [hread]
      refine ⟨?_, _, _, rfl, by simp [calAxis], by simp [calAxis]⟩
      subst h
      unfold mamaRead
      simp only [FS.set, if_true]
      have hld : loadtxt m.Eg.length (m.values.map fun r => r.map (sigRound 8)) = .d2 m.Eg.length (m.values.map fun r => r.map (sigRound 8)) := by
        rcases hv : m.values with _ | ⟨a, _ | ⟨b, t⟩⟩
        · exact absurd hv hne
        · rw [hv] at hr; simp at hr; omega
        · simp only [List.map_cons, loadtxt]
          rw [if_neg (by omega)]
      rw [hld]
      simp [MamaData.toOut, Except.map, hr, Function.comp_def]

example : (mamaText1D "a comment".toList "01-Jan-26 12:00:00".toList ⟨[10, 20, 30], [1, 2 / 3, -5], none, "keV"⟩).bind mamaReadText =
    .ok (.one [some 1, some (666666667 / 1000000000), some (-5)] [10, 20, 30]) := by decide +kernel

example : (mamaText2D "a comment".toList "01-Jan-26 12:00:00".toList ⟨[[1, 2], [3, 4]], [10, 20], [0, 100], none, none⟩).bind mamaReadText =
    .ok (.two [[some 1, some 2], [some 3, some 4]] [10, 20] [0, 100]) := by decide +kernel

/-- What is read of a spectrum of two bins or more. -/
theorem vector_read (comment time : List Char) (hc : OneLine comment) (ht : OneLine time) (v : Vec ℚ) (h2 : 2 ≤ v.values.length) (text : List Char)
    (h : mamaText1D comment time v = .ok text) : ∃ c, vecCalibration v.E = .ok c ∧ v.values.length ≤ 8192 ∧
      mamaReadText text = .ok (.one (v.values.map fun x => some (sigRound 8 x)) (calAxis (sigRound 6 c.1) (sigRound 6 c.2) 0 v.values.length)) := by
  have h' := h
  unfold mamaText1D at h
  by_cases hl : 8192 < v.values.length
  · rw [if_pos hl] at h; cases h
  rw [if_neg hl] at h
  cases hcal : vecCalibration v.E with
  | error e => simp [hcal, Except.map] at h
  | ok c =>
    refine ⟨c, rfl, by omega, ?_⟩
    have hw : mamaWrite1D (sigRound 6) (sigRound 8) v "" (fun _ => none) =
        .ok (FS.set (fun _ => none) "" (some (.mama [sigRound 6 c.1, sigRound 6 c.2, sigRound 6 0] 1 (v.values.map fun x => [sigRound 8 x])))) := by
      unfold mamaWrite1D
      rw [if_neg hl]
      simp only [hcal, bind, Except.bind]
    obtain ⟨text', e1, e2⟩ := C99_vector_partial comment time hc ht v "" _ _ hw
    rw [h'] at e1
    cases e1
    rw [e2]
    unfold mamaRead
    simp only [FS.set, if_true]
    rcases hv : v.values with _ | ⟨x, _ | ⟨y, t⟩⟩
    · rw [hv] at h2; simp at h2
    · rw [hv] at h2; simp at h2
    · simp [loadtxt, Except.map, MamaData.toOut, column, sigRound_zero]

theorem reprint (p : ℕ) (x : ℚ) : printE p (sigRound p x) = printE p x :=
  (C98_read 'E' (Or.inl rfl) 0 p (sigRound p x) x).2.2.2.2 (C98_again p x).1

theorem reprint_right (w p : ℕ) (x : ℚ) : printRight w p (sigRound p x) = printRight w p x := by
  unfold printRight
  rw [reprint]

theorem reprint_left (w p : ℕ) (x : ℚ) : printLeft w p (sigRound p x) = printLeft w p x := by
  unfold printLeft
  rw [reprint]

theorem header_again (kind comment time dim channel : List Char) (a b : ℚ) :
    mamaHeader kind comment time [sigRound 6 a, sigRound 6 b, 0] dim channel = mamaHeader kind comment time [a, b, 0] dim channel := by
  unfold mamaHeader
  simp only [List.map_cons, List.map_nil, reprint_right]

theorem file_again (hdr : List (List Char)) (l : List ℚ) : mamaFile hdr (l.map ((fun x => [x]) ∘ sigRound 8)) = mamaFile hdr (l.map fun x => [x]) := by
  have : (l.map ((fun x => [x]) ∘ sigRound 8)).map mamaRow = (l.map fun x => [x]).map mamaRow := by
    rw [List.map_map, List.map_map]
    refine List.map_congr_left fun x _ => ?_
    simp only [Function.comp_apply, mamaRow, List.map_cons, List.map_nil, reprint_left]
  unfold mamaFile
  rw [this]

/-- **C99.** A spectrum that was read from a MAMA file and is written again gives the same text: repeated saving loses nothing more. -/
theorem C99_second (comment time : List Char) (hc : OneLine comment) (ht : OneLine time) (v : Vec ℚ) (h2 : 2 ≤ v.values.length) (text : List Char)
    (h : mamaText1D comment time v = .ok text) :
    ∃ w : Vec ℚ, mamaReadText text = .ok (.one (w.values.map some) w.E) ∧ mamaText1D comment time w = .ok text := by
  obtain ⟨c, hcal, hl, hr⟩ := vector_read comment time hc ht v h2 text h
  refine ⟨⟨calAxis (sigRound 6 c.1) (sigRound 6 c.2) 0 v.values.length, v.values.map (sigRound 8), none, "keV"⟩, ?_, ?_⟩
  · rw [hr, List.map_map]; rfl
  · have hcal' : vecCalibration (calAxis (sigRound 6 c.1) (sigRound 6 c.2) 0 v.values.length) = .ok (sigRound 6 c.1, sigRound 6 c.2) := by
      obtain ⟨k, hk⟩ : ∃ k, v.values.length = k + 2 := ⟨v.values.length - 2, by omega⟩
      rw [hk]
      unfold calAxis
      rw [List.range_succ_eq_map, List.range_succ_eq_map]
      simp [vecCalibration]
    unfold mamaText1D at h ⊢
    rw [if_neg (by omega), hcal] at h
    rw [if_neg (by simpa using hl)]
    simp only [hcal', Except.map, List.length_map, List.map_map] at h ⊢
    rw [← h, header_again, file_again]

/-- **C99.** The axis read from a MAMA file: every energy differs from that of the equidistant axis written by at most 5 parts in 10 million of `|a| + k |w|`. -/
theorem C99_axis (comment time : List Char) (hc : OneLine comment) (ht : OneLine time) (v : Vec ℚ) (a w : ℚ) (n : ℕ) (h2 : 2 ≤ n)
    (hE : v.E = grid a w n) (hv : v.values.length = n) (text : List Char) (h : mamaText1D comment time v = .ok text) :
    ∃ E c, mamaReadText text = .ok (.one c E) ∧ E.length = n ∧ ∀ k < n, |E.getD k 0 - v.E.getD k 0| ≤ 5 / 10 ^ 7 * (|a| + k * |w|) := by
  obtain ⟨c, hcal, hl, hr⟩ := vector_read comment time hc ht v (by omega) text h
  refine ⟨_, _, hr, by simp [calAxis, hv], ?_⟩
  intro k hk
  have hc' : c = (a, w) := by
    rw [hE] at hcal
    obtain ⟨j, rfl⟩ : ∃ j, n = j + 2 := ⟨n - 2, by omega⟩
    unfold grid at hcal
    rw [List.range_succ_eq_map, List.range_succ_eq_map] at hcal
    simp [vecCalibration] at hcal
    rw [← hcal]
  subst hc'
  rw [hv, hE, grid_getD a w hk]
  have hg : (calAxis (sigRound 6 (a, w).1) (sigRound 6 (a, w).2) 0 n).getD k 0 = sigRound 6 a + sigRound 6 w * k := by
    unfold calAxis
    rw [List.getD_eq_getElem _ _ (by simpa using hk)]
    simp
  rw [hg]
  have e1 := C98_digits 6 a
  have e2 := C98_digits 6 w
  have hp : (1 / 2 : ℚ) * 10 ^ (-((6 : ℕ) : ℤ)) = 5 / 10 ^ 7 := by norm_num
  rw [hp] at e1 e2
  calc |sigRound 6 a + sigRound 6 w * k - (a + w * k)| = |(sigRound 6 a - a) + (sigRound 6 w - w) * k| := by congr 1; ring
    _ ≤ |sigRound 6 a - a| + |(sigRound 6 w - w) * k| := abs_add_le _ _
    _ ≤ 5 / 10 ^ 7 * |a| + 5 / 10 ^ 7 * |w| * k := by
        rw [abs_mul, abs_of_nonneg (Nat.cast_nonneg k : (0 : ℚ) ≤ k)]
        exact add_le_add e1 (mul_le_mul_of_nonneg_right e2 (Nat.cast_nonneg k))
    _ = _ := by ring

theorem joinC_split (c : Char) (pre post : List (List Char)) (p q : List Char) :
    joinC c (pre ++ (p ++ c :: q) :: post) = joinC c (pre ++ p :: q :: post) := by
  induction pre with
  | nil =>
    cases post with
    | nil => rfl
    | cons r rs => simp [joinC]
  | cons u us ih =>
    cases us with
    | nil =>
      show u ++ c :: joinC c ((p ++ c :: q) :: post) = u ++ c :: joinC c (p :: q :: post)
      rw [show joinC c ((p ++ c :: q) :: post) = joinC c (p :: q :: post) from ih]
    | cons w ws =>
      show u ++ c :: joinC c (w :: ws ++ (p ++ c :: q) :: post) = u ++ c :: joinC c (w :: ws ++ p :: q :: post)
      rw [show joinC c (w :: ws ++ (p ++ c :: q) :: post) = joinC c (w :: ws ++ p :: q :: post) from ih]

theorem gen_error (h f : ℕ) (ls : List (List Char)) (e : Err) (hg : genFromTxt h f ls = .error e) : e = .valueError := by
  unfold genFromTxt at hg
  dsimp only at hg
  split_ifs at hg
  exact (Except.error.inj hg).symm

/-- A header with one line too many. -/
theorem header_broken (kind a b time : List Char) (cal : List ℚ) (dim channel : List Char) (rows : List (List ℚ)) (hk : OneLine kind) (ha : OneLine a)
    (hb : OneLine b) (ht : OneLine time) (hcm : ',' ∉ time) (hd : OneLine dim) (hch : OneLine channel) :
    mamaReadText (mamaFile (mamaHeader kind (a ++ '\n' :: b) time cal dim channel) rows) = .error .valueError := by
  set hdr : List (List Char) := ["!FILE=Disk ".toList, "!KIND=".toList ++ kind ++ [' '], "!LABORATORY=Oslo Cyclotron Laboratory (OCL) ".toList,
    "!EXPERIMENT= oslo_method_python ".toList, "!COMMENT=".toList ++ a, b ++ [' '], "!TIME=DATE:".toList ++ time ++ "   ".toList,
    joinC ',' ("!CALIBRATION EkeV=6".toList :: cal.map fun a => ' ' :: printRight 12 6 a) ++ [' '], "!PRECISION=16 ".toList, dim, channel] with hh
  have hfile : mamaFile (mamaHeader kind (a ++ '\n' :: b) time cal dim channel) rows = mamaFile hdr rows := by
    unfold mamaFile
    have := joinC_split '\n' ["!FILE=Disk ".toList, "!KIND=".toList ++ kind ++ [' '], "!LABORATORY=Oslo Cyclotron Laboratory (OCL) ".toList,
      "!EXPERIMENT= oslo_method_python ".toList] (["!TIME=DATE:".toList ++ time ++ "   ".toList,
      joinC ',' ("!CALIBRATION EkeV=6".toList :: cal.map fun a => ' ' :: printRight 12 6 a) ++ [' '], "!PRECISION=16 ".toList, dim, channel] ++
      rows.map mamaRow ++ ["!IDEND=".toList, [], []]) ("!COMMENT=".toList ++ a) (b ++ [' '])
    have e1 : mamaHeader kind (a ++ '\n' :: b) time cal dim channel ++ rows.map mamaRow ++ ["!IDEND=".toList, [], []] =
        ["!FILE=Disk ".toList, "!KIND=".toList ++ kind ++ [' '], "!LABORATORY=Oslo Cyclotron Laboratory (OCL) ".toList,
      "!EXPERIMENT= oslo_method_python ".toList] ++ (("!COMMENT=".toList ++ a) ++ '\n' :: (b ++ [' '])) :: (["!TIME=DATE:".toList ++ time ++ "   ".toList,
      joinC ',' ("!CALIBRATION EkeV=6".toList :: cal.map fun a => ' ' :: printRight 12 6 a) ++ [' '], "!PRECISION=16 ".toList, dim, channel] ++
      rows.map mamaRow ++ ["!IDEND=".toList, [], []]) := by
      unfold mamaHeader
      simp only [List.cons_append, List.nil_append, List.append_assoc]
    rw [e1, this]
    rfl
  have hcl : ∀ l ∈ hdr, OneLine l := by
    intro l hl
    simp only [hh, List.mem_cons, List.not_mem_nil, or_false] at hl
    rcases hl with rfl | rfl | rfl | rfl | rfl | rfl | rfl | rfl | rfl | rfl | rfl
    · unfold OneLine; decide
    · exact OneLine.append (OneLine.append (by unfold OneLine; decide) hk) (by unfold OneLine; decide)
    · unfold OneLine; decide
    · unfold OneLine; decide
    · exact OneLine.append (by unfold OneLine; decide) ha
    · exact OneLine.append hb (by unfold OneLine; decide)
    · exact OneLine.append (OneLine.append (by unfold OneLine; decide) ht) (by unfold OneLine; decide)
    · exact calLine_clean cal
    · unfold OneLine; decide
    · exact hd
    · exact hch
  have hcalerr : calibrationLine (hdr ++ rows.map mamaRow ++ ["!IDEND=".toList, [], []]) = .error .valueError := by
    have h6 : (hdr ++ rows.map mamaRow ++ ["!IDEND=".toList, [], []])[6]? = some ("!TIME=DATE:".toList ++ time ++ "   ".toList) := rfl
    have hn : ',' ∉ ("!TIME=DATE:".toList ++ time ++ "   ".toList) := by
      intro hm
      rcases List.mem_append.1 hm with hm | hm
      · rcases List.mem_append.1 hm with hm | hm
        · exact absurd hm (by decide)
        · exact hcm hm
      · exact absurd hm (by decide)
    unfold calibrationLine
    rw [h6]
    dsimp only
    rw [cutAt_notMem _ _ hn, if_neg (by simp)]
  rw [hfile]
  unfold mamaReadText
  rw [file_lines _ _ hcl, hcalerr]
  cases hg : genFromTxt 10 1 (hdr ++ rows.map mamaRow ++ ["!IDEND=".toList, [], []]) with
  | error e => rw [gen_error _ _ _ _ hg]; rfl
  | ok g => rfl

/-- **C99 (disagreement).** A comment of two lines is written as it is; the file then has eleven lines of header and cannot be read (ValueError). -/
theorem C99_comment_fails (a b time : List Char) (ha : OneLine a) (hb : OneLine b) (ht : OneLine time) (hcm : ',' ∉ time) (v : Vec ℚ) (m : Mat) (text : List Char)
    (h : mamaText1D (a ++ '\n' :: b) time v = .ok text ∨ mamaText2D (a ++ '\n' :: b) time m = .ok text) : mamaReadText text = .error .valueError := by
  rcases h with h | h
  · unfold mamaText1D at h
    by_cases hl : 8192 < v.values.length
    · rw [if_pos hl] at h; cases h
    rw [if_neg hl] at h
    cases hcal : vecCalibration v.E with
    | error e => simp [hcal, Except.map] at h
    | ok c =>
      simp only [hcal, Except.map, Except.ok.injEq] at h
      rw [← h]
      exact header_broken _ _ _ _ _ _ _ _ (by unfold OneLine; decide) ha hb ht hcm
        (OneLine.append (OneLine.append (by unfold OneLine; decide) (int4_clean _)) (by unfold OneLine; decide))
        (OneLine.append (OneLine.append (by unfold OneLine; decide) (int4_clean _)) (by unfold OneLine; decide))
  · unfold mamaText2D at h
    by_cases hl : 2048 < m.Ex.length ∨ 2048 < m.Eg.length
    · rw [if_pos hl] at h; cases h
    rw [if_neg hl] at h
    cases hx : vecCalibration m.Ex with
    | error e => simp [hx, Except.bind] at h
    | ok cx =>
      cases hg : vecCalibration m.Eg with
      | error e => simp [hx, hg, Except.bind, Except.map] at h
      | ok cg =>
        simp only [hx, hg, Except.bind, Except.map, Except.ok.injEq] at h
        rw [← h]
        exact header_broken _ _ _ _ _ _ _ _ (by unfold OneLine; decide) ha hb ht hcm
          (OneLine.append (OneLine.append (OneLine.append (OneLine.append (by unfold OneLine; decide) (int4_clean _)) (by unfold OneLine; decide))
            (int4_clean _)) (by unfold OneLine; decide))
          (OneLine.append (OneLine.append (OneLine.append (OneLine.append (by unfold OneLine; decide) (int4_clean _)) (by unfold OneLine; decide))
            (int4_clean _)) (by unfold OneLine; decide))

/-! ## Tables -/

theorem cutAt_ne (c : Char) (l : List Char) : cutAt c l ≠ [] := by
  cases l with
  | nil => simp [cutAt]
  | cons x xs =>
    unfold cutAt
    split_ifs <;> simp

theorem cutAt_clean (c : Char) (l : List Char) : ∀ w ∈ cutAt c l, c ∉ w ∧ ∀ x ∈ w, x ∈ l := by
  induction l with
  | nil => simp [cutAt]
  | cons x xs ih =>
    intro w hw
    unfold cutAt at hw
    by_cases hx : x = c
    · rw [if_pos hx] at hw
      rcases List.mem_cons.1 hw with rfl | hw
      · simp
      · obtain ⟨h1, h2⟩ := ih w hw
        exact ⟨h1, fun y hy => List.mem_cons_of_mem _ (h2 y hy)⟩
    · rw [if_neg hx] at hw
      obtain ⟨u, us, hu⟩ : ∃ u us, cutAt c xs = u :: us := List.exists_cons_of_ne_nil (cutAt_ne c xs)
      rw [hu] at hw ih
      rcases List.mem_cons.1 hw with rfl | hw
      · obtain ⟨h1, h2⟩ := ih u (by simp)
        simp only [List.headD_cons, List.mem_cons, not_or, forall_eq_or_imp]
        exact ⟨⟨fun e => hx e.symm, h1⟩, Or.inl trivial, fun y hy => Or.inr (h2 y hy)⟩
      · obtain ⟨h1, h2⟩ := ih w (by simp at hw; simp [hw])
        exact ⟨h1, fun y hy => List.mem_cons_of_mem _ (h2 y hy)⟩

theorem printe_clean (x : ℚ) : ' ' ∉ printL 'e' 18 x ∧ '\n' ∉ printL 'e' 18 x ∧ '\r' ∉ printL 'e' 18 x ∧ '#' ∉ printL 'e' 18 x ∧ printL 'e' 18 x ≠ [] := by
  obtain ⟨h1, h2, h3, -, h5, h6⟩ := C98_no_separator 'e' (Or.inr rfl) 18 x
  exact ⟨h1, h2, h3, h5, h6⟩

theorem txtRow_clean (r : List ℚ) : '\n' ∉ txtRow r ∧ '\r' ∉ txtRow r ∧ '#' ∉ txtRow r := by
  unfold txtRow
  have key : ∀ c, c ∈ joinC ' ' (r.map fun x => printL 'e' 18 x) → c = ' ' ∨ ∃ x, c ∈ printL 'e' 18 x := by
    intro c hc
    rcases mem_joinC _ _ _ hc with rfl | ⟨w, hw, hx⟩
    · exact Or.inl rfl
    · obtain ⟨x, -, rfl⟩ := List.mem_map.1 hw
      exact Or.inr ⟨x, hx⟩
  refine ⟨fun h => ?_, fun h => ?_, fun h => ?_⟩ <;> rcases key _ h with h | ⟨x, h⟩
  · exact absurd h (by decide)
  · exact (printe_clean x).2.1 h
  · exact absurd h (by decide)
  · exact (printe_clean x).2.2.1 h
  · exact absurd h (by decide)
  · exact (printe_clean x).2.2.2.1 h

theorem fields_txtRow (r : List ℚ) : fieldsOf (txtRow r) = r.map fun x => printL 'e' 18 x := by
  rw [fieldsOf_clean _ (txtRow_clean r).2.2]
  have := words_join (fun x => printL 'e' 18 x) (fun _ => 0) r fun x _ => ⟨(printe_clean x).1, (printe_clean x).2.2.2.2⟩
  simpa [txtRow] using this

theorem hashed_lines (header : List Char) (hr : '\r' ∉ header) : (∀ l ∈ hashed header, OneLine l) ∧ ∀ l ∈ hashed header, fieldsOf l = [] := by
  unfold hashed
  split_ifs with h
  · simp
  · constructor
    · intro l hl
      obtain ⟨w, hw, rfl⟩ := List.mem_map.1 hl
      obtain ⟨h1, h2⟩ := cutAt_clean '\n' header w hw
      constructor
      · intro hm
        rcases List.mem_cons.1 hm with hm | hm
        · exact absurd hm (by decide)
        · rcases List.mem_cons.1 hm with hm | hm
          · exact absurd hm (by decide)
          · exact h1 hm
      · intro hm
        rcases List.mem_cons.1 hm with hm | hm
        · exact absurd hm (by decide)
        · rcases List.mem_cons.1 hm with hm | hm
          · exact absurd hm (by decide)
          · exact hr (h2 _ hm)
    · intro l hl
      obtain ⟨w, hw, rfl⟩ := List.mem_map.1 hl
      simp [fieldsOf, cutAt]

/-- **C99 (partial: headers without carriage returns).** A table written by `np.savetxt` is read by `np.loadtxt` with its numbers rounded to 19 digits, whatever the
header - several lines, numbers or `#` in it do no harm. -/
theorem C99_table_partial (header : List Char) (hh : '\r' ∉ header) (rows : List (List ℚ)) (c : ℕ) (hc : 0 < c) (hr : ∀ r ∈ rows, r.length = c) :
    loadTxtText (saveTxtText header rows) = .ok (if rows = [] then 0 else c, rows.map fun r => r.map (sigRound 18)) := by
  obtain ⟨h1, h2⟩ := hashed_lines header hh
  have hlines : linesOf (saveTxtText header rows) = hashed header ++ rows.map txtRow ++ [[]] := by
    unfold saveTxtText
    refine linesOf_join _ (by simp) ?_
    intro l hl
    rcases List.mem_append.1 hl with hl | hl
    · rcases List.mem_append.1 hl with hl | hl
      · exact h1 l hl
      · obtain ⟨r, -, rfl⟩ := List.mem_map.1 hl
        exact ⟨(txtRow_clean r).1, (txtRow_clean r).2.1⟩
    · rw [List.mem_singleton.1 hl]
      simp
  set R : List (List (List Char)) := rows.map fun r => r.map fun x => printL 'e' 18 x with hR
  have hRlen : ∀ f ∈ R, f.length = c := by
    intro f hf
    obtain ⟨r, hm, rfl⟩ := List.mem_map.1 hf
    simpa using hr r hm
  have hfs : ((hashed header ++ rows.map txtRow ++ [[]]).map fieldsOf).filter (fun f => decide (f ≠ [])) = R := by
    rw [List.map_append, List.map_append, List.filter_append, List.filter_append]
    have e1 : ((hashed header).map fieldsOf).filter (fun f => decide (f ≠ [])) = [] := by
      rw [List.filter_eq_nil_iff]
      intro f hf
      obtain ⟨l, hl, rfl⟩ := List.mem_map.1 hf
      simp [h2 l hl]
    have e2 : (rows.map txtRow).map fieldsOf = R := by
      rw [List.map_map]
      exact List.map_congr_left fun r _ => fields_txtRow r
    have e3 : R.filter (fun f => decide (f ≠ [])) = R := by
      rw [List.filter_eq_self]
      intro f hf
      have := hRlen f hf
      simp only [decide_eq_true_eq]
      rintro rfl
      simp at this
      omega
    have e4 : ([[]].map fieldsOf).filter (fun f => decide (f ≠ [])) = [] := by decide
    rw [e1, e2, e3, e4]
    simp
  have hnc : (R.headD []).length = if rows = [] then 0 else c := by
    by_cases hn : rows = []
    · subst hn; simp [hR]
    · rw [if_neg hn]
      obtain ⟨r, rs, rfl⟩ := List.exists_cons_of_ne_nil hn
      simp [hR, hr r (by simp)]
  have hone : ∀ x : ℚ, floatOf (printL 'e' 18 x) = .ok (sigRound 18 x) := by
    intro x
    unfold floatOf
    rw [(C98_read 'e' (Or.inr rfl) 0 18 x x).1]
  have hmap : ∀ l : List ℚ, (l.map fun x => printL 'e' 18 x).mapM floatOf = .ok (l.map (sigRound 18)) := by
    intro l
    induction l with
    | nil => rfl
    | cons x xs ih => simp only [List.map_cons, List.mapM_cons, hone, ih, bind, Except.bind, pure, Except.pure]
  have hmap2 : ∀ L : List (List ℚ), (L.map fun r => r.map fun x => printL 'e' 18 x).mapM (fun f : List (List Char) => f.mapM floatOf) =
      .ok (L.map fun r => r.map (sigRound 18)) := by
    intro L
    induction L with
    | nil => rfl
    | cons x xs ih => simp only [List.map_cons, List.mapM_cons, hmap, ih, bind, Except.bind, pure, Except.pure]
  unfold loadTxtText
  simp only [hlines, hfs, hnc]
  rw [if_pos, hmap2]
  · rfl
  · rw [List.all_eq_true]
    intro f hf
    have hn : rows ≠ [] := by
      rintro rfl
      simp [hR] at hf
    simp [hn, hRlen f hf]

/-- **C99 (disagreement).** A carriage return in the header ends a line when the file is read: the rest of the header is taken for data. -/
theorem C99_table_fails : loadTxtText (saveTxtText "a\rb".toList [[1, 2]]) = .error .valueError := by decide +kernel

/-- **C99 (disagreement).** `header=False` of `save_txt_2D`, meant to leave the header out, raises TypeError, and the file that was there is emptied. -/
theorem C99_header_fails (rows : List (List ℚ)) : saveTxt2D .off rows = ([], .error .typeError) ∧
    (∀ s, saveTxt2D (.text s) rows = (saveTxtText s rows, .ok ())) ∧
    ∃ t, saveTxt2D .default rows = (t, .ok ()) ∧ ∀ c, 0 < c → (∀ r ∈ rows, r.length = c) →
      loadTxtText t = .ok (if rows = [] then 0 else c, rows.map fun r => r.map (sigRound 18)) := by
  refine ⟨rfl, fun s => rfl, _, rfl, fun c hc hr => ?_⟩
  exact C99_table_partial header2D (by decide) rows c hc hr

example : (mamaText1D "first\nsecond".toList "01-Jan-26 12:00:00".toList ⟨[10, 20, 30], [1, 2, 3], none, "keV"⟩).bind mamaReadText =
    .error .valueError := by decide +kernel

example : loadTxtText (saveTxtText "1 2 3\n4".toList [[1, 2], [1 / 3, -7]]) = .ok (2, [[1, 2], [3333333333333333333 / 10 ^ 19, -7]]) := by decide +kernel

end Ompy
