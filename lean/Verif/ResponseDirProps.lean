import Verif.ResponseDir
import Verif.ResponseTable

/-!
# C89: the response read from a directory
-/

namespace Ompy

/-- The table as it should be read: the rows announced after the marker. -/
theorem readTable_ok (head rest : List RLine) (m c s : RLine) (rows : List RespRow) (hne : rows ≠ [])
    (hh : ∀ l ∈ head, l.marker = false) (hm : m.marker = true) (hc : c.asInt = some ((rows.length : ℕ) : ℤ))
    (body : List RLine) (hb : body.map RLine.asRow = rows.map fun r =>
      some [r.Eg, r.fwhmRel, r.effTot, r.FE, r.SE, r.DE, r.c511]) :
    readTable (head ++ m :: c :: s :: (body ++ rest)) = .ok rows := by
  have hdrop : (head ++ m :: c :: s :: (body ++ rest)).dropWhile (fun l => !l.marker) = m :: c :: s :: (body ++ rest) := by
    rw [List.dropWhile_append_of_pos (by intro l hl; simp [hh l hl])]
    simp [hm]
  have hl : body.length = rows.length := by simpa using congrArg List.length hb
  unfold readTable
  rw [hdrop]
  simp only [hc]
  unfold readBody
  simp only [Int.toNat_natCast]
  have h1 : (List.range rows.length).mapM (readRow (body ++ rest)) =
      .ok ((List.range rows.length).map fun i => (fun r : RespRow => [r.Eg, r.fwhmRel, r.effTot, r.FE, r.SE, r.DE, r.c511])
        (rows.getD i ⟨0, 0, 0, 0, 0, 0, 0⟩)) := by
    apply mapM_ok
    intro i hi
    have hi' : i < rows.length := List.mem_range.1 hi
    have hib : i < body.length := by omega
    have : (body[i]).asRow = some ((fun r : RespRow => [r.Eg, r.fwhmRel, r.effTot, r.FE, r.SE, r.DE, r.c511]) rows[i]) := by
      have := congrArg (fun l => l[i]?) hb
      simpa [List.getElem?_eq_getElem, hib, hi'] using this
    unfold readRow
    rw [List.getElem?_append_left hib, List.getElem?_eq_getElem hib]
    simp only [this, List.getD_eq_getElem rows _ hi']
  have h2 : (List.range rows.length).map (fun i => (fun r : RespRow => [r.Eg, r.fwhmRel, r.effTot, r.FE, r.SE, r.DE, r.c511])
        (rows.getD i ⟨0, 0, 0, 0, 0, 0, 0⟩)) = rows.map fun r => [r.Eg, r.fwhmRel, r.effTot, r.FE, r.SE, r.DE, r.c511] := by
    apply List.ext_getElem
    · simp
    · intro i h1 h2
      have : i < rows.length := by simpa using h2
      simp only [List.getElem_map, List.getElem_range, List.getD_eq_getElem rows _ this]
  have h3 : (rows.map fun r : RespRow => [r.Eg, r.fwhmRel, r.effTot, r.FE, r.SE, r.DE, r.c511]).mapM rowOf = .ok rows := by
    rw [mapM_ok _ (fun l => ⟨l.getD 0 0, l.getD 1 0, l.getD 2 0, l.getD 3 0, l.getD 4 0, l.getD 5 0, l.getD 6 0⟩)]
    · rw [List.map_map]
      congr 1
      conv_rhs => rw [← List.map_id rows]
      rfl
    · intro l hl
      obtain ⟨r, -, rfl⟩ := List.mem_map.1 hl
      rfl
  simp only [bind, Except.bind, h1, h2, h3]
  rw [if_neg hne]
  rfl

/-- A spectrum continued with zeros. -/
def padTo (n : ℕ) (v : List ℚ) : List ℚ := v ++ List.replicate (n - v.length) 0

theorem dirRow_ok (spec : ℤ → Option (List ℚ × List ℚ)) (last cur : List ℚ × List ℚ) (r : RespRow)
    (hs : spec (roundHalfEven r.Eg) = some cur) (hc : ∃ c, calibrationOf cur.2 = .ok c ∧ calibrationOf last.2 = .ok c)
    (hl : cur.1.length ≤ last.1.length) : dirRow spec last r = .ok (padTo last.1.length cur.1) := by
  obtain ⟨c, h1, h2⟩ := hc
  unfold dirRow openSpec
  simp only [hs, bind, Except.bind, h1, h2]
  rw [if_neg (by simp), if_neg (by omega)]
  rfl

/-- **C89 (partial: the last spectrum of the table is a longest one and all have its calibration).** `LoadDir` reads exactly the rows announced in the
table, whatever follows, and gives each the spectrum named after its rounded energy, continued with zeros, over the axis of the
last one. -/
theorem C89_rows_partial (head rest body : List RLine) (m c s : RLine) (rows : List RespRow) (r0 : RespRow)
    (hh : ∀ l ∈ head, l.marker = false) (hm : m.marker = true) (hc : c.asInt = some (((rows ++ [r0]).length : ℕ) : ℤ))
    (hb : body.map RLine.asRow = (rows ++ [r0]).map fun r => some [r.Eg, r.fwhmRel, r.effTot, r.FE, r.SE, r.DE, r.c511])
    (spec : ℤ → Option (List ℚ × List ℚ)) (get : RespRow → List ℚ × List ℚ)
    (hs : ∀ r ∈ rows ++ [r0], spec (roundHalfEven r.Eg) = some (get r) ∧ (get r).1.length ≤ (get r0).1.length ∧
      ∃ k, calibrationOf (get r).2 = .ok k ∧ calibrationOf (get r0).2 = .ok k) :
    ∃ d, loadDir (head ++ m :: c :: s :: (body ++ rest)) spec = .ok d ∧ d.Eg = (rows ++ [r0]).map RespRow.Eg ∧
      d.fwhmRel = (rows ++ [r0]).map RespRow.fwhmRel ∧ d.effTot = (rows ++ [r0]).map RespRow.effTot ∧
      d.FE = (rows ++ [r0]).map RespRow.FE ∧ d.SE = (rows ++ [r0]).map RespRow.SE ∧ d.DE = (rows ++ [r0]).map RespRow.DE ∧
      d.c511 = (rows ++ [r0]).map RespRow.c511 ∧
      d.compton = (rows ++ [r0]).map (fun r => padTo (get r0).1.length (get r).1) ∧ d.Ecmp = (get r0).2 := by
  have ht := readTable_ok head rest m c s (rows ++ [r0]) (by simp) hh hm hc body hb
  have hlast : ((rows ++ [r0]).map RespRow.Eg).getLastD 0 = r0.Eg := by simp
  have h0 := hs r0 (by simp)
  have hmap : (rows ++ [r0]).mapM (dirRow spec (get r0)) =
      .ok ((rows ++ [r0]).map fun r => padTo (get r0).1.length (get r).1) := by
    apply mapM_ok
    intro r hr
    obtain ⟨a1, a2, a3⟩ := hs r hr
    exact dirRow_ok spec (get r0) (get r) r a1 a3 a2
  refine ⟨⟨(rows ++ [r0]).map (·.Eg), (rows ++ [r0]).map (·.fwhmRel), (rows ++ [r0]).map (·.effTot), (rows ++ [r0]).map (·.FE),
    (rows ++ [r0]).map (·.SE), (rows ++ [r0]).map (·.DE), (rows ++ [r0]).map (·.c511),
    (rows ++ [r0]).map (fun r => padTo (get r0).1.length (get r).1), (get r0).2⟩, ?_,
    rfl, rfl, rfl, rfl, rfl, rfl, rfl, rfl, rfl⟩
  unfold loadDir
  simp only [bind, Except.bind, ht, hlast]
  unfold openSpec
  rw [h0.1]
  simp only [hmap]
  rfl

/-- **C89.** A table without the marker, or that ends right after the number of lines, is refused, as are lines that announce more rows than there are, rows that
have another number of columns, and a spectrum that is missing. -/
theorem C89_refused (spec : ℤ → Option (List ℚ × List ℚ)) :
    (∀ lines, (∀ l ∈ lines, l.marker = false) → loadDir lines spec = .error .runtimeError) ∧
    (∀ head (m c : RLine), (∀ l ∈ head, l.marker = false) → m.marker = true → ∀ n, c.asInt = some n →
      loadDir (head ++ [m, c]) spec = .error .runtimeError) ∧
    (∀ head (m c s : RLine) (body : List RLine) (n : ℕ), (∀ l ∈ head, l.marker = false) → m.marker = true →
      c.asInt = some (n : ℤ) → body.length < n → loadDir (head ++ m :: c :: s :: body) spec = .error .valueError) ∧
    (∀ lines rows r, readTable lines = .ok (rows ++ [r]) → spec (roundHalfEven r.Eg) = none →
      loadDir lines spec = .error .fileNotFound) := by
  refine ⟨?_, ?_, ?_, ?_⟩
  · intro lines h
    have : lines.dropWhile (fun l => !l.marker) = [] := by
      have := List.dropWhile_append_of_pos (p := fun l : RLine => !l.marker) (l₁ := lines) (l₂ := [])
        (by intro l hl; simp [h l hl])
      rwa [List.append_nil] at this
    unfold loadDir readTable
    rw [this]
    rfl
  · intro head m c h hm n hn
    have hdrop : (head ++ [m, c]).dropWhile (fun l => !l.marker) = [m, c] := by
      rw [List.dropWhile_append_of_pos (by intro l hl; simp [h l hl])]
      simp [hm]
    unfold loadDir readTable
    rw [hdrop]
    simp only [hn]
    rfl
  · intro head m c s body n h hm hn hlt
    have hdrop : (head ++ m :: c :: s :: body).dropWhile (fun l => !l.marker) = m :: c :: s :: body := by
      rw [List.dropWhile_append_of_pos (by intro l hl; simp [h l hl])]
      simp [hm]
    have key : readBody (n : ℤ) (s :: body) = .error .valueError := by
      unfold readBody
      simp only [Int.toNat_natCast, bind, Except.bind]
      cases h1 : (List.range n).mapM (readRow body) with
      | error e =>
        simp only
        -- the only error is ValueError
        have : ∀ (l : List ℕ) (e : Err), l.mapM (readRow body) = .error e → e = .valueError := by
          intro l
          induction l with
          | nil => intro e he; simp [pure, Except.pure] at he
          | cons x xs ih =>
            intro e he
            rw [List.mapM_cons] at he
            simp only [bind, Except.bind] at he
            cases hx : readRow body x with
            | error e' =>
              rw [hx] at he
              simp only [Except.error.injEq] at he
              subst he
              unfold readRow at hx
              split at hx
              · simp at hx
              · split at hx
                · simp only [Except.error.injEq] at hx; exact hx.symm
                · simp at hx
            | ok y =>
              rw [hx] at he
              simp only at he
              cases hxs : xs.mapM (readRow body) with
              | error e' =>
                rw [hxs] at he
                simp only [Except.error.injEq] at he
                exact he ▸ ih e' hxs
              | ok ys => rw [hxs] at he; simp [pure, Except.pure] at he
        rw [this _ _ h1]
      | ok rs =>
        simp only
        -- the last of the rows is empty
        have hmem : ([] : List ℚ) ∈ rs := by
          have : ∀ (l : List ℕ) (rs : List (List ℚ)), l.mapM (readRow body) = .ok rs → ∀ i ∈ l, ∃ x ∈ rs, readRow body i = .ok x := by
            intro l
            induction l with
            | nil => intro rs _ i hi; simp at hi
            | cons x xs ih =>
              intro rs hrs i hi
              rw [List.mapM_cons] at hrs
              simp only [bind, Except.bind] at hrs
              cases hx : readRow body x with
              | error e' => rw [hx] at hrs; simp at hrs
              | ok y =>
                rw [hx] at hrs
                simp only at hrs
                cases hxs : xs.mapM (readRow body) with
                | error e' => rw [hxs] at hrs; simp at hrs
                | ok ys =>
                  rw [hxs] at hrs
                  simp only [pure, Except.pure, Except.ok.injEq] at hrs
                  subst hrs
                  rcases List.mem_cons.1 hi with rfl | hi
                  · exact ⟨y, by simp, hx⟩
                  · obtain ⟨z, hz, hz'⟩ := ih ys hxs i hi
                    exact ⟨z, by simp [hz], hz'⟩
          obtain ⟨x, hx, hx'⟩ := this _ _ h1 body.length (List.mem_range.2 hlt)
          unfold readRow at hx'
          rw [List.getElem?_eq_none (le_refl _)] at hx'
          simp only [Except.ok.injEq] at hx'
          exact hx' ▸ hx
        have : ∀ rs : List (List ℚ), ([] : List ℚ) ∈ rs → ∃ e, rs.mapM rowOf = .error e ∧ e = .valueError := by
          intro rs
          induction rs with
          | nil => intro h; simp at h
          | cons x xs ih =>
            intro h
            rw [List.mapM_cons]
            simp only [bind, Except.bind]
            cases hx : rowOf x with
            | error e =>
              refine ⟨e, rfl, ?_⟩
              unfold rowOf at hx
              split at hx
              · simp at hx
              · simp only [Except.error.injEq] at hx; exact hx.symm
            | ok y =>
              simp only
              rcases List.mem_cons.1 h with rfl | h
              · simp [rowOf] at hx
              · obtain ⟨e, he, he'⟩ := ih h
                rw [he]
                exact ⟨e, rfl, he'⟩
        obtain ⟨e, he, rfl⟩ := this rs hmem
        rw [he]
    unfold loadDir readTable
    rw [hdrop]
    simp only [hn, key]
    rfl
  · intro lines rows r h hn
    have hlast : ((rows ++ [r]).map RespRow.Eg).getLastD 0 = r.Eg := by simp
    unfold loadDir
    simp only [bind, Except.bind, h, hlast]
    unfold openSpec
    rw [hn]

theorem roundHalfEven_int (k : ℤ) : roundHalfEven (k : ℚ) = k := by
  unfold roundHalfEven
  rw [if_pos (by simp), Int.floor_intCast]

theorem truncZ_int (k : ℤ) : truncZ (k : ℚ) = k := by
  unfold truncZ
  simp

/-- **C89 (partial: integer energies in increasing order, the last spectrum a longest one, calibration without offset).** A directory and a zip file with the same
table and the same spectra give the same response. -/
theorem C89_formats_partial (lines : List RLine) (rows : List RespRow) (r0 : RespRow) (ht : readTable lines = .ok (rows ++ [r0]))
    (hs : ((rows ++ [r0]).map (·.Eg)).Pairwise (· ≤ ·)) (hint : ∀ r ∈ rows ++ [r0], ∃ k : ℤ, r.Eg = k)
    (spec : ℤ → Option (List ℚ)) (a1 : ℚ) (get : RespRow → List ℚ)
    (hg : ∀ r ∈ rows ++ [r0], spec (truncZ r.Eg) = some (get r) ∧ 2 ≤ (get r).length ∧ (get r).length ≤ (get r0).length) :
    ∃ d, loadDir lines (fun k => (spec k).map fun v => (v, grid 0 a1 v.length)) = .ok d ∧
      loadZip (rows ++ [r0]) spec 0 a1 (get r0).length = .ok d := by
  have hcal : ∀ n, 2 ≤ n → calibrationOf (grid 0 a1 n) = .ok (0, a1) := by
    intro n hn
    obtain ⟨k, rfl⟩ : ∃ k, n = k + 2 := ⟨n - 2, by omega⟩
    unfold grid
    rw [List.range_succ_eq_map, List.map_cons, List.map_map, List.range_succ_eq_map, List.map_cons]
    simp [calibrationOf]
  have h0 := hg r0 (by simp)
  have hname : ∀ r ∈ rows ++ [r0], roundHalfEven r.Eg = truncZ r.Eg := by
    intro r hr
    obtain ⟨k, hk⟩ := hint r hr
    rw [hk, roundHalfEven_int, truncZ_int]
  have hlast : ((rows ++ [r0]).map RespRow.Eg).getLastD 0 = r0.Eg := by simp
  have hmap : (rows ++ [r0]).mapM (dirRow (fun k => (spec k).map fun v => (v, grid 0 a1 v.length))
      (get r0, grid 0 a1 (get r0).length)) = .ok ((rows ++ [r0]).map fun r => padTo (get r0).length (get r)) := by
    apply mapM_ok
    intro r hr
    obtain ⟨b1, b2, b3⟩ := hg r hr
    refine dirRow_ok _ _ (get r, grid 0 a1 (get r).length) r ?_ ?_ b3
    · simp only [hname r hr, b1, Option.map_some]
    · exact ⟨(0, a1), hcal _ b2, hcal _ h0.2.1⟩
  refine ⟨⟨(rows ++ [r0]).map (·.Eg), (rows ++ [r0]).map (·.fwhmRel), (rows ++ [r0]).map (·.effTot), (rows ++ [r0]).map (·.FE),
    (rows ++ [r0]).map (·.SE), (rows ++ [r0]).map (·.DE), (rows ++ [r0]).map (·.c511),
    (rows ++ [r0]).map (fun r => padTo (get r0).length (get r)), grid 0 a1 (get r0).length⟩, ?_, ?_⟩
  · unfold loadDir
    simp only [bind, Except.bind, ht, hlast]
    unfold openSpec
    rw [hname r0 (by simp)]
    simp only [h0.1, Option.map_some, hmap]
    rfl
  · have hfiles : (sortedQ ((rows ++ [r0]).map (·.Eg))).map truncZ = (rows ++ [r0]).map fun r => truncZ r.Eg := by
      rw [sortedQ_of_sorted _ hs, List.map_map]
      rfl
    have hall : ((rows ++ [r0]).map fun r => truncZ r.Eg).all (fun k => (spec k).isSome) = true := by
      rw [List.all_eq_true]
      intro k hk
      obtain ⟨r, hr, rfl⟩ := List.mem_map.1 hk
      rw [(hg r hr).1]
      rfl
    have hm2 : ((rows ++ [r0]).map fun r => truncZ r.Eg).mapM (fun k : ℤ =>
        let s := (spec k).getD []
        if (get r0).length < s.length then (.error .valueError : Except Err (List ℚ))
        else .ok (s ++ List.replicate ((get r0).length - s.length) 0)) =
        .ok ((rows ++ [r0]).map fun r => padTo (get r0).length (get r)) := by
      rw [mapM_ok _ (fun k => padTo (get r0).length ((spec k).getD []))]
      · rw [List.map_map]
        congr 1
        apply List.map_congr_left
        intro r hr
        simp only [Function.comp_apply, (hg r hr).1, Option.getD_some]
      · intro k hk
        obtain ⟨r, hr, rfl⟩ := List.mem_map.1 hk
        simp only [(hg r hr).1, Option.getD_some]
        rw [if_neg (by have := (hg r hr).2.2; omega)]
        rfl
    have hax : linspace 0 (a1 * (((get r0).length : ℚ) - 1)) (get r0).length = grid 0 a1 (get r0).length := by
      have hN : 2 ≤ (get r0).length := h0.2.1
      have hN1 : (0 : ℚ) < ((get r0).length : ℚ) - 1 := by
        have : (2 : ℚ) ≤ (get r0).length := by exact_mod_cast hN
        linarith
      unfold linspace grid
      rw [if_neg (by omega)]
      apply List.map_congr_left
      intro k _
      rw [sub_zero, mul_div_assoc, div_self hN1.ne', mul_one]
    unfold loadZip
    simp only [hfiles, hall, not_true_eq_false, if_false, bind, Except.bind, pure, Except.pure, hm2, hax]
    rw [if_neg (by simp)]

/-- **C89 (disagreement).** The two formats name the spectra differently: for an energy such as 100.6 keV the directory needs other files than the zip archive. -/
theorem C89_names_fails (q : ℚ) (h0 : 0 ≤ q) (h : 1 / 2 < q - ⌊q⌋) : roundHalfEven q = truncZ q + 1 := by
  unfold roundHalfEven truncZ
  rw [if_neg (by linarith), if_pos h, if_pos h0]

/-- A table for the examples: marker, number of lines, one line to be skipped and the rows. -/
def respLines (rows : List RespRow) : List RLine :=
  [⟨false, none, none⟩, ⟨true, none, none⟩, ⟨false, some rows.length, some [rows.length]⟩, ⟨false, none, none⟩] ++
    rows.map fun r => ⟨false, none, some [r.Eg, r.fwhmRel, r.effTot, r.FE, r.SE, r.DE, r.c511]⟩

/-- **C89 (disagreement).** If the table is not sorted, the directory either keeps energies and spectra together or refuses the spectra, depending on which comes last;
the zip archive mixes them (C61). An offset of the calibration is kept by the directory and not by the archive. -/
theorem C89_order_fails :
    let s (k : ℤ) : Option (List ℚ) := if k = 10 then some [1, 2] else if k = 20 then some [3, 4, 5] else none
    let sd (k : ℤ) := (s k).map fun v => (v, grid 1 5 v.length)
    ((loadDir (respLines [⟨10, 1, 1, 1, 0, 0, 0⟩, ⟨20, 1, 1, 1, 0, 0, 0⟩]) sd).map fun d => (d.compton, d.Ecmp)) =
      .ok ([[1, 2, 0], [3, 4, 5]], [1, 6, 11]) ∧
    ((loadDir (respLines [⟨20, 1, 1, 1, 0, 0, 0⟩, ⟨10, 1, 1, 1, 0, 0, 0⟩]) sd).map fun d => (d.compton, d.Ecmp)) =
      .error .valueError ∧
    ((loadZip [⟨10, 1, 1, 1, 0, 0, 0⟩, ⟨20, 1, 1, 1, 0, 0, 0⟩] s 1 5 3).map fun d => (d.compton, d.Ecmp)) =
      .ok ([[1, 2, 0], [3, 4, 5]], [1, 11 / 2, 10]) ∧
    ((loadZip [⟨20, 1, 1, 1, 0, 0, 0⟩, ⟨10, 1, 1, 1, 0, 0, 0⟩] s 1 5 3).map fun d => (d.compton, d.Ecmp)) =
      .ok ([[1, 2, 0], [3, 4, 5]], [1, 11 / 2, 10]) := by
  decide +kernel

/-- **C89.** Spectra with different calibrations are refused by the directory. -/
theorem C89_calibration (spec : ℤ → Option (List ℚ × List ℚ)) (last cur : List ℚ × List ℚ) (r : RespRow)
    (hs : spec (roundHalfEven r.Eg) = some cur) (a b : ℚ × ℚ) (ha : calibrationOf cur.2 = .ok a)
    (hb : calibrationOf last.2 = .ok b) (hne : a ≠ b) : dirRow spec last r = .error .notImplemented := by
  unfold dirRow openSpec
  simp only [hs, bind, Except.bind, ha, hb]
  rw [if_pos hne]

/-- **C89.** The constructor takes a directory or a file and refuses what does not exist. -/
theorem C89_path (dir zip : Except Err RespData) :
    respInit .dir dir zip = dir.map some ∧ respInit .file dir zip = zip.map some ∧
    respInit .missing dir zip = .error .valueError := ⟨rfl, rfl, rfl⟩

/-- Non-vacuity of the hypotheses of C89_rows_partial: the table of the two rows is read. -/
example : (readTable (respLines [⟨10, 1, 1, 1, 0, 0, 0⟩, ⟨20, 1, 1, 1, 0, 0, 0⟩])).map (fun l => l.map RespRow.Eg) = .ok [10, 20] ∧
    (readTable ((respLines [⟨10, 1, 1, 1, 0, 0, 0⟩, ⟨20, 1, 1, 1, 0, 0, 0⟩]).dropLast)).map (fun l => l.map RespRow.Eg) =
      .error .valueError ∧ roundHalfEven (1006 / 10) = 101 ∧ truncZ (1006 / 10) = 100 := by
  decide +kernel

end Ompy
