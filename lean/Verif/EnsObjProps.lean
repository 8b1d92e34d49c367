import Verif.EnsObj
import Verif.EnsRebinProps

/-!
# C83: the results of `generate` and the access to them
-/

namespace Ompy

/-- The standard deviations `s` of arrays with rows along `Ex` and columns along `Eg`: in each bin the root of the mean
squared deviation from the mean. -/
structure StdOf (s : StdMat) (ms : List (List (List ℚ))) (Eg Ex : List ℚ) : Prop where
  ex : s.Ex = Ex
  eg : s.Eg = Eg
  rows : s.values.length = Ex.length
  cols : ∀ r ∈ s.values, r.length = Eg.length
  dev : ∀ i < Ex.length, ∀ j < Eg.length, 0 ≤ (s.values.getD i []).getD j 0 ∧
    let xs := ms.map fun M => (((M.getD i []).getD j 0 : ℚ) : ℝ)
    ((s.values.getD i []).getD j 0) ^ 2 * xs.length = (xs.map fun x => (x - xs.sum / xs.length) ^ 2).sum

theorem stdOf_stdOver (ms : List (List (List ℚ))) (Eg Ex : List ℚ) :
    StdOf ⟨stdOver ms Ex.length Eg.length, Eg, Ex⟩ ms Eg Ex := by
  refine ⟨rfl, rfl, by simp [stdOver], ?_, ?_⟩
  · intro r hr
    simp only [stdOver, List.mem_map] at hr
    obtain ⟨i, -, rfl⟩ := hr
    simp
  · intro i hi j hj
    simp only [stdOver_getD ms hi hj]
    exact ensSd_sq _

theorem newStd_ok {ms : List (List (List ℚ))} {sh : ℕ × ℕ} {Eg Ex : List ℚ} (h : sh.1 = Ex.length ∧ sh.2 = Eg.length) :
    newStd ms sh Eg Ex = .ok ⟨stdOver ms Ex.length Eg.length, Eg, Ex⟩ := by
  unfold newStd
  rw [if_pos h, h.1, h.2]

theorem shapeOf_array {M : List (List ℚ)} {n q : ℕ} (h : ArrayOn M n q) (hn : 0 < n) : shapeOf M = (n, q) := by
  unfold shapeOf
  have h0 : 0 < M.length := by rw [h.1]; exact hn
  rw [h.1, List.getD_eq_getElem _ _ h0, h.2 _ (List.getElem_mem _)]

/-- **C83.** If the three matrices of each member have the shape of `raw`, `generate` succeeds for any positive number of members:
the arrays hold the values of the members in their order, `raw` is unchanged, `firstgen` is the first-generation matrix
of member 0, and the three standard deviations are, bin by bin, those of the members. -/
theorem C83_generate (raw : Mat) (r0 : Mat × Mat × Mat) (rest : List (Mat × Mat × Mat)) (hx : 0 < raw.Ex.length)
    (hs : ∀ r ∈ r0 :: rest, ArrayOn r.1.values raw.Ex.length raw.Eg.length ∧
      ArrayOn r.2.1.values raw.Ex.length raw.Eg.length ∧ ArrayOn r.2.2.values raw.Ex.length raw.Eg.length)
    (hf : r0.2.2.Ex.length = raw.Ex.length ∧ r0.2.2.Eg.length = raw.Eg.length) :
    ∃ e, ensCollect raw (r0 :: rest) = .ok e ∧ e.raw = raw ∧ e.firstgen.values = r0.2.2.values ∧
      e.firstgen.Ex = r0.2.2.Ex ∧ e.firstgen.Eg = r0.2.2.Eg ∧
      e.rawE = (r0 :: rest).map (fun r => r.1.values) ∧ e.unfE = (r0 :: rest).map (fun r => r.2.1.values) ∧
      e.fgE = (r0 :: rest).map (fun r => r.2.2.values) ∧
      StdOf e.stdRaw e.rawE raw.Eg raw.Ex ∧ StdOf e.stdUnf e.unfE raw.Eg raw.Ex ∧
      StdOf e.stdFg e.fgE e.firstgen.Eg e.firstgen.Ex := by
  have hsh : shapeOf r0.1.values = (raw.Ex.length, raw.Eg.length) := shapeOf_array (hs r0 List.mem_cons_self).1 hx
  have hno : ¬ ∃ r ∈ r0 :: rest, shapeOf r.1.values ≠ shapeOf r0.1.values ∨ shapeOf r.2.1.values ≠ shapeOf r0.1.values ∨
      shapeOf r.2.2.values ≠ shapeOf r0.1.values := by
    rintro ⟨r, hr, h⟩
    obtain ⟨h1, h2, h3⟩ := hs r hr
    rw [hsh, shapeOf_array h1 hx, shapeOf_array h2 hx, shapeOf_array h3 hx] at h
    simp at h
  refine ⟨⟨raw, { r0.2.2 with std := none, state := none }, (r0 :: rest).map fun r => r.1.values,
    (r0 :: rest).map fun r => r.2.1.values, (r0 :: rest).map fun r => r.2.2.values,
    ⟨stdOver ((r0 :: rest).map fun r => r.1.values) raw.Ex.length raw.Eg.length, raw.Eg, raw.Ex⟩,
    ⟨stdOver ((r0 :: rest).map fun r => r.2.1.values) raw.Ex.length raw.Eg.length, raw.Eg, raw.Ex⟩,
    ⟨stdOver ((r0 :: rest).map fun r => r.2.2.values) r0.2.2.Ex.length r0.2.2.Eg.length, r0.2.2.Eg, r0.2.2.Ex⟩⟩,
    ?_, rfl, rfl, rfl, rfl, rfl, rfl, rfl, stdOf_stdOver _ _ _, stdOf_stdOver _ _ _, stdOf_stdOver _ _ _⟩
  unfold ensCollect
  simp only
  rw [if_neg hno, hsh, newStd_ok ⟨rfl, rfl⟩, newStd_ok ⟨rfl, rfl⟩, newStd_ok ⟨hf.1.symm, hf.2.symm⟩]
  rfl

/-- **C83 (disagreement).** An action may be arbitrary according to the documentation, and `step` only compares the three matrices
of a member with each other.  If all matrices of all members have one shape that is not the shape of `raw` - an action
that cuts or rebins - `generate` raises ValueError after the whole calculation. -/
theorem C83_cut_fails (raw : Mat) (r0 : Mat × Mat × Mat) (rest : List (Mat × Mat × Mat)) (n q : ℕ) (hn : 0 < n)
    (hs : ∀ r ∈ r0 :: rest, ArrayOn r.1.values n q ∧ ArrayOn r.2.1.values n q ∧ ArrayOn r.2.2.values n q)
    (hne : ¬ (n = raw.Ex.length ∧ q = raw.Eg.length)) :
    ensCollect raw (r0 :: rest) = .error .valueError := by
  have hsh : shapeOf r0.1.values = (n, q) := shapeOf_array (hs r0 List.mem_cons_self).1 hn
  unfold ensCollect
  simp only
  split_ifs with h
  · rfl
  · rw [hsh]
    unfold newStd
    rw [if_neg hne]
    rfl

/-- **C83.** Members of different shapes, and no members at all, are refused. -/
theorem C83_refused (raw : Mat) (r0 r : Mat × Mat × Mat) (rest : List (Mat × Mat × Mat)) (hr : r ∈ rest)
    (h : shapeOf r.1.values ≠ shapeOf r0.1.values) :
    ensCollect raw (r0 :: rest) = .error .valueError ∧ ensCollect raw [] = .error .indexError := by
  refine ⟨?_, rfl⟩
  unfold ensCollect
  simp only
  rw [if_pos ⟨r, List.mem_cons_of_mem _ hr, Or.inl h⟩]

theorem pyAt_nonneg {α : Type} (l : List α) (k : ℕ) :
    pyAt l (k : ℤ) = match l[k]? with | some a => .ok a | none => .error .indexError := by
  unfold pyAt
  simp only [show ¬ ((k : ℤ) < 0) by omega, if_false, Int.toNat_natCast]
  cases l[k]? <;> rfl

theorem pyAt_neg {α : Type} (l : List α) (k : ℕ) (h : k < l.length) :
    pyAt l (-(k : ℤ) - 1) = .ok (l[l.length - 1 - k]'(by omega)) := by
  unfold pyAt
  have h1 : (-(k : ℤ) - 1) < 0 := by omega
  have h2 : ¬ (-(k : ℤ) - 1 + l.length < 0) := by omega
  have h3 : (-(k : ℤ) - 1 + l.length).toNat = l.length - 1 - k := by omega
  simp only [h1, if_true, h2, if_false, h3]
  rw [List.getElem?_eq_getElem (by omega)]

theorem memberMat_ok (ens : List (List (List ℚ))) (Eg Ex : List ℚ) (st : Option MState) (k : ℕ) (hk : k < ens.length)
    (hs : ∀ M ∈ ens, ArrayOn M Ex.length Eg.length) :
    memberMat ens Eg Ex st (k : ℤ) = .ok ⟨ens.getD k [], Eg, Ex, none, st⟩ ∧
    memberMat ens Eg Ex st ((k : ℤ) - ens.length) = .ok ⟨ens.getD k [], Eg, Ex, none, st⟩ := by
  have hM := hs ens[k] (List.getElem_mem hk)
  have hnew : Mat.new ens[k] Eg.length (some Eg) (some Ex) none st = .ok ⟨ens[k], Eg, Ex, none, st⟩ := by
    unfold Mat.new
    simp only [Option.getD_some]
    rw [if_pos]
    simp only [Mat.consistent, hasShape, Bool.and_true, Bool.and_eq_true, beq_iff_eq, List.all_eq_true]
    exact hM
  have hg : ens.getD k [] = ens[k] := List.getD_eq_getElem _ _ hk
  rw [hg]
  constructor
  · unfold memberMat
    rw [pyAt_nonneg, List.getElem?_eq_getElem hk]
    exact hnew
  · unfold memberMat
    have e : ((k : ℤ) - ens.length) = -((ens.length - 1 - k : ℕ) : ℤ) - 1 := by omega
    rw [e, pyAt_neg ens _ (by omega)]
    have : ens.length - 1 - (ens.length - 1 - k) = k := by omega
    simp only [this]
    exact hnew

theorem memberMat_range (ens : List (List (List ℚ))) (Eg Ex : List ℚ) (st : Option MState) (i : ℤ)
    (h : i < -ens.length ∨ (ens.length : ℤ) ≤ i) : memberMat ens Eg Ex st i = .error .indexError := by
  unfold memberMat pyAt
  rcases h with h | h
  · have h1 : i < 0 := by omega
    have h2 : i + ens.length < 0 := by omega
    simp only [h1, if_true, h2]
    rfl
  · have h1 : ¬ i < 0 := by omega
    have h2 : ens[i.toNat]? = none := by rw [List.getElem?_eq_none_iff]; omega
    simp only [h1, if_false, h2]
    rfl

/-- **C83.** Each of the three accessors gives the values of the member asked for - counted from the end for negative
numbers -, over the axes given; numbers outside are refused; a list of numbers gives the list of the members, in the order
asked for. -/
theorem C83_get (ens : List (List (List ℚ))) (Eg Ex : List ℚ) (st : Option MState)
    (hs : ∀ M ∈ ens, ArrayOn M Ex.length Eg.length) :
    (∀ k < ens.length,
      getMember (some ens) Eg Ex st (.one k) = .ok (.mat ⟨ens.getD k [], Eg, Ex, none, st⟩) ∧
      getMember (some ens) Eg Ex st (.one ((k : ℤ) - ens.length)) = .ok (.mat ⟨ens.getD k [], Eg, Ex, none, st⟩)) ∧
    (∀ i : ℤ, i < -ens.length ∨ (ens.length : ℤ) ≤ i →
      getMember (some ens) Eg Ex st (.one i) = .error .indexError ∧
      ∀ l, getMember (some ens) Eg Ex st (.many (i :: l)) = .error .indexError) ∧
    (∀ l : List ℕ, (∀ k ∈ l, k < ens.length) → getMember (some ens) Eg Ex st (.many (l.map fun k : ℕ => (k : ℤ))) =
      .ok (.list (l.map fun k => ⟨ens.getD k [], Eg, Ex, none, none⟩))) := by
  refine ⟨?_, ?_, ?_⟩
  · intro k hk
    obtain ⟨h1, h2⟩ := memberMat_ok ens Eg Ex st k hk hs
    unfold getMember
    simp only [h1, h2]
    exact ⟨rfl, rfl⟩
  · intro i hi
    constructor
    · unfold getMember
      simp only [memberMat_range ens Eg Ex st i hi]
      rfl
    · intro l
      unfold getMember
      simp only [List.mapM_cons, memberMat_range ens Eg Ex none i hi]
      rfl
  · intro l hl
    unfold getMember
    have : (l.map fun k : ℕ => (k : ℤ)).mapM (memberMat ens Eg Ex none) =
        .ok (l.map fun k => (⟨ens.getD k [], Eg, Ex, none, none⟩ : Mat)) := by
      induction l with
      | nil => rfl
      | cons k l ih =>
        simp only [List.map_cons, List.mapM_cons, (memberMat_ok ens Eg Ex none k (hl k List.mem_cons_self) hs).1,
          ih fun q hq => hl q (List.mem_cons_of_mem _ hq)]
        rfl
    simp only [this]
    rfl

/-- **C83 (disagreement).** The state of a member depends on how it is asked for: as a single matrix it is `unfolded` or
`firstgen`, in a list it has no state; a raw matrix never has one. -/
theorem C83_state_fails (e : EnsAll) (k : ℕ) (hr : k < e.rawE.length) (hu : k < e.unfE.length)
    (hsr : ∀ M ∈ e.rawE, ArrayOn M e.raw.Ex.length e.raw.Eg.length)
    (hsu : ∀ M ∈ e.unfE, ArrayOn M e.raw.Ex.length e.raw.Eg.length) :
    e.getUnfolded (.one k) = .ok (.mat ⟨e.unfE.getD k [], e.raw.Eg, e.raw.Ex, none, some .unfolded⟩) ∧
    e.getUnfolded (.many [k]) = .ok (.list [⟨e.unfE.getD k [], e.raw.Eg, e.raw.Ex, none, none⟩]) ∧
    e.getRaw (.one k) = .ok (.mat ⟨e.rawE.getD k [], e.raw.Eg, e.raw.Ex, none, none⟩) := by
  refine ⟨((C83_get e.unfE e.raw.Eg e.raw.Ex (some .unfolded) hsu).1 k hu).1, ?_,
    ((C83_get e.rawE e.raw.Eg e.raw.Ex none hsr).1 k hr).1⟩
  exact (C83_get e.unfE e.raw.Eg e.raw.Ex (some .unfolded) hsu).2.2 [k] (by simpa using hu)

/-- **C83 (disagreement).** The unfolded members get the axes of `raw` whatever axes the unfolder gave them: two unfolders that give
the same values over different axes lead to the same ensemble. -/
theorem C83_axes_fails (raw : Mat) (rs : List (Mat × Mat × Mat)) (Eg Ex : List ℚ) :
    ensCollect raw (rs.map fun r => (r.1, { r.2.1 with Eg := Eg, Ex := Ex }, r.2.2)) = ensCollect raw rs := by
  cases rs with
  | nil => rfl
  | cons r0 rest =>
    unfold ensCollect
    simp only [List.map_cons, List.map_map, Function.comp_def]
    refine if_congr ?_ rfl rfl
    constructor
    · rintro ⟨r, hr, h⟩
      rcases List.mem_cons.1 hr with rfl | hr
      · exact ⟨r0, List.mem_cons_self, h⟩
      · obtain ⟨a, ha, rfl⟩ := List.mem_map.1 hr
        exact ⟨a, List.mem_cons_of_mem _ ha, h⟩
    · rintro ⟨r, hr, h⟩
      rcases List.mem_cons.1 hr with rfl | hr
      · exact ⟨_, List.mem_cons_self, h⟩
      · exact ⟨_, List.mem_cons_of_mem _ (List.mem_map.2 ⟨r, hr, rfl⟩), h⟩

/-- **C83.** The constructor marks the matrix of the caller as raw, and takes it for the matrix with background, too; without a
matrix - the default - it raises. -/
theorem C83_constructor (m : Mat) :
    ensInit (some m) = .ok ({ m with state := some .raw }, { m with state := some .raw }) ∧
    ensInit none = .error .attributeError := ⟨rfl, rfl⟩

/-- Three members on two by three bins, for the examples. -/
def ensMembers : List (Mat × Mat × Mat) :=
  let m (v : List (List ℚ)) : Mat := ⟨v, [0, 1, 2], [0, 1], none, none⟩
  [(m [[1, 2, 3], [4, 5, 6]], m [[1, 1, 1], [1, 1, 1]], m [[0, 1, 0], [1, 0, 1]]),
   (m [[1, 2, 4], [4, 5, 6]], m [[1, 2, 1], [1, 1, 1]], m [[0, 1, 0], [1, 0, 3]]),
   (m [[1, 2, 8], [4, 5, 6]], m [[1, 3, 1], [1, 1, 1]], m [[0, 1, 0], [1, 0, 9]])]

/-- Non-vacuity of C83_generate and C83_get: three members with the shape of `raw`. -/
example : ∀ r ∈ ensMembers, ArrayOn r.1.values 2 3 ∧ ArrayOn r.2.1.values 2 3 ∧ ArrayOn r.2.2.values 2 3 := by
  simp [ensMembers, ArrayOn]

/-- Non-vacuity of C83_cut_fails: the same members, `raw` with one more column. -/
example : ensCollect ⟨[[0, 0, 0, 0], [0, 0, 0, 0]], [0, 1, 2, 3], [0, 1], none, some .raw⟩ ensMembers =
    .error .valueError := by
  apply C83_cut_fails _ _ _ 2 3 (by norm_num)
  · simp [ArrayOn]
  · simp

/-- Non-vacuity of C83_refused. -/
example : shapeOf [[1, 2], [3, 4]] ≠ shapeOf [[1, 2]] := by decide

end Ompy
