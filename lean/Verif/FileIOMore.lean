import Verif.FileIOProps

/-!
# More on C23 and C24: file types, size limits, quadratic calibrations
-/

namespace Ompy

/-- **C23.** The format is that of the suffix unless given; five suffixes are known. -/
theorem C23_suffix (p : FPath) :
    (p.suffix = ".npy" → pickFiletype p none = "numpy") ∧
    (p.suffix = ".txt" → pickFiletype p none = "txt") ∧
    (p.suffix = ".tar" → pickFiletype p none = "tar") ∧
    (p.suffix = ".m" → pickFiletype p none = "mama") ∧
    (p.suffix = ".csv" → pickFiletype p none = "csv") ∧
    (p.suffix ∉ [".npy", ".txt", ".tar", ".m", ".csv"] → pickFiletype p none = "unknown") ∧
    (∀ ft : String, pickFiletype p (some ft) = ft.toLower) := by
  have l : ("numpy".toLower = "numpy") ∧ ("txt".toLower = "txt") ∧ ("tar".toLower = "tar") ∧
      ("mama".toLower = "mama") ∧ ("csv".toLower = "csv") ∧ ("unknown".toLower = "unknown") := by
    decide +kernel
  obtain ⟨l1, l2, l3, l4, l5, l6⟩ := l
  refine ⟨?_, ?_, ?_, ?_, ?_, ?_, fun _ => rfl⟩
  · intro h; simp [pickFiletype, filetypeFromSuffix, h, l1]
  · intro h; simp [pickFiletype, filetypeFromSuffix, h, l2]
  · intro h; simp [pickFiletype, filetypeFromSuffix, h, l3]
  · intro h; simp [pickFiletype, filetypeFromSuffix, h, l4]
  · intro h; simp [pickFiletype, filetypeFromSuffix, h, l5]
  · intro h
    simp only [List.mem_cons, List.not_mem_nil, or_false, not_or] at h
    simp [pickFiletype, filetypeFromSuffix, h, l6]

/-- **C24.** A matrix goes into a MAMA file exactly if it has between 2 and 2048 bins on either axis;
larger ones are an AssertionError, smaller ones an IndexError, and then nothing is written. -/
theorem C24_matrix_size (rc rv : ℚ → ℚ) (m : Mat) (path : String) (fs : FS) :
    ((∃ fs', mamaWrite2D rc rv m path fs = .ok fs') ↔
      2 ≤ m.Ex.length ∧ m.Ex.length ≤ 2048 ∧ 2 ≤ m.Eg.length ∧ m.Eg.length ≤ 2048) ∧
    (mamaWrite2D rc rv m path fs = .error .assertion ↔ 2048 < m.Ex.length ∨ 2048 < m.Eg.length) := by
  unfold mamaWrite2D
  by_cases h : 2048 < m.Ex.length ∨ 2048 < m.Eg.length
  · simp only [h, if_true, iff_true, and_true, reduceCtorEq, exists_false, false_iff]
    omega
  · rw [if_neg h]
    rcases hx : m.Ex with _ | ⟨x0, _ | ⟨x1, xs⟩⟩
    · simp [vecCalibration, bind, Except.bind, hx] at h ⊢; omega
    · simp [vecCalibration, bind, Except.bind, hx] at h ⊢; omega
    · rcases hg : m.Eg with _ | ⟨g0, _ | ⟨g1, gs⟩⟩
      · simp [vecCalibration, bind, Except.bind, hx, hg] at h ⊢; omega
      · simp [vecCalibration, bind, Except.bind, hx, hg] at h ⊢; omega
      · simp [vecCalibration, bind, Except.bind, hx, hg] at h ⊢; omega

/-- **C24.** The same for vectors, with at most 8192 counts. -/
theorem C24_vector_size (rc rv : ℚ → ℚ) (v : Vec ℚ) (path : String) (fs : FS) :
    ((∃ fs', mamaWrite1D rc rv v path fs = .ok fs') ↔ v.values.length ≤ 8192 ∧ 2 ≤ v.E.length) ∧
    (mamaWrite1D rc rv v path fs = .error .assertion ↔ 8192 < v.values.length) := by
  unfold mamaWrite1D
  by_cases h : 8192 < v.values.length
  · simp only [h, if_true, iff_true, and_true, reduceCtorEq, exists_false, false_iff]
    omega
  · rw [if_neg h]
    rcases hx : v.E with _ | ⟨x0, _ | ⟨x1, xs⟩⟩ <;>
      simp [vecCalibration, bind, Except.bind] <;> omega

/-- **C24.** Reading evaluates the calibration of the file, with its quadratic term, at the channel
numbers. -/
theorem C24_read_axis (a0 a1 a2 : ℚ) (rows : List (List ℚ)) (hn : 2 ≤ rows.length) (path : String)
    (fs : FS) (h : fs path = some (.mama [a0, a1, a2] 1 rows)) :
    ∃ c x, mamaRead path fs = .ok (.one c x) ∧ c.length = rows.length ∧ x.length = rows.length ∧
      ∀ k < rows.length, c.getD k 0 = (rows.getD k []).getD 0 0 ∧
        x.getD k 0 = a0 + a1 * k + a2 * k ^ 2 := by
  obtain ⟨r0, r1, rs, rfl⟩ : ∃ r0 r1 rs, rows = r0 :: r1 :: rs := by
    rcases rows with _ | ⟨r0, _ | ⟨r1, rs⟩⟩
    · simp at hn
    · simp at hn
    · exact ⟨r0, r1, rs, rfl⟩
  refine ⟨column (r0 :: r1 :: rs) 0, calAxis a0 a1 a2 (r0 :: r1 :: rs).length, ?_, by simp [column],
    by simp [calAxis], ?_⟩
  · simp only [mamaRead, h, loadtxt, if_true]
    simp [column]
  · intro k hk
    constructor
    · unfold column
      rw [List.getD_eq_getElem _ _ (by simpa using hk), List.getElem_map, List.getD_eq_getElem _ [] hk]
    · unfold calAxis
      rw [List.getD_eq_getElem _ _ (by simpa using hk), List.getElem_map, List.getElem_range]

example : mamaRead "a.m" (fun _ => some (.mama [1, 2, 3] 1 [[5], [6], [7]]))
    = .ok (.one [5, 6, 7] [1, 6, 17]) := by decide +kernel

example : pickFiletype ⟨"spec", ".npy"⟩ none = "numpy" := by decide +kernel

end Ompy
