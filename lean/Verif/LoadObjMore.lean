import Verif.LoadObjProps

/-!
# More about C146: matrices
-/

namespace Ompy

/-- Specification: arrays and tables on the disk are rectangular. -/
def FS.rectangular (fs : FS) : Prop :=
  (∀ path n rows, fs path = some (.npy (.d2 n rows)) → ∀ r ∈ rows, r.length = n) ∧
    ∀ path n rows, fs path = some (.txt n rows) → ∀ r ∈ rows, r.length = n

theorem fitsM_obj (m : Mat) (hs : m.std = none) (h : m.consistent = true) : m.obj.verify = .ok () := by
  refine (mverify_ok m.obj _ _ _ _ rfl rfl rfl).2 ⟨_, _, _, _, rfl, rfl, rfl, ?_, rfl, ?_⟩
  · unfold Mat.consistent hasShape at h
    simp only [Bool.and_eq_true, beq_iff_eq] at h
    exact h.1.1.symm
  · intro s h'
    simp [Mat.obj, hs] at h'

theorem finishM_obj (m w : Mat) (hs : m.std = none) (h : finishLoadM m = .ok w) : w = m ∧ m.obj.verify = .ok () := by
  unfold finishLoadM at h
  split_ifs at h with hc
  cases h
  exact ⟨rfl, fitsM_obj _ hs hc⟩

theorem unpack_arrays (a : NArr) (x : List (List ℚ)) (g e : List ℚ) (h : unpack2D a = .ok (x, g, e))
    (hr : ∀ n rows, a = .d2 n rows → ∀ r ∈ rows, r.length = n) :
    arrays2D a = .ok [.d2 g.length x, .d1 g, .d1 e] := by
  unfold unpack2D at h
  split at h
  · rename_i n r rs
    simp only [Except.ok.injEq, Prod.mk.injEq] at h
    obtain ⟨rfl, rfl, rfl⟩ := h
    have := hr _ _ rfl r List.mem_cons_self
    simp [arrays2D, this]
  · cases h

theorem loadtxt_rect (n : ℕ) (rows : List (List ℚ)) (h : ∀ r ∈ rows, r.length = n) (k : ℕ) (rs : List (List ℚ))
    (hl : loadtxt n rows = .d2 k rs) : ∀ r ∈ rs, r.length = k := by
  unfold loadtxt at hl
  split at hl
  · cases hl
  · split_ifs at hl
  · split_ifs at hl
    cases hl
    exact h

/-- **C146.** A load into a matrix without standard deviations that returns in the model of `FileIO.lean` returns here, with the
same matrix; npy, txt and MAMA. -/
theorem C146_agrees_mat (m w : Mat) (p : FPath) (ft : Option String) (fs fs' : FS) (hs : m.std = none)
    (hrect : fs.rectangular) (ht : pickFiletype p ft ≠ "tar") (h : m.load p ft fs = (.ok w, fs')) :
    m.obj.load p ft fs = ((w.obj, .ok ()), fs') := by
  unfold Mat.load at h
  unfold LMat.load
  simp only at h ⊢
  have fin : ∀ (x : List (List ℚ)) (g e : List ℚ), finishLoadM { m with values := x, Eg := g, Ex := e } = .ok w →
      m.obj.assign (.ok [.d2 g.length x, .d1 g, .d1 e]) = (w.obj, .ok ()) := by
    intro x g e hf
    obtain ⟨rfl, hv⟩ := finishM_obj _ _ (by simpa using hs) hf
    have ho : Mat.obj { m with values := x, Eg := g, Ex := e } =
        { m.obj with values := .d2 g.length x, Eg := .d1 g, Ex := .d1 e } := by
      simp [Mat.obj, hs]
    rw [ho] at hv ⊢
    exact Prod.ext rfl hv
  split_ifs at h ⊢ with h1 h2
  · simp only [Prod.mk.injEq] at h
    obtain ⟨h, rfl⟩ := h
    split at h
    · rename_i a ha
      simp only [bind, Except.bind] at h
      split at h
      · cases h
      · rename_i r hr
        obtain ⟨x, g, e⟩ := r
        simp only [ha, unpack_arrays a x g e hr (fun n rows hn => hrect.1 _ n rows (by rw [ha, hn]))]
        rw [fin x g e h]
    · cases h
    · cases h
  · simp only [Prod.mk.injEq] at h
    obtain ⟨h, rfl⟩ := h
    split at h
    · rename_i n rows ha
      simp only [bind, Except.bind] at h
      split at h
      · cases h
      · rename_i r hr
        obtain ⟨x, g, e⟩ := r
        simp only [ha, unpack_arrays _ x g e hr (fun k rs hk => loadtxt_rect n rows (hrect.2 _ n rows ha) k rs hk)]
        rw [fin x g e h]
    · cases h
    · cases h
  · simp only [Prod.mk.injEq] at h
    obtain ⟨h, rfl⟩ := h
    split at h
    · rename_i c x y hm
      have ha : mamaTuple p.str fs = .ok [.d2 x.length c, .d1 x, .d1 y] := by
        unfold mamaRead at hm
        unfold mamaTuple
        split at hm
        · rename_i cal n rows hf
          simp only [hf]
          split at hm
          · split at hm <;> simp at hm
          · split at hm
            · rename_i nc rs hl
              simp only [Except.ok.injEq, MamaData.two.injEq] at hm
              obtain ⟨rfl, rfl, rfl⟩ := hm
              simp only [hl]
              simp [calAxis]
            · cases hm
          · cases hm
        · cases hm
        · cases hm
      rw [ha, fin c x y h]
    · cases h
    · cases h

example : let fs : FS := fun q => if q = "a.npy" then some (.npy (.d2 3 [[0, 1, 2], [3, 4, 5]])) else none
    (Mat.load ⟨[], [], [], none, none⟩ ⟨"a", ".npy"⟩ none fs).1 = .ok ⟨[[4, 5]], [1, 2], [3], none, none⟩ := by
  decide +kernel

/-- **C146.** Exactly which tar files with three arrays are accepted by `Matrix.load`: any, if the first array does not have two
dimensions; otherwise each axis has to be a single number or one array of the right length, and `std` of the matrix
has to have the shape of the new values. The arrays are in the matrix in any case. -/
theorem C146_mat_tar (m : LMat) (p : FPath) (ft : Option String) (fs fs' : FS) (ht : pickFiletype p ft = "tar")
    (a b c : NArr) (hL : loadTar p fs = (.ok [a, b, c], fs')) :
    (m.load p ft fs).1.1 = { m with values := a, Eg := b, Ex := c } ∧
      ((m.load p ft fs).1.2 = .ok () ↔ ∀ rows cols, a.shape = [rows, cols] →
        (c.shape = [] ∨ c.shape = [rows]) ∧ (b.shape = [] ∨ b.shape = [cols]) ∧
          ∀ s, m.std = some s → s.shape = a.shape) := by
  unfold LMat.load
  simp only [ht]
  rw [if_neg (by decide), if_neg (by decide), if_pos trivial]
  simp only [hL, LMat.assign]
  refine ⟨trivial, ?_⟩
  have ax : ∀ (x : NArr) (n : ℕ), (axisCheck x n = .ok () ↔ x.shape = [] ∨ x.shape = [n]) ∧
      (axisCheck x n = .ok () ∨ ∃ e, axisCheck x n = .error e) := by
    intro x n
    cases x with
    | d0 q => simp [axisCheck, NArr.shape]
    | d1 l =>
      by_cases h : n = l.length
      · simp [axisCheck, NArr.shape, h]
      · have h' : ¬l.length = n := fun h'' => h h''.symm
        simp [axisCheck, NArr.shape, h, h']
    | d2 k r => simp [axisCheck, NArr.shape]
  unfold LMat.verify
  cases a with
  | d0 q => simp [NArr.shape]
  | d1 l => simp [NArr.shape]
  | d2 n r =>
    have sh : (NArr.d2 n r).shape = [r.length, n] := rfl
    simp only [sh, List.cons.injEq, and_true, and_imp, bind, Except.bind]
    constructor
    · intro h rows cols h1 h2
      subst h1 h2
      rcases (ax c r.length).2 with hc | ⟨e, hc⟩
      · rcases (ax b n).2 with hb | ⟨e, hb⟩
        · refine ⟨(ax c _).1.1 hc, (ax b _).1.1 hb, fun s hs => ?_⟩
          simp only [hc, hb, hs] at h
          by_contra hne
          rw [if_pos hne] at h
          cases h
        · simp [hc, hb] at h
      · simp [hc] at h
    · intro h
      obtain ⟨h1, h2, h3⟩ := h r.length n rfl rfl
      simp only [(ax c _).1.2 h1, (ax b _).1.2 h2]
      cases hs : m.std with
      | none => rfl
      | some s => simp [h3 s hs]

example : let fs : FS := fun q =>
      if q = "a.tar" then some (.tar [("0", .d2 1 [[4], [5]]), ("1", .d0 7), ("2", .d1 [3, 4])]) else none
    (LMat.load ⟨.d0 0, .d0 0, .d0 0, none, none⟩ ⟨"a", ".tar"⟩ none fs).1 =
      (⟨.d2 1 [[4], [5]], .d0 7, .d1 [3, 4], none, none⟩, .ok ()) := by
  decide +kernel

end Ompy
