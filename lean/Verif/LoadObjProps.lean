import Verif.LoadObj
import Verif.FileIOProps

/-!
# C146: what `load` leaves in the object
-/

namespace Ompy

/-- Specification: energies and standard deviations of a vector have the shape of its values. -/
def LVec.fits (v : LVec) : Prop := v.E.shape = v.values.shape ∧ ∀ s, v.std = some s → s.shape = v.values.shape

/-- Specification: two vectors hold the same three arrays. -/
def LVec.sameArrays (v w : LVec) : Prop := v.values = w.values ∧ v.E = w.E ∧ v.std = w.std

/-- Specification: all columns of a csv table have one length. -/
def FS.tables (fs : FS) : Prop :=
  ∀ path cols, fs path = some (.csv cols) → ∃ n : ℕ, ∀ c ∈ cols, c.2.length = n

/-- Specification: the file types that say whether there are standard deviations. -/
def wholeType (t : String) : Prop := t = "numpy" ∨ t = "txt" ∨ t = "csv"

/-- Specification: a matrix with one row per `Ex`, one column per `Eg`, and `std` of the same shape. -/
def LMat.fits (m : LMat) : Prop :=
  ∃ ncol rows Eg Ex, m.values = .d2 ncol rows ∧ m.Eg = .d1 Eg ∧ m.Ex = .d1 Ex ∧ Ex.length = rows.length ∧
    Eg.length = ncol ∧ ∀ s, m.std = some s → s.shape = [rows.length, ncol]

/-- A vector of the other models as an object. -/
def Vec.obj (v : Vec ℚ) : LVec := ⟨.d1 v.values, .d1 v.E, v.std.map .d1, v.units⟩

/-- A matrix of the other models as an object. -/
def Mat.obj (m : Mat) : LMat :=
  ⟨.d2 m.Eg.length m.values, .d1 m.Eg, .d1 m.Ex, m.std.map (.d2 m.Eg.length), m.state⟩

theorem lverify_ok (v : LVec) : v.verify = .ok () ↔ v.fits := by
  unfold LVec.verify LVec.fits
  by_cases h : v.E.shape = v.values.shape
  · cases hs : v.std with
    | none => simp [h]
    | some s => by_cases h2 : s.shape = v.values.shape <;> simp [h, h2]
  · simp [h]

theorem lverify_error (v : LVec) (e : Err) (h : v.verify = .error e) : e = .valueError ∧ ¬v.fits := by
  refine ⟨?_, fun hf => by rw [(lverify_ok v).2 hf] at h; cases h⟩
  unfold LVec.verify at h
  split_ifs at h
  · cases h; rfl
  · split at h
    · cases h
    · split_ifs at h; cases h; rfl

theorem lverify_cases (v : LVec) : v.verify = .ok () ∨ v.verify = .error .valueError := by
  rcases h : v.verify with e | u
  · right; rw [(lverify_error v e h).1]
  · left; rfl

/-- Every load is an assignment of three arrays, or of the first two of them. -/
theorem vload_forms (p : FPath) (ft : Option String) (fs : FS) :
    (∃ r : Except Err Arrays1D, ∀ v : LVec, (v.load p ft fs).1 = v.assign3 r ∧
      (fs.tables → wholeType (pickFiletype p ft) → ∀ x e s, r = .ok (x, e, s) →
        e.shape = x.shape ∧ ∀ y, s = some y → y.shape = x.shape)) ∨
    (¬wholeType (pickFiletype p ft) ∧
      ∃ r : Except Err (List NArr), ∀ v : LVec, (v.load p ft fs).1 = v.assign2 r) := by
  have key : ∀ a x e s, arrays1D a = .ok (x, e, s) →
      e.shape = x.shape ∧ ∀ y, s = some y → y.shape = x.shape := by
    intro a x e s h
    unfold arrays1D at h
    unfold split1D at h
    rcases a with y | l | ⟨n, rows⟩
    · cases h
    · cases h
    · simp only at h
      by_cases h2 : n < 2
      · rw [if_pos h2] at h; cases h
      · rw [if_neg h2] at h
        simp only [Except.ok.injEq, Prod.mk.injEq] at h
        obtain ⟨rfl, rfl, rfl⟩ := h
        refine ⟨by simp [NArr.shape, column], fun y hy => ?_⟩
        split_ifs at hy
        · simp at hy; subst hy; simp [NArr.shape, column]
        · simp at hy
  unfold LVec.load
  simp only
  by_cases h1 : pickFiletype p ft = "numpy"
  · left
    refine ⟨_, fun v => ⟨by rw [if_pos h1], fun _ _ x e s h => ?_⟩⟩
    split at h
    · exact key _ x e s h
    · cases h
    · cases h
  by_cases h2 : pickFiletype p ft = "txt"
  · left
    refine ⟨_, fun v => ⟨by rw [if_neg h1, if_pos h2], fun _ _ x e s h => ?_⟩⟩
    split at h
    · exact key _ x e s h
    · cases h
    · cases h
  by_cases h3 : pickFiletype p ft = "tar"
  · have hw : ¬wholeType (pickFiletype p ft) := by rw [h3]; simp [wholeType]
    rcases hL : loadTar p fs with ⟨r, fs'⟩
    rcases r with e | l
    · left
      refine ⟨.error e, fun v => ⟨by simp [h3, LVec.assign3], fun _ hw' => absurd hw' hw⟩⟩
    · rcases l with _ | ⟨a, _ | ⟨b, _ | ⟨c, _ | ⟨d, l⟩⟩⟩⟩
      · right; exact ⟨hw, .ok [], fun v => by simp [h3]⟩
      · right; exact ⟨hw, .ok [a], fun v => by simp [h3]⟩
      · right; exact ⟨hw, .ok [a, b], fun v => by simp [h3]⟩
      · left
        refine ⟨.ok (a, b, some c), fun v => ⟨by simp [h3], fun _ hw' => absurd hw' hw⟩⟩
      · right; exact ⟨hw, .ok (a :: b :: c :: d :: l), fun v => by simp [h3]⟩
  by_cases h4 : pickFiletype p ft = "csv"
  · left
    refine ⟨_, fun v => ⟨by rw [if_neg h1, if_neg h2, if_neg h3, if_pos h4], fun ht _ x e s h => ?_⟩⟩
    split at h
    · rename_i cols hc
      obtain ⟨n, hn⟩ := ht _ _ hc
      have hcol : ∀ name l, csvColumn cols name = some l → l.length = n := by
        intro name l hl
        unfold csvColumn at hl
        rw [Option.map_eq_some_iff] at hl
        obtain ⟨c, hc', rfl⟩ := hl
        exact hn c (List.mem_of_find?_eq_some hc')
      split at h
      · rename_i e' x' he hx
        simp only [Except.ok.injEq, Prod.mk.injEq] at h
        obtain ⟨rfl, rfl, rfl⟩ := h
        refine ⟨by simp [NArr.shape, hcol _ _ he, hcol _ _ hx], fun y hy => ?_⟩
        rw [Option.map_eq_some_iff] at hy
        obtain ⟨l, hl, rfl⟩ := hy
        simp [NArr.shape, hcol _ _ hl, hcol _ _ hx]
      · cases h
    · cases h
    · cases h
  · right
    refine ⟨by simp [wholeType, h1, h2, h4], mamaTuple p.str fs, fun v => ?_⟩
    rw [if_neg h1, if_neg h2, if_neg h3, if_neg h4]

/-- What an assignment of two arrays does. -/
theorem assign2_forms (r : Except Err (List NArr)) :
    (∃ e, ∀ v : LVec, v.assign2 r = (v, .error e)) ∨
    ∃ x y, ∀ v : LVec, v.assign2 r = ({ v with values := x, E := y }, LVec.verify { v with values := x, E := y }) := by
  rcases r with e | l
  · left; exact ⟨e, fun v => rfl⟩
  · rcases l with _ | ⟨a, _ | ⟨b, _ | ⟨c, l⟩⟩⟩
    · left; exact ⟨.valueError, fun v => rfl⟩
    · left; exact ⟨.valueError, fun v => rfl⟩
    · right; exact ⟨a, b, fun v => rfl⟩
    · left; exact ⟨.valueError, fun v => rfl⟩

/-- **C146.** A vector into which a file has been loaded without exception has energies and standard deviations of the
shape of its values, whatever it held before and whatever is in the file. -/
theorem C146_vec_return (v : LVec) (p : FPath) (ft : Option String) (fs : FS)
    (h : (v.load p ft fs).1.2 = .ok ()) : (v.load p ft fs).1.1.fits := by
  rcases vload_forms p ft fs with ⟨r, hr⟩ | ⟨_, r, hr⟩
  · rw [(hr v).1] at h ⊢
    rcases r with e | ⟨x, e, s⟩
    · cases h
    · exact (lverify_ok _).1 h
  · rw [hr v] at h ⊢
    rcases assign2_forms r with ⟨e, he⟩ | ⟨x, y, hxy⟩
    · rw [he v] at h; cases h
    · rw [hxy v] at h ⊢; exact (lverify_ok _).1 h

example : let fs : FS := fun q => if q = "a.npy" then some (.npy (.d2 3 [[1, 2, 3], [4, 5, 6]])) else none
    (LVec.load ⟨.d1 [7], .d1 [7, 8], none, "keV"⟩ ⟨"a", ".npy"⟩ none fs).1 =
      (⟨.d1 [2, 5], .d1 [1, 4], some (.d1 [3, 6]), "keV"⟩, .ok ()) := by
  decide +kernel

/-- **C146.** If `load` into a vector raises, the vector is as before, or the shapes do not fit any more; the latter
does not happen for npy, txt and csv. -/
theorem C146_vec_raise (v : LVec) (p : FPath) (ft : Option String) (fs : FS) (ht : fs.tables) (e : Err)
    (h : (v.load p ft fs).1.2 = .error e) :
    (v.load p ft fs).1.1 = v ∨
      (e = .valueError ∧ ¬(v.load p ft fs).1.1.fits ∧ ¬wholeType (pickFiletype p ft)) := by
  rcases vload_forms p ft fs with ⟨r, hr⟩ | ⟨hw, r, hr⟩
  · rw [(hr v).1] at h ⊢
    rcases r with e' | ⟨x, y, s⟩
    · left; rfl
    · right
      have hf := lverify_error _ e h
      refine ⟨hf.1, hf.2, fun hw => hf.2 ?_⟩
      exact (hr v).2 ht hw x y s rfl
  · rw [hr v] at h ⊢
    rcases assign2_forms r with ⟨e', he⟩ | ⟨x, y, hxy⟩
    · rw [he v]; left; rfl
    · rw [hxy v] at h ⊢
      have hf := lverify_error _ e h
      exact Or.inr ⟨hf.1, hf.2, hw⟩

/-- **C146.** What a vector holds after loading npy, txt or csv, and the outcome, do not depend on what it held
before. -/
theorem C146_vec_forget (v w : LVec) (p : FPath) (ft : Option String) (fs : FS)
    (ht : wholeType (pickFiletype p ft)) :
    (v.load p ft fs).1.2 = (w.load p ft fs).1.2 ∧
      (((v.load p ft fs).1.1 = v ∧ (w.load p ft fs).1.1 = w ∧ ∃ e, (v.load p ft fs).1.2 = .error e) ∨
        (v.load p ft fs).1.1.sameArrays (w.load p ft fs).1.1) := by
  rcases vload_forms p ft fs with ⟨r, hr⟩ | ⟨hw, _⟩
  · rw [(hr v).1, (hr w).1]
    rcases r with e | ⟨x, y, s⟩
    · exact ⟨rfl, Or.inl ⟨rfl, rfl, e, rfl⟩⟩
    · exact ⟨rfl, Or.inr ⟨rfl, rfl, rfl⟩⟩
  · exact absurd ht hw

example : wholeType (pickFiletype ⟨"a", ".csv"⟩ none) :=
  Or.inr (Or.inr (by decide +kernel))

/-- **C146, for MAMA files this fails:** the same spectrum is loaded into a vector without standard deviations, and
raises for one that has some; that vector then has the new values beside its old standard deviations. -/
theorem C146_vec_forget_fails :
    let fs : FS := fun q => if q = "a.m" then some (.mama [0, 1, 0] 1 [[5], [6]]) else none
    let p : FPath := ⟨"a", ".m"⟩
    (LVec.load ⟨.d1 [], .d1 [], none, "keV"⟩ p none fs).1 =
      (⟨.d1 [5, 6], .d1 [0, 1], none, "keV"⟩, .ok ()) ∧
    (LVec.load ⟨.d1 [1, 2, 3], .d1 [1, 2, 3], some (.d1 [1, 1, 1]), "keV"⟩ p none fs).1 =
      (⟨.d1 [5, 6], .d1 [0, 1], some (.d1 [1, 1, 1]), "keV"⟩, .error .valueError) := by
  decide +kernel

/-- A load changes nothing in any vector, or gives the same values and energies to every vector. -/
theorem vload_dichotomy (p : FPath) (ft : Option String) (fs : FS) :
    (∀ v : LVec, (v.load p ft fs).1.1 = v) ∨
    (∀ v w : LVec, (v.load p ft fs).1.1.values = (w.load p ft fs).1.1.values ∧
      (v.load p ft fs).1.1.E = (w.load p ft fs).1.1.E) := by
  rcases vload_forms p ft fs with ⟨r, hr⟩ | ⟨hw, r, hr⟩
  · rcases r with e | ⟨x, y, s⟩
    · left; intro v; rw [(hr v).1]; rfl
    · right; intro v w; rw [(hr v).1, (hr w).1]; exact ⟨rfl, rfl⟩
  · rcases assign2_forms r with ⟨e', he⟩ | ⟨x, y, hxy⟩
    · left; intro v; rw [hr v, he v]
    · right; intro v w; rw [hr v, hr w, hxy v, hxy w]; exact ⟨rfl, rfl⟩

/-- A load keeps the standard deviations of every vector, or gives the same to every vector. -/
theorem vload_std (p : FPath) (ft : Option String) (fs : FS) :
    (∀ v : LVec, (v.load p ft fs).1.1.std = v.std) ∨
    (∀ v w : LVec, (v.load p ft fs).1.1.std = (w.load p ft fs).1.1.std) := by
  rcases vload_forms p ft fs with ⟨r, hr⟩ | ⟨hw, r, hr⟩
  · rcases r with e | ⟨x, y, s⟩
    · left; intro v; rw [(hr v).1]; rfl
    · right; intro v w; rw [(hr v).1, (hr w).1]; rfl
  · left
    intro v
    rcases assign2_forms r with ⟨e', he⟩ | ⟨x, y, hxy⟩
    · rw [hr v, he v]
    · rw [hr v, hxy v]

theorem vload_units (v : LVec) (p : FPath) (ft : Option String) (fs : FS) :
    (v.load p ft fs).1.1.units = v.units := by
  rcases vload_forms p ft fs with ⟨r, hr⟩ | ⟨hw, r, hr⟩
  · rw [(hr v).1]; rcases r with e | ⟨x, y, s⟩ <;> rfl
  · rcases assign2_forms r with ⟨e', he⟩ | ⟨x, y, hxy⟩
    · rw [hr v, he v]
    · rw [hr v, hxy v]

/-- **C146.** After any history of loads, also ones that raise, the vector is as at the beginning, or its values and its
energies are those which one and the same load of the history gives to every vector: values of one file never
stand beside energies of another. -/
theorem C146_vec_one_file (h : List (LoadCall × (FS → FS))) (v : LVec) (fs : FS) :
    (LVec.loads h (v, fs)).1 = v ∨
      ∃ h1 c o h2, h = h1 ++ (c, o) :: h2 ∧ ∀ w : LVec,
        let r := (w.load c.path c.ft (LVec.loads h1 (v, fs)).2).1.1
        r.values = (LVec.loads h (v, fs)).1.values ∧ r.E = (LVec.loads h (v, fs)).1.E := by
  induction h generalizing v fs with
  | nil => left; rfl
  | cons a h ih =>
    obtain ⟨c, o⟩ := a
    rcases ih (v.load c.path c.ft fs).1.1 (o (v.load c.path c.ft fs).2) with hs | ⟨h1, c', o', h2, he, hh⟩
    · rcases vload_dichotomy c.path c.ft fs with hd | hd
      · left; simp only [LVec.loads]; rw [hs, hd v]
      · right
        refine ⟨[], c, o, h, rfl, fun w => ?_⟩
        simp only [LVec.loads]
        rw [hs]
        exact hd w v
    · right
      refine ⟨(c, o) :: h1, c', o', h2, by rw [he]; rfl, fun w => ?_⟩
      simp only [LVec.loads]
      exact hh w

/-- **C146.** In the same way the standard deviations are those of the beginning or those of one load of the history,
and the units never change. Full statement: they are those of the load the values are from. -/
theorem C146_vec_std_partial (h : List (LoadCall × (FS → FS))) (v : LVec) (fs : FS) :
    (LVec.loads h (v, fs)).1.units = v.units ∧
    ((LVec.loads h (v, fs)).1.std = v.std ∨
      ∃ h1 c o h2, h = h1 ++ (c, o) :: h2 ∧ ∀ w : LVec,
        (w.load c.path c.ft (LVec.loads h1 (v, fs)).2).1.1.std = (LVec.loads h (v, fs)).1.std) := by
  induction h generalizing v fs with
  | nil => exact ⟨rfl, Or.inl rfl⟩
  | cons a h ih =>
    obtain ⟨c, o⟩ := a
    obtain ⟨hu, hs⟩ := ih (v.load c.path c.ft fs).1.1 (o (v.load c.path c.ft fs).2)
    refine ⟨by simp only [LVec.loads]; rw [hu, vload_units], ?_⟩
    rcases hs with hs | ⟨h1, c', o', h2, he, hh⟩
    · rcases vload_std c.path c.ft fs with hd | hd
      · left; simp only [LVec.loads]; rw [hs, hd v]
      · right
        refine ⟨[], c, o, h, rfl, fun w => ?_⟩
        simp only [LVec.loads]
        rw [hs]
        exact hd w v
    · right
      refine ⟨(c, o) :: h1, c', o', h2, by rw [he]; rfl, fun w => ?_⟩
      simp only [LVec.loads]
      exact hh w

/-- Two files, loaded one after the other. -/
def twoFiles : FS := fun q =>
  if q = "a.npy" then some (.npy (.d2 3 [[1, 2, 3], [4, 5, 6]]))
  else if q = "b.m" then some (.mama [0, 1, 0] 1 [[5], [6]]) else none

example : (LVec.loads [(⟨⟨"b", ".m"⟩, none⟩, id), (⟨⟨"a", ".npy"⟩, none⟩, id), (⟨⟨"c", ".txt"⟩, none⟩, id)]
    (⟨.d1 [], .d1 [], none, "keV"⟩, twoFiles)).1 = ⟨.d1 [2, 5], .d1 [1, 4], some (.d1 [3, 6]), "keV"⟩ := by
  decide +kernel

/-- **C146, the full statement fails:** npy and then MAMA, both without exception: the values of the second file stand
beside the standard deviations of the first. -/
theorem C146_vec_std_fails :
    let v : LVec := ⟨.d1 [], .d1 [], none, "keV"⟩
    let v1 := (v.load ⟨"a", ".npy"⟩ none twoFiles).1
    let v2 := (v1.1.load ⟨"b", ".m"⟩ none twoFiles).1
    v1.2 = .ok () ∧ v2.2 = .ok () ∧ v2.1.values = .d1 [5, 6] ∧ v2.1.std = some (.d1 [3, 6]) ∧
      (v.load ⟨"b", ".m"⟩ none twoFiles).1.1.std = none := by
  decide +kernel

/-! ### Matrices -/

/-- Every load of a matrix is an assignment of arrays that do not depend on the matrix. -/
theorem mload_forms (p : FPath) (ft : Option String) (fs : FS) :
    ∃ r : Except Err (List NArr), (∀ m : LMat, (m.load p ft fs).1 = m.assign r) ∧
      (pickFiletype p ft ≠ "tar" → ∀ x g e, r = .ok [x, g, e] →
        (∃ n rows, x = .d2 n rows) ∧ (∃ l, g = .d1 l) ∧ ∃ l, e = .d1 l) := by
  have k2 : ∀ a x g e, arrays2D a = .ok [x, g, e] →
      (∃ n rows, x = .d2 n rows) ∧ (∃ l, g = .d1 l) ∧ ∃ l, e = .d1 l := by
    intro a x g e h
    unfold arrays2D at h
    split at h
    · simp only [Except.ok.injEq, List.cons.injEq, and_true] at h
      obtain ⟨rfl, rfl, rfl⟩ := h
      exact ⟨⟨_, _, rfl⟩, ⟨_, rfl⟩, ⟨_, rfl⟩⟩
    · cases h
  have km : ∀ x g e, mamaTuple p.str fs = .ok [x, g, e] →
      (∃ n rows, x = .d2 n rows) ∧ (∃ l, g = .d1 l) ∧ ∃ l, e = .d1 l := by
    intro x g e h
    unfold mamaTuple at h
    split at h
    · split at h
      · split at h <;> simp at h
      · split at h
        · simp only [Except.ok.injEq, List.cons.injEq, and_true] at h
          obtain ⟨rfl, rfl, rfl⟩ := h
          exact ⟨⟨_, _, rfl⟩, ⟨_, rfl⟩, ⟨_, rfl⟩⟩
        · cases h
      · cases h
    · cases h
    · cases h
  unfold LMat.load
  simp only
  by_cases h1 : pickFiletype p ft = "numpy"
  · refine ⟨_, fun m => by rw [if_pos h1], fun _ x g e h => ?_⟩
    split at h
    · exact k2 _ x g e h
    · cases h
    · cases h
  by_cases h2 : pickFiletype p ft = "txt"
  · refine ⟨_, fun m => by rw [if_neg h1, if_pos h2], fun _ x g e h => ?_⟩
    split at h
    · exact k2 _ x g e h
    · cases h
    · cases h
  by_cases h3 : pickFiletype p ft = "tar"
  · refine ⟨(loadTar p fs).1, fun m => by rw [if_neg h1, if_neg h2, if_pos h3], fun h => absurd h3 h⟩
  · exact ⟨_, fun m => by rw [if_neg h1, if_neg h2, if_neg h3], fun _ x g e h => km x g e h⟩

theorem massign_forms (r : Except Err (List NArr)) :
    (∃ e, ∀ m : LMat, m.assign r = (m, .error e)) ∨
    ∃ x g e, r = .ok [x, g, e] ∧ ∀ m : LMat, m.assign r =
      ({ m with values := x, Eg := g, Ex := e }, LMat.verify { m with values := x, Eg := g, Ex := e }) := by
  rcases r with e | l
  · left; exact ⟨e, fun m => rfl⟩
  · rcases l with _ | ⟨a, _ | ⟨b, _ | ⟨c, _ | ⟨d, l⟩⟩⟩⟩
    · left; exact ⟨.valueError, fun v => rfl⟩
    · left; exact ⟨.valueError, fun v => rfl⟩
    · left; exact ⟨.valueError, fun v => rfl⟩
    · right; exact ⟨a, b, c, rfl, fun v => rfl⟩
    · left; exact ⟨.valueError, fun v => rfl⟩

theorem mverify_ok (m : LMat) (n : ℕ) (rows : List (List ℚ)) (Eg Ex : List ℚ) (hx : m.values = .d2 n rows)
    (hg : m.Eg = .d1 Eg) (he : m.Ex = .d1 Ex) : m.verify = .ok () ↔ m.fits := by
  unfold LMat.verify LMat.fits
  rw [hx, hg, he]
  simp only [axisCheck, bind, Except.bind]
  by_cases h1 : rows.length = Ex.length
  · by_cases h2 : n = Eg.length
    · cases hs : m.std with
      | none => simp [← h1, ← h2]
      | some s => by_cases h3 : s.shape = [rows.length, n] <;> simp [← h1, ← h2, h3]
    · simp only [h1, ne_eq, not_true_eq_false, if_false, h2, not_false_eq_true, if_true, reduceCtorEq, false_iff]
      rintro ⟨n', rows', Eg', Ex', hv, hg', he', hl1, hl2, -⟩
      cases hv; cases hg'; exact h2 hl2.symm
  · simp only [ne_eq, h1, not_false_eq_true, if_true, reduceCtorEq, false_iff]
    rintro ⟨n', rows', Eg', Ex', hv, hg', he', hl1, hl2, -⟩
    cases hv; cases he'; exact h1 hl1.symm

/-- **C146.** A matrix into which npy, txt or MAMA has been loaded without exception has a row per excitation energy, a
column per gamma energy, and `std` of the shape of the values. Full statement: for every file type. -/
theorem C146_mat_return_partial (m : LMat) (p : FPath) (ft : Option String) (fs : FS)
    (ht : pickFiletype p ft ≠ "tar") (h : (m.load p ft fs).1.2 = .ok ()) : (m.load p ft fs).1.1.fits := by
  obtain ⟨r, hr, hd⟩ := mload_forms p ft fs
  rw [hr m] at h ⊢
  rcases massign_forms r with ⟨e, he⟩ | ⟨x, g, e, hxr, hxy⟩
  · rw [he m] at h; cases h
  · obtain ⟨⟨n, rows, rfl⟩, ⟨Eg, rfl⟩, ⟨Ex, rfl⟩⟩ := hd ht x g e hxr
    rw [hxy m] at h ⊢
    exact (mverify_ok _ n rows Eg Ex rfl rfl rfl).1 h

example : let fs : FS := fun q => if q = "a.npy" then some (.npy (.d2 3 [[0, 1, 2], [3, 4, 5]])) else none
    (LMat.load ⟨.d0 0, .d0 0, .d0 0, some (.d2 2 [[8, 9]]), none⟩ ⟨"a", ".npy"⟩ none fs).1 =
      (⟨.d2 2 [[4, 5]], .d1 [1, 2], .d1 [3], some (.d2 2 [[8, 9]]), none⟩, .ok ()) := by
  decide +kernel

/-- **C146, for tar files this fails:** every vector with standard deviations that was saved as tar can be loaded into
every matrix without exception; the matrix then has the values of the vector, a single row of numbers, the values
taken for `Ex` being the standard deviations. -/
theorem C146_mat_return_fails (f : Fmt) (v : Vec ℚ) (s : List ℚ) (hs : v.std = some s) (p : FPath)
    (ft : Option String) (fs : FS) (ht : pickFiletype p ft = "tar") (m : LMat) :
    ∃ fs', v.save f p ft "same" fs = .ok fs' ∧
      (m.load p ft fs').1 = ({ m with values := .d1 v.values, Eg := .d1 v.E, Ex := .d1 s }, .ok ()) := by
  have hr := tar_round_trip f.member [.d1 v.values, .d1 v.E, .d1 s] p fs
  refine ⟨saveTar f.member [.d1 v.values, .d1 v.E, .d1 s] p fs, by simp [Vec.save, saveUnits, ht, bind, Except.bind, hs], ?_⟩
  unfold LMat.load
  simp only [ht]
  rw [if_neg (by decide), if_neg (by decide), if_pos trivial]
  simp only [hr]
  rfl

example : (⟨[1, 2], [3, 4], some [5, 6], "keV"⟩ : Vec ℚ).std = some [5, 6] ∧
    ¬(LMat.mk (.d1 [3, 4]) (.d1 [1, 2]) (.d1 [5, 6]) none none).fits := by
  refine ⟨rfl, ?_⟩
  rintro ⟨n, rows, Eg, Ex, hv, -⟩
  cases hv

/-- **C146.** The other way round, a matrix saved as tar and loaded into a vector raises `ValueError`, and the vector
has the values of the matrix all the same. -/
theorem C146_vec_matrix_tar (f : Fmt) (corner : ℚ) (m : Mat) (p : FPath) (ft : Option String) (fs : FS)
    (ht : pickFiletype p ft = "tar") (v : LVec) :
    ∃ fs', m.save f corner p ft "values" fs = .ok fs' ∧
      (v.load p ft fs').1 = (⟨.d2 m.Eg.length m.values, .d1 m.Eg, some (.d1 m.Ex), v.units⟩, .error .valueError) := by
  have hr := tar_round_trip f.member [.d2 m.Eg.length m.values, .d1 m.Eg, .d1 m.Ex] p fs
  have hw : whichValues m "values" = .ok m.values := by
    unfold whichValues
    rw [if_pos (by decide +kernel)]
  refine ⟨saveTar f.member [.d2 m.Eg.length m.values, .d1 m.Eg, .d1 m.Ex] p fs,
    by simp [Mat.save, hw, ht, bind, Except.bind], ?_⟩
  rcases hL : loadTar p (saveTar f.member [.d2 m.Eg.length m.values, .d1 m.Eg, .d1 m.Ex] p fs) with ⟨r, fs2⟩
  rw [hL] at hr
  simp only at hr
  subst hr
  unfold LVec.load
  simp only [ht]
  rw [if_neg (by decide), if_neg (by decide), if_pos trivial]
  simp [hL, LVec.assign3, LVec.verify, NArr.shape]

example : pickFiletype ⟨"m", ".tar"⟩ none = "tar" := by decide +kernel

/-- **C146.** With the file type MAMA, or an unknown one, a MAMA file of a spectrum is not loaded into a matrix, nor that of a matrix into a vector: `load` raises
and the object is as before. -/
theorem C146_mama_cross (p : FPath) (ft : Option String) (fs : FS) 
    (ht : pickFiletype p ft ∉ ["numpy", "txt", "tar", "csv"])
    (cal : List ℚ) (n : ℕ) (rows : List (List ℚ)) (hf : fs p.str = some (.mama cal n rows)) :
    (cal.length = 3 → ∀ m : LMat, ∃ e, (m.load p ft fs).1 = (m, .error e)) ∧
      (cal.length = 6 → ∀ v : LVec, (v.load p ft fs).1 = (v, .error .valueError)) := by
  simp only [List.mem_cons, List.not_mem_nil, or_false, not_or] at ht
  obtain ⟨t1, t2, t3, t4⟩ := ht
  constructor
  · intro hc m
    match cal, hc with
    | [a, b, c], _ =>
      unfold LMat.load
      simp only
      rw [if_neg t1, if_neg t2, if_neg t3]
      simp only [mamaTuple, hf]
      cases loadtxt n rows <;> exact ⟨_, rfl⟩
  · intro hc v
    match cal, hc with
    | [a, b, c, a', b', c'], _ =>
      unfold LVec.load
      simp only
      rw [if_neg t1, if_neg t2, if_neg t3, if_neg t4]
      simp only [mamaTuple, hf]
      cases loadtxt n rows <;> rfl

example : pickFiletype ⟨"b", ".m"⟩ none ∉ ["numpy", "txt", "tar", "csv"] ∧
    twoFiles (FPath.str ⟨"b", ".m"⟩) = some (.mama [0, 1, 0] 1 [[5], [6]]) := by decide +kernel

/-- **C146.** No history of loads changes `std` or `state` of a matrix; so a matrix that has standard deviations can
never again be loaded from a file with a matrix of another shape: each such load raises `ValueError`, after the
values have been replaced. -/
theorem C146_mat_std_stays (h : List (LoadCall × (FS → FS))) (m : LMat) (fs : FS) :
    let m' := (LMat.loads h (m, fs)).1
    m'.std = m.std ∧ m'.state = m.state ∧
      ∀ (p : FPath) (ft : Option String) (fs' : FS) (n : ℕ) (rows : List (List ℚ)) (s : NArr), m.std = some s →
        (m'.load p ft fs').1.1.values = .d2 n rows → s.shape ≠ [rows.length, n] →
        ∃ e, (m'.load p ft fs').1.2 = .error e := by
  intro m'
  have hstep : ∀ (m : LMat) (p : FPath) (ft : Option String) (fs : FS),
      (m.load p ft fs).1.1.std = m.std ∧ (m.load p ft fs).1.1.state = m.state := by
    intro m p ft fs
    obtain ⟨r, hr, -⟩ := mload_forms p ft fs
    rw [hr m]
    rcases massign_forms r with ⟨e, he⟩ | ⟨x, g, e, -, hxy⟩
    · rw [he m]; exact ⟨rfl, rfl⟩
    · rw [hxy m]; exact ⟨rfl, rfl⟩
  have hh : m'.std = m.std ∧ m'.state = m.state := by
    show (LMat.loads h (m, fs)).1.std = m.std ∧ (LMat.loads h (m, fs)).1.state = m.state
    clear m'
    induction h generalizing m fs with
    | nil => exact ⟨rfl, rfl⟩
    | cons a h ih =>
      obtain ⟨c, o⟩ := a
      simp only [LMat.loads]
      rw [(ih _ _).1, (ih _ _).2]
      exact hstep m _ _ _
  refine ⟨hh.1, hh.2, fun p ft fs' n rows s hs hv hne => ?_⟩
  obtain ⟨r, hr, -⟩ := mload_forms p ft fs'
  rw [hr m'] at hv ⊢
  rcases massign_forms r with ⟨e, he⟩ | ⟨x, g, e, -, hxy⟩
  · rw [he m']; exact ⟨e, rfl⟩
  · rw [hxy m'] at hv ⊢
    simp only at hv
    subst hv
    simp only [LMat.verify, hh.1, hs, if_pos hne, bind, Except.bind]
    cases axisCheck e rows.length with
    | error e' => exact ⟨e', rfl⟩
    | ok u =>
      cases axisCheck g n with
      | error e' => exact ⟨e', rfl⟩
      | ok u => exact ⟨_, rfl⟩

example : let fs : FS := fun q => if q = "a.npy" then some (.npy (.d2 3 [[0, 1, 2], [3, 4, 5]])) else none
    (LMat.load ⟨.d2 1 [[7]], .d1 [1], .d1 [1], some (.d2 1 [[8]]), none⟩ ⟨"a", ".npy"⟩ none fs).1 =
      (⟨.d2 2 [[4, 5]], .d1 [1, 2], .d1 [3], some (.d2 1 [[8]]), none⟩, .error .valueError) := by
  decide +kernel

/-- **C146.** If `load` into a matrix raises, it is as before, or it does not fit any more. -/
theorem C146_mat_raise (m : LMat) (p : FPath) (ft : Option String) (fs : FS) (e : Err)
    (h : (m.load p ft fs).1.2 = .error e) : (m.load p ft fs).1.1 = m ∨ ¬(m.load p ft fs).1.1.fits := by
  obtain ⟨r, hr, -⟩ := mload_forms p ft fs
  rw [hr m] at h ⊢
  rcases massign_forms r with ⟨e', he⟩ | ⟨x, g, e', -, hxy⟩
  · rw [he m]; left; rfl
  · right
    rw [hxy m] at h ⊢
    intro hf
    obtain ⟨n, rows, Eg, Ex, hv, hg, hE, -⟩ := id hf
    rw [(mverify_ok _ n rows Eg Ex hv hg hE).2 hf] at h
    cases h

/-! ### Agreement with the model of `FileIO.lean` -/

theorem fits_obj (v : Vec ℚ) : v.obj.fits ↔ v.consistent = true := by
  obtain ⟨E, values, std, u⟩ := v
  cases std <;> simp [LVec.fits, Vec.obj, NArr.shape, Vec.consistent]

theorem finish_obj (v w : Vec ℚ) (h : finishLoad v = .ok w) : w = v ∧ v.obj.verify = .ok () := by
  unfold finishLoad at h
  split_ifs at h with hc
  cases h
  exact ⟨rfl, (lverify_ok _).2 ((fits_obj _).2 hc)⟩

theorem split1D_arrays (a : NArr) (x e : List ℚ) (s : Option (List ℚ)) (h : split1D a = .ok (x, e, s)) :
    arrays1D a = .ok (.d1 x, .d1 e, s.map .d1) := by
  unfold arrays1D; rw [h]

/-- **C146.** A load that returns in the model of `FileIO.lean` returns here, with the same vector and disk; so the round
trips proved there hold for the object. -/
theorem C146_agrees_vec (v w : Vec ℚ) (p : FPath) (ft : Option String) (fs fs' : FS)
    (h : v.load p ft fs = (.ok w, fs')) : v.obj.load p ft fs = ((w.obj, .ok ()), fs') := by
  unfold Vec.load at h
  unfold LVec.load
  simp only at h ⊢
  split_ifs at h ⊢ with h1 h2 h3 h4
  · simp only [Prod.mk.injEq] at h
    obtain ⟨h, rfl⟩ := h
    split at h
    · rename_i a ha
      simp only [bind, Except.bind] at h
      split at h
      · cases h
      · rename_i r hr
        obtain ⟨x, e, s⟩ := r
        obtain ⟨rfl, hv⟩ := finish_obj _ _ h
        simp only [ha, split1D_arrays a x e s hr, LVec.assign3]
        rw [Prod.mk.injEq]
        exact ⟨Prod.ext rfl hv, rfl⟩
    · cases h
    · cases h
  · simp only [Prod.mk.injEq] at h
    obtain ⟨h, rfl⟩ := h
    split at h
    · rename_i n rows ha
      simp only [bind, Except.bind] at h
      split at h
      · cases h
      · rename_i r hr
        obtain ⟨x, e, s⟩ := r
        obtain ⟨rfl, hv⟩ := finish_obj _ _ h
        simp only [ha, split1D_arrays _ x e s hr, LVec.assign3]
        rw [Prod.mk.injEq]
        exact ⟨Prod.ext rfl hv, rfl⟩
    · cases h
    · cases h
  · split at h
    · rename_i x e s fs2 hL
      simp only [Prod.mk.injEq] at h
      obtain ⟨h, rfl⟩ := h
      obtain ⟨rfl, hv⟩ := finish_obj _ _ h
      simp only [hL, LVec.assign3]
      rw [Prod.mk.injEq]
      exact ⟨Prod.ext rfl hv, rfl⟩
    · rename_i x e fs2 hL
      simp only [Prod.mk.injEq] at h
      obtain ⟨h, rfl⟩ := h
      obtain ⟨rfl, hv⟩ := finish_obj _ _ h
      simp only [hL, LVec.assign2]
      rw [Prod.mk.injEq]
      exact ⟨Prod.ext rfl hv, rfl⟩
    · simp only [Prod.mk.injEq] at h
      obtain ⟨h, -⟩ := h
      split_ifs at h
    · simp only [Prod.mk.injEq] at h
      obtain ⟨h, -⟩ := h
      split_ifs at h
    · simp at h
    · simp at h
  · simp only [Prod.mk.injEq] at h
    obtain ⟨h, rfl⟩ := h
    split at h
    · rename_i cols ha
      split at h
      · rename_i e x he hx
        obtain ⟨rfl, hv⟩ := finish_obj _ _ h
        simp only [ha, he, hx, LVec.assign3]
        rw [Prod.mk.injEq]
        exact ⟨Prod.ext rfl hv, rfl⟩
      · cases h
    · cases h
    · cases h
  · simp only [Prod.mk.injEq] at h
    obtain ⟨h, rfl⟩ := h
    split at h
    · rename_i c x hm
      obtain ⟨rfl, hv⟩ := finish_obj _ _ h
      have ha : mamaTuple p.str fs = .ok [.d1 c, .d1 x] := by
        unfold mamaRead at hm
        unfold mamaTuple
        split at hm
        · rename_i cal n rows hf
          simp only [hf]
          split at hm
          · split at hm
            · rename_i l hl
              simp only [Except.ok.injEq, MamaData.one.injEq] at hm
              obtain ⟨rfl, rfl⟩ := hm
              simp only [hl]
            · cases hm
            · cases hm
          · split at hm <;> simp at hm
          · cases hm
        · cases hm
        · cases hm
      simp only [ha, LVec.assign2]
      rw [Prod.mk.injEq]
      exact ⟨Prod.ext rfl hv, rfl⟩
    · cases h
    · cases h

example : (Vec.load ⟨[], [], none, "keV"⟩ ⟨"a", ".npy"⟩ none twoFiles).1 = .ok ⟨[1, 4], [2, 5], some [3, 6], "keV"⟩ := by
  decide +kernel

end Ompy
