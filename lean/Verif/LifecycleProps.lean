import Verif.Lifecycle

/-!
# C105: the life of an ensemble normalisation on disk
-/

namespace Ompy

variable {Ens V N R : Type}

/-- **C105.** A normalisation that was carried out and saved is what every later normaliser for the same directory gets, unless it is told to calculate again: the same results, without
calculating anything, whatever its own normalisers are. -/
theorem C105_round_trip (work work' : EnsWork V N R) (w w1 : EnsWorld Ens V N R) (p : String) (hp : w.obj.path = some p) (hs : w.obj.saveInstance = true)
    (h : w.normalizeNew work = (w1, .ok ())) (o : EnsObj Ens V N R) (ho : o.path = some p) (hr : o.regenerate = false) :
    (∃ rs, w1.obj.res = some rs ∧ work w.obj.nldN w.obj.gsfN w.obj.simN w.obj.extractor.nld w.obj.extractor.gsf = (rs, none)) ∧
      w1.obj = { w.obj with res := w1.obj.res } ∧
      EnsWorld.normalize work' ⟨o, w1.disk⟩ = (⟨w1.obj.pickled, w1.disk⟩, .ok ()) ∧ w1.obj.pickled.res = w1.obj.res := by
  unfold EnsWorld.normalizeNew at h
  by_cases hc : ((w.obj.nldN.isSome && w.obj.gsfN.isSome) ^^ w.obj.simN.isSome) = false
  · rw [if_pos hc] at h; simp at h
  rw [if_neg hc] at h
  rcases hw : work w.obj.nldN w.obj.gsfN w.obj.simN w.obj.extractor.nld w.obj.extractor.gsf with ⟨rs, e⟩
  rw [hw] at h
  cases e with
  | some e => simp at h
  | none =>
    simp only [EnsWorld.save, hs, hp, if_true, Prod.mk.injEq, and_true] at h
    subst h
    refine ⟨⟨rs, rfl, rfl⟩, by dsimp only; rw [← hp, ← hs], ?_, rfl⟩
    simp [EnsWorld.normalize, EnsWorld.load, hr, ho]

/-- **C105.** A run that does not succeed leaves the disk as it was, and so does one that is told not to save. -/
theorem C105_no_file (work : EnsWork V N R) (w : EnsWorld Ens V N R) (h : (w.normalize work).2 ≠ .ok () ∨ w.obj.saveInstance = false) :
    (w.normalize work).1.disk = w.disk := by
  have hnew : ∀ w : EnsWorld Ens V N R, ((w.normalizeNew work).2 ≠ .ok () ∨ w.obj.saveInstance = false) → (w.normalizeNew work).1.disk = w.disk := by
    intro w h
    unfold EnsWorld.normalizeNew at h ⊢
    split_ifs at h ⊢ with hc
    · rfl
    rcases hw : work w.obj.nldN w.obj.gsfN w.obj.simN w.obj.extractor.nld w.obj.extractor.gsf with ⟨rs, e⟩
    rw [hw] at h
    cases e with
    | some e => rfl
    | none =>
      unfold EnsWorld.save at h ⊢
      dsimp only at h ⊢
      by_cases hs : w.obj.saveInstance = true
      · rw [if_pos hs] at h ⊢
        cases hp : w.obj.path with
        | none => rfl
        | some p => rw [hp] at h; simp [hs] at h
      · rw [if_neg hs]
  unfold EnsWorld.normalize at h ⊢
  by_cases hr : w.obj.regenerate = true
  · rw [if_pos hr] at h ⊢
    exact hnew w h
  · rw [if_neg hr] at h ⊢
    unfold EnsWorld.load at h ⊢
    cases hp : w.obj.path with
    | none => rfl
    | some p =>
      rw [hp] at h
      dsimp only at h ⊢
      cases hd : w.disk p with
      | some f => rfl
      | none =>
        rw [hd] at h
        exact hnew w h

/-- **C105.** Only the directory of the normaliser changes. -/
theorem C105_other_directories (work : EnsWork V N R) (w : EnsWorld Ens V N R) (q : String) (hq : w.obj.path ≠ some q) : (w.normalize work).1.disk q = w.disk q := by
  have hnew : (w.normalizeNew work).1.disk q = w.disk q := by
    unfold EnsWorld.normalizeNew
    split_ifs
    · rfl
    rcases work w.obj.nldN w.obj.gsfN w.obj.simN w.obj.extractor.nld w.obj.extractor.gsf with ⟨rs, e⟩
    cases e with
    | some e => rfl
    | none =>
      unfold EnsWorld.save
      dsimp only
      split_ifs
      · cases hp : w.obj.path with
        | none => rfl
        | some p =>
          dsimp only
          rw [if_neg]
          rintro rfl
          exact hq hp
      · rfl
  unfold EnsWorld.normalize
  split_ifs
  · exact hnew
  · unfold EnsWorld.load
    cases hp : w.obj.path with
    | none => rfl
    | some p =>
      dsimp only
      cases hd : w.disk p with
      | some f => rfl
      | none => exact hnew

/-- **C105.** What an object gets that calculates: its own normalisers and extracted vectors decide, nothing on the disk does. -/
theorem C105_regenerate (work : EnsWork V N R) (o : EnsObj Ens V N R) (disk disk' : String → Option (EnsObj Ens V N R)) (hr : o.regenerate = true) :
    (EnsWorld.normalize work ⟨o, disk⟩).2 = (EnsWorld.normalize work ⟨o, disk'⟩).2 ∧ (EnsWorld.normalize work ⟨o, disk⟩).1.obj = (EnsWorld.normalize work ⟨o, disk'⟩).1.obj := by
  unfold EnsWorld.normalize
  rw [if_pos hr, if_pos hr]
  unfold EnsWorld.normalizeNew
  split_ifs
  · exact ⟨rfl, rfl⟩
  dsimp only
  rcases work o.nldN o.gsfN o.simN o.extractor.nld o.extractor.gsf with ⟨rs, e⟩
  cases e with
  | some e => exact ⟨rfl, rfl⟩
  | none =>
    unfold EnsWorld.save
    dsimp only
    split_ifs
    · cases o.path <;> exact ⟨rfl, rfl⟩
    · exact ⟨rfl, rfl⟩

/-- **C105 (disagreement).** The first program decides: whatever extractors and normalisers later ones have, they all return the results of the first, without an exception, as long as none is told to calculate
again. -/
theorem C105_first_fails (work : EnsWork V N R) (w w1 : EnsWorld Ens V N R) (p : String) (hp : w.obj.path = some p) (hs : w.obj.saveInstance = true)
    (h : w.normalizeNew work = (w1, .ok ())) (os : List (EnsObj Ens V N R)) (ho : ∀ o ∈ os, o.path = some p ∧ o.regenerate = false) :
    ensRuns work os w1.disk = List.replicate os.length (.ok (), w1.obj.res) := by
  induction os with
  | nil => rfl
  | cons o os ih =>
    have h1 := (C105_round_trip work work w w1 p hp hs h o (ho o List.mem_cons_self).1 (ho o List.mem_cons_self).2).2.2.1
    unfold ensRuns
    dsimp only
    rw [h1]
    rw [ih fun o' h' => ho o' (List.mem_cons_of_mem _ h')]
    rfl

/-- **C105 (disagreement).** After loading, the extractor of the normaliser has lost its ensemble: `extract_from` without an argument raises AttributeError even if the extractor that was given had one. -/
theorem C105_ensemble_fails (work : EnsWork V N R) (w w1 : EnsWorld Ens V N R) (p : String) (f : EnsObj Ens V N R) (hp : w.obj.path = some p) (hr : w.obj.regenerate = false)
    (w0 : EnsWorld Ens V N R) (hw0 : w0.obj.path = some p) (hs : w0.obj.saveInstance = true) (h0 : (w0.save).1.disk p = some f) (hd : w.disk = (w0.save).1.disk)
    (h : w.normalize work = (w1, .ok ())) (t : Bool) :
    w1.obj.extractor.choose none t = .error .attributeError ∧ w1.obj.extractor.nld = w0.obj.extractor.nld ∧ w1.obj.extractor.gsf = w0.obj.extractor.gsf := by
  have hf : f = w0.obj.pickled := by
    unfold EnsWorld.save at h0
    simp only [hs, hw0, if_true, Option.some.injEq] at h0
    exact h0.symm
  unfold EnsWorld.normalize EnsWorld.load at h
  rw [hd, hp] at h
  simp only [hr, h0, Bool.false_eq_true, if_false, Prod.mk.injEq, and_true] at h
  subst h
  subst hf
  exact ⟨rfl, rfl, rfl⟩

theorem new_without_path (work : EnsWork V N R) (w : EnsWorld Ens V N R) (hp : w.obj.path = none) (hs : w.obj.saveInstance = true) : (w.normalizeNew work).2 ≠ .ok () := by
  unfold EnsWorld.normalizeNew
  split_ifs
  · intro h; cases h
  rcases work w.obj.nldN w.obj.gsfN w.obj.simN w.obj.extractor.nld w.obj.extractor.gsf with ⟨rs, e⟩
  cases e with
  | some e => intro h; cases h
  | none =>
    simp only [EnsWorld.save, hs, hp, if_true]
    intro h; cases h

/-- **C105 (disagreement).** `path=None` is accepted by the constructor, but `normalize` always fails then: before the calculation, or after it if it is told to calculate; then the results are there in spite of
the exception. -/
theorem C105_path_none_fails (work : EnsWork V N R) (x : ExtrObj Ens V) (nldN gsfN simN : Option N) (disk : String → Option (EnsObj Ens V N R)) :
    (EnsWorld.normalize work ⟨EnsObj.new x nldN gsfN simN none false, disk⟩).2 = .error .typeError ∧
      (EnsWorld.normalize work ⟨EnsObj.new x nldN gsfN simN none true, disk⟩).2 ≠ .ok () ∧
      ∀ rs, ((nldN.isSome && gsfN.isSome) ^^ simN.isSome) = true → work nldN gsfN simN x.nld x.gsf = (rs, none) →
        (EnsWorld.normalize work ⟨EnsObj.new x nldN gsfN simN none true, disk⟩).2 = .error .typeError ∧
        (EnsWorld.normalize work ⟨EnsObj.new x nldN gsfN simN none true, disk⟩).1.obj.res = some rs := by
  refine ⟨rfl, ?_, ?_⟩
  · exact new_without_path work ⟨EnsObj.new x nldN gsfN simN none true, disk⟩ rfl rfl
  · intro rs h1 h2
    simp only [EnsWorld.normalize, EnsObj.new, if_true, EnsWorld.normalizeNew, h1, h2, EnsWorld.save]
    simp

/-- **C105 (disagreement).** A run that stops at a member leaves the results of the members before it as `res`: a list that is not None although nothing was normalised successfully. -/
theorem C105_partial_results_fails (work : EnsWork V N R) (w : EnsWorld Ens V N R) (rs : List R) (e : Err) (hr : w.obj.regenerate = true)
    (h1 : ((w.obj.nldN.isSome && w.obj.gsfN.isSome) ^^ w.obj.simN.isSome) = true)
    (h2 : work w.obj.nldN w.obj.gsfN w.obj.simN w.obj.extractor.nld w.obj.extractor.gsf = (rs, some e)) :
    (w.normalize work).2 = .error e ∧ (w.normalize work).1.obj.res = some rs ∧ (w.normalize work).1.disk = w.disk := by
  simp only [EnsWorld.normalize, hr, if_true, EnsWorld.normalizeNew, h1, h2]
  simp

/-- **C105 (disagreement).** The flag `regenerate` comes from the file too: an object that loaded the file of a run that was told to calculate will calculate the next time. -/
theorem C105_flag_fails (work work' : EnsWork V N R) (w w1 : EnsWorld Ens V N R) (p : String) (hp : w.obj.path = some p) (hs : w.obj.saveInstance = true) (hr : w.obj.regenerate = true)
    (h : w.normalize work = (w1, .ok ())) (o : EnsObj Ens V N R) (ho : o.path = some p) (hor : o.regenerate = false) :
    (EnsWorld.normalize work' ⟨o, w1.disk⟩).1.obj.regenerate = true := by
  have h' : w.normalizeNew work = (w1, .ok ()) := by
    unfold EnsWorld.normalize at h
    rwa [if_pos hr] at h
  obtain ⟨-, h2, h3, -⟩ := C105_round_trip work work' w w1 p hp hs h' o ho hor
  rw [h3, h2]
  exact hr

/-- The work of the cases: each member's result is its pair of vectors, here numbers. -/
def pairWork : EnsWork ℕ ℕ (ℕ × ℕ) := fun _ _ _ nld gsf => (nld.zip gsf, none)

/-- Non-vacuity: a run, and one with another extractor that gets the results of the first. -/
example : ∃ w1 : EnsWorld Bool ℕ ℕ (ℕ × ℕ),
    EnsWorld.normalizeNew pairWork ⟨EnsObj.new ⟨.val (some true), [1, 2], [3, 4], true, some "x", false⟩ (some 0) (some 0) none (some "d") false, fun _ => none⟩ = (w1, .ok ()) ∧
      ensRuns pairWork [EnsObj.new ⟨.val (some false), [7], [8], true, some "x", false⟩ none none none (some "d") false] w1.disk = [(.ok (), some [(1, 3), (2, 4)])] := by
  have h := C105_first_fails pairWork (⟨EnsObj.new ⟨.val (some true), [1, 2], [3, 4], true, some "x", false⟩ (some 0) (some 0) none (some "d") false, fun _ => none⟩ :
    EnsWorld Bool ℕ ℕ (ℕ × ℕ)) _ "d" rfl rfl rfl [EnsObj.new ⟨.val (some false), [7], [8], true, some "x", false⟩ none none none (some "d") false] (by simp [EnsObj.new])
  exact ⟨_, rfl, h⟩

/-- Non-vacuity of `C105_ensemble_fails` and `C105_flag_fails`. -/
example : ∃ w w1 : EnsWorld Bool ℕ ℕ (ℕ × ℕ), w.normalize pairWork = (w1, .ok ()) ∧ w.obj.extractor.ensemble = .val (some true) ∧ w1.obj.extractor.ensemble = .val (some true) ∧
    (EnsWorld.normalize pairWork ⟨{ w.obj with regenerate := false }, w1.disk⟩).1.obj.extractor.choose none true = .error .attributeError ∧
    (EnsWorld.normalize pairWork ⟨{ w.obj with regenerate := false }, w1.disk⟩).1.obj.regenerate = true := by
  refine ⟨⟨EnsObj.new ⟨.val (some true), [1, 2], [3, 4], true, some "x", false⟩ (some 0) (some 0) none (some "d") true, fun _ => none⟩, _, rfl, rfl, rfl, rfl, rfl⟩

end Ompy
