import Verif.SaveTxtProps

/-!
# C92, tightened: names with a dot at the end or at the beginning, and interrupted saving
-/

namespace Ompy

/-- **C92.** A dot at the end of the name or at its beginning does not start a suffix: nothing is dropped. -/
theorem C92_stem (l t : List Char) (ht : '.' ∉ t) : dropSuffix (l ++ ['.']) = l ++ ['.'] ∧ dropSuffix ('.' :: t) = '.' :: t := by
  constructor
  · unfold dropSuffix
    rw [List.span_eq_takeWhile_dropWhile]
    simp
  · unfold dropSuffix
    rw [List.span_eq_takeWhile_dropWhile]
    have hall : ∀ x ∈ t.reverse, (decide (x ≠ '.')) = true := by
      intro x hx
      have : x ≠ '.' := fun he => ht (by rw [← he]; exact List.mem_reverse.1 hx)
      simpa using this
    have hr : ('.' :: t).reverse = t.reverse ++ '.' :: [] := by simp
    have h1 : ('.' :: t).reverse.dropWhile (· ≠ '.') = ['.'] := by
      rw [hr, List.dropWhile_append_of_pos hall]
      simp
    rw [h1]
    simp

example : (txtPath "out/" "nld_" "run1.").str = "out/nld_run1..txt" := by decide +kernel

theorem save_nld (f : Fmt) (dir : String) (v : Vec ℚ) (k : String) (hk : k ∈ txtKinds) (i : ℕ) (hu : v.units = "keV" ∨ v.units = "MeV") (fs : FS) :
    v.save f (txtPath dir k (Nat.repr i)) none "keV" fs = .ok (fs.set (memberFile dir k i) (vecTxt f v)) := by
  rw [← path_member dir k hk i]
  exact save_txt_ok f v _ fs hu

/-- **C92.** A strength function in other units stops the saving of the ensemble with NotImplementedError: the level density of this member is on the disk, its strength function
and the later members are not. -/
theorem C92_interrupted (f : Fmt) (dir : String) (r : ResTxt) (rs : List ResTxt) (i : ℕ) (d : TxtDisk)
    (hn : r.nld.units = "keV" ∨ r.nld.units = "MeV") (hg : r.gsf.units ≠ "keV" ∧ r.gsf.units ≠ "MeV") :
    saveFrom f dir i (r :: rs) d = (⟨d.fs.set (memberFile dir "nld_" i) (vecTxt f r.nld), d.header⟩, .error .notImplemented) := by
  have h2 : ∀ fs, r.gsf.save f (txtPath dir "gsf_" (Nat.repr i)) none "keV" fs = .error .notImplemented := by
    intro fs
    unfold Vec.save saveUnits Vec.toKeV
    simp [hg.1, hg.2, bind, Except.bind]
  unfold saveFrom saveResults
  rw [save_nld f dir r.nld "nld_" (by simp [txtKinds]) i hn]
  simp only
  rw [h2]

example : (saveFrom exactFmt "out/" 0 [{ oneRes with gsf := { oneRes.gsf with units := "eV" } }] ⟨fun _ => none, fun _ => none⟩).2 = .error .notImplemented := by
  rw [C92_interrupted _ _ _ _ _ _ (Or.inr rfl) ⟨by decide, by decide⟩]

/-- **C92.** Without any parameter the saving stops with StopIteration: level density and strength function of this member are on the disk. -/
theorem C92_empty (f : Fmt) (dir : String) (r : ResTxt) (rs : List ResTxt) (i : ℕ) (d : TxtDisk)
    (hn : r.nld.units = "keV" ∨ r.nld.units = "MeV") (hg : r.gsf.units = "keV" ∨ r.gsf.units = "MeV") (hs : r.samples = []) :
    saveFrom f dir i (r :: rs) d =
      (⟨(d.fs.set (memberFile dir "nld_" i) (vecTxt f r.nld)).set (memberFile dir "gsf_" i) (vecTxt f r.gsf), d.header⟩, .error .runtimeError) := by
  unfold saveFrom saveResults
  rw [save_nld f dir r.nld "nld_" (by simp [txtKinds]) i hn]
  simp only
  rw [save_nld f dir r.gsf "gsf_" (by simp [txtKinds]) i hg, hs]
  simp only [saveSamples, samplesTable]

example : (saveFrom exactFmt "out/" 0 [{ oneRes with samples := [] }] ⟨fun _ => none, fun _ => none⟩).2 = .error .runtimeError := by
  rw [C92_empty _ _ _ _ _ _ (Or.inr rfl) (Or.inr rfl) rfl]

end Ompy
